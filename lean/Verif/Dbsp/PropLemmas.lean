import Verif.Dbsp.MoreLemmas
/-! Helper lemmas for the operator properties C04–C09. -/
set_option autoImplicit false
set_option linter.unusedSectionVars false
namespace Dctl
variable {D J : Type} [DecidableEq D] [DecidableEq J]
open ZSet

theorem linProc_runs {f : Ev D} {o : Op D J} (ho : o.linEv = some f) {hist outs : List (ZSet D)} {acc r : ZSet D}
    (hacc : linProc f acc = .ok r) (h : (runs Op.proc o hist).2 = outs.map Except.ok) :
    ∃ r', linProc f (hist.foldl ZSet.add acc) = .ok r' ∧
      ∀ d, get r' d = get r d + (outs.map (fun y => get y d)).sum := by
  induction hist generalizing acc r outs with
  | nil =>
    have : outs = [] := by simpa [runs] using h.symm
    subst this
    exact ⟨r, hacc, by simp⟩
  | cons z t ih =>
    cases outs with
    | nil => simp [runs] at h
    | cons out outs =>
      simp only [runs, Op.proc_linEv ho, List.map_cons, List.cons.injEq] at h
      obtain ⟨w, hw, hg⟩ := linProc_add hacc h.1
      obtain ⟨r', h1, h2⟩ := ih hw h.2
      refine ⟨r', h1, fun d => ?_⟩
      rw [h2, hg]; simp only [List.map_cons, List.sum_cons]; omega

theorem foldl_add_wf {l : List (ZSet D)} {acc : ZSet D} (h : WF acc) : WF (l.foldl ZSet.add acc) := by
  induction l generalizing acc with
  | nil => exact h
  | cons z t ih => exact ih (h.add z)

theorem sumOf_foldl {l : List (ZSet D)} (hw : ∀ z ∈ l, WF z) {z : ZSet D} (h : SumOf l z) :
    WF (l.foldl ZSet.add []) ∧ Eqv (l.foldl ZSet.add []) z := by
  refine ⟨foldl_add_wf WF.nil, fun d => ?_⟩
  rw [foldl_add_get hw WF.nil, h.2]; simp

theorem mapSpec_eqv {f : Ev D} {z m m' : ZSet D} (h : MapSpec f z m) (hm' : WF m') (he : Eqv m m') : MapSpec f z m' :=
  ⟨hm', h.2.1, fun d => by rw [← he d]; exact h.2.2 d⟩

theorem lin_runs_spec {f : Ev D} {o : Op D J} (ho : o.linEv = some f) {hist outs : List (ZSet D)} {z out : ZSet D}
    (hw : ∀ z ∈ hist, WF z) (h : (runs Op.proc o hist).2 = outs.map Except.ok) (hz : SumOf hist z)
    (hout : SumOf outs out) : MapSpec f z out := by
  obtain ⟨r', h1, h2⟩ := linProc_runs ho (acc := []) (r := []) rfl h
  obtain ⟨w1, w2⟩ := sumOf_foldl hw hz
  obtain ⟨r2, k1, k2⟩ := linProc_eqv w1 hz.1 w2 h1
  refine mapSpec_eqv (mapSpec_of_linProc k1) hout.1 ?_
  intro d
  rw [k2 d, h2, hout.2]; simp

/-- Sequential execution of linear nodes agrees with the composed evaluator. -/
theorem seq_of_klList {σ : Order D} (hσ : σ.Valid) {i : Nat} {nds : List (Node D J)} {fs : List (Ev D)}
    (hn : nds.map (fun nd => nd.op.linEv) = fs.map some) {z r : ZSet D} (hz : WF z)
    (h : linProc (klList fs) z = .ok r) :
    ∃ r', runChain σ i nds z = (nds, .ok r') ∧ Eqv r' r ∧ WF r' := by
  induction nds generalizing fs z r i with
  | nil =>
    cases fs with
    | nil =>
      exact ⟨z, rfl, fun d => (linProc_id hz h d).symm, hz⟩
    | cons f fs => simp at hn
  | cons nd nds ih =>
    cases fs with
    | nil => simp at hn
    | cons f fs =>
      simp only [List.map_cons, List.cons.injEq] at hn
      obtain ⟨m, r', h1, h2, h3⟩ := linProc_kl h
      obtain ⟨hw, he⟩ := order_eqv hσ i hz
      obtain ⟨m', k1, k2⟩ := linProc_eqv hz hw he.symm h1
      obtain ⟨r'', k3, k4⟩ := linProc_eqv (linProc_wf h1) (linProc_wf k1) k2.symm h2
      obtain ⟨s, s1, s2, s3⟩ := ih (i := i + 1) hn.2 (linProc_wf k1) k3
      refine ⟨s, ?_, s2.trans (k4.trans h3), s3⟩
      simp [runChain, Op.proc_linEv hn.1, k1, s1]

theorem mem_sum_le {l : List Int} {x : Int} (h : x ∈ l) (hp : ∀ y ∈ l, 0 ≤ y) : x ≤ l.sum := by
  induction l with
  | nil => simp at h
  | cons a t ih =>
    simp only [List.sum_cons]
    have ht := sum_nonneg (fun y hy => hp y (List.mem_cons_of_mem _ hy)) (l := t)
    rcases List.mem_cons.mp h with rfl | h
    · omega
    · have := ih h (fun y hy => hp y (List.mem_cons_of_mem _ hy))
      have := hp a (by simp)
      omega

/-- With positive multiplicities no produced document cancels. -/
theorem linProc_support {f : Ev D} {z m : ZSet D} (h : linProc f z = .ok m) (hpos : ∀ p ∈ z, 0 < p.2) {x y : D}
    {ds : List D} (hx : x ∈ z.map Prod.fst) (hf : f x = .ok ds) (hy : y ∈ ds) : y ∈ m.map Prod.fst := by
  have hs := mapSpec_of_linProc h
  rw [mem_fst_iff_get hs.1, hs.2.2]
  obtain ⟨⟨x', k⟩, hp, rfl⟩ := List.mem_map.mp hx
  have hk := hpos _ hp
  have hc : copies f y x' = (ds.count y : Int) := by
    have hf' : f x' = .ok ds := hf
    simp [copies, hf']
  have h1 : (0 : Int) < (ds.count y : Int) := by
    have := List.count_pos_iff.mpr hy; omega
  have := mem_sum_le (x := k * copies f y x') (List.mem_map_of_mem (f := fun p => p.2 * copies f y p.1) hp) (by
    intro w hw
    obtain ⟨q, hq, rfl⟩ := List.mem_map.mp hw
    exact Int.mul_nonneg (by have := hpos q hq; omega) (copies_nonneg f y q.1))
  have h2 : 0 < k * copies f y x' := by rw [hc]; exact Int.mul_pos hk h1
  omega

theorem linProc_pos {f : Ev D} {z m : ZSet D} (h : linProc f z = .ok m) (hpos : ∀ p ∈ z, 0 < p.2) : ∀ p ∈ m, 0 < p.2 :=
  nonNeg_pos (linProc_wf h) (mapSpec_nonNeg (mapSpec_of_linProc h) hpos)

theorem perm_pos {z w : ZSet D} (h : w.Perm z) (hpos : ∀ p ∈ z, 0 < p.2) : ∀ p ∈ w, 0 < p.2 :=
  fun p hp => hpos p (h.mem_iff.mp hp)

/-- A successful sequential run of projections that yield single documents lets the whole projection
chain succeed on every document. -/
theorem projChain_of_seq {σ : Order D} (hσ : σ.Valid) {ps : List (Ev D)} {i : Nat} {nds nds' : List (Node D J)}
    {z r : ZSet D} (hn : nds.map (fun nd => nd.op.linEv) = ps.map some)
    (hone : ∀ p ∈ ps, ∀ x ds, p x = .ok ds → ∃ y, ds = [y])
    (hpos : ∀ p ∈ z, 0 < p.2) (h : runChain σ i nds z = (nds', .ok r)) :
    ∀ x ∈ z.map Prod.fst, ∃ y, projChain ps x = .ok y := by
  induction ps generalizing nds nds' z i with
  | nil => intro x _; exact ⟨x, rfl⟩
  | cons p ps ih =>
    cases nds with
    | nil => simp at hn
    | cons nd nds =>
      simp only [List.map_cons, List.cons.injEq] at hn
      unfold runChain at h
      rw [Op.proc_linEv hn.1] at h
      split at h
      · simp at h
      · rename_i o' m hm
        simp only [Prod.mk.injEq] at hm
        obtain ⟨rfl, hm⟩ := hm
        cases hrest : runChain σ (i + 1) nds m with
        | mk nds'' res =>
        simp only [hrest, Prod.mk.injEq] at h
        obtain ⟨_, rfl⟩ := h
        have hp' := perm_pos (hσ i z) hpos
        have iht := ih hn.2 (fun q hq => hone q (List.mem_cons_of_mem _ hq)) (linProc_pos hm hp') hrest
        intro x hx
        have hx' : x ∈ (σ i z).map Prod.fst := ((hσ i z).map Prod.fst).mem_iff.mpr hx
        obtain ⟨ds, hds⟩ := linProc_ok_iff.mp ⟨m, hm⟩ x hx'
        obtain ⟨y, rfl⟩ := hone p (by simp) x ds hds
        obtain ⟨w, hw⟩ := iht y (linProc_support hm hp' hx' hds (by simp))
        exact ⟨w, by simp [projChain, hds, hw]⟩

/-! ### streams -/

theorem integ_runs (s : ZSet D) (hs : WF s) (hist : List (ZSet D)) (hw : ∀ z ∈ hist, WF z) :
    ∃ outs : List (ZSet D), (runs Op.proc (Op.integ s : Op D J) hist).2 = outs.map Except.ok ∧
      outs.length = hist.length ∧ (∀ o ∈ outs, WF o) ∧
      ∀ i, i < hist.length → ∀ d, get (outs.getD i []) d = get s d + ((hist.take (i + 1)).map (fun y => get y d)).sum := by
  induction hist generalizing s with
  | nil => exact ⟨[], rfl, rfl, by simp, by simp⟩
  | cons z t ih =>
    obtain ⟨outs, h1, h2, h3, h4⟩ := ih (s.add z) (hs.add z) (fun z hz => hw z (List.mem_cons_of_mem _ hz))
    refine ⟨s.add z :: outs, ?_, by simp [h2], ?_, ?_⟩
    · simp only [runs, Op.proc, h1, List.map_cons]
    · intro o ho
      rcases List.mem_cons.mp ho with rfl | ho
      · exact hs.add z
      · exact h3 o ho
    · intro i hi d
      have hz := hw z (by simp)
      cases i with
      | zero => simp [get_add hs hz]
      | succ i =>
        have := h4 i (by simpa using hi) d
        rw [get_add hs hz] at this
        simp only [List.getD_cons_succ, List.take_succ_cons, List.map_cons, List.sum_cons, this]
        omega

theorem diff_runs (p : ZSet D) (hp : WF p) (hist : List (ZSet D)) (hw : ∀ z ∈ hist, WF z) :
    ∃ outs : List (ZSet D), (runs Op.proc (Op.diff p : Op D J) hist).2 = outs.map Except.ok ∧
      outs.length = hist.length ∧ (∀ o ∈ outs, WF o) ∧
      ∀ i, i < hist.length → ∀ d, get (outs.getD i []) d = get (hist.getD i []) d - get ((p :: hist).getD i []) d := by
  induction hist generalizing p with
  | nil => exact ⟨[], rfl, rfl, by simp, by simp⟩
  | cons z t ih =>
    have hz := hw z (by simp)
    obtain ⟨outs, h1, h2, h3, h4⟩ := ih z hz (fun z hz => hw z (List.mem_cons_of_mem _ hz))
    refine ⟨z.sub p :: outs, ?_, by simp [h2], ?_, ?_⟩
    · simp only [runs, Op.proc, h1, List.map_cons]
    · intro o ho
      rcases List.mem_cons.mp ho with rfl | ho
      · exact hz.sub p
      · exact h3 o ho
    · intro i hi d
      cases i with
      | zero => simp [get_sub hz hp]
      | succ i =>
        have := h4 i (by simpa using hi) d
        simp only [List.getD_cons_succ] at this ⊢
        exact this

theorem map_ok_inj {A : Type} {l l' : List A} (h : l.map (Except.ok (ε := Err)) = l'.map Except.ok) : l = l' := by
  induction l generalizing l' with
  | nil => simpa using h.symm
  | cons a t ih =>
    cases l' with
    | nil => simp at h
    | cons b t' =>
      simp only [List.map_cons, List.cons.injEq, Except.ok.injEq] at h
      rw [h.1, ih h.2]

end Dctl
