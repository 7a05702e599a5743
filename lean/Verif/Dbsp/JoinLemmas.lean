import Verif.Dbsp.Join
import Verif.Dbsp.OpLemmas
import Verif.Spec.Sum
import Verif.Util.List
/-! Helper lemmas about joins. -/
set_option autoImplicit false
set_option linter.unusedSectionVars false
namespace Dctl
variable {D J : Type} [DecidableEq D] [DecidableEq J]
open ZSet

/-- Sum of `g` over all documents produced for all tuples, weighted with the product of multiplicities. -/
def joinSum (g : List D → Int) : List (ZSet D) → List D → Int
  | [], docs => g docs.reverse
  | z :: zs, docs => wsum (fun x => joinSum g zs (x :: docs)) z

/-- The evaluator succeeds on every tuple. -/
def JoinOk (ev : JEv D) : List (ZSet D) → List D → Prop
  | [], docs => ∃ ds, ev docs.reverse = .ok ds
  | z :: zs, docs => ∀ x ∈ z.map Prod.fst, JoinOk ev zs (x :: docs)

def evSumJ (ev : JEv D) (g : D → Int) (docs : List D) : Int :=
  match ev docs with
  | .ok ds => dsum g ds
  | .error _ => 0

theorem sumTerms_spec {f : D → Int → Except Err (ZSet D)} {h : (D → Int) → D → Int} {acc z r : ZSet D}
    {m : Int}
    (hf : ∀ x k r, x ∈ z.map Prod.fst → f x k = .ok r → WF r ∧ ∀ g, wsum g r = m * k * h g x)
    (hr : sumTerms f acc z = .ok r) :
    (WF acc → WF r) ∧ (∀ g, wsum g r = wsum g acc + m * wsum (h g) z) ∧
    (∀ p ∈ z, ∃ r, f p.1 p.2 = .ok r) := by
  induction z generalizing acc with
  | nil => simp only [sumTerms, Except.ok.injEq] at hr; subst hr; simp [wsum]
  | cons p t ih =>
    obtain ⟨x, k⟩ := p
    unfold sumTerms at hr
    split at hr
    · exact absurd hr (by simp)
    · rename_i q hq
      obtain ⟨h1, h2, h3⟩ := ih (fun x k r hx => hf x k r (by rw [List.map_cons]; exact List.mem_cons_of_mem _ hx)) hr
      have hfx := hf x k q (by simp) hq
      refine ⟨fun hw => h1 (hw.add _), fun g => ?_, ?_⟩
      · rw [h2, wsum_add, hfx.2]
        simp only [wsum, Int.mul_add, Int.mul_assoc]; omega
      · intro p hp
        rcases List.mem_cons.mp hp with rfl | hp
        · exact ⟨q, hq⟩
        · exact h3 p hp

theorem sumTerms_ok {f : D → Int → Except Err (ZSet D)} {z : ZSet D} (acc : ZSet D)
    (h : ∀ p ∈ z, ∃ r, f p.1 p.2 = .ok r) : ∃ r, sumTerms f acc z = .ok r := by
  induction z generalizing acc with
  | nil => exact ⟨acc, rfl⟩
  | cons p t ih =>
    obtain ⟨x, k⟩ := p
    obtain ⟨q, hq⟩ := h (x, k) (by simp)
    unfold sumTerms
    simp only at hq
    rw [hq]
    exact ih _ (fun p hp => h p (List.mem_cons_of_mem _ hp))

theorem cart_spec {ev : JEv D} {zs : List (ZSet D)} {docs : List D} {m : Int} {r : ZSet D}
    (h : cartesianJoin ev zs docs m = .ok r) :
    WF r ∧ (∀ g, wsum g r = m * joinSum (evSumJ ev g) zs docs) ∧ JoinOk ev zs docs := by
  induction zs generalizing docs m r with
  | nil =>
    unfold cartesianJoin at h
    split at h
    · exact absurd h (by simp)
    · rename_i ds hds
      simp only [Except.ok.injEq] at h; subst h
      refine ⟨WF.nil.emit _ _, fun g => ?_, ⟨ds, hds⟩⟩
      rw [wsum_emit]; simp [wsum, joinSum, evSumJ, hds]
  | cons z zs ih =>
    unfold cartesianJoin at h
    have := sumTerms_spec (h := fun g x => joinSum (evSumJ ev g) zs (x :: docs)) (m := m)
      (fun x k r _ hr => ⟨(ih hr).1, (ih hr).2.1⟩) h
    refine ⟨this.1 WF.nil, fun g => ?_, ?_⟩
    · rw [this.2.1]; simp [wsum, joinSum]
    · intro x hx
      obtain ⟨⟨y, k⟩, hp, rfl⟩ := List.mem_map.mp hx
      obtain ⟨r', hr'⟩ := this.2.2 _ hp
      exact (ih hr').2.2

theorem cart_ok {ev : JEv D} {zs : List (ZSet D)} {docs : List D} (m : Int)
    (h : JoinOk ev zs docs) : ∃ r, cartesianJoin ev zs docs m = .ok r := by
  induction zs generalizing docs m with
  | nil =>
    obtain ⟨ds, hds⟩ := h
    unfold cartesianJoin
    rw [hds]; exact ⟨_, rfl⟩
  | cons z zs ih =>
    unfold cartesianJoin
    apply sumTerms_ok
    intro p hp
    exact ih _ (h p.1 (List.mem_map.mpr ⟨p, hp, rfl⟩))

/-! ### sums over masks -/

/-- `f 0 + ... + f (n-1)`. -/
def msum (f : Nat → Int) : Nat → Int
  | 0 => 0
  | n + 1 => msum f n + f n

theorem msum_add (f g : Nat → Int) (n : Nat) : msum (fun k => f k + g k) n = msum f n + msum g n := by
  induction n with
  | zero => rfl
  | succ n ih => simp only [msum, ih]; omega

theorem msum_congr {f g : Nat → Int} {n : Nat} (h : ∀ k, k < n → f k = g k) : msum f n = msum g n := by
  induction n with
  | zero => rfl
  | succ n ih => simp only [msum]; rw [ih (fun k hk => h k (by omega)), h n (by omega)]

theorem msum_double (f : Nat → Int) (n : Nat) :
    msum f (2 * n) = msum (fun k => f (2 * k) + f (2 * k + 1)) n := by
  induction n with
  | zero => rfl
  | succ n ih =>
    have : 2 * (n + 1) = 2 * n + 1 + 1 := by omega
    rw [this]; simp only [msum, ih]; omega

theorem wsum_msum (f : Nat → D → Int) (n : Nat) (z : ZSet D) :
    wsum (fun x => msum (fun k => f k x) n) z = msum (fun k => wsum (f k) z) n := by
  induction n with
  | zero => simp [msum, wsum_zero]
  | succ n ih => simp only [msum, wsum_fun_add, ih]

theorem joinSum_masks (g : List D → Int) {deltas prevs : List (ZSet D)} (hl : deltas.length = prevs.length)
    (docs : List D) :
    joinSum g (List.zipWith ZSet.add prevs deltas) docs =
      msum (fun k => joinSum g (termInputs deltas prevs k) docs) (2 ^ prevs.length) := by
  induction prevs generalizing deltas docs with
  | nil =>
    have : deltas = [] := List.eq_nil_of_length_eq_zero (by simpa using hl)
    subst this
    simp [joinSum, termInputs, msum]
  | cons p ps ih =>
    cases deltas with
    | nil => simp at hl
    | cons d ds =>
      have hl' : ds.length = ps.length := by simpa using hl
      simp only [List.zipWith_cons_cons, joinSum, List.length_cons]
      rw [Nat.pow_succ, Nat.mul_comm, msum_double]
      rw [wsum_add]
      simp only [ih hl']
      rw [wsum_msum, wsum_msum, ← msum_add]
      apply msum_congr
      intro k _
      have h1 : (2 * k) % 2 = 0 := by omega
      have h2 : (2 * k + 1) % 2 = 1 := by omega
      have h3 : (2 * k) / 2 = k := by omega
      have h4 : (2 * k + 1) / 2 = k := by omega
      simp [termInputs, h1, h2, h3, h4, joinSum]

theorem joinOk_masks {ev : JEv D} {deltas prevs : List (ZSet D)} (hl : deltas.length = prevs.length)
    {docs : List D} (h : ∀ k, k < 2 ^ prevs.length → JoinOk ev (termInputs deltas prevs k) docs) :
    JoinOk ev (List.zipWith ZSet.add prevs deltas) docs := by
  induction prevs generalizing deltas docs with
  | nil =>
    have : deltas = [] := List.eq_nil_of_length_eq_zero (by simpa using hl)
    subst this
    exact h 0 (by simp)
  | cons p ps ih =>
    cases deltas with
    | nil => simp at hl
    | cons d ds =>
      have hl' : ds.length = ps.length := by simpa using hl
      intro x hx
      rcases mem_fst_add hx with hx | hx
      · apply ih hl'
        intro k hk
        have := h (2 * k) (by simp only [List.length_cons, Nat.pow_succ]; omega)
        have h1 : (2 * k) % 2 = 0 := by omega
        have h3 : (2 * k) / 2 = k := by omega
        simp only [termInputs, h1, h3] at this
        exact this x (by simpa using hx)
      · apply ih hl'
        intro k hk
        have := h (2 * k + 1) (by simp only [List.length_cons, Nat.pow_succ]; omega)
        have h1 : (2 * k + 1) % 2 = 1 := by omega
        have h3 : (2 * k + 1) / 2 = k := by omega
        simp only [termInputs, h1, h3] at this
        exact this x (by simpa using hx)

theorem termInputs_zero {deltas prevs : List (ZSet D)} (hl : deltas.length = prevs.length) :
    termInputs deltas prevs 0 = prevs := by
  induction prevs generalizing deltas with
  | nil =>
    have : deltas = [] := List.eq_nil_of_length_eq_zero (by simpa using hl)
    subst this; rfl
  | cons p ps ih =>
    cases deltas with
    | nil => simp at hl
    | cons d ds => simp [termInputs, ih (by simpa using hl)]

theorem sumMasks_spec {ev : JEv D} {deltas prevs : List (ZSet D)} {acc r : ZSet D} {ks : List Nat}
    (h : sumMasks ev deltas prevs acc ks = .ok r) :
    (WF acc → WF r) ∧
    (∀ g, wsum g r = wsum g acc + (ks.map (fun k => joinSum (evSumJ ev g) (termInputs deltas prevs k) [])).sum) ∧
    (∀ k ∈ ks, JoinOk ev (termInputs deltas prevs k) []) := by
  induction ks generalizing acc with
  | nil => simp only [sumMasks, Except.ok.injEq] at h; subst h; simp
  | cons k ks ih =>
    unfold sumMasks at h
    split at h
    · exact absurd h (by simp)
    · rename_i t ht
      obtain ⟨h1, h2, h3⟩ := ih h
      obtain ⟨c1, c2, c3⟩ := cart_spec ht
      refine ⟨fun hw => h1 (hw.add _), fun g => ?_, ?_⟩
      · rw [h2, wsum_add, c2]
        simp only [List.map_cons, List.sum_cons, Int.one_mul]; omega
      · intro j hj
        rcases List.mem_cons.mp hj with rfl | hj
        · exact c3
        · exact h3 j hj

theorem range'_sum (f : Nat → Int) (n : Nat) : f 0 + ((List.range' 1 n).map f).sum = msum f (n + 1) := by
  induction n with
  | zero => simp [msum]
  | succ n ih =>
    rw [List.range'_concat]
    simp only [List.map_append, List.sum_append, List.map_cons, List.map_nil, List.sum_cons, List.sum_nil]
    rw [msum, ← ih]
    have : 1 + 1 * n = n + 1 := by omega
    rw [this]; omega

/-- One step of the n-ary incremental join. -/
theorem incJoin_step {ev : JEv D} {n : Nat} {prevs prevs' deltas : List (ZSet D)} {r : ZSet D}
    (hl : prevs.length = n) (hok : JoinOk ev prevs [])
    (h : incJoin ev n prevs deltas = (prevs', .ok r)) :
    deltas.length = n ∧ prevs' = List.zipWith ZSet.add prevs deltas ∧ WF r ∧ JoinOk ev prevs' [] ∧
    ∀ g, joinSum (evSumJ ev g) prevs' [] = joinSum (evSumJ ev g) prevs [] + wsum g r := by
  unfold incJoin at h
  split at h
  · simp at h
  · rename_i hdl
    have hdl : deltas.length = n := by simpa using hdl
    split at h
    · simp at h
    · rename_i q hq
      simp only [Prod.mk.injEq, Except.ok.injEq] at h
      obtain ⟨rfl, rfl⟩ := h
      obtain ⟨s1, s2, s3⟩ := sumMasks_spec hq
      have hll : deltas.length = prevs.length := by omega
      have hpos : 0 < 2 ^ n := Nat.two_pow_pos n
      refine ⟨hdl, rfl, s1 WF.nil, ?_, fun g => ?_⟩
      · apply joinOk_masks hll
        intro k hk
        rcases Nat.eq_zero_or_pos k with rfl | hk0
        · rw [termInputs_zero hll]; exact hok
        · apply s3
          rw [List.mem_range']
          refine ⟨k - 1, ?_, by omega⟩
          rw [hl] at hk; omega
      · rw [joinSum_masks _ hll, s2, hl]
        have := range'_sum (fun k => joinSum (evSumJ ev g) (termInputs deltas prevs k) []) (2 ^ n - 1)
        have he : 2 ^ n - 1 + 1 = 2 ^ n := by omega
        rw [he] at this
        rw [← this, termInputs_zero hll]
        simp only [wsum]; omega

theorem incJoin_err {ev : JEv D} {n : Nat} {prevs prevs' deltas : List (ZSet D)} {e : Err}
    (h : incJoin ev n prevs deltas = (prevs', .error e)) : prevs' = prevs := by
  unfold incJoin at h
  split at h
  · simp_all
  · split at h <;> simp_all

theorem incBinJoin_err {ev : D → D → Except Err (List D)} {prev prev' : ZSet D × ZSet D} {l r : ZSet D} {e : Err}
    (h : incBinJoin ev prev l r = (prev', .error e)) : prev' = prev := by
  unfold incBinJoin at h
  repeat' split at h
  all_goals simp_all

/-- If failed steps leave the state alone, a run is the run of its successful steps. -/
theorem runs_skip {S I O E : Type} {step : S → I → S × Except E O} (hstep : ∀ s i e, (step s i).2 = .error e → (step s i).1 = s)
    (s : S) (is : List I) :
    (runs step s (okInputs is (runs step s is).2)).1 = (runs step s is).1 ∧
    (runs step s (okInputs is (runs step s is).2)).2 = (okOutputs (runs step s is).2).map Except.ok := by
  induction is generalizing s with
  | nil => exact ⟨rfl, rfl⟩
  | cons i t ih =>
    simp only [runs]
    cases hr : (step s i).2 with
    | error e =>
      have hs := hstep s i e hr
      simp only [okInputs, hs]
      exact ih s
    | ok o =>
      simp only [okInputs, runs, hr]
      have := ih (step s i).1
      simp [this, okOutputs, Except.toOption]

/-! ### invariance under equal multiplicities -/

/-- Pointwise equal multiplicities. -/
inductive EqvL : List (ZSet D) → List (ZSet D) → Prop
  | nil : EqvL [] []
  | cons {z w : ZSet D} {zs ws : List (ZSet D)} : WF z → WF w → Eqv z w → EqvL zs ws → EqvL (z :: zs) (w :: ws)

theorem EqvL.refl {zs : List (ZSet D)} (h : ∀ z ∈ zs, WF z) : EqvL zs zs := by
  induction zs with
  | nil => exact .nil
  | cons z t ih =>
    exact .cons (h z (by simp)) (h z (by simp)) (Eqv.refl z) (ih (fun y hy => h y (List.mem_cons_of_mem _ hy)))

theorem EqvL.symm {zs ws : List (ZSet D)} (h : EqvL zs ws) : EqvL ws zs := by
  induction h with
  | nil => exact .nil
  | cons a b c _ ih => exact .cons b a c.symm ih

theorem EqvL.trans {zs ws vs : List (ZSet D)} (h : EqvL zs ws) (h' : EqvL ws vs) : EqvL zs vs := by
  induction h generalizing vs with
  | nil => exact h'
  | cons a b c _ ih =>
    cases h' with
    | cons a' b' c' t' => exact .cons a b' (c.trans c') (ih t')

theorem EqvL.length {zs ws : List (ZSet D)} (h : EqvL zs ws) : zs.length = ws.length := by
  induction h with
  | nil => rfl
  | cons _ _ _ _ ih => simp [ih]

theorem EqvL.wf {zs ws : List (ZSet D)} (h : EqvL zs ws) : ∀ z ∈ zs, WF z := by
  induction h with
  | nil => simp
  | cons a _ _ _ ih => intro z hz; rcases List.mem_cons.mp hz with rfl | hz <;> first | exact a | exact ih z hz

theorem EqvL.zipAdd {zs ws ds es : List (ZSet D)} (h : EqvL zs ws) (h' : EqvL ds es) :
    EqvL (List.zipWith ZSet.add zs ds) (List.zipWith ZSet.add ws es) := by
  induction h generalizing ds es with
  | nil => simp; exact .nil
  | cons a b c _ ih =>
    cases h' with
    | nil => simp; exact .nil
    | cons a' b' c' t' =>
      simp only [List.zipWith_cons_cons]
      exact .cons (a.add _) (b.add _) (add_eqv a b a' b' c c') (ih t')

theorem joinSum_eqv (g : List D → Int) {zs ws : List (ZSet D)} (h : EqvL zs ws) (docs : List D) :
    joinSum g zs docs = joinSum g ws docs := by
  induction h generalizing docs with
  | nil => rfl
  | cons a b c _ ih => simp only [joinSum, ih]; exact wsum_eqv _ a b c

theorem joinOk_eqv {ev : JEv D} {zs ws : List (ZSet D)} (h : EqvL zs ws) {docs : List D}
    (hok : JoinOk ev zs docs) : JoinOk ev ws docs := by
  induction h generalizing docs with
  | nil => exact hok
  | cons a b c _ ih =>
    intro x hx
    exact ih (hok x ((((perm_of_eqv a b c).map Prod.fst).mem_iff).mpr hx))

theorem cart_eqv {ev : JEv D} {zs ws : List (ZSet D)} (h : EqvL zs ws) {r : ZSet D}
    (hr : cartesianJoin ev zs [] 1 = .ok r) : ∃ r', cartesianJoin ev ws [] 1 = .ok r' ∧ Eqv r' r := by
  obtain ⟨h1, h2, h3⟩ := cart_spec hr
  obtain ⟨r', hr'⟩ := cart_ok 1 (joinOk_eqv h h3)
  obtain ⟨k1, k2, k3⟩ := cart_spec hr'
  refine ⟨r', hr', fun d => ?_⟩
  rw [← wsum_ind k1, ← wsum_ind h1, k2, h2, joinSum_eqv _ h]

theorem joinOk_empty (ev : JEv D) {n : Nat} (hn : 0 < n) : JoinOk ev (List.replicate n []) [] := by
  cases n with
  | zero => omega
  | succ n => intro x hx; simp at hx

theorem joinSum_empty (g : List D → Int) {n : Nat} (hn : 0 < n) : joinSum g (List.replicate n []) [] = 0 := by
  cases n with
  | zero => omega
  | succ n => rfl

/-! ### the whole history of the n-ary join -/

theorem incJoin_runs {ev : JEv D} {n : Nat} {prevs : List (ZSet D)} {hist : List (List (ZSet D))}
    {outs : List (ZSet D)} (hl : prevs.length = n) (hok : JoinOk ev prevs [])
    (h : (runs (incJoin ev n) prevs hist).2 = outs.map Except.ok) :
    (∀ row ∈ hist, row.length = n) ∧ (∀ o ∈ outs, WF o) ∧
    JoinOk ev (hist.foldl (List.zipWith ZSet.add) prevs) [] ∧
    ∀ g, joinSum (evSumJ ev g) (hist.foldl (List.zipWith ZSet.add) prevs) [] =
      joinSum (evSumJ ev g) prevs [] + (outs.map (wsum g)).sum := by
  induction hist generalizing prevs outs with
  | nil =>
    simp only [runs] at h
    have : outs = [] := by simpa using h.symm
    subst this
    simp [hok]
  | cons row t ih =>
    cases hs : incJoin ev n prevs row with
    | mk ps' res =>
    simp only [runs, hs] at h
    cases outs with
    | nil => simp at h
    | cons o os =>
      simp only [List.map_cons, List.cons.injEq] at h
      obtain ⟨rfl, h⟩ := h
      obtain ⟨a1, rfl, a3, a4, a5⟩ := incJoin_step hl hok hs
      obtain ⟨b1, b2, b3, b4⟩ := ih (by simp [hl, a1]) a4 h
      refine ⟨?_, ?_, b3, ?_⟩
      · intro r hr; rcases List.mem_cons.mp hr with rfl | hr <;> first | exact a1 | exact b1 r hr
      · intro r hr; rcases List.mem_cons.mp hr with rfl | hr <;> first | exact a3 | exact b2 r hr
      · intro g
        rw [List.foldl_cons, b4, a5]
        simp only [List.map_cons, List.sum_cons]; omega

/-! ### column sums -/

theorem getD_zipAdd {zs ds : List (ZSet D)} {i : Nat} (h : zs.length = ds.length) :
    (List.zipWith ZSet.add zs ds).getD i [] = (zs.getD i []).add (ds.getD i []) := by
  induction zs generalizing ds i with
  | nil =>
    have : ds = [] := List.eq_nil_of_length_eq_zero (by simpa using h.symm)
    subst this; simp [ZSet.add]
  | cons z t ih =>
    cases ds with
    | nil => simp at h
    | cons d ds =>
      cases i with
      | zero => simp
      | succ i => simpa using ih (by simpa using h)

theorem foldl_zipAdd {n : Nat} {hist : List (List (ZSet D))} (hrows : ∀ row ∈ hist, row.length = n)
    (hwf : ∀ row ∈ hist, ∀ z ∈ row, WF z) {prevs : List (ZSet D)} (hl : prevs.length = n)
    (hp : ∀ z ∈ prevs, WF z) :
    (hist.foldl (List.zipWith ZSet.add) prevs).length = n ∧
    (∀ z ∈ hist.foldl (List.zipWith ZSet.add) prevs, WF z) ∧
    ∀ i, i < n → ∀ d, get ((hist.foldl (List.zipWith ZSet.add) prevs).getD i []) d =
      get (prevs.getD i []) d + ((hist.map (fun row => get (row.getD i []) d))).sum := by
  induction hist generalizing prevs with
  | nil => simp [hl, hp]; exact hp
  | cons row t ih =>
    have hrl := hrows row (by simp)
    have hwr := hwf row (by simp)
    have hwf' : ∀ z ∈ List.zipWith ZSet.add prevs row, WF z := by
      intro z hz
      have : ∀ (ps rs : List (ZSet D)), (∀ z ∈ ps, WF z) → ∀ z ∈ List.zipWith ZSet.add ps rs, WF z := by
        intro ps
        induction ps with
        | nil => simp
        | cons p ps ihp =>
          intro rs hps z hz
          cases rs with
          | nil => simp at hz
          | cons r rs =>
            simp only [List.zipWith_cons_cons, List.mem_cons] at hz
            rcases hz with rfl | hz
            · exact (hps p (by simp)).add _
            · exact ihp rs (fun y hy => hps y (List.mem_cons_of_mem _ hy)) z hz
      exact this prevs row hp z hz
    obtain ⟨h1, h2, h3⟩ := ih (fun r hr => hrows r (List.mem_cons_of_mem _ hr))
      (fun r hr => hwf r (List.mem_cons_of_mem _ hr)) (prevs := List.zipWith ZSet.add prevs row)
      (by simp [hl, hrl]) hwf'
    refine ⟨h1, h2, fun i hi d => ?_⟩
    rw [List.foldl_cons, h3 i hi d, getD_zipAdd (by omega)]
    have e1 : prevs.getD i [] ∈ prevs := by
      rw [getD_of_lt (by omega)]; exact List.getElem_mem _
    have e2 : row.getD i [] ∈ row := by
      rw [getD_of_lt (by omega)]; exact List.getElem_mem _
    rw [get_add (hp _ e1) (hwr _ e2)]
    simp only [List.map_cons, List.sum_cons]; omega

theorem EqvL.of_getD {zs ws : List (ZSet D)} (hl : zs.length = ws.length) (hz : ∀ z ∈ zs, WF z)
    (hw : ∀ z ∈ ws, WF z) (h : ∀ i, i < zs.length → Eqv (zs.getD i []) (ws.getD i [])) : EqvL zs ws := by
  induction zs generalizing ws with
  | nil =>
    have : ws = [] := List.eq_nil_of_length_eq_zero (by simpa using hl.symm)
    subst this; exact .nil
  | cons z t ih =>
    cases ws with
    | nil => simp at hl
    | cons w ws =>
      refine .cons (hz z (by simp)) (hw w (by simp)) (by simpa using h 0 (by simp)) ?_
      exact ih (by simpa using hl) (fun y hy => hz y (List.mem_cons_of_mem _ hy))
        (fun y hy => hw y (List.mem_cons_of_mem _ hy))
        (fun i hi => by simpa using h (i + 1) (by simpa using hi))

theorem columnSums_eqvL {n : Nat} {hist : List (List (ZSet D))} {ins : List (ZSet D)}
    (hrows : ∀ row ∈ hist, row.length = n) (hwf : ∀ row ∈ hist, ∀ z ∈ row, WF z)
    (hc : ColumnSums n hist ins) :
    EqvL (hist.foldl (List.zipWith ZSet.add) (List.replicate n [])) ins := by
  obtain ⟨hl, hs⟩ := hc
  obtain ⟨h1, h2, h3⟩ := foldl_zipAdd hrows hwf (prevs := List.replicate n []) (by simp)
    (by intro z hz; rw [List.mem_replicate] at hz; rw [hz.2]; exact WF.nil)
  apply EqvL.of_getD (by omega) h2
  · intro z hz
    obtain ⟨i, hi, rfl⟩ := List.getElem_of_mem hz
    have := (hs i (by omega)).1
    rwa [getD_of_lt hi] at this
  · intro i hi d
    rw [h3 i (by omega), (hs i (by omega)).2]
    have : (List.replicate n ([] : ZSet D)).getD i [] = [] := by
      rw [getD_of_lt (by simp; omega)]; simp
    rw [this]; simp [Function.comp_def]

end Dctl
