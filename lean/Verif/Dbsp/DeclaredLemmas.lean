import Verif.Dbsp.LiftLemmas
import Verif.Dbsp.MoreLemmas
import Verif.Spec.Declared
/-! Helper lemmas about the declared properties of operators. -/
set_option autoImplicit false
set_option linter.unusedSectionVars false
namespace Dctl
variable {D J : Type} [DecidableEq D] [DecidableEq J]
open ZSet

/-! ### generic -/

theorem StreamSum.nil : StreamSum ([] : List (ZSet D)) [] [] := ⟨rfl, rfl, by simp⟩

theorem StreamSum.cons {x y z : ZSet D} {a b c : List (ZSet D)} (h : ∀ d, get z d = get x d + get y d) (hs : StreamSum a b c) :
    StreamSum (x :: a) (y :: b) (z :: c) := by
  refine ⟨by simp [hs.1], by simp [hs.2.1], fun i d => ?_⟩
  cases i with
  | zero => simpa using h d
  | succ i => simpa using hs.2.2 i d

theorem runs_cons_ok {S I O : Type} {step : S → I → S × Except Err O} {s : S} {i : I} {is : List I} {os : List O}
    (h : (runs step s (i :: is)).2 = os.map .ok) :
    ∃ o os', os = o :: os' ∧ (step s i).2 = .ok o ∧ (runs step (step s i).1 is).2 = os'.map .ok := by
  cases os with
  | nil => simp [runs] at h
  | cons o os' =>
    simp only [runs, List.map_cons, List.cons.injEq] at h
    exact ⟨o, os', rfl, h.1, h.2⟩

/-- A relation between three states that every step keeps, with outputs adding up, makes the streams add up. -/
theorem streamSum_of_coupling {S I : Type} {step : S → I → S × Except Err (ZSet D)} {R : S → S → S → Prop} {Q : I → I → I → Prop}
    (hstep : ∀ {sa sb sc : S} {x y z : I} {ra rb : ZSet D}, R sa sb sc → Q x y z → (step sa x).2 = .ok ra → (step sb y).2 = .ok rb →
      ∃ rc, (step sc z).2 = .ok rc ∧ R (step sa x).1 (step sb y).1 (step sc z).1 ∧ ∀ d, get rc d = get ra d + get rb d)
    {K : Type} (f g k : K → I) (hist : List K) (hq : ∀ h ∈ hist, Q (f h) (g h) (k h)) {sa sb sc : S} (hr : R sa sb sc)
    {ra rb : List (ZSet D)} (ha : (runs step sa (hist.map f)).2 = ra.map .ok) (hb : (runs step sb (hist.map g)).2 = rb.map .ok) :
    ∃ rc, (runs step sc (hist.map k)).2 = rc.map .ok ∧ StreamSum ra rb rc := by
  induction hist generalizing sa sb sc ra rb with
  | nil =>
    simp only [List.map_nil, runs] at ha hb
    have e1 : ra = [] := by simpa using ha.symm
    have e2 : rb = [] := by simpa using hb.symm
    subst e1 e2
    exact ⟨[], rfl, StreamSum.nil⟩
  | cons h t ih =>
    obtain ⟨x, ra', rfl, ha1, ha2⟩ := runs_cons_ok ha
    obtain ⟨y, rb', rfl, hb1, hb2⟩ := runs_cons_ok hb
    obtain ⟨z, hz, hr', hs⟩ := hstep hr (hq h (by simp)) ha1 hb1
    obtain ⟨rc, hc, hsum⟩ := ih (fun e he => hq e (List.mem_cons_of_mem _ he)) hr' ha2 hb2
    exact ⟨z :: rc, by simp [runs, hz, hc], hsum.cons hs⟩

theorem zipWith_map_zip {A B C : Type} (f : A → B → C) (a : List A) (b : List B) :
    List.zipWith f a b = (a.zip b).map (fun p => f p.1 p.2) := by
  induction a generalizing b with
  | nil => simp
  | cons x t ih => cases b with
    | nil => simp
    | cons y u => simp [ih]

theorem zip_map_fst {A B : Type} {a : List A} {b : List B} (h : a.length = b.length) : (a.zip b).map Prod.fst = a := by
  induction a generalizing b with
  | nil => simp
  | cons x t ih => cases b with
    | nil => simp at h
    | cons y u => simp [ih (by simpa using h)]

theorem zip_map_snd {A B : Type} {a : List A} {b : List B} (h : a.length = b.length) : (a.zip b).map Prod.snd = b := by
  induction a generalizing b with
  | nil => cases b with
    | nil => rfl
    | cons y u => simp at h
  | cons x t ih => cases b with
    | nil => simp at h
    | cons y u => simp [ih (by simpa using h)]

/-- `c` is the sum of `a` and `b`. -/
def Sum3 (a b c : ZSet D) : Prop := WF a ∧ WF b ∧ WF c ∧ ∀ d, get c d = get a d + get b d

theorem Sum3.add {a b c x y z : ZSet D} (h : Sum3 a b c) (k : Sum3 x y z) : Sum3 (a.add x) (b.add y) (c.add z) := by
  obtain ⟨h1, h2, h3, h4⟩ := h
  obtain ⟨k1, k2, k3, k4⟩ := k
  refine ⟨h1.add _, h2.add _, h3.add _, fun d => ?_⟩
  rw [get_add h1 k1, get_add h2 k2, get_add h3 k3, h4, k4]; omega

theorem Sum3.sub {a b c x y z : ZSet D} (h : Sum3 a b c) (k : Sum3 x y z) : Sum3 (a.sub x) (b.sub y) (c.sub z) := by
  obtain ⟨h1, h2, h3, h4⟩ := h
  obtain ⟨k1, k2, k3, k4⟩ := k
  refine ⟨h1.sub _, h2.sub _, h3.sub _, fun d => ?_⟩
  rw [get_sub h1 k1, get_sub h2 k2, get_sub h3 k3, h4, k4]; omega

theorem Sum3.nil : Sum3 ([] : ZSet D) [] [] := ⟨WF.nil, WF.nil, WF.nil, by simp [ZSet.get]⟩

theorem Sum3.of_add {a b : ZSet D} (ha : WF a) (hb : WF b) : Sum3 a b (a.add b) := ⟨ha, hb, ha.add _, get_add ha hb⟩

theorem streamLinear_of_coupling {S : Type} {step : S → ZSet D → S × Except Err (ZSet D)} {R : S → S → S → Prop} {s : S}
    (hstep : ∀ {sa sb sc : S} {x y z : ZSet D} {ra rb : ZSet D}, R sa sb sc → Sum3 x y z → (step sa x).2 = .ok ra → (step sb y).2 = .ok rb →
      ∃ rc, (step sc z).2 = .ok rc ∧ R (step sa x).1 (step sb y).1 (step sc z).1 ∧ Sum3 ra rb rc)
    (hr : R s s s) : StreamLinear step s := by
  intro a b ra rb hl hwa hwb ha hb
  rw [zipWith_map_zip]
  rw [← zip_map_fst hl] at ha
  rw [← zip_map_snd hl] at hb
  refine streamSum_of_coupling (R := R) (Q := Sum3) ?_ Prod.fst Prod.snd (fun p => p.1.add p.2) (a.zip b) ?_ hr ha hb
  · intro sa sb sc x y z ra rb hr hq h1 h2
    obtain ⟨rc, h3, h4, h5⟩ := hstep hr hq h1 h2
    exact ⟨rc, h3, h4, h5.2.2.2⟩
  · intro p hp
    exact Sum3.of_add (hwa _ (List.of_mem_zip hp).1) (hwb _ (List.of_mem_zip hp).2)

/-! ### chain operators -/

/-- Three states of one linear operator, the third the sum of the others. -/
inductive OpSum : Op D J → Op D J → Op D J → Prop
  | same {o : Op D J} : Additive o → o.StateWF → OpSum o o o
  | integ {a b c : ZSet D} : Sum3 a b c → OpSum (.integ a) (.integ b) (.integ c)
  | diff {a b c : ZSet D} : Sum3 a b c → OpSum (.diff a) (.diff b) (.diff c)
  | delay {a b c : ZSet D} : Sum3 a b c → OpSum (.delay a) (.delay b) (.delay c)

theorem OpSum.step {oa ob oc : Op D J} {x y z ra rb : ZSet D} (h : OpSum oa ob oc) (hq : Sum3 x y z) (ha : (oa.proc x).2 = .ok ra)
    (hb : (ob.proc y).2 = .ok rb) :
    ∃ rc, (oc.proc z).2 = .ok rc ∧ OpSum (oa.proc x).1 (ob.proc y).1 (oc.proc z).1 ∧ Sum3 ra rb rc := by
  cases h with
  | same hadd hwf =>
    obtain ⟨q1, q2, q3, q4⟩ := hq
    obtain ⟨t, ht, hg⟩ := hadd.add q1 q2 ha hb
    obtain ⟨r', hr', he⟩ := hadd.eqv (z := x.add y) (z' := z) (q1.add _) q3 (fun d => by rw [get_add q1 q2, q4]) ht
    refine ⟨r', hr', ?_, (Op.proc_wf hwf q1).2 _ ha, (Op.proc_wf hwf q2).2 _ hb, (Op.proc_wf hwf q3).2 _ hr', fun d => ?_⟩
    · rw [hadd.keeps, hadd.keeps, hadd.keeps]; exact .same hadd hwf
    · rw [he d, hg]
  | integ hs =>
    simp only [Op.proc, Except.ok.injEq] at ha hb ⊢
    subst ha hb
    exact ⟨_, rfl, .integ (hs.add hq), hs.add hq⟩
  | diff hs =>
    simp only [Op.proc, Except.ok.injEq] at ha hb ⊢
    subst ha hb
    exact ⟨_, rfl, .diff hq, hq.sub hs⟩
  | delay hs =>
    simp only [Op.proc, Except.ok.injEq] at ha hb ⊢
    subst ha hb
    exact ⟨_, rfl, .delay hq, hs⟩

theorem OpSum.of_fresh {o : Op D J} (hf : o.Fresh) (ht : o.opType = some .linear) : OpSum o o o := by
  cases o <;> simp only [Op.Fresh, Op.opType, Option.some.injEq, reduceCtorEq] at hf ht
  · exact .same (Op.additive_of rfl rfl) trivial
  · exact .same (Op.additive_of rfl rfl) trivial
  · exact .same (Op.additive_of rfl rfl) trivial
  · subst hf; exact .integ Sum3.nil
  · subst hf; exact .diff Sum3.nil
  · subst hf; exact .delay Sum3.nil
  · exact .same (Op.additive_of rfl rfl) trivial
  · exact .same (Op.additive_of rfl rfl) trivial

/-- The same for the nodes of a fused operator. -/
inductive OpsSum : List (Op D J) → List (Op D J) → List (Op D J) → Prop
  | nil : OpsSum [] [] []
  | cons {a b c : Op D J} {as bs cs : List (Op D J)} : OpSum a b c → OpsSum as bs cs → OpsSum (a :: as) (b :: bs) (c :: cs)

theorem fusedProc_cons_ok {o : Op D J} {os : List (Op D J)} {z r : ZSet D} (h : (fusedProc (o :: os) z).2 = .ok r) :
    ∃ m, (o.proc z).2 = .ok m ∧ (fusedProc os m).2 = .ok r ∧ (fusedProc (o :: os) z).1 = (o.proc z).1 :: (fusedProc os m).1 := by
  rw [fusedProc] at h ⊢
  cases hp : o.proc z with
  | mk o' res =>
    cases res with
    | error e => rw [hp] at h; simp at h
    | ok m => rw [hp] at h; exact ⟨m, rfl, h, rfl⟩

theorem fusedProc_cons {o : Op D J} {os : List (Op D J)} {z m : ZSet D} (h : (o.proc z).2 = .ok m) :
    fusedProc (o :: os) z = ((o.proc z).1 :: (fusedProc os m).1, (fusedProc os m).2) := by
  rw [fusedProc]
  cases hp : o.proc z with
  | mk o' res =>
    rw [hp] at h
    simp only at h
    subst h
    rfl

theorem OpsSum.step {oa ob oc : List (Op D J)} {x y z ra rb : ZSet D} (h : OpsSum oa ob oc) (hq : Sum3 x y z)
    (ha : (fusedProc oa x).2 = .ok ra) (hb : (fusedProc ob y).2 = .ok rb) :
    ∃ rc, (fusedProc oc z).2 = .ok rc ∧ OpsSum (fusedProc oa x).1 (fusedProc ob y).1 (fusedProc oc z).1 ∧ Sum3 ra rb rc := by
  induction h generalizing x y z with
  | nil =>
    simp only [fusedProc, Except.ok.injEq] at ha hb ⊢
    subst ha hb
    exact ⟨z, rfl, .nil, hq⟩
  | cons h1 _ ih =>
    obtain ⟨ma, a1, a2, a3⟩ := fusedProc_cons_ok ha
    obtain ⟨mb, b1, b2, b3⟩ := fusedProc_cons_ok hb
    obtain ⟨mc, c1, c2, c3⟩ := h1.step hq a1 b1
    obtain ⟨rc, d1, d2, d3⟩ := ih c3 a2 b2
    rw [fusedProc_cons c1, a3, b3]
    exact ⟨rc, d1, .cons c2 d2, d3⟩

theorem OpsSum.of_fresh {os : List (Op D J)} (h : ∀ o ∈ os, o.Fresh ∧ o.opType = some .linear) : OpsSum os os os := by
  induction os with
  | nil => exact .nil
  | cons o t ih =>
    exact .cons (OpSum.of_fresh (h o (by simp)).1 (h o (by simp)).2) (ih (fun x hx => h x (List.mem_cons_of_mem _ hx)))

theorem Op.fresh_zero {o : Op D J} (hf : o.Fresh) : o.proc [] = (o, .ok []) := by
  cases o <;> simp only [Op.Fresh] at hf <;> first | rfl | (subst hf; rfl)

theorem fusedProc_fresh_zero {os : List (Op D J)} (hf : ∀ o ∈ os, o.Fresh) : fusedProc os [] = (os, .ok []) := by
  induction os with
  | nil => rfl
  | cons o t ih =>
    rw [fusedProc, Op.fresh_zero (hf o (by simp))]
    simp only
    rw [ih (fun x hx => hf x (List.mem_cons_of_mem _ hx))]

theorem timeInvariant_of_zero {S I : Type} {step : S → I → S × Except Err (ZSet D)} {s : S} {zero : I} (h : step s zero = (s, .ok [])) :
    StreamTimeInvariant step s zero := by
  intro a; simp [runs, h]

theorem StreamTimeInvariant.zeroPreserving {S I : Type} {step : S → I → S × Except Err (ZSet D)} {s : S} {zero : I}
    (h : StreamTimeInvariant step s zero) : StreamZeroPreserving step s zero := by
  intro k
  induction k with
  | zero => rfl
  | succ k ih => rw [List.replicate_succ, h, ih, List.replicate_succ]

/-! ### joins -/

/-- Three rows, equal except at position `i`, where the third is the sum of the others. -/
inductive SumAt : Nat → List (ZSet D) → List (ZSet D) → List (ZSet D) → Prop
  | here {a b c : ZSet D} {as bs cs : List (ZSet D)} : Sum3 a b c → EqvL as bs → EqvL as cs → SumAt 0 (a :: as) (b :: bs) (c :: cs)
  | there {i : Nat} {x y w : ZSet D} {as bs cs : List (ZSet D)} : WF x → WF y → WF w → Eqv x y → Eqv x w → SumAt i as bs cs →
      SumAt (i + 1) (x :: as) (y :: bs) (w :: cs)

theorem SumAt.length {i : Nat} {as bs cs : List (ZSet D)} (h : SumAt i as bs cs) : as.length = bs.length ∧ as.length = cs.length := by
  induction h with
  | here _ h1 h2 => simp [h1.length, ← h2.length]
  | there _ _ _ _ _ _ ih => simp [ih.1, ← ih.2]

theorem wsum_sum3 (g : D → Int) {a b c : ZSet D} (h : Sum3 a b c) : wsum g c = wsum g a + wsum g b := by
  rw [← wsum_add]
  exact wsum_eqv g h.2.2.1 (h.1.add _) (fun d => by rw [get_add h.1 h.2.1, h.2.2.2])

theorem mem_sum3 {a b c : ZSet D} (h : Sum3 a b c) {x : D} (hx : x ∈ c.map Prod.fst) : x ∈ a.map Prod.fst ∨ x ∈ b.map Prod.fst := by
  have he : Eqv c (a.add b) := fun d => by rw [get_add h.1 h.2.1, h.2.2.2]
  exact (mem_fst_add ((((perm_of_eqv h.2.2.1 (h.1.add _) he).map Prod.fst).mem_iff).mp hx)).symm.symm

theorem joinSum_sumAt (g : List D → Int) {i : Nat} {as bs cs : List (ZSet D)} (h : SumAt i as bs cs) (docs : List D) :
    joinSum g cs docs = joinSum g as docs + joinSum g bs docs := by
  induction h generalizing docs with
  | here h1 h2 h3 =>
    simp only [joinSum]
    rw [wsum_sum3 _ h1]
    simp only [joinSum_eqv g h2, ← joinSum_eqv g h3]
  | there hx hy hw h1 h2 _ ih =>
    simp only [joinSum, ih, wsum_fun_add]
    rw [wsum_eqv _ hx hw h2, wsum_eqv _ hy hw (h1.symm.trans h2)]

theorem joinOk_sumAt {ev : JEv D} {i : Nat} {as bs cs : List (ZSet D)} (h : SumAt i as bs cs) {docs : List D}
    (ha : JoinOk ev as docs) (hb : JoinOk ev bs docs) : JoinOk ev cs docs := by
  induction h generalizing docs with
  | here h1 h2 h3 =>
    intro x hx
    rcases mem_sum3 h1 hx with hx | hx
    · exact joinOk_eqv h3 (ha x hx)
    · exact joinOk_eqv (h2.symm.trans h3) (hb x hx)
  | there hx hy hw h1 h2 _ ih =>
    intro d hd
    refine ih (ha d ?_) (hb d ?_)
    · exact (((perm_of_eqv hx hw h2).map Prod.fst).mem_iff).mpr hd
    · exact (((perm_of_eqv hy hw (h1.symm.trans h2)).map Prod.fst).mem_iff).mpr hd

theorem EqvL.termInputs {ds es ps qs : List (ZSet D)} (h : EqvL ds es) (h' : EqvL ps qs) (k : Nat) :
    EqvL (termInputs ds ps k) (termInputs es qs k) := by
  induction h generalizing ps qs k with
  | nil => simp [Dctl.termInputs]; exact .nil
  | cons a b c _ ih =>
    cases h' with
    | nil => simp [Dctl.termInputs]; exact .nil
    | cons a' b' c' t' =>
      simp only [Dctl.termInputs]
      by_cases hk : k % 2 = 1
      · rw [if_pos hk, if_pos hk]; exact .cons a b c (ih t' _)
      · rw [if_neg hk, if_neg hk]; exact .cons a' b' c' (ih t' _)

theorem SumAt.termInputs {i : Nat} {da db dc pa pb pc : List (ZSet D)} (h : SumAt i da db dc) (h' : SumAt i pa pb pc) (k : Nat) :
    SumAt i (termInputs da pa k) (termInputs db pb k) (termInputs dc pc k) := by
  induction h generalizing pa pb pc k with
  | here h1 h2 h3 =>
    cases h' with
    | here k1 k2 k3 =>
      simp only [Dctl.termInputs]
      by_cases hk : k % 2 = 1
      · rw [if_pos hk, if_pos hk, if_pos hk]; exact .here h1 (h2.termInputs k2 _) (h3.termInputs k3 _)
      · rw [if_neg hk, if_neg hk, if_neg hk]; exact .here k1 (h2.termInputs k2 _) (h3.termInputs k3 _)
  | there hx hy hw h1 h2 _ ih =>
    cases h' with
    | there kx ky kw k1 k2 k3 =>
      simp only [Dctl.termInputs]
      by_cases hk : k % 2 = 1
      · rw [if_pos hk, if_pos hk, if_pos hk]; exact .there hx hy hw h1 h2 (ih k3 _)
      · rw [if_neg hk, if_neg hk, if_neg hk]; exact .there kx ky kw k1 k2 (ih k3 _)

theorem SumAt.zipAdd {i : Nat} {da db dc pa pb pc : List (ZSet D)} (h : SumAt i da db dc) (h' : SumAt i pa pb pc) :
    SumAt i (List.zipWith ZSet.add pa da) (List.zipWith ZSet.add pb db) (List.zipWith ZSet.add pc dc) := by
  induction h generalizing pa pb pc with
  | here h1 h2 h3 =>
    cases h' with
    | here k1 k2 k3 => exact .here (k1.add h1) (k2.zipAdd h2) (k3.zipAdd h3)
  | there hx hy hw h1 h2 _ ih =>
    cases h' with
    | there kx ky kw k1 k2 k3 => exact .there (kx.add _) (ky.add _) (kw.add _) (add_eqv kx ky hx hy k1 h1) (add_eqv kx kw hx hw k2 h2) (ih k3)

theorem SumAt.of_set {i : Nat} {row : List (ZSet D)} {z w : ZSet D} (hi : i < row.length) (hrow : ∀ z ∈ row, WF z) (hz : WF z) (hw : WF w) :
    SumAt i (row.set i z) (row.set i w) (row.set i (z.add w)) := by
  induction row generalizing i with
  | nil => simp at hi
  | cons x t ih =>
    have ht : ∀ z ∈ t, WF z := fun y hy => hrow y (List.mem_cons_of_mem _ hy)
    cases i with
    | zero => exact .here (Sum3.of_add hz hw) (EqvL.refl ht) (EqvL.refl ht)
    | succ i =>
      have hx := hrow x (by simp)
      exact .there hx hx hx (Eqv.refl _) (Eqv.refl _) (ih (by simpa using hi) ht)

theorem SumAt.empty {i n : Nat} (hi : i < n) : SumAt i (List.replicate n ([] : ZSet D)) (List.replicate n []) (List.replicate n []) := by
  induction n generalizing i with
  | zero => omega
  | succ n ih =>
    have hr : EqvL (List.replicate n ([] : ZSet D)) (List.replicate n []) :=
      EqvL.refl (by intro z hz; rw [List.mem_replicate] at hz; rw [hz.2]; exact WF.nil)
    rw [List.replicate_succ]
    cases i with
    | zero => exact .here Sum3.nil hr hr
    | succ i => exact .there WF.nil WF.nil WF.nil (Eqv.refl _) (Eqv.refl _) (ih (by omega))

theorem sumMasks_ok {ev : JEv D} {deltas prevs : List (ZSet D)} (acc : ZSet D) {ks : List Nat}
    (h : ∀ k ∈ ks, JoinOk ev (termInputs deltas prevs k) []) : ∃ r, sumMasks ev deltas prevs acc ks = .ok r := by
  induction ks generalizing acc with
  | nil => exact ⟨acc, rfl⟩
  | cons k ks ih =>
    obtain ⟨t, ht⟩ := cart_ok 1 (h k (by simp))
    rw [sumMasks, ht]
    exact ih _ (fun j hj => h j (List.mem_cons_of_mem _ hj))

theorem sum_map_add {A : Type} (f g h : A → Int) (l : List A) (hs : ∀ x ∈ l, h x = f x + g x) :
    (l.map h).sum = (l.map f).sum + (l.map g).sum := by
  induction l with
  | nil => simp
  | cons x t ih =>
    simp only [List.map_cons, List.sum_cons, hs x (by simp), ih (fun y hy => hs y (List.mem_cons_of_mem _ hy))]
    omega

theorem incJoin_sumAt {ev : JEv D} {n i : Nat} {pa pb pc da db dc : List (ZSet D)} {ra rb : ZSet D} (hp : SumAt i pa pb pc)
    (hd : SumAt i da db dc) (ha : (incJoin ev n pa da).2 = .ok ra) (hb : (incJoin ev n pb db).2 = .ok rb) :
    ∃ rc, (incJoin ev n pc dc).2 = .ok rc ∧ SumAt i (incJoin ev n pa da).1 (incJoin ev n pb db).1 (incJoin ev n pc dc).1 ∧
      Sum3 ra rb rc := by
  by_cases hn : da.length = n
  case neg => rw [incJoin, if_pos hn] at ha; simp at ha
  have hnb : db.length = n := by rw [← hd.length.1]; exact hn
  have hnc : dc.length = n := by rw [← hd.length.2]; exact hn
  simp only [incJoin, hn, hnb, hnc, ne_eq, not_true, if_false] at ha hb ⊢
  cases hsa : sumMasks ev da pa [] (List.range' 1 (2 ^ n - 1)) with
  | error e => rw [hsa] at ha; simp at ha
  | ok qa =>
  cases hsb : sumMasks ev db pb [] (List.range' 1 (2 ^ n - 1)) with
  | error e => rw [hsb] at hb; simp at hb
  | ok qb =>
  rw [hsa] at ha
  rw [hsb] at hb
  simp only [Except.ok.injEq] at ha hb
  subst ha hb
  obtain ⟨a1, a2, a3⟩ := sumMasks_spec hsa
  obtain ⟨b1, b2, b3⟩ := sumMasks_spec hsb
  obtain ⟨qc, hsc⟩ := sumMasks_ok (ev := ev) (deltas := dc) (prevs := pc) [] (ks := List.range' 1 (2 ^ n - 1))
    (fun k hk => joinOk_sumAt (hd.termInputs hp k) (a3 k hk) (b3 k hk))
  obtain ⟨c1, c2, c3⟩ := sumMasks_spec hsc
  rw [hsc]
  refine ⟨qc, rfl, hd.zipAdd hp, a1 WF.nil, b1 WF.nil, c1 WF.nil, fun d => ?_⟩
  rw [← wsum_ind (c1 WF.nil), ← wsum_ind (a1 WF.nil), ← wsum_ind (b1 WF.nil), a2, b2, c2]
  simp only [wsum]
  rw [sum_map_add _ _ _ _ (fun k _ => joinSum_sumAt (evSumJ ev fun x => if x = d then 1 else 0) (hd.termInputs hp k) [])]
  omega

theorem snapJoin_sumAt {ev : JEv D} {n i : Nat} {da db dc : List (ZSet D)} {ra rb : ZSet D} (hd : SumAt i da db dc)
    (ha : snapJoin ev n da = .ok ra) (hb : snapJoin ev n db = .ok rb) : ∃ rc, snapJoin ev n dc = .ok rc ∧ Sum3 ra rb rc := by
  by_cases hn : da.length = n
  case neg => rw [snapJoin, if_pos hn] at ha; simp at ha
  have hnb : db.length = n := by rw [← hd.length.1]; exact hn
  have hnc : dc.length = n := by rw [← hd.length.2]; exact hn
  simp only [snapJoin, hn, hnb, hnc, ne_eq, not_true, if_false] at ha hb ⊢
  obtain ⟨a1, a2, a3⟩ := cart_spec ha
  obtain ⟨b1, b2, b3⟩ := cart_spec hb
  obtain ⟨rc, hc⟩ := cart_ok 1 (joinOk_sumAt hd a3 b3)
  obtain ⟨c1, c2, c3⟩ := cart_spec hc
  refine ⟨rc, hc, a1, b1, c1, fun d => ?_⟩
  rw [← wsum_ind c1, ← wsum_ind a1, ← wsum_ind b1, a2, b2, c2, joinSum_sumAt _ hd]
  omega

theorem binJoin_sumAt {ev : D → D → Except Err (List D)} {i : Nat} {la ra' lb rb' lc rc' ra rb : ZSet D}
    (hd : SumAt i [la, ra'] [lb, rb'] [lc, rc']) (ha : binJoin ev la ra' = .ok ra) (hb : binJoin ev lb rb' = .ok rb) :
    ∃ rc, binJoin ev lc rc' = .ok rc ∧ Sum3 ra rb rc := by
  obtain ⟨a1, a2, a3⟩ := binJoin_spec ha
  obtain ⟨b1, b2, b3⟩ := binJoin_spec hb
  obtain ⟨rc, hc⟩ := binJoin_ok (joinOk_sumAt hd a3 b3)
  obtain ⟨c1, c2, c3⟩ := binJoin_spec hc
  refine ⟨rc, hc, a1, b1, c1, fun d => ?_⟩
  rw [← wsum_ind c1, ← wsum_ind a1, ← wsum_ind b1, a2, b2, c2, joinSum_sumAt _ hd]

/-- A row of two inputs, one from each of two coupled rows. -/
theorem SumAt.mixL {i : Nat} {a b a' b' a'' b'' p q p' q' p'' q'' : ZSet D} (h : SumAt i [a, b] [a', b'] [a'', b''])
    (h' : SumAt i [p, q] [p', q'] [p'', q'']) : SumAt i [p, b] [p', b'] [p'', b''] := by
  cases h with
  | here h1 h2 h3 => cases h' with
    | here k1 k2 k3 => exact .here k1 h2 h3
  | there hx hy hw h1 h2 h3 => cases h' with
    | there kx ky kw k1 k2 k3 => exact .there kx ky kw k1 k2 h3

theorem incBinJoin_sumAt {ev : D → D → Except Err (List D)} {i : Nat} {pa pb pc : ZSet D × ZSet D} {la da lb db lc dc ra rb : ZSet D}
    (hp : SumAt i [pa.1, pa.2] [pb.1, pb.2] [pc.1, pc.2]) (hd : SumAt i [la, da] [lb, db] [lc, dc])
    (ha : (incBinJoin ev pa la da).2 = .ok ra) (hb : (incBinJoin ev pb lb db).2 = .ok rb) :
    ∃ rc, (incBinJoin ev pc lc dc).2 = .ok rc ∧
      SumAt i [(incBinJoin ev pa la da).1.1, (incBinJoin ev pa la da).1.2] [(incBinJoin ev pb lb db).1.1, (incBinJoin ev pb lb db).1.2]
        [(incBinJoin ev pc lc dc).1.1, (incBinJoin ev pc lc dc).1.2] ∧ Sum3 ra rb rc := by
  have inv : ∀ {p : ZSet D × ZSet D} {l d r : ZSet D}, (incBinJoin ev p l d).2 = .ok r →
      ∃ t1 t2 t3, binJoin ev l d = .ok t1 ∧ binJoin ev p.1 d = .ok t2 ∧ binJoin ev l p.2 = .ok t3 ∧ r = (t1.add t2).add t3 ∧
        (incBinJoin ev p l d).1 = (p.1.add l, p.2.add d) := by
    intro p l d r h
    unfold incBinJoin at h ⊢
    cases h1 : binJoin ev l d with
    | error e => rw [h1] at h; simp at h
    | ok t1 =>
    cases h2 : binJoin ev p.1 d with
    | error e => rw [h1, h2] at h; simp at h
    | ok t2 =>
    cases h3 : binJoin ev l p.2 with
    | error e => rw [h1, h2, h3] at h; simp at h
    | ok t3 =>
      rw [h1, h2, h3] at h
      simp only [Except.ok.injEq] at h
      exact ⟨t1, t2, t3, rfl, rfl, rfl, h.symm, rfl⟩
  obtain ⟨a1, a2, a3, ha1, ha2, ha3, rfl, ea⟩ := inv ha
  obtain ⟨b1, b2, b3, hb1, hb2, hb3, rfl, eb⟩ := inv hb
  obtain ⟨c1, hc1, s1⟩ := binJoin_sumAt hd ha1 hb1
  obtain ⟨c2, hc2, s2⟩ := binJoin_sumAt (hd.mixL hp) ha2 hb2
  obtain ⟨c3, hc3, s3⟩ := binJoin_sumAt (hp.mixL hd) ha3 hb3
  have hz := hd.zipAdd hp
  simp only [List.zipWith_cons_cons, List.zipWith_nil_left] at hz
  rw [ea, eb]
  refine ⟨(c1.add c2).add c3, ?_, ?_, (s1.add s2).add s3⟩
  · unfold incBinJoin; rw [hc1, hc2, hc3]
  · have : (incBinJoin ev pc lc dc).1 = (pc.1.add lc, pc.2.add dc) := by unfold incBinJoin; rw [hc1, hc2, hc3]
    rw [this]; exact hz

/-- Three states of one join, coupled at input `i`. -/
inductive JoinSum (i : Nat) : JoinOp D → JoinOp D → JoinOp D → Prop
  | snap {ev : JEv D} {n : Nat} : JoinSum i (.snap ev n) (.snap ev n) (.snap ev n)
  | incr {ev : JEv D} {n : Nat} {a b c : List (ZSet D)} : SumAt i a b c → JoinSum i (.incr ev n a) (.incr ev n b) (.incr ev n c)
  | snapBin {ev : D → D → Except Err (List D)} : JoinSum i (.snapBin ev) (.snapBin ev) (.snapBin ev)
  | incrBin {ev : D → D → Except Err (List D)} {a b c : ZSet D × ZSet D} : SumAt i [a.1, a.2] [b.1, b.2] [c.1, c.2] →
      JoinSum i (.incrBin ev a) (.incrBin ev b) (.incrBin ev c)

theorem two_of_length {A : Type} {l : List A} (h : l.length = 2) : ∃ a b, l = [a, b] := by
  match l, h with
  | [a, b], _ => exact ⟨a, b, rfl⟩

theorem JoinOp.proc_bin_arity {j : JoinOp D} (hj : (∃ ev, j = .snapBin ev) ∨ ∃ ev p, j = .incrBin ev p) {ins : List (ZSet D)} {r : ZSet D}
    (h : (j.proc ins).2 = .ok r) : ∃ a b, ins = [a, b] := by
  rcases hj with ⟨ev, rfl⟩ | ⟨ev, p, rfl⟩
  all_goals
    match ins with
    | [] => simp [JoinOp.proc] at h
    | [_] => simp [JoinOp.proc] at h
    | [a, b] => exact ⟨a, b, rfl⟩
    | _ :: _ :: _ :: _ => simp [JoinOp.proc] at h

theorem JoinSum.step {i : Nat} {ja jb jc : JoinOp D} {da db dc : List (ZSet D)} {ra rb : ZSet D} (h : JoinSum i ja jb jc) (hd : SumAt i da db dc)
    (ha : (ja.proc da).2 = .ok ra) (hb : (jb.proc db).2 = .ok rb) :
    ∃ rc, (jc.proc dc).2 = .ok rc ∧ JoinSum i (ja.proc da).1 (jb.proc db).1 (jc.proc dc).1 ∧ Sum3 ra rb rc := by
  cases h with
  | snap =>
    obtain ⟨rc, h1, h2⟩ := snapJoin_sumAt hd ha hb
    exact ⟨rc, h1, .snap, h2⟩
  | incr hs =>
    obtain ⟨rc, h1, h2, h3⟩ := incJoin_sumAt hs hd ha hb
    exact ⟨rc, h1, .incr h2, h3⟩
  | snapBin =>
    obtain ⟨a, a', rfl⟩ := JoinOp.proc_bin_arity (.inl ⟨_, rfl⟩) ha
    obtain ⟨b, b', rfl⟩ := two_of_length hd.length.1.symm
    obtain ⟨c, c', rfl⟩ := two_of_length hd.length.2.symm
    obtain ⟨rc, h1, h2⟩ := binJoin_sumAt hd ha hb
    exact ⟨rc, h1, .snapBin, h2⟩
  | incrBin hs =>
    obtain ⟨a, a', rfl⟩ := JoinOp.proc_bin_arity (.inr ⟨_, _, rfl⟩) ha
    obtain ⟨b, b', rfl⟩ := two_of_length hd.length.1.symm
    obtain ⟨c, c', rfl⟩ := two_of_length hd.length.2.symm
    obtain ⟨rc, h1, h2, h3⟩ := incBinJoin_sumAt hs hd ha hb
    exact ⟨rc, h1, .incrBin h2, h3⟩

theorem JoinSum.of_fresh {i : Nat} {j : JoinOp D} (hf : j.Fresh) (hi : i < j.arity) : JoinSum i j j j := by
  rcases hf with ⟨ev, n, hn, rfl | rfl⟩ | ⟨ev, rfl | rfl⟩
  · exact .snap
  · exact .incr (SumAt.empty hi)
  · exact .snapBin
  · exact .incrBin (SumAt.empty hi)

theorem termInputs_empty (n k : Nat) : termInputs (List.replicate n ([] : ZSet D)) (List.replicate n []) k = List.replicate n [] := by
  induction n generalizing k with
  | zero => rfl
  | succ n ih => simp only [List.replicate_succ, termInputs, ih, ite_self]

theorem cart_empty (ev : JEv D) {n : Nat} (hn : 0 < n) (docs : List D) (m : Int) :
    cartesianJoin ev (List.replicate n []) docs m = .ok [] := by
  cases n with
  | zero => omega
  | succ n => rfl

theorem sumMasks_empty (ev : JEv D) {n : Nat} (hn : 0 < n) (ks : List Nat) :
    sumMasks ev (List.replicate n []) (List.replicate n []) [] ks = .ok [] := by
  induction ks with
  | nil => rfl
  | cons k ks ih => rw [sumMasks, termInputs_empty, cart_empty ev hn]; exact ih

theorem zipAdd_empty (n : Nat) : List.zipWith ZSet.add (List.replicate n ([] : ZSet D)) (List.replicate n []) = List.replicate n [] := by
  induction n with
  | zero => rfl
  | succ n ih => simp only [List.replicate_succ, List.zipWith_cons_cons, ih]; rfl

theorem JoinOp.fresh_zero {j : JoinOp D} (hf : j.Fresh) : j.proc (List.replicate j.arity []) = (j, .ok []) := by
  rcases hf with ⟨ev, n, hn, rfl | rfl⟩ | ⟨ev, rfl | rfl⟩
  · simp [JoinOp.proc, JoinOp.arity, snapJoin, cart_empty ev hn]
  · simp only [JoinOp.proc, JoinOp.newIncremental, JoinOp.arity, incJoin, List.length_replicate, ne_eq, not_true, if_false, sumMasks_empty ev hn, zipAdd_empty]
  · rfl
  · rfl

/-! ### the incremental form of a linear operator is the operator -/

theorem accumulated_wf {l : List (ZSet D)} {acc : ZSet D} (h : WF acc) : ∀ z ∈ accumulated acc l, WF z := by
  induction l generalizing acc with
  | nil => simp [accumulated]
  | cons x t ih =>
    intro z hz
    rcases List.mem_cons.mp hz with rfl | hz
    · exact h.add _
    · exact ih (h.add _) z hz

/-- Three runs: on changes, on what came before, on what came so far. -/
theorem accumulated_runs {S : Type} {step : S → ZSet D → S × Except Err (ZSet D)} {R : S → S → S → Prop}
    (hstep : ∀ {sa sb sc : S} {x y z : ZSet D} {ra rb : ZSet D}, R sa sb sc → Sum3 x y z → (step sa x).2 = .ok ra → (step sb y).2 = .ok rb →
      ∃ rc, (step sc z).2 = .ok rc ∧ R (step sa x).1 (step sb y).1 (step sc z).1 ∧ Sum3 ra rb rc)
    {hist outs : List (ZSet D)} (hwf : ∀ z ∈ hist, WF z) {sa sb sc : S} {acc racc oacc : ZSet D} (hacc : WF acc) (ho : WF oacc)
    (hprev : step sa acc = (sc, .ok racc)) (heq : Eqv racc oacc) (hr : R sa sb sc) (hrun : (runs step sb hist).2 = outs.map .ok) :
    ∃ rc, (runs step sc (accumulated acc hist)).2 = rc.map .ok ∧ StreamEqv rc (accumulated oacc outs) := by
  induction hist generalizing sa sb sc acc racc oacc outs with
  | nil =>
    simp only [runs] at hrun
    have e : outs = [] := by simpa using hrun.symm
    subst e
    exact ⟨[], rfl, rfl, fun _ _ => rfl⟩
  | cons x t ih =>
    obtain ⟨y, ys, rfl, h1, h2⟩ := runs_cons_ok hrun
    obtain ⟨z, hz, hr', hs⟩ := hstep hr (Sum3.of_add hacc (hwf x (by simp))) (by rw [hprev]) h1
    rw [hprev] at hr'
    have he : Eqv z (oacc.add y) := fun d => by rw [get_add ho hs.2.1, hs.2.2.2, heq d]
    obtain ⟨rc, k1, k2, k3⟩ := ih (fun w hw => hwf w (List.mem_cons_of_mem _ hw)) (hacc.add x) (ho.add y)
      (sa := sc) (sb := (step sb x).1) (sc := (step sc (acc.add x)).1) (racc := z) (by rw [← hz]) he hr' h2
    refine ⟨z :: rc, by simp [accumulated, runs, hz, k1], by simp [accumulated, k2], fun i d => ?_⟩
    cases i with
    | zero => simpa [accumulated] using he d
    | succ i => simpa [accumulated] using k3 i d

end Dctl
