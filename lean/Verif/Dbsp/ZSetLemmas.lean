import Verif.Dbsp.ZSet
/-! Helper lemmas about Z-sets. -/
set_option autoImplicit false
set_option linter.unusedSectionVars false
namespace Dctl
namespace ZSet
variable {D : Type} [DecidableEq D]

/-- Weighted sum `Σ m * g d` over the entries of a Z-set (proof device). -/
def wsum (g : D → Int) : ZSet D → Int
  | [] => 0
  | (x, m) :: t => m * g x + wsum g t

theorem Eqv.refl (z : ZSet D) : Eqv z z := fun _ => rfl
theorem Eqv.symm {z w : ZSet D} (h : Eqv z w) : Eqv w z := fun d => (h d).symm
theorem Eqv.trans {z w v : ZSet D} (h : Eqv z w) (h' : Eqv w v) : Eqv z v :=
  fun d => (h d).trans (h' d)

@[simp] theorem get_nil (d : D) : get ([] : ZSet D) d = 0 := rfl

theorem get_cons (x : D) (m : Int) (t : ZSet D) (d : D) :
    get ((x, m) :: t) d = if x = d then m else get t d := rfl

theorem get_eq_zero_of_not_mem {z : ZSet D} {d : D} (h : d ∉ z.map Prod.fst) : get z d = 0 := by
  induction z with
  | nil => rfl
  | cons p t ih =>
    obtain ⟨x, m⟩ := p
    simp only [List.map_cons, List.mem_cons, not_or] at h
    rw [get_cons, if_neg (fun e => h.1 e.symm), ih h.2]

theorem WF.nil : WF ([] : ZSet D) := by simp [WF]

theorem WF.tail {p : D × Int} {t : ZSet D} (h : WF (p :: t)) : WF t := by
  obtain ⟨h1, h2⟩ := h
  exact ⟨(List.nodup_cons.mp h1).2, fun q hq => h2 q (List.mem_cons_of_mem _ hq)⟩

theorem WF.not_mem {x : D} {m : Int} {t : ZSet D} (h : WF ((x, m) :: t)) : x ∉ t.map Prod.fst :=
  (List.nodup_cons.mp h.1).1

theorem WF.ne {x : D} {m : Int} {t : ZSet D} (h : WF ((x, m) :: t)) : m ≠ 0 :=
  h.2 (x, m) (List.mem_cons_self ..)

theorem WF.get_tail {x : D} {m : Int} {t : ZSet D} (h : WF ((x, m) :: t)) : get t x = 0 :=
  get_eq_zero_of_not_mem h.not_mem

theorem get_upd {z : ZSet D} (h : WF z) (d : D) (c : Int) (x : D) :
    get (upd z d c) x = get z x + if d = x then c else 0 := by
  induction z with
  | nil => simp [upd, get_cons]
  | cons p t ih =>
    obtain ⟨y, m⟩ := p
    have ih := ih h.tail
    unfold upd
    by_cases hy : y = d
    · subst hy
      rw [if_pos rfl]
      by_cases h0 : m + c = 0
      · rw [if_pos h0, get_cons]
        by_cases hx : y = x
        · subst hx; simp [h.get_tail]; omega
        · simp [hx]
      · rw [if_neg h0, get_cons, get_cons]
        by_cases hx : y = x <;> simp [hx]
    · rw [if_neg hy, get_cons, get_cons, ih]
      by_cases hx : y = x
      · subst hx
        have : ¬ d = y := fun e => hy e.symm
        simp [this]
      · simp [hx]

theorem get_addDoc {z : ZSet D} (h : WF z) (d : D) (c : Int) (x : D) :
    get (addDoc z d c) x = get z x + if d = x then c else 0 := by
  unfold addDoc
  by_cases h0 : c = 0
  · subst h0; simp
  · rw [if_neg h0, get_upd h]

theorem mem_fst_upd {z : ZSet D} {d : D} {c : Int} {x : D} (h : x ∈ (upd z d c).map Prod.fst) :
    x = d ∨ x ∈ z.map Prod.fst := by
  induction z with
  | nil => simp [upd] at h; exact Or.inl h
  | cons p t ih =>
    obtain ⟨y, m⟩ := p
    unfold upd at h
    split at h
    · split at h
      · exact Or.inr (by simp only [List.map_cons, List.mem_cons]; exact Or.inr h)
      · simp only [List.map_cons, List.mem_cons] at h ⊢
        rcases h with h | h <;> grind
    · simp only [List.map_cons, List.mem_cons] at h ⊢
      grind

theorem WF.upd {z : ZSet D} (h : WF z) (d : D) {c : Int} (hc : c ≠ 0) : WF (upd z d c) := by
  induction z with
  | nil => simp [ZSet.upd, WF, hc]
  | cons p t ih =>
    obtain ⟨y, m⟩ := p
    have ih := ih h.tail
    unfold ZSet.upd
    split
    · split
      · exact h.tail
      · rename_i h0
        refine ⟨by simpa using h.1, ?_⟩
        intro q hq
        rcases List.mem_cons.mp hq with rfl | hq
        · exact h0
        · exact h.2 q (List.mem_cons_of_mem _ hq)
    · rename_i hy
      refine ⟨?_, ?_⟩
      · rw [List.map_cons, List.nodup_cons]
        refine ⟨fun hm => ?_, ih.1⟩
        rcases mem_fst_upd hm with h1 | h1
        · exact hy h1
        · exact h.not_mem h1
      · intro q hq
        rcases List.mem_cons.mp hq with rfl | hq
        · exact h.ne
        · exact ih.2 q hq

theorem WF.addDoc {z : ZSet D} (h : WF z) (d : D) (c : Int) : WF (addDoc z d c) := by
  unfold ZSet.addDoc; split
  · exact h
  · rename_i hc; exact h.upd d hc

theorem mem_fst_addDoc {z : ZSet D} {d : D} {c : Int} {x : D}
    (h : x ∈ (addDoc z d c).map Prod.fst) : x = d ∨ x ∈ z.map Prod.fst := by
  unfold addDoc at h; split at h
  · exact Or.inr h
  · exact mem_fst_upd h

theorem wsum_upd (g : D → Int) (z : ZSet D) (d : D) (c : Int) :
    wsum g (upd z d c) = wsum g z + c * g d := by
  induction z with
  | nil => simp [upd, wsum]
  | cons p t ih =>
    obtain ⟨y, m⟩ := p
    unfold upd
    split
    · rename_i hy
      subst hy
      split
      · rename_i h0
        have : m * g y + c * g y = 0 := by rw [← Int.add_mul, h0, Int.zero_mul]
        simp only [wsum]; omega
      · simp only [wsum, Int.add_mul]; omega
    · simp only [wsum, ih]; omega

theorem wsum_addDoc (g : D → Int) (z : ZSet D) (d : D) (c : Int) :
    wsum g (addDoc z d c) = wsum g z + c * g d := by
  unfold addDoc; split
  · subst_vars; simp
  · exact wsum_upd g z d c

theorem wsum_add (g : D → Int) (z w : ZSet D) : wsum g (add z w) = wsum g z + wsum g w := by
  unfold add
  induction w generalizing z with
  | nil => simp [wsum]
  | cons p t ih =>
    simp only [List.foldl_cons, ih, wsum_addDoc]
    obtain ⟨y, m⟩ := p
    simp only [wsum]; omega

theorem wsum_sub (g : D → Int) (z w : ZSet D) : wsum g (sub z w) = wsum g z - wsum g w := by
  unfold sub
  induction w generalizing z with
  | nil => simp [wsum]
  | cons p t ih =>
    simp only [List.foldl_cons, ih, wsum_addDoc]
    obtain ⟨y, m⟩ := p
    simp only [wsum, Int.neg_mul]; omega

theorem WF.add {z : ZSet D} (h : WF z) (w : ZSet D) : WF (add z w) := by
  unfold ZSet.add
  induction w generalizing z with
  | nil => exact h
  | cons p t ih => exact ih (h.addDoc _ _)

theorem WF.sub {z : ZSet D} (h : WF z) (w : ZSet D) : WF (sub z w) := by
  unfold ZSet.sub
  induction w generalizing z with
  | nil => exact h
  | cons p t ih => exact ih (h.addDoc _ _)

theorem get_add {z w : ZSet D} (h : WF z) (hw : WF w) (x : D) :
    get (add z w) x = get z x + get w x := by
  unfold add
  induction w generalizing z with
  | nil => simp
  | cons p t ih =>
    obtain ⟨y, m⟩ := p
    rw [List.foldl_cons, ih (h.addDoc _ _) hw.tail, get_addDoc h, get_cons]
    by_cases hx : y = x
    · subst hx; simp [hw.get_tail]
    · simp [hx]

theorem get_sub {z w : ZSet D} (h : WF z) (hw : WF w) (x : D) :
    get (sub z w) x = get z x - get w x := by
  unfold sub
  induction w generalizing z with
  | nil => simp
  | cons p t ih =>
    obtain ⟨y, m⟩ := p
    rw [List.foldl_cons, ih (h.addDoc _ _) hw.tail, get_addDoc h, get_cons]
    by_cases hx : y = x
    · subst hx; simp [hw.get_tail]; omega
    · simp [hx]

theorem mem_fst_add {z w : ZSet D} {x : D} (h : x ∈ (add z w).map Prod.fst) :
    x ∈ z.map Prod.fst ∨ x ∈ w.map Prod.fst := by
  unfold add at h
  induction w generalizing z with
  | nil => exact Or.inl h
  | cons p t ih =>
    rcases ih h with h | h
    · rcases mem_fst_addDoc h with h | h
      · exact Or.inr (by simp [h])
      · exact Or.inl h
    · exact Or.inr (by rw [List.map_cons]; exact List.mem_cons_of_mem _ h)

theorem mem_iff_get {z : ZSet D} (h : WF z) (d : D) (m : Int) :
    (d, m) ∈ z ↔ get z d = m ∧ m ≠ 0 := by
  induction z with
  | nil => simp; intro h; exact h.symm
  | cons p t ih =>
    obtain ⟨y, k⟩ := p
    rw [List.mem_cons, get_cons, ih h.tail]
    by_cases hy : y = d
    · subst hy
      have h0 := h.get_tail
      have hk := h.ne
      simp only [Prod.mk.injEq, true_and, if_true]
      constructor
      · rintro (rfl | ⟨h1, h2⟩)
        · exact ⟨rfl, hk⟩
        · omega
      · rintro ⟨rfl, _⟩; exact Or.inl rfl
    · have : ¬ d = y := fun e => hy e.symm
      simp [hy, this]

theorem mem_fst_iff_get {z : ZSet D} (h : WF z) (d : D) :
    d ∈ z.map Prod.fst ↔ get z d ≠ 0 := by
  constructor
  · intro hm
    obtain ⟨⟨x, m⟩, hp, rfl⟩ := List.mem_map.mp hm
    have := (mem_iff_get h x m).mp hp
    simp only; rw [this.1]; exact this.2
  · intro h0
    exact List.mem_map.mpr ⟨(d, get z d), (mem_iff_get h d _).mpr ⟨rfl, h0⟩, rfl⟩

theorem WF.nodup {z : ZSet D} (h : WF z) : z.Nodup := by
  have h1 := h.1
  rw [List.nodup_iff_pairwise_ne, List.pairwise_map] at h1
  rw [List.nodup_iff_pairwise_ne]
  exact h1.imp (fun hne e => hne (congrArg _ e))

theorem WF.perm {z w : ZSet D} (h : WF z) (hp : z.Perm w) : WF w :=
  ⟨(hp.map Prod.fst).nodup_iff.mp h.1, fun p hm => h.2 p (hp.mem_iff.mpr hm)⟩

theorem get_perm {z w : ZSet D} (h : WF z) (hp : z.Perm w) : Eqv z w := by
  intro d
  have hw := h.perm hp
  by_cases h0 : get z d = 0
  · by_cases h1 : get w d = 0
    · omega
    · have := (mem_iff_get hw d (get w d)).mpr ⟨rfl, h1⟩
      have := (mem_iff_get h d (get w d)).mp (hp.mem_iff.mpr this)
      exact this.1
  · have := (mem_iff_get h d (get z d)).mpr ⟨rfl, h0⟩
    have := (mem_iff_get hw d (get z d)).mp (hp.mem_iff.mp this)
    exact this.1.symm

theorem perm_of_eqv {z w : ZSet D} (h : WF z) (hw : WF w) (he : Eqv z w) : z.Perm w := by
  rw [List.perm_ext_iff_of_nodup h.nodup hw.nodup]
  rintro ⟨d, m⟩
  rw [mem_iff_get h, mem_iff_get hw, he d]

theorem eqv_iff_perm {z w : ZSet D} (h : WF z) (hw : WF w) : Eqv z w ↔ z.Perm w :=
  ⟨perm_of_eqv h hw, get_perm h⟩

theorem wsum_perm (g : D → Int) {z w : ZSet D} (hp : z.Perm w) : wsum g z = wsum g w := by
  induction hp with
  | nil => rfl
  | cons p _ ih => obtain ⟨x, m⟩ := p; simp [wsum, ih]
  | swap p q t => obtain ⟨x, m⟩ := p; obtain ⟨y, k⟩ := q; simp only [wsum]; omega
  | trans _ _ ih1 ih2 => exact ih1.trans ih2

theorem wsum_eqv (g : D → Int) {z w : ZSet D} (h : WF z) (hw : WF w) (he : Eqv z w) :
    wsum g z = wsum g w := wsum_perm g (perm_of_eqv h hw he)

/-- The multiplicity as a weighted sum of an indicator. -/
theorem wsum_ind {z : ZSet D} (h : WF z) (d : D) :
    wsum (fun x => if x = d then 1 else 0) z = get z d := by
  induction z with
  | nil => rfl
  | cons p t ih =>
    obtain ⟨x, m⟩ := p
    simp only [wsum, get_cons, ih h.tail]
    by_cases hx : x = d
    · subst hx; simp [h.get_tail]
    · simp [hx]

theorem wsum_congr {g g' : D → Int} {z : ZSet D} (h : ∀ d ∈ z.map Prod.fst, g d = g' d) :
    wsum g z = wsum g' z := by
  induction z with
  | nil => rfl
  | cons p t ih =>
    obtain ⟨x, m⟩ := p
    simp only [wsum]
    rw [h x (by simp), ih (fun d hd => h d (by rw [List.map_cons]; exact List.mem_cons_of_mem _ hd))]

theorem wsum_zero (z : ZSet D) : wsum (fun _ => 0) z = 0 := by
  induction z with
  | nil => rfl
  | cons p t ih => obtain ⟨x, m⟩ := p; simp [wsum, ih]

theorem wsum_mul (c : Int) (g : D → Int) (z : ZSet D) :
    wsum (fun d => c * g d) z = c * wsum g z := by
  induction z with
  | nil => simp [wsum]
  | cons p t ih =>
    obtain ⟨x, m⟩ := p
    simp only [wsum, ih, Int.mul_add]
    congr 1
    rw [← Int.mul_assoc, ← Int.mul_assoc, Int.mul_comm m c]

theorem wsum_fun_add (g g' : D → Int) (z : ZSet D) :
    wsum (fun d => g d + g' d) z = wsum g z + wsum g' z := by
  induction z with
  | nil => simp [wsum]
  | cons p t ih =>
    obtain ⟨x, m⟩ := p
    simp only [wsum, ih, Int.mul_add]; omega

theorem add_eqv {z z' w w' : ZSet D} (hz : WF z) (hz' : WF z') (hw : WF w) (hw' : WF w')
    (h1 : Eqv z z') (h2 : Eqv w w') : Eqv (add z w) (add z' w') := by
  intro d; rw [get_add hz hw, get_add hz' hw', h1 d, h2 d]

theorem sub_eqv {z z' w w' : ZSet D} (hz : WF z) (hz' : WF z') (hw : WF w) (hw' : WF w')
    (h1 : Eqv z z') (h2 : Eqv w w') : Eqv (sub z w) (sub z' w') := by
  intro d; rw [get_sub hz hw, get_sub hz' hw', h1 d, h2 d]

theorem eqv_nil {z : ZSet D} (h : WF z) : Eqv z [] ↔ z = [] := by
  constructor
  · intro he; exact (perm_of_eqv h WF.nil he).eq_nil
  · rintro rfl; exact Eqv.refl _

end ZSet
end Dctl
