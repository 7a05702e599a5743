/-!
# Association lists as finite maps

Model of a Go `map[K]V`: a list of entries with distinct keys. Used for every map of the code that is not a
Z-set.
-/
set_option autoImplicit false
namespace Dctl

/-- A Go map; the list order is the (unspecified) iteration order. -/
abbrev AMap (K V : Type) := List (K × V)

namespace AMap
variable {K V : Type} [DecidableEq K]

/-- Go `v, ok := m[k]`. -/
def get : AMap K V → K → Option V
  | [], _ => none
  | (k', v) :: t, k => if k' = k then some v else get t k

/-- Go `m[k] = v`. -/
def set : AMap K V → K → V → AMap K V
  | [], k, v => [(k, v)]
  | (k', v') :: t, k, v => if k' = k then (k, v) :: t else (k', v') :: set t k v

/-- Go `delete(m, k)`. -/
def erase : AMap K V → K → AMap K V
  | [], _ => []
  | (k', v') :: t, k => if k' = k then t else (k', v') :: erase t k

/-- Distinct keys. -/
def WF (m : AMap K V) : Prop := (m.map Prod.fst).Nodup

theorem get_none_iff {m : AMap K V} {k : K} : get m k = none ↔ k ∉ m.map Prod.fst := by
  induction m with
  | nil => simp [get]
  | cons p t ih =>
    obtain ⟨k', v⟩ := p
    by_cases h : k' = k
    · simp [get, h]
    · have h' : k ≠ k' := fun e => h e.symm
      simp [get, h, ih, h']

theorem get_of_mem {m : AMap K V} (h : WF m) {k : K} {v : V} (hm : (k, v) ∈ m) : get m k = some v := by
  induction m with
  | nil => simp at hm
  | cons p t ih =>
    obtain ⟨k', v'⟩ := p
    simp only [WF, List.map_cons, List.nodup_cons] at h
    rcases List.mem_cons.mp hm with e | hm
    · simp only [Prod.mk.injEq] at e; simp [get, e.1, e.2]
    · have : k' ≠ k := by
        rintro rfl
        exact h.1 (List.mem_map.mpr ⟨_, hm, rfl⟩)
      simp [get, this, ih h.2 hm]

theorem mem_of_get {m : AMap K V} {k : K} {v : V} (hm : get m k = some v) : (k, v) ∈ m := by
  induction m with
  | nil => simp [get] at hm
  | cons p t ih =>
    obtain ⟨k', v'⟩ := p
    by_cases h : k' = k
    · simp [get, h] at hm; simp [h, hm]
    · simp [get, h] at hm; exact List.mem_cons_of_mem _ (ih hm)

theorem get_iff_mem {m : AMap K V} (h : WF m) {k : K} {v : V} : get m k = some v ↔ (k, v) ∈ m :=
  ⟨mem_of_get, get_of_mem h⟩

theorem get_set (m : AMap K V) (k : K) (v : V) (k' : K) :
    get (set m k v) k' = if k = k' then some v else get m k' := by
  induction m with
  | nil => simp [set, get]
  | cons p t ih =>
    obtain ⟨k1, v1⟩ := p
    by_cases h : k1 = k
    · subst h; by_cases h' : k1 = k' <;> simp [set, get, h']
    · by_cases h' : k1 = k'
      · subst h'
        have : k ≠ k1 := fun e => h e.symm
        simp [set, get, h, this]
      · simp [set, get, h, h', ih]

theorem set_keys (m : AMap K V) (k : K) (v : V) {k' : K} :
    k' ∈ (set m k v).map Prod.fst ↔ k' = k ∨ k' ∈ m.map Prod.fst := by
  induction m with
  | nil => simp [set]
  | cons p t ih =>
    obtain ⟨k1, v1⟩ := p
    by_cases h : k1 = k
    · subst h; simp [set]
    · simp only [set, h, if_false, List.map_cons, List.mem_cons, ih]; grind

theorem WF.set {m : AMap K V} (h : WF m) (k : K) (v : V) : WF (set m k v) := by
  induction m with
  | nil => simp [WF, AMap.set]
  | cons p t ih =>
    obtain ⟨k1, v1⟩ := p
    simp only [WF, List.map_cons, List.nodup_cons] at h
    by_cases h1 : k1 = k
    · subst h1; simpa [WF, AMap.set] using h
    · simp only [AMap.set, h1, if_false, WF, List.map_cons, List.nodup_cons]
      refine ⟨?_, ih h.2⟩
      rw [set_keys]
      rintro (e | e)
      · exact h1 e
      · exact h.1 e

theorem erase_keys_sub (m : AMap K V) (k : K) {k' : K} (h : k' ∈ (erase m k).map Prod.fst) : k' ∈ m.map Prod.fst := by
  induction m with
  | nil => exact h
  | cons p t ih =>
    obtain ⟨k1, v1⟩ := p
    by_cases h1 : k1 = k
    · simp only [erase, h1, if_true] at h; simp only [List.map_cons, List.mem_cons]; exact Or.inr h
    · simp only [erase, h1, if_false, List.map_cons, List.mem_cons] at h ⊢
      rcases h with h | h
      · exact Or.inl h
      · exact Or.inr (ih h)

theorem WF.erase {m : AMap K V} (h : WF m) (k : K) : WF (erase m k) := by
  induction m with
  | nil => exact h
  | cons p t ih =>
    obtain ⟨k1, v1⟩ := p
    simp only [WF, List.map_cons, List.nodup_cons] at h
    by_cases h1 : k1 = k
    · simp only [AMap.erase, h1, if_true]; exact h.2
    · simp only [AMap.erase, h1, if_false, WF, List.map_cons, List.nodup_cons]
      exact ⟨fun e => h.1 (erase_keys_sub t k e), ih h.2⟩

theorem get_erase {m : AMap K V} (h : WF m) (k k' : K) : get (erase m k) k' = if k = k' then none else get m k' := by
  induction m with
  | nil => simp [erase, get]
  | cons p t ih =>
    obtain ⟨k1, v1⟩ := p
    simp only [WF, List.map_cons, List.nodup_cons] at h
    by_cases h1 : k1 = k
    · subst h1
      by_cases h2 : k1 = k'
      · subst h2; simp [erase, get_none_iff.mpr h.1]
      · simp [erase, get, h2]
    · by_cases h2 : k1 = k'
      · subst h2
        have : k ≠ k1 := fun e => h1 e.symm
        simp [erase, get, h1, this]
      · simp [erase, get, h1, h2, ih h.2]

omit [DecidableEq K] in
theorem WF.perm {m m' : AMap K V} (h : WF m) (hp : m.Perm m') : WF m' :=
  (hp.map Prod.fst).nodup_iff.mp h

theorem get_perm {m m' : AMap K V} (h : WF m) (hp : m.Perm m') (k : K) : get m k = get m' k := by
  cases hg : get m k with
  | some v => exact (get_of_mem (h.perm hp) (hp.subset (mem_of_get hg))).symm
  | none =>
    refine (get_none_iff.mpr fun hk => ?_).symm
    exact get_none_iff.mp hg ((hp.map Prod.fst).mem_iff.mpr hk)

end AMap
end Dctl
