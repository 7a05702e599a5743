/-!
# JSON values

Model of the values of a Go `any` holding unstructured content: `nil`, `bool`, `int64`, `float64`, `string`, `[]any`, `map[string]any`.
-/
set_option autoImplicit false
namespace Dctl

/-- `pkg/dbsp/document.go:8-10`, `pkg/object/utils.go:88-107`: the dynamic values of unstructured content. An `int64` is an
integer (no overflow), a `float64` is the rational number it denotes (NaN, infinities and negative zero are left out), a string is a
sequence of Unicode scalar values (strings with invalid UTF-8 are left out). A Go map has no order; it is the list of its entries sorted
by key, see `Json.Canon`. -/
inductive Json where
  | null
  | bool (b : Bool)
  | int (i : Int)
  | float (f : Rat)
  | str (s : String)
  | list (l : List Json)
  | map (m : List (String × Json))
deriving Repr

mutual
/-- Decidable equality, used for Go's `reflect.DeepEqual`. -/
def Json.decEq : (a b : Json) → Decidable (a = b)
  | .null, .null => isTrue rfl
  | .bool a, .bool b => if h : a = b then isTrue (h ▸ rfl) else isFalse (by simp [h])
  | .int a, .int b => if h : a = b then isTrue (h ▸ rfl) else isFalse (by simp [h])
  | .float a, .float b => if h : a = b then isTrue (h ▸ rfl) else isFalse (by simp [h])
  | .str a, .str b => if h : a = b then isTrue (h ▸ rfl) else isFalse (by simp [h])
  | .list a, .list b =>
    match Json.decEqL a b with
    | isTrue h => isTrue (h ▸ rfl)
    | isFalse h => isFalse (by simp [h])
  | .map a, .map b =>
    match Json.decEqM a b with
    | isTrue h => isTrue (h ▸ rfl)
    | isFalse h => isFalse (by simp [h])
  | .null, .bool _ | .null, .int _ | .null, .float _ | .null, .str _ | .null, .list _ | .null, .map _
  | .bool _, .null | .bool _, .int _ | .bool _, .float _ | .bool _, .str _ | .bool _, .list _ | .bool _, .map _
  | .int _, .null | .int _, .bool _ | .int _, .float _ | .int _, .str _ | .int _, .list _ | .int _, .map _
  | .float _, .null | .float _, .bool _ | .float _, .int _ | .float _, .str _ | .float _, .list _ | .float _, .map _
  | .str _, .null | .str _, .bool _ | .str _, .int _ | .str _, .float _ | .str _, .list _ | .str _, .map _
  | .list _, .null | .list _, .bool _ | .list _, .int _ | .list _, .float _ | .list _, .str _ | .list _, .map _
  | .map _, .null | .map _, .bool _ | .map _, .int _ | .map _, .float _ | .map _, .str _ | .map _, .list _ => isFalse (by simp)
/-- Decidable equality of lists. -/
def Json.decEqL : (a b : List Json) → Decidable (a = b)
  | [], [] => isTrue rfl
  | x :: a, y :: b =>
    match Json.decEq x y with
    | isTrue h =>
      match Json.decEqL a b with
      | isTrue h' => isTrue (h ▸ h' ▸ rfl)
      | isFalse h' => isFalse (by simp [h'])
    | isFalse h => isFalse (by simp [h])
  | [], _ :: _ => isFalse (by simp)
  | _ :: _, [] => isFalse (by simp)
/-- Decidable equality of maps. -/
def Json.decEqM : (a b : List (String × Json)) → Decidable (a = b)
  | [], [] => isTrue rfl
  | (k, x) :: a, (k', y) :: b =>
    if hk : k = k' then
      match Json.decEq x y with
      | isTrue h =>
        match Json.decEqM a b with
        | isTrue h' => isTrue (h ▸ h' ▸ hk ▸ rfl)
        | isFalse h' => isFalse (by simp [h'])
      | isFalse h => isFalse (by simp [h])
    else isFalse (by simp [hk])
  | [], _ :: _ => isFalse (by simp)
  | _ :: _, [] => isFalse (by simp)
end

instance : DecidableEq Json := Json.decEq

/-- Induction over JSON values. -/
theorem Json.ind {P : Json → Prop} (null : P .null) (bool : ∀ b, P (.bool b)) (int : ∀ i, P (.int i)) (float : ∀ f, P (.float f))
    (str : ∀ s, P (.str s)) (list : ∀ l, (∀ x ∈ l, P x) → P (.list l)) (map : ∀ m, (∀ kv ∈ m, P kv.2) → P (.map m)) : ∀ j, P j := by
  intro j
  exact Json.rec (motive_1 := P) (motive_2 := fun l => ∀ x ∈ l, P x) (motive_3 := fun m => ∀ kv ∈ m, P kv.2) (motive_4 := fun kv => P kv.2)
    null bool int float str list map (by simp)
    (fun x l hx hl y hy => (List.mem_cons.mp hy).elim (fun e => e ▸ hx) (hl y)) (by simp)
    (fun kv m h1 h2 y hy => (List.mem_cons.mp hy).elim (fun e => e ▸ h1) (h2 y))
    (fun _ _ h => h) j

/-! ### sorted maps with string keys -/

/-- A Go `map[string]V`, as its entries in key order. -/
abbrev SMap (V : Type) := List (String × V)

namespace SMap
variable {V : Type}

/-- Go `v, ok := m[k]`. -/
def get : SMap V → String → Option V
  | [], _ => none
  | (k', v) :: t, k => if k' = k then some v else get t k

/-- Go `m[k] = v`. -/
def set : SMap V → String → V → SMap V
  | [], k, v => [(k, v)]
  | (k', v') :: t, k, v => if k < k' then (k, v) :: (k', v') :: t else if k' = k then (k, v) :: t else (k', v') :: set t k v

/-- Go `delete(m, k)`. -/
def erase : SMap V → String → SMap V
  | [], _ => []
  | (k', v') :: t, k => if k' = k then t else (k', v') :: erase t k

/-- Entries strictly sorted by key: every Go map has exactly one such list. -/
def Sorted (m : SMap V) : Prop := m.Pairwise (fun a b => a.1 < b.1)

instance (m : SMap V) : Decidable m.Sorted := inferInstanceAs (Decidable (m.Pairwise _))

theorem get_eq_none_of_lt {m : SMap V} {k : String} (h : ∀ p ∈ m, k < p.1) : get m k = none := by
  induction m with
  | nil => rfl
  | cons p t ih =>
    obtain ⟨k', v⟩ := p
    have h1 : k < k' := h (k', v) (by simp)
    have : k' ≠ k := by grind
    simp only [get, this, if_false]
    exact ih (fun p hp => h p (List.mem_cons_of_mem _ hp))

theorem mem_of_get {m : SMap V} {k : String} {v : V} (h : get m k = some v) : (k, v) ∈ m := by
  induction m with
  | nil => simp [get] at h
  | cons p t ih =>
    obtain ⟨k', v'⟩ := p
    simp only [get] at h
    split at h
    · rename_i e; subst e; simp at h; simp [h]
    · exact List.mem_cons_of_mem _ (ih h)

theorem get_of_mem {m : SMap V} (hs : m.Sorted) {k : String} {v : V} (h : (k, v) ∈ m) : get m k = some v := by
  induction m with
  | nil => simp at h
  | cons p t ih =>
    obtain ⟨k', v'⟩ := p
    have hs' := List.pairwise_cons.mp hs
    rcases List.mem_cons.mp h with e | h
    · simp only [Prod.mk.injEq] at e; simp [get, e.1, e.2]
    · have : k' < k := hs'.1 _ h
      have : k' ≠ k := by grind
      simp [get, this, ih hs'.2 h]

theorem mem_iff_get {m : SMap V} (hs : m.Sorted) {k : String} {v : V} : (k, v) ∈ m ↔ get m k = some v :=
  ⟨get_of_mem hs, mem_of_get⟩

theorem sorted_nil : Sorted ([] : SMap V) := List.Pairwise.nil

/-- Two sorted maps with the same entries are equal. -/
theorem ext {a b : SMap V} (ha : a.Sorted) (hb : b.Sorted) (h : ∀ k, get a k = get b k) : a = b := by
  induction a generalizing b with
  | nil =>
    cases b with
    | nil => rfl
    | cons p t => obtain ⟨k, v⟩ := p; have := h k; simp [get] at this
  | cons p t ih =>
    obtain ⟨k, v⟩ := p
    cases b with
    | nil => have := h k; simp [get] at this
    | cons q s =>
      obtain ⟨k', v'⟩ := q
      have ha' := List.pairwise_cons.mp ha
      have hb' := List.pairwise_cons.mp hb
      have hk : k = k' := by
        by_cases h1 : k < k'
        · have := h k
          rw [get_eq_none_of_lt (m := (k', v') :: s)] at this
          · simp [get] at this
          · intro p hp
            rcases List.mem_cons.mp hp with rfl | hp
            · exact h1
            · exact String.lt_trans h1 (hb'.1 p hp)
        · by_cases h2 : k' < k
          · have := h k'
            rw [get_eq_none_of_lt (m := (k, v) :: t)] at this
            · simp [get] at this
            · intro p hp
              rcases List.mem_cons.mp hp with rfl | hp
              · exact h2
              · exact String.lt_trans h2 (ha'.1 p hp)
          · grind
      subst hk
      have hv : v = v' := by have := h k; simpa [get] using this
      subst hv
      congr 1
      apply ih ha'.2 hb'.2
      intro x
      by_cases hx : k = x
      · subst hx
        rw [get_eq_none_of_lt (fun p hp => ha'.1 p hp), get_eq_none_of_lt (fun p hp => hb'.1 p hp)]
      · have := h x
        simpa [get, hx] using this

theorem get_set (m : SMap V) (hs : m.Sorted) (k k' : String) (v : V) : get (set m k v) k' = if k = k' then some v else get m k' := by
  induction m with
  | nil => simp [set, get]
  | cons p t ih =>
    obtain ⟨x, w⟩ := p
    have hs' := List.pairwise_cons.mp hs
    simp only [set]
    split
    · simp [get]
    · split
      · rename_i e; subst e; simp only [get]; split <;> rfl
      · simp only [get, ih hs'.2]
        split
        · rename_i e1 e2 e3; subst e3; have : k ≠ x := fun e => e2 e.symm; simp [this]
        · rfl

theorem mem_set {m : SMap V} {k : String} {v : V} {p : String × V} (h : p ∈ set m k v) : p = (k, v) ∨ p ∈ m := by
  induction m with
  | nil => simp only [set, List.mem_singleton] at h; exact .inl h
  | cons q t ih =>
    obtain ⟨x, w⟩ := q
    simp only [set] at h
    split at h
    · rcases List.mem_cons.mp h with h | h
      · exact .inl h
      · exact .inr h
    · split at h
      · rcases List.mem_cons.mp h with h | h
        · exact .inl h
        · exact .inr (List.mem_cons_of_mem _ h)
      · rcases List.mem_cons.mp h with h | h
        · exact .inr (by simp [h])
        · rcases ih h with h | h
          · exact .inl h
          · exact .inr (List.mem_cons_of_mem _ h)

theorem Sorted.set {m : SMap V} (hs : m.Sorted) (k : String) (v : V) : (SMap.set m k v).Sorted := by
  induction m with
  | nil => simp [SMap.set, Sorted]
  | cons q t ih =>
    obtain ⟨x, w⟩ := q
    have hs' := List.pairwise_cons.mp hs
    simp only [SMap.set]
    split
    · rename_i h
      refine List.pairwise_cons.mpr ⟨?_, hs⟩
      intro p hp
      rcases List.mem_cons.mp hp with rfl | hp
      · exact h
      · exact String.lt_trans h (hs'.1 p hp)
    · split
      · rename_i e; subst e
        exact List.pairwise_cons.mpr ⟨fun p hp => hs'.1 p hp, hs'.2⟩
      · refine List.pairwise_cons.mpr ⟨?_, ih hs'.2⟩
        intro p hp
        rcases mem_set hp with rfl | hp
        · simp only; grind
        · exact hs'.1 p hp

theorem mem_erase {m : SMap V} {k : String} {p : String × V} (h : p ∈ erase m k) : p ∈ m := by
  induction m with
  | nil => simp [erase] at h
  | cons q t ih =>
    obtain ⟨x, w⟩ := q
    simp only [erase] at h
    split at h
    · exact List.mem_cons_of_mem _ h
    · rcases List.mem_cons.mp h with h | h
      · simp [h]
      · exact List.mem_cons_of_mem _ (ih h)

theorem Sorted.erase {m : SMap V} (hs : m.Sorted) (k : String) : (SMap.erase m k).Sorted := by
  induction m with
  | nil => simp [SMap.erase, Sorted]
  | cons q t ih =>
    obtain ⟨x, w⟩ := q
    have hs' := List.pairwise_cons.mp hs
    simp only [SMap.erase]
    split
    · exact hs'.2
    · exact List.pairwise_cons.mpr ⟨fun p hp => hs'.1 p (mem_erase hp), ih hs'.2⟩

theorem get_erase (m : SMap V) (hs : m.Sorted) (k k' : String) : get (erase m k) k' = if k = k' then none else get m k' := by
  induction m with
  | nil => simp [erase, get]
  | cons p t ih =>
    obtain ⟨x, w⟩ := p
    have hs' := List.pairwise_cons.mp hs
    simp only [erase]
    split
    · rename_i e; subst e
      by_cases h : x = k'
      · subst h; simp [get_eq_none_of_lt (fun p hp => hs'.1 p hp)]
      · simp [get, h]
    · simp only [get, ih hs'.2]
      split
      · rename_i e1 e2; subst e2; have : k ≠ x := fun e => e1 e.symm; simp [this]
      · rfl

/-- Apply `f` to all values. -/
def mapVal {W : Type} (f : V → W) (m : SMap V) : SMap W := List.map (fun p => (p.1, f p.2)) m

theorem get_mapVal {W : Type} (f : V → W) (m : SMap V) (k : String) : get (mapVal f m) k = (get m k).map f := by
  induction m with
  | nil => rfl
  | cons p t ih =>
    obtain ⟨x, w⟩ := p
    have ih' : get (List.map (fun p => (p.1, f p.2)) t) k = (get t k).map f := ih
    simp only [mapVal, List.map_cons, get]
    split
    · rfl
    · exact ih'

theorem Sorted.mapVal {W : Type} (f : V → W) {m : SMap V} (hs : m.Sorted) : (SMap.mapVal f m).Sorted := by
  unfold SMap.mapVal Sorted
  rw [List.pairwise_map]
  exact hs

end SMap

/-! ### canonical values -/

mutual
/-- All maps inside are sorted by key. Every Go value is modelled by exactly one canonical value. -/
def Json.Canon : Json → Prop
  | .list l => Json.CanonL l
  | .map m => SMap.Sorted m ∧ Json.CanonM m
  | _ => True
/-- Canonical elements. -/
def Json.CanonL : List Json → Prop
  | [] => True
  | x :: l => x.Canon ∧ Json.CanonL l
/-- Canonical map values. -/
def Json.CanonM : List (String × Json) → Prop
  | [] => True
  | (_, x) :: m => x.Canon ∧ Json.CanonM m
end

theorem Json.canonL_iff (l : List Json) : Json.CanonL l ↔ ∀ x ∈ l, x.Canon := by
  induction l with
  | nil => simp [Json.CanonL]
  | cons x l ih => simp [Json.CanonL, ih]

theorem Json.canonM_iff (m : List (String × Json)) : Json.CanonM m ↔ ∀ p ∈ m, p.2.Canon := by
  induction m with
  | nil => simp [Json.CanonM]
  | cons p m ih => obtain ⟨k, x⟩ := p; simp [Json.CanonM, ih]

theorem Json.canon_list {l : List Json} : (Json.list l).Canon ↔ ∀ x ∈ l, x.Canon := by
  simp only [Json.Canon, Json.canonL_iff]

theorem Json.canon_map {m : SMap Json} : (Json.map m).Canon ↔ m.Sorted ∧ ∀ p ∈ m, p.2.Canon := by
  simp only [Json.Canon, Json.canonM_iff]

mutual
/-- Decide `Canon`. -/
def Json.decCanon : (j : Json) → Decidable j.Canon
  | .list l => Json.decCanonL l
  | .map m => @instDecidableAnd _ _ (inferInstanceAs (Decidable (SMap.Sorted m))) (Json.decCanonM m)
  | .null | .bool _ | .int _ | .float _ | .str _ => isTrue trivial
/-- Decide `CanonL`. -/
def Json.decCanonL : (l : List Json) → Decidable (Json.CanonL l)
  | [] => isTrue trivial
  | x :: l => @instDecidableAnd _ _ (Json.decCanon x) (Json.decCanonL l)
/-- Decide `CanonM`. -/
def Json.decCanonM : (m : List (String × Json)) → Decidable (Json.CanonM m)
  | [] => isTrue trivial
  | (_, x) :: m => @instDecidableAnd _ _ (Json.decCanon x) (Json.decCanonM m)
end

instance (j : Json) : Decidable j.Canon := Json.decCanon j

/-- Go `m, ok := v.(map[string]any)`. -/
def Json.asMap : Json → Option (SMap Json)
  | .map m => some m
  | _ => none

/-- The field `k` of a map; nothing for other values. -/
def Json.field (j : Json) (k : String) : Option Json :=
  match j with
  | .map m => SMap.get m k
  | _ => none

/-- The value at a path of map fields. -/
def Json.at : Json → List String → Option Json
  | j, [] => some j
  | j, k :: p =>
    match j.field k with
    | some v => v.at p
    | none => none

theorem Json.Canon.field {j v : Json} {k : String} (h : j.Canon) (hf : j.field k = some v) : v.Canon := by
  cases j <;> simp [Json.field] at hf
  exact (Json.canon_map.mp h).2 _ (SMap.mem_of_get hf)

theorem Json.Canon.set {m : SMap Json} (h : (Json.map m).Canon) {k : String} {v : Json} (hv : v.Canon) : (Json.map (SMap.set m k v)).Canon := by
  rw [Json.canon_map] at h ⊢
  refine ⟨h.1.set k v, fun p hp => ?_⟩
  rcases SMap.mem_set hp with rfl | hp
  · exact hv
  · exact h.2 p hp

theorem Json.Canon.erase {m : SMap Json} (h : (Json.map m).Canon) {k : String} : (Json.map (SMap.erase m k)).Canon := by
  rw [Json.canon_map] at h ⊢
  exact ⟨h.1.erase k, fun p hp => h.2 p (SMap.mem_erase hp)⟩

end Dctl
