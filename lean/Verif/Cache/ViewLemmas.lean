import Verif.Cache.View
import Verif.Cache.GroupLemmas
import Verif.Json.ObjectLemmas
/-!
# Lemmas about the view cache
-/
set_option autoImplicit false
set_option linter.unusedSectionVars false
namespace Dctl

theorem upd_same {A B : Type} [DecidableEq A] (f : A → B) (a : A) (b : B) : upd f a b a = b := if_pos rfl

theorem upd_other {A B : Type} [DecidableEq A] (f : A → B) {a x : A} (b : B) (h : x ≠ a) : upd f a b x = f x := if_neg h

/-! ## Copies and identity of objects -/

theorem view_group_ne {t : GVK} (h : isViewKind t = true) : t.group ≠ "" := by
  intro e
  simp only [isViewKind, e, Bool.and_eq_true] at h
  exact absurd h.1 (by decide)

theorem parse_gv {s g v : String} (h : parseGroupVersion s = some (g, v)) (hg : g ≠ "") : s = g ++ "/" ++ v := by
  unfold parseGroupVersion at h
  split at h
  · simp only [Option.some.injEq, Prod.mk.injEq] at h
    exact absurd h.1.symm hg
  · split at h
    · simp only [Option.some.injEq, Prod.mk.injEq] at h
      exact absurd h.1.symm hg
    · next hc =>
      simp only [Option.some.injEq, Prod.mk.injEq] at h
      obtain ⟨rfl, rfl⟩ := h
      apply String.toList_injective
      have h1 : '/' ∈ s.toList := List.count_pos_iff.mp (by omega)
      simp only [String.toList_append, String.toList_ofList]
      have : s.toList.dropWhile (fun c => decide (c ≠ '/')) = '/' :: (s.toList.dropWhile (fun c => decide (c ≠ '/'))).drop 1 := by
        cases hd : s.toList.dropWhile (fun c => decide (c ≠ '/')) with
        | nil =>
          have := List.takeWhile_append_dropWhile (p := fun c => decide (c ≠ '/')) (l := s.toList)
          rw [hd, List.append_nil] at this
          rw [← this] at h1
          have := List.all_eq_true.mp (List.all_takeWhile (p := fun c => decide (c ≠ '/')) (l := s.toList)) _ h1
          simp at this
        | cons a l =>
          have := List.head?_dropWhile_not (fun c => decide (c ≠ '/')) s.toList
          rw [hd] at this
          simp only [List.head?_cons] at this
          have ha : a = '/' := by simpa using this
          rw [ha]; rfl
      have h2 := List.takeWhile_append_dropWhile (p := fun c => decide (c ≠ '/')) (l := s.toList)
      rw [this] at h2
      rw [show "/".toList = ['/'] from by decide, List.append_assoc]
      exact h2.symm
    · cases h

theorem objGVK_apiVersion {o : Obj} (h : isViewKind (objGVK o) = true) : nestedString o ["apiVersion"] = gvString (objGVK o) := by
  have hg := view_group_ne h
  unfold objGVK at hg ⊢
  split
  · next g v hp =>
    rw [hp] at hg
    rw [gvString, if_neg hg]
    exact parse_gv hp hg
  · next hp => rw [hp] at hg; exact absurd rfl hg

theorem copyObj_canon {o : Obj} (hc : (Json.map o).Canon) : (Json.map (copyObj o)).Canon := setGVK_canon hc

theorem copyObj_get {o : Obj} (hc : (Json.map o).Canon) (k : String) : SMap.get (copyObj o) k =
    if k = "kind" then some (.str (objGVK o).kind) else if k = "apiVersion" then some (.str (gvString (objGVK o))) else SMap.get o k :=
  setGVK_get hc.sorted _ _

theorem copyObj_gvk {o : Obj} (hc : (Json.map o).Canon) (h : isViewKind (objGVK o) = true) : objGVK (copyObj o) = objGVK o := by
  have h1 : nestedString (copyObj o) ["apiVersion"] = nestedString o ["apiVersion"] := by
    rw [objGVK_apiVersion h, nestedString, nested_one, copyObj_get hc]; simp
  have h2 : nestedString (copyObj o) ["kind"] = (objGVK o).kind := by rw [nestedString, nested_one, copyObj_get hc]; simp
  have hk : (objGVK o).kind = nestedString o ["kind"] := by
    have hg := view_group_ne h
    unfold objGVK at hg ⊢
    split
    · rfl
    · next hp => rw [hp] at hg; exact absurd rfl hg
  rw [hk] at h2
  unfold objGVK
  rw [h1, h2]

theorem copyObj_key {o : Obj} (hc : (Json.map o).Canon) : objKey (copyObj o) = objKey o := by
  have h : nested (copyObj o) ["metadata"] = nested o ["metadata"] := by
    rw [nested_one, nested_one, copyObj_get hc]; simp
  have h1 : ∀ k, nestedString (copyObj o) ["metadata", k] = nestedString o ["metadata", k] := by
    intro k
    apply nestedString_congr
    rw [nested_one, nested_one] at h
    rw [nested_cons, nested_cons, h]
  rw [objKey, objKey, h1, h1]

/-- Objects as the view cache stores them. -/
def Copied (o : Obj) : Prop := SMap.get o "kind" = some (.str (objGVK o).kind) ∧ SMap.get o "apiVersion" = some (.str (gvString (objGVK o)))

theorem Copied.copy {o : Obj} (hc : (Json.map o).Canon) (h : Copied o) : copyObj o = o := by
  rw [copyObj, setGVK_eq, set_get_self hc.sorted h.2, set_get_self hc.sorted h.1]

theorem withUID_gvk {hash : String → String} {m : Obj} (hm : (Json.map m).Canon) : objGVK (withUID hash m) = objGVK m :=
  objGVK_congr (by rintro k (rfl | rfl) <;> exact withUID_off hm (by decide) (by decide))

theorem withUID_key {hash : String → String} {m : Obj} (hm : (Json.map m).Canon) : objKey (withUID hash m) = objKey m := by
  simp only [objKey, nestedString_congr (withUID_off hm (p := ["metadata", "namespace"]) (by decide) (by decide)),
    nestedString_congr (withUID_off hm (p := ["metadata", "name"]) (by decide) (by decide))]

theorem copied_copyObj {o : Obj} (hc : (Json.map o).Canon) (h : isViewKind (objGVK o) = true) : Copied (copyObj o) := by
  constructor
  · rw [copyObj_gvk hc h, copyObj_get hc]; simp
  · rw [copyObj_gvk hc h, copyObj_get hc]; simp

theorem copied_withUID {hash : String → String} {o : Obj} (hc : (Json.map o).Canon) (h : Copied o) : Copied (withUID hash o) := by
  have h1 := withUID_off (hash := hash) hc (p := ["kind"]) (by decide) (by decide)
  have h2 := withUID_off (hash := hash) hc (p := ["apiVersion"]) (by decide) (by decide)
  rw [nested_one, nested_one] at h1 h2
  exact ⟨by rw [withUID_gvk hc, h1]; exact h.1, by rw [withUID_gvk hc, h2]; exact h.2⟩

/-- The version of an object the view cache stores. -/
def written (hash : String → String) (o : Obj) : Obj := withUID hash (copyObj o)

theorem written_canon {hash : String → String} {o : Obj} (hc : (Json.map o).Canon) : (Json.map (written hash o)).Canon := withUID_canon (copyObj_canon hc)

theorem written_gvk' {hash : String → String} {o : Obj} (hc : (Json.map o).Canon) : objGVK (written hash o) = objGVK (copyObj o) := withUID_gvk (copyObj_canon hc)

theorem written_gvk {hash : String → String} {o : Obj} (hc : (Json.map o).Canon) (h : isViewKind (objGVK o) = true) : objGVK (written hash o) = objGVK o := by
  rw [written_gvk' hc, copyObj_gvk hc h]

theorem written_key {hash : String → String} {o : Obj} (hc : (Json.map o).Canon) : objKey (written hash o) = objKey o := by
  rw [written, withUID_key (copyObj_canon hc), copyObj_key hc]

theorem written_copied {hash : String → String} {o : Obj} (hc : (Json.map o).Canon) (h : isViewKind (objGVK o) = true) : Copied (written hash o) :=
  copied_withUID (copyObj_canon hc) (copied_copyObj hc h)

theorem written_copy {hash : String → String} {o : Obj} (hc : (Json.map o).Canon) (h : isViewKind (objGVK o) = true) : copyObj (written hash o) = written hash o :=
  (written_copied hc h).copy (written_canon hc)

/-- Copying does not make a view out of something else. -/
theorem copyObj_not_view {o : Obj} (hc : (Json.map o).Canon) (h : isViewKind (objGVK (copyObj o)) = true) : isViewKind (objGVK o) = true := by
  have h1 := objGVK_apiVersion h
  have h2 : nestedString (copyObj o) ["apiVersion"] = gvString (objGVK o) := by rw [nestedString, nested_one, copyObj_get hc]; simp
  rw [h2] at h1
  have hg := view_group_ne h
  by_cases e : (objGVK o).group = ""
  · exfalso
    rw [gvString, if_pos e, gvString, if_neg hg] at h1
    -- then the version itself contains a slash, which `parseGroupVersion` excludes
    have hv : ('/' : Char) ∈ (objGVK o).version.toList := by rw [h1]; simp [String.toList_append]
    unfold objGVK at hv e
    split at hv
    · next g v hp =>
      rw [hp] at e
      simp only at e hv
      unfold parseGroupVersion at hp
      split at hp
      · simp only [Option.some.injEq, Prod.mk.injEq] at hp; rw [← hp.2] at hv; simp at hv
      · split at hp
        · next hc0 =>
          simp only [Option.some.injEq, Prod.mk.injEq] at hp
          rw [← hp.2] at hv
          exact absurd (List.count_pos_iff.mpr hv) (by omega)
        · next hc1 =>
          simp only [Option.some.injEq, Prod.mk.injEq] at hp
          obtain ⟨e1, e2⟩ := hp
          rw [← e2] at hv
          simp only [String.toList_ofList] at hv
          -- the only slash ends the group
          have h3 := List.takeWhile_append_dropWhile (p := fun c => decide (c ≠ '/')) (l := (nestedString o ["apiVersion"]).toList)
          cases hd : (nestedString o ["apiVersion"]).toList.dropWhile (fun c => decide (c ≠ '/')) with
          | nil => rw [hd] at hv; simp at hv
          | cons a l =>
            rw [hd] at h3 hv
            have ha := List.head?_dropWhile_not (fun c => decide (c ≠ '/')) (nestedString o ["apiVersion"]).toList
            rw [hd] at ha
            have ha' : a = '/' := by simpa using ha
            have h4 : ((nestedString o ["apiVersion"]).toList).count '/' ≥ 2 := by
              rw [← h3, List.count_append, List.count_cons, ha']
              have : l.count '/' ≥ 1 := List.count_pos_iff.mpr (by simpa using hv)
              simp; omega
            omega
        · cases hp
    · simp at hv
  · have hp : parseGroupVersion (nestedString o ["apiVersion"]) = some ((objGVK o).group, (objGVK o).version) := by
      unfold objGVK at e ⊢
      split
      · next hp => exact hp
      · next hp => rw [hp] at e; exact absurd rfl e
    have h5 := parse_gv hp e
    have h6 : nestedString (copyObj o) ["apiVersion"] = nestedString o ["apiVersion"] := by rw [h2, gvString, if_neg e, h5]
    unfold objGVK at h ⊢
    rw [h6] at h
    rw [hp] at h ⊢
    exact h

end Dctl
