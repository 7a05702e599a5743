import Verif.Json.ViewObject
import Verif.Props.EndToEnd
/-!
# C119: view objects made of native objects
-/
set_option autoImplicit false
set_option linter.unusedSectionVars false
namespace Dctl

/-- Replacing the content of an object, in closed form. -/
theorem setContent_eq (o : SMap Json) {m md : SMap Json} (hm : (Json.map m).Canon) (h : SMap.get m "metadata" = some (.map md)) :
    setContent o m = SMap.set (setGVK m (objGVK o)) "metadata" (.map (
      let y := if (objKey o).1 = "" then SMap.erase md "namespace" else SMap.set md "namespace" (.str (objKey o).1)
      if (objKey o).2 = "" then SMap.erase y "name" else SMap.set y "name" (.str (objKey o).2))) := by
  have h1 : SMap.get (setGVK m (objGVK o)) "metadata" = some (.map md) := by rw [setGVK_get hm.sorted]; simpa using h
  rw [setContent, setName, setStr_setStr (setGVK_sorted hm.sorted _) _ _ h1]

/-- A text, or nothing. -/
def textOf : Option Json → String
  | some (.str s) => s
  | _ => ""

theorem nestedString_two {m : SMap Json} {a b : String} {x : SMap Json} (h : SMap.get m a = some (.map x)) :
    nestedString m [a, b] = textOf (SMap.get x b) := by
  have e : nested m [a, b] = SMap.get x b := by
    simp only [nested, Json.at, Json.field, h]
    cases SMap.get x b <;> rfl
  rw [nestedString, e]
  rfl

/-- **C119** (content): an object whose content is replaced keeps its kind, API version, namespace and name, and gets all the rest from the new content. -/
theorem C119_content (o m md : SMap Json) (hm : (Json.map m).Canon) (h : SMap.get m "metadata" = some (.map md)) :
    objKey (setContent o m) = objKey o ∧
    SMap.get (setContent o m) "kind" = some (.str (objGVK o).kind) ∧ SMap.get (setContent o m) "apiVersion" = some (.str (gvString (objGVK o))) ∧
    (∀ k, k ≠ "kind" → k ≠ "apiVersion" → k ≠ "metadata" → SMap.get (setContent o m) k = SMap.get m k) ∧
    ∀ k p, k ≠ "name" → k ≠ "namespace" → nested (setContent o m) ("metadata" :: k :: p) = nested m ("metadata" :: k :: p) := by
  have hs := hm.sorted
  have hmd : md.Sorted := (hm.val h).sorted
  have hg : ∀ k, SMap.get (setContent o m) k = if "metadata" = k then some (.map (
      let y := if (objKey o).1 = "" then SMap.erase md "namespace" else SMap.set md "namespace" (.str (objKey o).1)
      if (objKey o).2 = "" then SMap.erase y "name" else SMap.set y "name" (.str (objKey o).2))) else SMap.get (setGVK m (objGVK o)) k := by
    intro k
    rw [setContent_eq o hm h, SMap.get_set _ (setGVK_sorted hs _)]
  have hy : SMap.Sorted (if (objKey o).1 = "" then SMap.erase md "namespace" else SMap.set md "namespace" (.str (objKey o).1)) := by
    split
    · exact hmd.erase _
    · exact hmd.set _ _
  have hy1 : ∀ k, SMap.get (if (objKey o).1 = "" then SMap.erase md "namespace" else SMap.set md "namespace" (.str (objKey o).1)) k =
      if "namespace" = k then (if (objKey o).1 = "" then none else some (.str (objKey o).1)) else SMap.get md k := by
    intro k
    split
    · rw [SMap.get_erase _ hmd]
    · rw [SMap.get_set _ hmd]
  have hz : ∀ k, SMap.get (let y := if (objKey o).1 = "" then SMap.erase md "namespace" else SMap.set md "namespace" (.str (objKey o).1)
      if (objKey o).2 = "" then SMap.erase y "name" else SMap.set y "name" (.str (objKey o).2)) k =
      if "name" = k then (if (objKey o).2 = "" then none else some (.str (objKey o).2)) else
      if "namespace" = k then (if (objKey o).1 = "" then none else some (.str (objKey o).1)) else SMap.get md k := by
    intro k
    simp only
    split
    · rw [SMap.get_erase _ hy, hy1]
    · rw [SMap.get_set _ hy, hy1]
  have hmeta := hg "metadata"
  rw [if_pos rfl] at hmeta
  refine ⟨?_, ?_, ?_, ?_, ?_⟩
  · refine Prod.ext ?_ ?_
    · show nestedString _ _ = _
      rw [nestedString_two hmeta, hz, if_neg (by decide), if_pos rfl]
      by_cases e : (objKey o).1 = "" <;> simp [e, textOf]
    · show nestedString _ _ = _
      rw [nestedString_two hmeta, hz, if_pos rfl]
      by_cases e : (objKey o).2 = "" <;> simp [e, textOf]
  · rw [hg, if_neg (by decide), setGVK_get hs, if_pos rfl]
  · rw [hg, if_neg (by decide), setGVK_get hs, if_neg (by decide), if_pos rfl]
  · intro k a b c
    rw [hg, if_neg (Ne.symm c), setGVK_get hs, if_neg a, if_neg b]
  · intro k p a b
    rw [nested_cons, nested_cons, hmeta, h]
    simp only [Option.bind_some, at_cons, Json.field]
    rw [hz, if_neg (Ne.symm a), if_neg (Ne.symm b)]

theorem objGVK_of {m : SMap Json} {t : GVK} (hg : '/' ∉ t.group.toList) (hv : '/' ∉ t.version.toList) (h1 : SMap.get m "kind" = some (.str t.kind))
    (h2 : SMap.get m "apiVersion" = some (.str (gvString t))) : objGVK m = t := by
  have e1 : nestedString m ["apiVersion"] = gvString t := by simp only [nestedString, nested, Json.at, Json.field, h2]
  have e2 : nestedString m ["kind"] = t.kind := by simp only [nestedString, nested, Json.at, Json.field, h1]
  unfold objGVK
  rw [e1, gv_round hg hv, e2]

/-- The kind of a view has no slash in its group and version. -/
theorem viewGVK_noslash {op view : String} (h : '/' ∉ op.toList) : '/' ∉ (viewGVK op view).group.toList ∧ '/' ∉ (viewGVK op view).version.toList := by
  refine ⟨?_, by show '/' ∉ viewVersion.toList; decide⟩
  show '/' ∉ (op ++ "." ++ groupSuffix).toList
  rw [String.toList_append, String.toList_append]
  simp only [List.mem_append, not_or]
  exact ⟨⟨h, by decide⟩, by decide⟩

/-- A new view object with a name has the kind of the view and that name. -/
theorem named_view (op view ns name : String) (h : '/' ∉ op.toList) :
    objGVK (setName (newViewObject op view) ns name) = viewGVK op view ∧ objKey (setName (newViewObject op view) ns name) = (ns, name) := by
  obtain ⟨h1, h2⟩ := viewGVK_noslash (view := view) h
  have hk : ∀ m : SMap Json, (Json.map m).Canon → SMap.get m "kind" = some (.str view) → SMap.get m "apiVersion" = some (.str (gvString (viewGVK op view))) →
      objGVK m = viewGVK op view := fun m _ a b => objGVK_of h1 h2 a b
  have hc : (Json.map (newViewObject op view)).Canon := setGVK_canon (by simp [Json.Canon, SMap.Sorted, Json.CanonM])
  have hc2 : (Json.map (setName (newViewObject op view) ns name)).Canon := setStr_canon (setStr_canon hc)
  have hoff : ∀ k, k ≠ "metadata" → nested (setName (newViewObject op view) ns name) [k] = nested (newViewObject op view) [k] := by
    intro k hk
    rw [setName, setStr_off (setStr_canon hc) (by simp) (by simp [hk]), setStr_off hc (by simp) (by simp [hk])]
  have hs0 : SMap.Sorted ([] : SMap Json) := by simp [SMap.Sorted]
  refine ⟨hk _ hc2 ?_ ?_, ?_⟩
  · rw [← nested_one, hoff _ (by decide), nested_one, newViewObject, setGVK_get hs0, if_pos rfl]
    rfl
  · rw [← nested_one, hoff _ (by decide), nested_one, newViewObject, setGVK_get hs0, if_neg (by decide), if_pos rfl]
  · have h0 : SMap.get (newViewObject op view) "metadata" = none := by rw [newViewObject, setGVK_get hs0]; rfl
    by_cases e1 : ns = "" <;> by_cases e2 : name = ""
    · subst e1; subst e2; rfl
    · subst e1
      have : setName (newViewObject op view) "" name = SMap.set (newViewObject op view) "metadata" (.map [("name", .str name)]) := by
        rw [setName, setStr.eq_def _ ["metadata", "namespace"], if_pos rfl]
        have : removeNested (newViewObject op view) ["metadata", "namespace"] = newViewObject op view := by
          simp only [removeNested, h0]
        rw [this, setStr, if_neg e2, setField_two_none _ h0]
      rw [this]
      have hm : SMap.get (SMap.set (newViewObject op view) "metadata" (.map [("name", .str name)])) "metadata" = some (.map [("name", .str name)]) := by
        rw [SMap.get_set _ hc.sorted, if_pos rfl]
      rw [objKey, nestedString_two hm, nestedString_two hm]
      rfl
    · subst e2
      have : setName (newViewObject op view) ns "" = SMap.set (newViewObject op view) "metadata" (.map [("namespace", .str ns)]) := by
        rw [setName, setStr.eq_def _ ["metadata", "namespace"], if_neg e1, setField_two_none _ h0]
        rw [setStr_two (x := [("namespace", .str ns)]) "" (by rw [SMap.get_set _ hc.sorted, if_pos rfl]), set_set hc.sorted]
        rfl
      rw [this]
      have hm : SMap.get (SMap.set (newViewObject op view) "metadata" (.map [("namespace", .str ns)])) "metadata" = some (.map [("namespace", .str ns)]) := by
        rw [SMap.get_set _ hc.sorted, if_pos rfl]
      rw [objKey, nestedString_two hm, nestedString_two hm]
      rfl
    · have : setName (newViewObject op view) ns name =
          SMap.set (newViewObject op view) "metadata" (.map [("name", .str name), ("namespace", .str ns)]) := by
        rw [setName, setStr.eq_def _ ["metadata", "namespace"], if_neg e1, setField_two_none _ h0]
        rw [setStr_two (x := [("namespace", .str ns)]) name (by rw [SMap.get_set _ hc.sorted, if_pos rfl]), set_set hc.sorted, if_neg e2]
        rfl
      rw [this]
      have hm : SMap.get (SMap.set (newViewObject op view) "metadata" (.map [("name", .str name), ("namespace", .str ns)])) "metadata" =
          some (.map [("name", .str name), ("namespace", .str ns)]) := by
        rw [SMap.get_set _ hc.sorted, if_pos rfl]
      rw [objKey, nestedString_two hm, nestedString_two hm]
      rfl

/-- **C119** (view of a native object): the view object made of a native object has the kind of the view, belongs to the operator, has the namespace and the
name of the native object and all its other fields. -/
theorem C119_native_partial (op view : String) (hop : '/' ∉ op.toList) (m md : SMap Json) (hm : (Json.map m).Canon) (h : SMap.get m "metadata" = some (.map md)) :
    objGVK (viewObjectFromNative op view m) = ⟨op ++ ".view.dcontroller.io", "v1alpha1", view⟩ ∧
    isViewKind (objGVK (viewObjectFromNative op view m)) = true ∧
    objKey (viewObjectFromNative op view m) = objKey m ∧
    (∀ k, k ≠ "kind" → k ≠ "apiVersion" → k ≠ "metadata" → SMap.get (viewObjectFromNative op view m) k = SMap.get m k) ∧
    ∀ k p, k ≠ "name" → k ≠ "namespace" → nested (viewObjectFromNative op view m) ("metadata" :: k :: p) = nested m ("metadata" :: k :: p) := by
  obtain ⟨e1, e2⟩ := named_view op view (objKey m).1 (objKey m).2 hop
  obtain ⟨c1, c2, c3, c4, c5⟩ := C119_content (setName (newViewObject op view) (objKey m).1 (objKey m).2) m md hm h
  obtain ⟨h1, h2⟩ := viewGVK_noslash (view := view) hop
  rw [e1] at c2 c3
  have hk : objGVK (viewObjectFromNative op view m) = viewGVK op view := objGVK_of h1 h2 c2 c3
  have hgrp : (viewGVK op view) = ⟨op ++ ".view.dcontroller.io", "v1alpha1", view⟩ := by
    show (⟨op ++ "." ++ groupSuffix, viewVersion, view⟩ : GVK) = _
    rw [String.append_assoc]
    rfl
  refine ⟨by rw [hk, hgrp], ?_, by rw [viewObjectFromNative, c1, e2], c4, c5⟩
  rw [hk, isViewKind]
  simp only [viewGVK, beq_self_eq_true, Bool.and_true]
  rw [isViewGroup, viewGroup, String.toList_append, List.isSuffixOf_iff_suffix]
  exact List.suffix_append _ _

-- a pod seen as a view object
example : viewObjectFromNative "op" "PodView" [("apiVersion", .str "v1"), ("kind", .str "Pod"),
      ("metadata", .map [("labels", .map [("app", .str "x")]), ("name", .str "p"), ("namespace", .str "default")]), ("spec", .map [("a", .int 1)])] =
    [("apiVersion", .str "op.view.dcontroller.io/v1alpha1"), ("kind", .str "PodView"),
      ("metadata", .map [("labels", .map [("app", .str "x")]), ("name", .str "p"), ("namespace", .str "default")]), ("spec", .map [("a", .int 1)])] := by
  decide +kernel

/-- **C119** (no slash needed): with a slash in the name of the operator the object gets no kind at all. -/
theorem C119_slash : objGVK (viewObjectFromNative "a/b" "PodView" [("kind", .str "Pod"), ("metadata", .map [("name", .str "p")])]) = ⟨"", "", ""⟩ := by
  decide +kernel

end Dctl
