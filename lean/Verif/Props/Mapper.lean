import Verif.Cache.Mapper
import Verif.Cache.GroupLemmas
/-!
# C56: all functions of the REST mappers
-/
set_option autoImplicit false
set_option linter.unusedSectionVars false
namespace Dctl

theorem charLower_idem (c : Char) : c.toLower.toLower = c.toLower := by
  apply Char.ext
  simp only [Char.toLower]
  grind

/-- **C56** (in part): the functions of the mapper of views that give lists answer exactly when the others do, with one element, which is the answer of the other function.
Missing: as in `C56_shape_partial`. -/
theorem C56_lists_partial (r : GVR) (g k : String) (vs : List String) :
    (∀ l, viewKindsFor r = some l ↔ ∃ x, viewKindFor r = some x ∧ l = [x]) ∧
    (∀ l, viewResourcesFor r = some l ↔ ∃ x, viewResourceFor r = some x ∧ l = [x]) ∧
    (∀ l, viewRESTMappings g k vs = some l ↔ ∃ x, viewRESTMapping g k vs = some x ∧ l = [x]) := by
  refine ⟨fun l => ?_, fun l => ?_, fun l => ?_⟩
  · unfold viewKindsFor
    cases viewKindFor r <;> simp [eq_comm]
  · unfold viewResourcesFor
    cases viewResourceFor r <;> simp [eq_comm]
  · unfold viewRESTMappings
    cases viewRESTMapping g k vs <;> simp [eq_comm]

example : viewKindsFor ⟨"apps", "v1", "healthview"⟩ = some [⟨"apps", "v1", "Healthview"⟩] ∧ viewResourcesFor ⟨"apps", "v1", "HealthView"⟩ = some [⟨"apps", "v1", "healthview"⟩] ∧
    viewRESTMappings "apps" "V" [] = some [⟨⟨"apps", "v1alpha1", "v"⟩, ⟨"apps", "v1alpha1", "V"⟩, true⟩] := by decide

/-- **C56**, negation: whatever the native mapper, the composite mapper finds no kind, no resource and no mapping in the group of any operator. -/
theorem C56_nothing_found (native : Option NativeMapper) (op v r k : String) (vs : List String) :
    kindsFor true native ⟨viewGroup op, v, r⟩ = none ∧ resourceFor true native ⟨viewGroup op, v, r⟩ = none ∧ compResourcesFor true native ⟨viewGroup op, v, r⟩ = none ∧
    restMappings true native (viewGroup op) k vs = none := by
  have h : isViewGroup (viewGroup op) = true := isViewGroup_viewGroup op
  simp [kindsFor, resourceFor, compResourcesFor, restMappings, mapperIsView, viewKindsFor, viewKindFor, viewResourcesFor, viewResourceFor, viewRESTMappings, viewRESTMapping, h]

/-- **C56** (native groups): for every other group, the composite mapper answers as the native mapper, and not at all without one. -/
theorem C56_native (n : NativeMapper) (r : GVR) (g k : String) (vs : List String) (hr : isViewGroup r.group = false) (hg : isViewGroup g = false) :
    kindFor true (some n.kindFor) r = n.kindFor r ∧ kindsFor true (some n) r = n.kindsFor r ∧ resourceFor true (some n) r = n.resourceFor r ∧
    compResourcesFor true (some n) r = n.resourcesFor r ∧ restMapping true (some n.mapping) g k vs = n.mapping g k vs ∧ restMappings true (some n) g k vs = n.mappings g k vs ∧
    kindFor true none r = none ∧ kindsFor true none r = none ∧ resourceFor true none r = none ∧ compResourcesFor true none r = none ∧ restMapping true none g k vs = none ∧
    restMappings true none g k vs = none := by
  simp [kindFor, kindsFor, resourceFor, compResourcesFor, restMapping, restMappings, mapperIsView, hr, hg]

example : isViewGroup "apps" = false ∧ isViewGroup "" = false := by decide

/-- **C56** (singular names): the composite mapper gives the singular that the native mapper knows; other names, and all without native mapper, stay as they are. The resource
name of a view, unless the native mapper knows a resource of the same name, is its own singular, as it is for the mapper of views. -/
theorem C56_singular (native : Option NativeMapper) (s : String) :
    (∀ n t, native = some n → n.singular s = some t → singularizer native s = t) ∧
    ((∀ n, native = some n → n.singular s = none) → singularizer native s = s) ∧
    (∀ k, s = lower k → viewSingular s = s) := by
  refine ⟨?_, ?_, ?_⟩
  · rintro n t rfl h
    simp [singularizer, h]
  · intro h
    cases native with
    | none => rfl
    | some n => simp [singularizer, h n rfl]
  · rintro k rfl
    simp only [viewSingular, lower, String.toList_ofList, List.map_map]
    congr 1
    refine List.map_congr_left (fun c _ => ?_)
    simp only [Function.comp_def]
    exact charLower_idem c

/-- A native mapper that knows the resource `pods`. -/
def podMapper : NativeMapper :=
  { kindFor := fun r => if r.resource = "pods" then some ⟨"", "v1", "Pod"⟩ else none
    kindsFor := fun r => if r.resource = "pods" then some [⟨"", "v1", "Pod"⟩] else none
    resourceFor := fun r => if r.resource = "pods" then some ⟨"", "v1", "pods"⟩ else none
    resourcesFor := fun r => if r.resource = "pods" then some [⟨"", "v1", "pods"⟩] else none
    mapping := fun _ k _ => if k = "Pod" then some ⟨⟨"", "v1", "pods"⟩, ⟨"", "v1", "Pod"⟩, true⟩ else none
    mappings := fun _ k _ => if k = "Pod" then some [⟨⟨"", "v1", "pods"⟩, ⟨"", "v1", "Pod"⟩, true⟩] else none
    singular := fun s => if s = "pods" then some "pod" else none }

example : singularizer (some podMapper) "pods" = "pod" ∧ singularizer (some podMapper) "healthview" = "healthview" ∧ singularizer none "pods" = "pods" ∧
    kindsFor true (some podMapper) ⟨"", "", "pods"⟩ = some [⟨"", "v1", "Pod"⟩] ∧ "healthview" = lower "HealthView" := by decide

/-- **C56**, negation: on names with capitals the mappers differ: the mapper of views lowers them, the composite mapper does not. -/
theorem C56_singular_differ : viewSingular "HealthView" = "healthview" ∧ singularizer none "HealthView" = "HealthView" := by decide

end Dctl
