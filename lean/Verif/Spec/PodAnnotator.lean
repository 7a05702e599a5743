import Verif.Spec.PatchJson
/-!
# Specification: operators that annotate the objects they watch

Two operators in the documentation are of this kind: the one in `README.md` writes the number of the containers of a Pod to an annotation of the Pod, and the one in
`doc/getting-started.md` writes a constant.
-/
set_option autoImplicit false
namespace Dctl

/-- What such an operator is about: the kind, the field written and the value to write; the value depends on some fields, which must be as `pre` says. -/
structure OwnSpec where
  kind : GVK
  reads : List (List String)
  pre : CDoc → Prop
  val : CDoc → Json
  fld : List String

/-- The object has a proper name, is in a namespace, and the fields the pipeline reads are as they should be. -/
def OwnSpec.Ok (R : OwnSpec) (d : CDoc) : Prop :=
  ProperName d ∧ Namespaced d ∧ (∀ p ∈ [namePath, nsPath], ∀ v, nested d.1 p = some v → v.Ordinary) ∧ R.pre d

/-- The objects that users write: the value to write is always the same for one name. -/
def OwnSpec.Good (R : OwnSpec) (U : ObjKey → Json) (d : CDoc) : Prop :=
  R.Ok d ∧ R.val d = U (objKey d.1)

/-- Every object of the kind in the store has the value that it should have. -/
def OwnSpec.Annotated (R : OwnSpec) (S : GVK → Target CDoc) : Prop :=
  ∀ k d, S R.kind k = some d → fieldAt R.fld d = some (R.val d)

/-! ### The two operators -/

/-- The name of the annotation in `README.md`. -/
abbrev containersKey : String := "dcontroller.io/container-num"

/-- The containers of a Pod. -/
def containersOf (d : CDoc) : List Json :=
  match nested d.1 ["spec", "containers"] with
  | some (.list l) => l
  | _ => []

/-- `README.md:60-90`: the number of the containers. The restriction to a namespace is left out: the operator never sees the Pods elsewhere. -/
def containersOwn : OwnSpec where
  kind := ⟨"", "v1", "Pod"⟩
  reads := [["spec", "containers"]]
  pre := fun d => ∃ l, nested d.1 ["spec", "containers"] = some (.list l)
  val := fun d => .str (toString (containersOf d).length)
  fld := ["metadata", "annotations", containersKey]

/-- `README.md:75-84`: the pipeline, as the JSON the YAML stands for. -/
def containersJson : Json := .map [("@project", .map [("metadata", .map [
  ("annotations", .map [(containersKey, .map [("@string", .map [("@len", .list [.str "$.spec.containers"])])])]),
  ("name", .str "$.metadata.name"), ("namespace", .str "$.metadata.namespace")])])]

/-- The name of the annotation in `doc/getting-started.md`. -/
abbrev managedKey : String := "dcontroller.io/managed"

/-- `doc/getting-started.md:25-50`: a constant. The restriction to a namespace is left out. -/
def managedOwn : OwnSpec where
  kind := ⟨"", "v1", "Pod"⟩
  reads := []
  pre := fun _ => True
  val := fun _ => .str "true"
  fld := ["metadata", "annotations", managedKey]

/-- `doc/getting-started.md:38-44`: the pipeline, as the JSON the YAML stands for. -/
def managedJson : Json := .map [("@project", .map [("metadata", .map [
  ("annotations", .map [(managedKey, .str "true")]),
  ("name", .str "$.metadata.name"), ("namespace", .str "$.metadata.namespace")])])]

end Dctl
