import Verif.Spec.PatchJson
import Verif.Spec.EpView
/-!
# Specification: operators that annotate the objects that refer to another object

Two operators of the project are of this kind: `test/endpointslice_annotator.yaml` writes the type of a Service to the EndpointSlices that name it in a label, and
`test/deployment_configmap_handler.yaml` writes the version of a ConfigMap to the Deployments that name it in an annotation.
-/
set_option autoImplicit false
namespace Dctl

/-- What such an operator is about: the kind of the objects referred to, the kind of the annotated objects, where these name the others, the field read, and the
field written. -/
structure RefSpec where
  src : GVK
  tgt : GVK
  ref : List String
  val : List String
  fld : List String

/-- The sources of the controller. -/
abbrev RefSpec.sources (R : RefSpec) : List GVK := [R.src, R.tgt]

/-- `b` names `a`, in the same namespace. -/
def RefSpec.Refers (R : RefSpec) (a b : CDoc) : Prop := Agree a namePath b R.ref ∧ Agree a nsPath b nsPath

/-- The object has a proper name, and the fields the pipeline reads are ordinary. -/
def RefSpec.Ok (R : RefSpec) (d : CDoc) : Prop :=
  ProperName d ∧ ∀ p ∈ [namePath, nsPath, R.val, R.ref], ∀ v, nested d.1 p = some v → v.Ordinary

/-- The objects that users write: with a proper name, in a namespace, with ordinary fields; those referred to have the value, and the annotated objects of
one name always have the same reference `U`. -/
def RefSpec.Good (R : RefSpec) (U : ObjKey → Option Json) (d : CDoc) : Prop :=
  R.Ok d ∧ Namespaced d ∧ (objGVK d.1 = R.src → ∃ v, nested d.1 R.val = some v ∧ v.Scalar) ∧ (objGVK d.1 = R.tgt → nested d.1 R.ref = U (objKey d.1))

/-- At this time `b` names `a`. -/
def RefSpec.Now (R : RefSpec) (hist : List (Delta CDoc)) (a b : CDoc) : Prop := LiveObj hist R.src a ∧ LiveObj hist R.tgt b ∧ R.Refers a b

/-- Every annotated object in the store has the value of the object it names, and those that name none do not have the field. -/
def RefSpec.Annotated (R : RefSpec) (S : GVK → Target CDoc) : Prop :=
  ∀ k b, S R.tgt k = some b →
    (∀ k' a, S R.src k' = some a → R.Refers a b → fieldAt R.fld b = nested a.1 R.val) ∧
    ((¬ ∃ k' a, S R.src k' = some a ∧ R.Refers a b) → fieldAt R.fld b = none)

/-! ### The two operators -/

/-- The name of the annotation of EndpointSlices. -/
abbrev svcTypeKey : String := "dcontroller.io/service-type"

/-- `test/endpointslice_annotator.yaml`. -/
def sliceRef : RefSpec where
  src := ⟨"", "v1", "Service"⟩
  tgt := sliceK
  ref := ofServicePath
  val := ["spec", "type"]
  fld := ["metadata", "annotations", svcTypeKey]

/-- `test/endpointslice_annotator.yaml:13-28`: the pipeline, as the JSON the YAML stands for. -/
def sliceRefJson : Json := .list [
  .map [("@join", .map [("@and", .list [
    .map [("@eq", .list [.str "$.Service.metadata.name", .str ofServiceQuery])],
    .map [("@eq", .list [.str "$.Service.metadata.namespace", .str "$.EndpointSlice.metadata.namespace"])]])])],
  .map [("@project", .map [("metadata", .map [
    ("annotations", .map [(svcTypeKey, .str "$.Service.spec.type")]),
    ("name", .str "$.EndpointSlice.metadata.name"), ("namespace", .str "$.EndpointSlice.metadata.namespace")])])]]

/-- Where a Deployment names its ConfigMap. -/
abbrev relatedPath : List String := ["metadata", "annotations", "dcontroller.io/related-configmap"]
/-- The query for it, as in the file. -/
abbrev relatedQuery : String := "$[\"Deployment\"][\"metadata\"][\"annotations\"][\"dcontroller.io/related-configmap\"]"

/-- `test/deployment_configmap_handler.yaml`. -/
def deployRef : RefSpec where
  src := configMapK
  tgt := deploymentK
  ref := relatedPath
  val := rvPath
  fld := versionPath

/-- `test/deployment_configmap_handler.yaml:13-31`: the pipeline, as the JSON the YAML stands for. -/
def deployRefJson : Json := .list [
  .map [("@join", .map [("@and", .list [
    .map [("@eq", .list [.str "$.ConfigMap.metadata.name", .str relatedQuery])],
    .map [("@eq", .list [.str "$.ConfigMap.metadata.namespace", .str "$.Deployment.metadata.namespace"])]])])],
  .map [("@project", .map [
    ("metadata", .map [("name", .str "$.Deployment.metadata.name"), ("namespace", .str "$.Deployment.metadata.namespace")]),
    ("spec", .map [("template", .map [("metadata", .map [("annotations", .map [(versionKey, .str "$.ConfigMap.metadata.resourceVersion")])])])])])]]

/-- Bracket queries are evaluated by a library (`jsonpath.go:100-111`); this is what is needed of it. -/
def ReadsRelated (base : Env) : Prop := ∀ m, base.jget relatedQuery (.map m) = .ok ((nested m ("Deployment" :: relatedPath)).getD .null)

end Dctl
