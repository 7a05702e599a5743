import Verif.Spec.Rows
import Verif.Spec.Patch
import Verif.Pipeline.Eval
/-!
# Specification: the configmap-deployment operator shipped as an example

The operator of `examples/configmap-deployment-controller/configdeployment-operator.yaml`, and what its README says it does: the Deployment named by a
ConfigDeployment object gets an annotation with the version of the ConfigMap named by it.
-/
set_option autoImplicit false
namespace Dctl

/-- `examples/configmap-deployment-controller/configdeployment-operator.yaml:9-11`. -/
abbrev configMapK : GVK := ⟨"", "v1", "ConfigMap"⟩
/-- `examples/configmap-deployment-controller/configdeployment-operator.yaml:12-13,43-45`. -/
abbrev deploymentK : GVK := ⟨"apps", "v1", "Deployment"⟩
/-- `examples/configmap-deployment-controller/configdeployment-operator.yaml:14-15`. -/
abbrev configDepK : GVK := ⟨"dcontroller.io", "v1alpha1", "ConfigDeployment"⟩
/-- The sources of the controller. -/
abbrev configDepSources : List GVK := [configMapK, deploymentK, configDepK]

/-- The name of the annotation. -/
abbrev versionKey : String := "dcontroller.io/configmap-version"
/-- Where the annotation is in a Deployment. -/
abbrev versionPath : List String := ["spec", "template", "metadata", "annotations", versionKey]
/-- The version of an object. -/
abbrev rvPath : List String := ["metadata", "resourceVersion"]
/-- The ConfigMap named by a ConfigDeployment. -/
abbrev refMapPath : List String := ["spec", "configMap"]
/-- The Deployment named by a ConfigDeployment. -/
abbrev refDepPath : List String := ["spec", "deployment"]

/-- `{"@eq": [p, q]}` as in the file. -/
abbrev eqJson (p q : String) : Json := .map [("@eq", .list [.str p, .str q])]

/-- `examples/configmap-deployment-controller/configdeployment-operator.yaml:16-42`: the pipeline, as the JSON the YAML stands for. -/
def configDepJson : Json := .list [
  .map [("@join", .map [("@and", .list [
    eqJson "$.ConfigMap.metadata.name" "$.ConfigDeployment.spec.configMap",
    eqJson "$.Deployment.metadata.name" "$.ConfigDeployment.spec.deployment",
    eqJson "$.ConfigMap.metadata.namespace" "$.Deployment.metadata.namespace",
    eqJson "$.ConfigMap.metadata.namespace" "$.ConfigDeployment.metadata.namespace"])])],
  .map [("@project", .map [
    ("metadata", .map [("name", .str "$.Deployment.metadata.name"), ("namespace", .str "$.Deployment.metadata.namespace")]),
    ("spec", .map [("template", .map [("metadata", .map [("annotations", .map [(versionKey, .str "$.ConfigMap.metadata.resourceVersion")])])])])])]]

/-- A value that an expression reading it takes as it is: no string that looks like a path or stands for the current time. -/
def Json.Ordinary (v : Json) : Prop := ∀ s, v = .str s → s ≠ "@now" ∧ s.toList.head? ≠ some '$'

/-- The object has a proper name, and the fields the pipeline reads are ordinary. -/
def ConfigDepOk (d : CDoc) : Prop :=
  ProperName d ∧ ∀ p ∈ [namePath, nsPath, rvPath, refMapPath, refDepPath], ∀ v, nested d.1 p = some v → v.Ordinary

/-- The field `p` of `a` and the field `q` of `b` are the same, and there. -/
def Agree (a : CDoc) (p : List String) (b : CDoc) (q : List String) : Prop :=
  ∃ v, v ≠ .null ∧ nested a.1 p = some v ∧ nested b.1 q = some v

/-- The ConfigDeployment `cd` names the ConfigMap `cm` and the Deployment `dep` in its own namespace. -/
def Linked (cm dep cd : CDoc) : Prop :=
  Agree cm namePath cd refMapPath ∧ Agree dep namePath cd refDepPath ∧ Agree cm nsPath dep nsPath ∧ Agree cm nsPath cd nsPath

/-- At this time the ConfigDeployment object `cd` links `cm` to `dep`. -/
def LinkedNow (hist : List (Delta CDoc)) (cm dep cd : CDoc) : Prop :=
  LiveObj hist configMapK cm ∧ LiveObj hist deploymentK dep ∧ LiveObj hist configDepK cd ∧ Linked cm dep cd

/-- No Deployment is named by two ConfigDeployment objects. -/
def LinkedOnce (hist : List (Delta CDoc)) : Prop :=
  ∀ cm dep cd cm' cd', LinkedNow hist cm dep cd → LinkedNow hist cm' dep cd' → cd = cd'

/-- What the watches of the operator deliver: objects of the three kinds, in a possible order, that have proper names and ordinary fields, where no Deployment is ever
named twice. -/
structure ConfigDepHist (hist : List (EvalOrder CDoc × Delta CDoc)) : Prop where
  orders : ∀ e ∈ hist, e.1.Valid
  kinds : ∀ e ∈ hist, objGVK e.2.obj.1 ∈ configDepSources
  watch : WatchOk jsonOps (hist.map Prod.snd)
  ok : ∀ e ∈ hist, ConfigDepOk e.2.obj
  once : ∀ pre, pre <+: hist.map Prod.snd → LinkedOnce pre

/-- The patch for a Deployment with that name and namespace. -/
def versionPatch (name ns rv : Json) : SMap Json :=
  [("metadata", .map [("name", name), ("namespace", ns)]),
   ("spec", .map [("template", .map [("metadata", .map [("annotations", .map [(versionKey, rv)])])])])]

end Dctl
