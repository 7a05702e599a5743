import Verif.Spec.ConfigDep
/-!
# Specification: the service health operator shipped as an example

The operator of `examples/service-health-monitor/svc-health-operator.yaml`, and what its README says it does: the Service with the name and the namespace of a
HealthView gets an annotation with the number of ready pods and the number of all pods in the HealthView.
-/
set_option autoImplicit false
namespace Dctl

/-- `examples/service-health-monitor/svc-health-operator.yaml:36,42`: a kind without a group is a view of the operator (`pkg/reconciler/resource.go:56-59`). -/
abbrev healthK : GVK := ⟨"svc-health-operator.view.dcontroller.io", "v1alpha1", "HealthView"⟩
/-- `examples/service-health-monitor/svc-health-operator.yaml:43-44,72-74`. -/
abbrev servicesK : GVK := ⟨"", "v1", "Service"⟩
/-- The sources of the controller `svc-health-monitor`. -/
abbrev svcHealthSources : List GVK := [healthK, servicesK]

/-- The name of the annotation. -/
abbrev readyKey : String := "dcontroller.io/pod-ready"
/-- Where the annotation is in a Service. -/
abbrev readyPath : List String := ["metadata", "annotations", readyKey]
/-- Where the pods are in a HealthView. -/
abbrev podsPath : List String := ["pods"]

/-- `examples/service-health-monitor/svc-health-operator.yaml:45-71`: the pipeline of the controller `svc-health-monitor`, as the JSON the YAML stands for. -/
def svcHealthJson : Json := .list [
  .map [("@join", .map [("@and", .list [
    eqJson "$.HealthView.metadata.name" "$.Service.metadata.name",
    eqJson "$.HealthView.metadata.namespace" "$.Service.metadata.namespace"])])],
  .map [("@project", .map [
    ("metadata", .map [
      ("annotations", .map [(readyKey, .map [("@concat", .list [
        .map [("@string", .map [("@len", .map [("@filter", .list [eqJson "$$.ready" "True", .str "$.HealthView.pods"])])])],
        .str "/",
        .map [("@string", .map [("@len", .str "$.HealthView.pods")])]])])]),
      ("name", .str "$.Service.metadata.name"), ("namespace", .str "$.Service.metadata.namespace")])])]]

/-- The number of the pods that are ready. -/
def readyCount (l : List Json) : Nat := l.countP (fun x => x.at ["ready"] = some (.str "True"))

/-- The text of the annotation for a list of pods: the number of those that are ready, a slash, and the number of all of them. -/
def readyText (l : List Json) : String := toString (readyCount l) ++ "/" ++ toString l.length

/-- The pods of a HealthView: a list without nulls, where it is an ordinary value and no list that says whether a pod is ready. -/
def HasPods (d : CDoc) (l : List Json) : Prop :=
  nested d.1 podsPath = some (.list l) ∧ ∀ x ∈ l, x ≠ .null ∧ ∀ v, x.at ["ready"] = some v → v.Ordinary ∧ v.NotList

/-- The object has a proper and ordinary name, and if it is a HealthView, it has a list of pods. -/
def SvcHealthOk (d : CDoc) : Prop :=
  ProperName d ∧ (∀ p ∈ [namePath, nsPath], ∀ v, nested d.1 p = some v → v.Ordinary) ∧ (objGVK d.1 = healthK → ∃ l, HasPods d l)

/-- The HealthView has the name and the namespace of the Service. -/
def SameService (hv svc : CDoc) : Prop := Agree hv namePath svc namePath ∧ Agree hv nsPath svc nsPath

/-- At this time the Service `svc` is covered by the HealthView `hv`. -/
def SameServiceNow (hist : List (Delta CDoc)) (hv svc : CDoc) : Prop := LiveObj hist healthK hv ∧ LiveObj hist servicesK svc ∧ SameService hv svc

/-- What the watches of the controller deliver: HealthViews and Services, in a possible order. -/
structure SvcHealthHist (hist : List (EvalOrder CDoc × Delta CDoc)) : Prop where
  orders : ∀ e ∈ hist, e.1.Valid
  kinds : ∀ e ∈ hist, objGVK e.2.obj.1 ∈ svcHealthSources
  watch : WatchOk jsonOps (hist.map Prod.snd)
  ok : ∀ e ∈ hist, SvcHealthOk e.2.obj

/-- The patch for a Service with that name and namespace. -/
def readyPatch (name ns : Json) (t : String) : SMap Json :=
  [("metadata", .map [("annotations", .map [(readyKey, .str t)]), ("name", name), ("namespace", ns)])]

end Dctl
