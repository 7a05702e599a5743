import Verif.Spec.SvcHealth
import Verif.Spec.ListPipeline
/-!
# Specification: the service controller of the endpoint slice operator shipped as an example

The controller `service-controller` of `examples/endpointslice-controller/endpointslice-operator.yaml`, and what its README says it does: for each port of a Service with
the annotation there is a ServiceView.
-/
set_option autoImplicit false
namespace Dctl

/-- `examples/endpointslice-controller/endpointslice-operator.yaml:4,28`: a kind without a group is a view of the operator (`pkg/reconciler/resource.go:56-59`). -/
abbrev svcViewK : GVK := ⟨"ep-operator.view.dcontroller.io", "v1alpha1", "ServiceView"⟩

/-- The annotation that switches the controller on for a Service. -/
abbrev enabledKey : String := "dcontroller.io/endpointslice-controller-enabled"
/-- Where the annotation is. -/
abbrev enabledPath : List String := ["metadata", "annotations", enabledKey]
/-- The query for the annotation, as in the file. -/
abbrev enabledQuery : String := "$[\"metadata\"][\"annotations\"][\"dcontroller.io/endpointslice-controller-enabled\"]"
/-- Where the ports are. -/
abbrev portsPath : List String := ["spec", "ports"]
/-- Where the type is. -/
abbrev typePath : List String := ["spec", "type"]
/-- Where the name of the Service is in a ServiceView. -/
abbrev svcNamePath : List String := ["spec", "serviceName"]

/-- `examples/endpointslice-controller/endpointslice-operator.yaml:15-26`: the pipeline of the controller `service-controller`, as the JSON the YAML stands for. -/
def svcViewJson : Json := .list [
  .map [("@select", .map [("@exists", .str enabledQuery)])],
  .map [("@project", .map [
    ("metadata", .map [("name", .str "$.metadata.name"), ("namespace", .str "$.metadata.namespace")]),
    ("spec", .map [("ports", .str "$.spec.ports"), ("serviceName", .str "$.metadata.name"), ("type", .str "$.spec.type")])])],
  .map [("@unwind", .str "$.spec.ports")]]

/-- How the JSONPath library reads the query for the annotation, which is no field path (`pkg/expression/jsonpath.go:100-115`). -/
def ReadsEnabled (base : Env) : Prop := ∀ m : SMap Json, base.jget enabledQuery (.map m) = .ok ((nested m enabledPath).getD .null)

/-- The Service has the annotation. -/
def Enabled (d : CDoc) : Prop := (nested d.1 enabledPath).getD .null ≠ .null

/-- The Service has this name and namespace. -/
def SvcNamed (n ns : String) (d : CDoc) : Prop := nested d.1 namePath = some (.str n) ∧ nested d.1 nsPath = some (.str ns)

/-- The ports of a Service. -/
def svcPorts (d : CDoc) : List Json := match nested d.1 portsPath with | some (.list l) => l | _ => []

/-- The Service has a name and a namespace, a list of ports or none, and these, its type and the annotation do not look like paths. -/
def SvcViewOk (d : CDoc) : Prop :=
  (∃ n ns, SvcNamed n ns d ∧ n ≠ "" ∧ (Json.str n).Ordinary ∧ (Json.str ns).Ordinary) ∧
  ((nested d.1 portsPath).getD .null = .null ∨ ∃ l, nested d.1 portsPath = some (.list l)) ∧
  (∀ p ∈ [typePath, enabledPath], ∀ v, nested d.1 p = some v → v.Ordinary)

/-- What the watch of the controller delivers: Services, in a possible order. -/
structure SvcViewHist (hist : List (EvalOrder CDoc × Delta CDoc)) : Prop where
  orders : ∀ e ∈ hist, e.1.Valid
  kinds : ∀ e ∈ hist, objGVK e.2.obj.1 = servicesK
  watch : WatchOk jsonOps (hist.map Prod.snd)
  ok : ∀ e ∈ hist, SvcViewOk e.2.obj

/-- `svc` is a live Service with the annotation, and its port number `i` (from 0) is `port`. -/
def LivePort (hist : List (Delta CDoc)) (svc : CDoc) (i : Nat) (port : Json) : Prop :=
  LiveObj hist servicesK svc ∧ Enabled svc ∧ (svcPorts svc)[i]? = some port

/-- `obj` describes a port of the Service. -/
def DescribesPort (svc : CDoc) (port : Json) (obj : SMap Json) : Prop :=
  nested obj portsPath = some port ∧ nested obj svcNamePath = nested svc.1 namePath ∧ (nested obj typePath).getD .null = (nested svc.1 typePath).getD .null

end Dctl
