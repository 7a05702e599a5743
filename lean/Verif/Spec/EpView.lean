import Verif.Spec.SvcView
/-!
# Specification: the endpoint slice controller of the endpoint slice operator shipped as an example

The controller `endpointslice-controller` of `examples/endpointslice-controller/endpointslice-operator.yaml`, and what its README says it does: there is an EndpointView
for each combination of a port of a Service and a ready address of the Service.
-/
set_option autoImplicit false
namespace Dctl

/-- `examples/endpointslice-controller/endpointslice-operator.yaml:41-42`; the version is the one the discovery of the cluster gives. -/
abbrev sliceK : GVK := ⟨"discovery.k8s.io", "v1", "EndpointSlice"⟩
/-- `examples/endpointslice-controller/endpointslice-operator.yaml:4,79`: a kind without a group is a view of the operator (`pkg/reconciler/resource.go:56-59`). -/
abbrev epViewK : GVK := ⟨"ep-operator.view.dcontroller.io", "v1alpha1", "EndpointView"⟩
/-- The sources of the controller. -/
abbrev epSources : List GVK := [svcViewK, sliceK]

/-- Where an EndpointSlice names its Service. -/
abbrev ofServicePath : List String := ["metadata", "labels", "kubernetes.io/service-name"]
/-- The query for it, as in the file. -/
abbrev ofServiceQuery : String := "$[\"EndpointSlice\"][\"metadata\"][\"labels\"][\"kubernetes.io/service-name\"]"
/-- Where the endpoints are. -/
abbrev endpointsPath : List String := ["endpoints"]
/-- Where the addresses are when an endpoint has taken the place of the endpoints. -/
abbrev addressesPath : List String := ["endpoints", "addresses"]
/-- Where the condition is. -/
abbrev epReadyPath : List String := ["endpoints", "conditions", "ready"]
/-- Where the number of the port is in a ServiceView. -/
abbrev portPath : List String := ["spec", "ports", "port"]
/-- Where the protocol is. -/
abbrev protocolPath : List String := ["spec", "ports", "protocol"]
/-- Where the target port is. -/
abbrev targetPortPath : List String := ["spec", "ports", "targetPort"]

/-- `examples/endpointslice-controller/endpointslice-operator.yaml:43-77`: the pipeline of the controller `endpointslice-controller`, as the JSON the YAML stands for. -/
def epViewJson : Json := .list [
  .map [("@join", .map [("@and", .list [
    .map [("@eq", .list [.str "$.ServiceView.spec.serviceName", .str ofServiceQuery])],
    .map [("@eq", .list [.str "$.ServiceView.metadata.namespace", .str "$.EndpointSlice.metadata.namespace"])]])])],
  .map [("@project", .map [
    ("endpoints", .str "$.EndpointSlice.endpoints"),
    ("metadata", .map [("name", .str "$.ServiceView.metadata.name"), ("namespace", .str "$.ServiceView.metadata.namespace")]),
    ("spec", .str "$.ServiceView.spec")])],
  .map [("@unwind", .str "$.endpoints")],
  .map [("@select", .map [("@eq", .list [.str "$.endpoints.conditions.ready", .bool true])])],
  .map [("@unwind", .str "$.endpoints.addresses")],
  .map [("@project", .map [
    ("metadata", .map [("namespace", .str "$.metadata.namespace")]),
    ("spec", .map [("address", .str "$.endpoints.addresses"), ("port", .str "$.spec.ports.port"), ("protocol", .str "$.spec.ports.protocol"),
      ("serviceName", .str "$.spec.serviceName"), ("targetPort", .str "$.spec.ports.targetPort"), ("type", .str "$.spec.type")])])],
  .map [("@project", .list [
    .map [("$.", .str "$.")],
    .map [("metadata", .map [("name", .map [("@concat", .list [.str "$.spec.serviceName", .str "-", .map [("@hash", .str "$.spec")]])])])]])]]

/-- Bracket queries are evaluated by a library (`jsonpath.go:100-111`); this is what is needed of it. -/
def ReadsOfService (base : Env) : Prop := ∀ m, base.jget ofServiceQuery (.map m) = .ok ((nested m ("EndpointSlice" :: ofServicePath)).getD .null)

/-- The EndpointSlice is of the Service the ServiceView is of. -/
def Serves (es sv : CDoc) : Prop := Agree sv svcNamePath es ofServicePath ∧ Agree sv nsPath es nsPath

/-- The endpoints of an EndpointSlice. -/
def sliceEndpoints (es : CDoc) : List Json := match nested es.1 endpointsPath with | some (.list l) => l | _ => []

/-- The endpoint is ready. -/
def EndpointReady (ep : Json) : Prop := ep.at ["conditions", "ready"] = some (.bool true)

/-- The addresses of an endpoint. -/
def endpointAddresses (ep : Json) : List Json := match ep.at ["addresses"] with | some (.list l) => l | _ => []

/-- The ServiceView has a name, a namespace and the name of a Service, and the fields the pipeline reads do not look like paths. -/
def PortViewOk (d : CDoc) : Prop :=
  (∃ n ns sn, SvcNamed n ns d ∧ nested d.1 svcNamePath = some (.str sn) ∧ (Json.str n).Ordinary ∧ (Json.str ns).Ordinary ∧ (Json.str sn).Ordinary) ∧
  ∀ p ∈ [typePath, portPath, protocolPath, targetPortPath], ∀ v, nested d.1 p = some v → v.Ordinary

/-- What an endpoint is according to the schema of Kubernetes: `ready` is true, false or missing, the addresses are a list or missing, and no address looks like
a path. -/
def EndpointOk (ep : Json) : Prop :=
  (∀ v, ep.at ["conditions", "ready"] = some v → v = .null ∨ ∃ b, v = .bool b) ∧
  ((ep.at ["addresses"]).getD .null = .null ∨ ∃ l, ep.at ["addresses"] = some (.list l)) ∧
  ∀ a ∈ endpointAddresses ep, a.Ordinary

/-- The namespace and the label of the EndpointSlice do not look like paths, and the endpoints are a list or missing. -/
def SliceOk (d : CDoc) : Prop :=
  (∀ p ∈ [nsPath, ofServicePath], ∀ v, nested d.1 p = some v → v.Ordinary) ∧
  ((nested d.1 endpointsPath).getD .null = .null ∨ ∃ l, nested d.1 endpointsPath = some (.list l)) ∧
  ∀ ep ∈ sliceEndpoints d, EndpointOk ep

/-- What the watches of the controller deliver: ServiceViews and EndpointSlices, in a possible order. -/
structure EpHist (hist : List (EvalOrder CDoc × Delta CDoc)) : Prop where
  orders : ∀ e ∈ hist, e.1.Valid
  kinds : ∀ e ∈ hist, objGVK e.2.obj.1 ∈ epSources
  watch : WatchOk jsonOps (hist.map Prod.snd)
  views : ∀ e ∈ hist, objGVK e.2.obj.1 = svcViewK → PortViewOk e.2.obj
  slices : ∀ e ∈ hist, objGVK e.2.obj.1 = sliceK → SliceOk e.2.obj

/-- `sv` is a live ServiceView, `es` a live EndpointSlice of the same Service, its endpoint number `i` is ready, and the address number `k` of that is `addr`. -/
def LiveEndpoint (hist : List (Delta CDoc)) (sv es : CDoc) (i k : Nat) (addr : Json) : Prop :=
  LiveObj hist svcViewK sv ∧ LiveObj hist sliceK es ∧ Serves es sv ∧
  ∃ ep, (sliceEndpoints es)[i]? = some ep ∧ EndpointReady ep ∧ (endpointAddresses ep)[k]? = some addr

/-- The combination of a port and an address, in the shape of the spec of an EndpointView. -/
def epSpec (sv : CDoc) (addr : Json) : SMap Json :=
  [("address", addr), ("port", (nested sv.1 portPath).getD .null), ("protocol", (nested sv.1 protocolPath).getD .null),
   ("serviceName", (nested sv.1 svcNamePath).getD .null), ("targetPort", (nested sv.1 targetPortPath).getD .null), ("type", (nested sv.1 typePath).getD .null)]

/-- The name of the EndpointView for a combination, when `sn` is the name of the Service. -/
def epName (base : Env) (sn : String) (sv : CDoc) (addr : Json) : String := sn ++ "-" ++ base.hash (.map (epSpec sv addr))

/-- No ready address is in the EndpointSlices of a Service twice, and no two ports of a Service are the same. -/
def NoDuplicates (hist : List (Delta CDoc)) : Prop :=
  ∀ sv es i k addr sv' es' i' k' addr', LiveEndpoint hist sv es i k addr → LiveEndpoint hist sv' es' i' k' addr' → nested sv.1 nsPath = nested sv'.1 nsPath →
    epSpec sv addr = epSpec sv' addr' → sv = sv' ∧ es = es' ∧ i = i' ∧ k = k'

/-- The hashes of the combinations there are tell them apart. -/
def HashTells (base : Env) (hist : List (Delta CDoc)) : Prop :=
  ∀ sv es i k addr sn sv' es' i' k' addr' sn', LiveEndpoint hist sv es i k addr → LiveEndpoint hist sv' es' i' k' addr' →
    nested sv.1 svcNamePath = some (.str sn) → nested sv'.1 svcNamePath = some (.str sn') → epName base sn sv addr = epName base sn' sv' addr' →
    epSpec sv addr = epSpec sv' addr'

end Dctl
