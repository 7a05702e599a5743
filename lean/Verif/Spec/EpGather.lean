import Verif.Spec.EpOperator
/-!
# Specification: the endpoint slice operator with gather, shipped as an example

`examples/endpointslice-controller/endpointslice-controller-gather-spec.yaml`, and what its comments say it does: a single endpoint list per service-id, in the
EndpointView of each port of a Service. The kinds are those of the operator of `Spec/EpView.lean` (the file names no operator; the group of the views is made of the name
under which it is loaded, `examples/endpointslice-controller/main.go:92`).
-/
set_option autoImplicit false
namespace Dctl

/-- `examples/endpointslice-controller/endpointslice-controller-gather-spec.yaml:10-27`: the pipeline of the controller `service-controller`, as the JSON the YAML stands
for. -/
def gatherSvcJson : Json := .list [
  .map [("@select", .map [("@exists", .str enabledQuery)])],
  .map [("@project", .map [
    ("metadata", .map [("name", .str "$.metadata.name"), ("namespace", .str "$.metadata.namespace")]),
    ("spec", .map [("ports", .str "$.spec.ports"), ("serviceName", .str "$.metadata.name"), ("type", .str "$.spec.type")])])],
  .map [("@unwind", .str "$.spec.ports")],
  .map [("@project", .map [
    ("metadata", .map [
      ("name", .map [("@concat", .list [.str "$.spec.serviceName", .str "-", .str "$.spec.ports.protocol", .str "-", .str "$.spec.ports.port"])]),
      ("namespace", .str "$.metadata.namespace")]),
    ("spec", .str "$.spec")])]]

/-- `examples/endpointslice-controller/endpointslice-controller-gather-spec.yaml:43-87`: the pipeline of the controller `endpointslice-controller`, as the JSON the YAML
stands for. -/
def gatherEpJson : Json := .list [
  .map [("@join", .map [("@and", .list [
    .map [("@eq", .list [.str "$.ServiceView.spec.serviceName", .str ofServiceQuery])],
    .map [("@eq", .list [.str "$.ServiceView.metadata.namespace", .str "$.EndpointSlice.metadata.namespace"])]])])],
  .map [("@project", .map [
    ("endpoints", .str "$.EndpointSlice.endpoints"),
    ("id", .map [("name", .str "$.ServiceView.spec.serviceName"), ("namespace", .str "$.ServiceView.metadata.namespace"), ("port", .str "$.ServiceView.spec.ports.port"),
      ("protocol", .str "$.ServiceView.spec.ports.protocol"), ("type", .str "$.ServiceView.spec.type")]),
    ("metadata", .map [("name", .str "$.ServiceView.metadata.name"), ("namespace", .str "$.ServiceView.metadata.namespace")]),
    ("spec", .str "$.ServiceView.spec")])],
  .map [("@unwind", .str "$.endpoints")],
  .map [("@select", .map [("@eq", .list [.str "$.endpoints.conditions.ready", .bool true])])],
  .map [("@unwind", .str "$.endpoints.addresses")],
  .map [("@gather", .list [.str "$.id", .str "$.endpoints.addresses"])],
  .map [("@project", .map [
    ("metadata", .map [("name", .map [("@concat", .list [.str "$.id.name", .str "-", .str "$.id.protocol", .str "-", .str "$.id.port"])]), ("namespace", .str "$.metadata.namespace")]),
    ("spec", .map [("addresses", .str "$.endpoints.addresses"), ("port", .str "$.spec.ports.port"), ("protocol", .str "$.spec.ports.protocol"),
      ("serviceName", .str "$.spec.serviceName"), ("targetPort", .str "$.spec.ports.targetPort"), ("type", .str "$.spec.type")])])]]

/-- The name of the views for a port of a Service. -/
def portName (sn proto : String) (port : Int) : String := sn ++ "-" ++ proto ++ "-" ++ toString port

/-- The port has this protocol and number. -/
def IsPort (proto : String) (num : Int) (port : Json) : Prop := port.at ["protocol"] = some (.str proto) ∧ port.at ["port"] = some (.int num)

/-- The ServiceView is of the port with this protocol and number of the Service `sn` in the namespace `ns`, and has the name for it. -/
structure PortOf (sn ns proto : String) (num : Int) (sv : CDoc) : Prop where
  named : SvcNamed (portName sn proto num) ns sv
  service : nested sv.1 svcNamePath = some (.str sn)
  protocol : nested sv.1 protocolPath = some (.str proto)
  port : nested sv.1 portPath = some (.int num)

/-- What the watches of the second controller deliver: ServiceViews of ports, and EndpointSlices whose addresses are strings, in a possible order. -/
structure GatherHist (hist : List (EvalOrder CDoc × Delta CDoc)) : Prop extends EpHist hist where
  ports : ∀ e ∈ hist, objGVK e.2.obj.1 = svcViewK → ∃ sn ns proto num, PortOf sn ns proto num e.2.obj
  addrs : ∀ e ∈ hist, objGVK e.2.obj.1 = sliceK → ∀ ep ∈ sliceEndpoints e.2.obj, ∀ a ∈ endpointAddresses ep, ∃ s, a = .str s

/-- The address number `l.2.2` of the endpoint number `l.2.1` of an EndpointSlice. -/
def addressAt (l : CDoc × Nat × Nat) : Json :=
  match (sliceEndpoints l.1)[l.2.1]? with
  | some ep => (endpointAddresses ep)[l.2.2]?.getD .null
  | none => .null

/-- `addrs` are the ready addresses of the Service of a ServiceView: those in all live EndpointSlices of the Service, each as often as it is there, in some order. -/
def ReadyAddresses (hist : List (Delta CDoc)) (sv : CDoc) (addrs : List Json) : Prop :=
  ∃ ls : List (CDoc × Nat × Nat), ls.Nodup ∧ (∀ es i k, (es, i, k) ∈ ls ↔ ∃ a, LiveEndpoint hist sv es i k a) ∧ addrs.Perm (ls.map addressAt)

/-- What the EndpointView of a port says. -/
def gatherSpec (sv : CDoc) (addrs : List Json) : SMap Json :=
  [("addresses", .list addrs), ("port", (nested sv.1 portPath).getD .null), ("protocol", (nested sv.1 protocolPath).getD .null),
   ("serviceName", (nested sv.1 svcNamePath).getD .null), ("targetPort", (nested sv.1 targetPortPath).getD .null), ("type", (nested sv.1 typePath).getD .null)]

/-- The ports of a Service are as the schema of Kubernetes says: each has a protocol, in which there is no dash, and a number, no two ports have both the same, and nothing
in them looks like a path. -/
def PortsOk (svc : CDoc) : Prop :=
  (∀ port ∈ svcPorts svc, ∃ proto num, IsPort proto num port ∧ 0 ≤ num ∧ '-' ∉ proto.toList ∧ (Json.str proto).Ordinary) ∧
  ∀ (i j : Nat) p q proto num, (svcPorts svc)[i]? = some p → (svcPorts svc)[j]? = some q → IsPort proto num p → IsPort proto num q → i = j

/-- What the watch of the first controller delivers: Services with such ports. -/
structure GatherSvcHist (hist : List (EvalOrder CDoc × Delta CDoc)) : Prop extends SvcViewHist hist where
  ports : ∀ e ∈ hist, PortsOk e.2.obj

/-- `addrs` are the ready addresses of a Service: those in all live EndpointSlices of it, each as often as it is there, in some order. -/
def ServiceAddresses (eps : List (Delta CDoc)) (n ns : String) (addrs : List Json) : Prop :=
  ∃ ls : List (CDoc × Nat × Nat), ls.Nodup ∧ (∀ es i k, (es, i, k) ∈ ls ↔ LiveObj eps sliceK es ∧ OfService n ns es ∧ ∃ a, ReadyAddress es i k a) ∧
    addrs.Perm (ls.map addressAt)

/-- What the EndpointView of a port of a Service says. -/
def portSpec (n : String) (svc : CDoc) (port : Json) (addrs : List Json) : SMap Json :=
  [("addresses", .list addrs), ("port", (port.at ["port"]).getD .null), ("protocol", (port.at ["protocol"]).getD .null), ("serviceName", .str n),
   ("targetPort", (port.at ["targetPort"]).getD .null), ("type", (nested svc.1 typePath).getD .null)]

end Dctl
