import Verif.Spec.EpView
import Verif.Spec.PodHealth
/-!
# Specification: the endpoint slice operator shipped as an example, both controllers together

`examples/endpointslice-controller/endpointslice-operator.yaml` and what the README says the operator does, in terms of Services and EndpointSlices only.
-/
set_option autoImplicit false
namespace Dctl

/-- The controller has seen the views of a kind as they are in the cluster, but for their UID: they are the ones that are live in its history. -/
def SeenAll (g : GVK) (c : Cluster) (hist : List (Delta CDoc)) : Prop :=
  (∀ k obj, c.get (g, k) = some obj → ∃ v, LiveObj hist g v ∧ ∀ p, Disjoint p ["metadata", "uid"] → nested v.1 p = nested obj p) ∧
  ∀ v, LiveObj hist g v → (c.get (g, objKey v.1)).isSome

/-- The EndpointSlice is of the Service with this name and namespace. -/
def OfService (n ns : String) (es : CDoc) : Prop := nested es.1 ofServicePath = some (.str n) ∧ nested es.1 nsPath = some (.str ns)

/-- The EndpointSlice has a ready address: number `k` of its endpoint number `i`. -/
def ReadyAddress (es : CDoc) (i k : Nat) (addr : Json) : Prop :=
  ∃ ep, (sliceEndpoints es)[i]? = some ep ∧ EndpointReady ep ∧ (endpointAddresses ep)[k]? = some addr

/-- A live Service with the annotation and a port of it, and a live EndpointSlice of the Service with a ready address. -/
structure LivePair (svcs eps : List (Delta CDoc)) (n ns : String) (svc : CDoc) (port addr : Json) : Prop where
  named : SvcNamed n ns svc
  port : ∃ i, LivePort svcs svc i port
  addr : ∃ es i k, LiveObj eps sliceK es ∧ OfService n ns es ∧ ReadyAddress es i k addr

/-- What the EndpointView of a port of a Service and an address says. -/
def pairSpec (n : String) (svc : CDoc) (port addr : Json) : SMap Json :=
  [("address", addr), ("port", (port.at ["port"]).getD .null), ("protocol", (port.at ["protocol"]).getD .null), ("serviceName", .str n),
   ("targetPort", (port.at ["targetPort"]).getD .null), ("type", (nested svc.1 typePath).getD .null)]

/-- Its name. -/
def pairName (base : Env) (n : String) (svc : CDoc) (port addr : Json) : String := n ++ "-" ++ base.hash (.map (pairSpec n svc port addr))

end Dctl
