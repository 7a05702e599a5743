import Verif.Controller.Target
/-!
# Secrets in the incremental reconciler (`pkg/controller/reconcilers.go`)
-/
set_option autoImplicit false
namespace Dctl

/-- The object in a request after `n` earlier failed attempts. `reconcilers.go:49` decodes the data of a Secret inside the request's object
(`pkg/object/secret.go:37-49` assigns to the map in place), and the work queue hands the same request out again after an error
(`reconcilers.go:56-63,73-75`). -/
def requestObj (b64 : String → Option String) (m : SMap Json) : Nat → SMap Json
  | 0 => m
  | n + 1 => decodeSecret b64 (requestObj b64 m n)

/-- The object the pipeline sees on the attempt after `n` failures (`reconcilers.go:49-58`). -/
def pipelineObj (b64 : String → Option String) (m : SMap Json) (n : Nat) : SMap Json := decodeSecret b64 (requestObj b64 m n)

/-- A write of a delta by the incremental reconciler (`reconcilers.go:72`): the snapshot passed along is the request's object, already decoded.
`m` is the object as it was watched; first attempt. -/
def reconcileWrite (b64 : String → Option String) (t : GVK) (patcher : Bool) (s : Cluster) (m : SMap Json) (ty : DeltaType) (d : SMap Json) : Option Cluster :=
  targetWrite t patcher s s ty d (some (decodeSecret b64 m))

end Dctl
