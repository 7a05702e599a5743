import Verif.Controller.Target
import Verif.Pipeline.Adaptor
import Verif.Json.ObjectLemmas
import Verif.Spec.Patch
import Verif.Spec.Writes
/-!
# Specification: a cluster whose objects are patched

Small definitions used in theorem statements only.
-/
set_option autoImplicit false
namespace Dctl

/-- The objects of kind `t` are JSON objects with metadata. -/
def ClusterOk (t : GVK) (c : Cluster) : Prop :=
  ∀ k y, c.get (t, k) = some y → (Json.map y).Canon ∧ ∃ md, SMap.get y "metadata" = some (.map md)

/-- The snapshot that comes with a write, if it is used at all, is the object in the cluster. -/
def SnapshotOk (t : GVK) (c : Cluster) (new : SMap Json) (orig : Option (SMap Json)) : Prop :=
  ∀ o, orig = some o → objGVK o = objGVK new → objKey o = objKey new → c.get (t, objKey new) = some o

/-- Others change the cluster, but not the field `p` of the object `k` of kind `t`, which they do not remove or create. -/
def OthersKeep (t : GVK) (k : ObjKey) (p : List String) (c c' : Cluster) : Prop :=
  ClusterOk t c' ∧ (∀ y, c.get (t, k) = some y → ∃ y', c'.get (t, k) = some y' ∧ nested y' p = nested y p) ∧ (c.get (t, k) = none → c'.get (t, k) = none)

/-- From the cluster `c0`, the writes `ws` of a Patcher and changes made by others lead to the cluster. -/
inductive Patched (t : GVK) (k : ObjKey) (p : List String) (c0 : Cluster) : List (Delta CDoc) → Cluster → Prop
  | start : Patched t k p c0 [] c0
  | write {ws : List (Delta CDoc)} {c c' : Cluster} (w : Delta CDoc) (orig : Option (SMap Json)) : Patched t k p c0 ws c → SnapshotOk t c w.obj.1 orig →
      targetWrite t true c c w.type w.obj.1 orig = some c' → Patched t k p c0 (ws ++ [w]) c'
  | others {ws : List (Delta CDoc)} {c c' : Cluster} : Patched t k p c0 ws c → OthersKeep t k p c c' → Patched t k p c0 ws c'

end Dctl
