import Verif.Apiserver.Storage
import Verif.Spec.Cache
/-!
# Specification of the served resources
-/
set_option autoImplicit false
namespace Dctl

/-- The registered kinds of each group after a call: registering replaces the kinds of the groups mentioned, unregistering removes the groups mentioned. -/
def ApiOp.apply (f : String → List GVK) : ApiOp → String → List GVK
  | .register gvks _ _ => fun g => if gvks.any (fun t => t.group == g) then gvks.filter (fun t => t.group == g) else f g
  | .unregister gvks _ => fun g => if gvks.any (fun t => t.group == g) then [] else f g

/-- The registered kinds of each group after a sequence of calls. -/
def registeredAfter (ops : List ApiOp) : String → List GVK := ops.foldl ApiOp.apply (fun _ => [])

/-- The orders given in a call are orders of what is traversed: each group of the kinds once; for each group each of its versions once. -/
def ApiOp.Valid : ApiOp → Prop
  | .register gvks gs vs => gs.Nodup ∧ (∀ g, g ∈ gs ↔ ∃ t ∈ gvks, t.group = g) ∧
      ∀ g, (vs g).Nodup ∧ ∀ v, v ∈ vs g ↔ ∃ t ∈ gvks, t.group = g ∧ t.version = v
  | .unregister gvks gs => gs.Nodup ∧ ∀ g, g ∈ gs ↔ ∃ t ∈ gvks, t.group = g

/-- A registered group is only registered again with at least its kinds. -/
def ApiOp.Grows (f : String → List GVK) : ApiOp → Prop
  | .register gvks _ _ => ∀ t ∈ gvks, ∀ t' ∈ f t.group, t' ∈ gvks
  | .unregister _ _ => True

/-- This holds of all calls of a sequence, starting with the registered kinds `f`. -/
def GrowingFrom (f : String → List GVK) : List ApiOp → Prop
  | [] => True
  | op :: ops => op.Grows f ∧ GrowingFrom (op.apply f) ops

/-- This holds of all calls of a sequence. -/
def Growing (ops : List ApiOp) : Prop := GrowingFrom (fun _ => []) ops

/-- The resources of the registered view kinds. -/
def ServedBy (f : String → List GVK) (t : GVK) (r : GVR) : Prop := t ∈ f t.group ∧ isViewKind t = true ∧ r = ⟨t.group, t.version, lower t.kind⟩

/-- The resources listed for a version are those of the registered view kinds of the version. -/
def ListsExactly (f : String → List GVK) (g v : String) (rs : List ApiResource) : Prop :=
  ∀ r, r ∈ rs ↔ ∃ t ∈ f g, t.version = v ∧ isViewKind t = true ∧ r = ⟨lower t.kind, t.kind, g, v⟩

/-- A list of the versions of the kinds, each once. -/
def VersionsOf (l : List GVK) (vs : List String) : Prop := vs.Nodup ∧ ∀ v, v ∈ vs ↔ ∃ t ∈ l, t.version = v

/-- The verbs and what they call. -/
def verbTable : List (String × StorageCall) :=
  [("get", .get), ("list", .list), ("watch", .watch), ("create", .create), ("update", .update), ("patch", .patch), ("delete", .delete),
   ("deletecollection", .deleteCollection)]

/-! ### storage -/

/-- The metadata of an object, if any, is a map. -/
def PlainMeta (o : Obj) : Prop := SMap.get o "metadata" = none ∨ ∃ m, SMap.get o "metadata" = some (.map m)

/-- What the handlers of the library pass to the storage: well-formed objects; an update changes neither name nor namespace (the handlers compare both
with the request). -/
structure StoReq.Checked (q : StoReq) (ns name : String) : Prop where
  body : Obj.Ok q.body ∧ PlainMeta q.body
  updated : ∀ cur o, q.updated cur = some o → Obj.Ok o ∧ PlainMeta o
  keeps : ∀ cur o, q.updated (some cur) = some o → objKey o = (ns, name)

/-- The objects of an answer, and of the events of a watch it opens. -/
def Answer.shows : Answer → Obj → Prop
  | .objects l, o => o ∈ l
  | .watching _ s, o => ∃ e w, watchEv s e = some w ∧ (w = .added o ∨ w = .modified o ∨ w = .deleted o)
  | _, _ => False

/-- Names and namespaces of all stored objects are without slashes. -/
def VCache.Plain (c : VCache) : Prop := ∀ g k o, c.get g k = some o → ObjKey.NoSlash (objKey o)

end Dctl
