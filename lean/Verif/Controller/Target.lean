import Verif.Json.Object
/-!
# Writing objects to a target (`pkg/reconciler/target.go`, `pkg/reconciler/ctrlutils.go`)

The target's storage maps kinds and keys to object contents. Not modelled: resource versions (a conflict is the difference between the two clusters passed to `patcherWrite`), status
subresources (the two writes of spec and status are one write here), defaulting and validation by a Kubernetes API server, failures other
than NotFound (see `Verif/Controller/Reconcile.lean` for those).
-/
set_option autoImplicit false
namespace Dctl

/-- The objects held by the cluster or the view cache (environment). -/
abbrev Cluster := AMap (GVK × ObjKey) (SMap Json)

/-- The map of strings at a path: `GetLabels`, `GetAnnotations` of an unstructured object, with null read as the empty string and nothing if some
value is no string (used in `target.go:348-349,360-361`). -/
def stringMap : SMap Json → Option (SMap String)
  | [] => some []
  | (k, .str s) :: m => (stringMap m).map ((k, s) :: ·)
  | (k, .null) :: m => (stringMap m).map ((k, "") :: ·)
  | _ :: _ => none

/-- `GetLabels()` for `f = "labels"`, `GetAnnotations()` for `f = "annotations"` (`target.go:348-349,360-361`). -/
def getStrings (m : SMap Json) (f : String) : Option (SMap String) :=
  match nested m ["metadata", f] with
  | some (.map x) => stringMap x
  | _ => none

/-- `SetLabels`, `SetAnnotations` with a map that is not nil (`target.go:357,369`). -/
def setStrings (m : SMap Json) (f : String) (x : SMap String) : SMap Json := setField m ["metadata", f] (.map (SMap.mapVal .str x))

/-- `target.go:354-356,366-368`: `for k, v := range new { old[k] = v }`. -/
def overlay (old : SMap String) : SMap String → SMap String
  | [] => old
  | (k, v) :: new => overlay (SMap.set old k v) new

/-- One half of `target.go:347-371` `mergeMetadata`, for labels or for annotations. -/
def mergeStrings (f : String) (obj new : SMap Json) : SMap Json :=
  match getStrings new f with
  | none => obj
  | some x => setStrings obj f (overlay ((getStrings obj f).getD []) x)

/-- `target.go:347-371` `mergeMetadata`. -/
def mergeMetadata (obj new : SMap Json) : SMap Json := mergeStrings "annotations" (mergeStrings "labels" obj new) new

/-- `target.go:118-126`: drop the top-level fields the new object lacks, except `metadata`; the loop runs over the fields `ks` of the object. -/
def dropMissing (new : SMap Json) (obj : SMap Json) : List String → SMap Json
  | [] => obj
  | k :: ks =>
    if k ≠ "metadata" ∧ SMap.get new k = none then dropMissing new (SMap.erase obj k) ks
    else dropMissing new obj ks

/-- `target.go:129-139`: copy the top-level fields of the new object, except `metadata`. -/
def copyFields (obj : SMap Json) : SMap Json → SMap Json
  | [] => obj
  | (k, v) :: new => if k = "metadata" then copyFields obj new else copyFields (SMap.set obj k v) new

/-- `target.go:144-146,224-226,288-290`: restore kind, name and namespace (in this order). -/
def restore (obj : SMap Json) (t : GVK) (k : ObjKey) : SMap Json :=
  setStr (setStr (setGVK obj t) ["metadata", "name"] k.2) ["metadata", "namespace"] k.1

/-- `target.go:116-149`: the mutate function of an Updater target. -/
def updaterMutate (t : GVK) (new obj : SMap Json) : SMap Json :=
  restore (mergeMetadata (copyFields (dropMissing new obj (obj.map (·.1))) new) new) t (objKey new)

/-- `target.go:100-104,197-200,258-261`: an object with kind, name and namespace only. -/
def bareObj (t : GVK) (k : ObjKey) : SMap Json := restore [] t k

/-- `target.go:90-177` `update` with `ctrlutils.go:38-81` `CreateOrUpdate`, `new` being an object of the target kind `t`: deltas of other
types than the ones below are ignored. Without interference `Create` succeeds if and only if `Get` found nothing. -/
def updaterWrite (t : GVK) (s : Cluster) (ty : DeltaType) (new : SMap Json) : Cluster :=
  match ty with
  | .added | .upserted | .updated | .replaced =>
    match s.get (t, objKey new) with
    | none => s.set (t, objKey new) (updaterMutate t new (bareObj t (objKey new)))
    | some obj => s.set (t, objKey new) (updaterMutate t new obj)
  | .deleted => s.erase (t, objKey new)
  | .sync => s

/-- `target.go:191-194,252-255`: can the snapshot of the request be used in place of a read? -/
def useOriginal (orig : Option (SMap Json)) (new : SMap Json) : Option (SMap Json) :=
  match orig with
  | some o => if objGVK o = objGVK new ∧ objKey o = objKey new then some o else none
  | none => none

/-- `pkg/object/patch.go:13-24` `Patch` of an object; the patch of a map with a map is always a map. -/
def patchObj (obj p : SMap Json) : SMap Json :=
  match Json.patch (.map obj) (.map p) with
  | .map r => r
  | _ => obj

/-- `target.go:218-226`: the object written by a Patcher target for an upsert. -/
def patcherUpsert (obj new : SMap Json) : SMap Json := restore (patchObj obj new) (objGVK new) (objKey new)

/-- `target.go:270-279`: the delete patch. -/
def deletePatch (w : SMap Json) : SMap Json :=
  setField (setField (setField (setField (Json.removeM w) ["apiVersion"] (.str (gvString (objGVK w)))) ["kind"] (.str (objGVK w).kind))
    ["metadata", "namespace"] (.str (objKey w).1)) ["metadata", "name"] (.str (objKey w).2)

/-- `target.go:284-290`: the object written by a Patcher target for a delete. -/
def patcherDelete (obj w : SMap Json) : SMap Json := restore (patchObj obj (deletePatch w)) (objGVK w) (objKey w)

/-- `ctrlutils.go:96-144` `Update`: an object that is gone is not created. On a conflict only the resource version is read again: the write
replaces what is there, whether or not it changed since `obj` was read. -/
def clientUpdate (s : Cluster) (t : GVK) (obj : SMap Json) : Option Cluster :=
  match s.get (t, objKey obj) with
  | none => none
  | some _ => some (s.set (t, objKey obj) obj)

/-- `target.go:179-315` `patch`: `s` is the cluster when the target is read, `s'` the one found by the final write, `orig` the snapshot in
the request. `none` is an error: the target of an upsert is missing. -/
def patcherWrite (t : GVK) (s s' : Cluster) (ty : DeltaType) (new : SMap Json) (orig : Option (SMap Json)) : Option Cluster :=
  match ty with
  | .added | .upserted | .updated | .replaced =>
    match (useOriginal orig new).or (s.get (t, objKey new)) with
    | none => none
    | some obj => some ((clientUpdate s' t (patcherUpsert obj new)).getD s')
  | .deleted =>
    match (useOriginal orig new).or (s.get (t, objKey new)) with
    | none => some s'
    | some obj => some ((clientUpdate s' t (patcherDelete obj new)).getD s')
  | .sync => some s'

/-- `target.go:64-88` `Write`: set the kind of the copy of the object, then update or patch (`patcher`). -/
def targetWrite (t : GVK) (patcher : Bool) (s s' : Cluster) (ty : DeltaType) (d : SMap Json) (orig : Option (SMap Json)) : Option Cluster :=
  if patcher then patcherWrite t s s' ty (setGVK d t) orig else some (updaterWrite t s' ty (setGVK d t))

end Dctl
