import Verif.Apiserver.Registry
import Verif.Cache.Client
import Verif.Auth.Rbac
/-!
# Serving the views (`pkg/apiserver/storage.go`) and the way of a request to them

The client of the storage is the composite client; the kinds served are view kinds (C53), for which it is the view client (C44, C47).
-/
set_option autoImplicit false
namespace Dctl

/-- What the handlers of the library (`resource_handler.go:151-194`) pass to the storage besides name and namespace: the object of a create, the change
of an update or patch (`rest.UpdatedObjectInfo`, given the current object if there is one), if an update may create, and the selectors. There is no admission
control (`resource_handler.go:166-190`), so validation always succeeds. -/
structure StoReq where
  body : Obj
  updated : Option Obj → Option Obj
  allowCreate : Bool
  labels : Option (SMap String → Bool)
  fields : Option (SMap String → Bool)

/-- `storage.go:70-94` `Get`. The handlers put the namespace of the request into the context. -/
def stoGet (c : VCache) (t : GVK) (ns name : String) : Option Obj := c.get t (ns, name)

/-- `storage.go:108-113,305-310`: the kind of a list. -/
def stoListKind (t : GVK) : GVK := { t with kind := t.kind ++ "List" }

/-- `storage.go:115-133,312-330`: the options; no namespace option for all namespaces. -/
def stoSelect (ns : String) (q : StoReq) : Select := ⟨ns, q.labels, q.fields⟩

/-- `storage.go:99-140` `List`. -/
def stoList (c : VCache) (t : GVK) (ns : String) (q : StoReq) : Option (List Obj) := c.list (stoListKind t) (stoSelect ns q)

/-- `storage.go:161-170`: kind and namespace of an object created. -/
def stoPrepare (t : GVK) (ns : String) (o : Obj) : Obj := setStr (setGVK o t) ["metadata", "namespace"] ns

/-- `storage.go:146-181` `Create`. -/
def stoCreate (hash : String → String) (c : VCache) (t : GVK) (ns : String) (o : Obj) : VCache × Option Obj :=
  match c.clientCreate hash (stoPrepare t ns o) with
  | none => (c, none)
  | some c' => (c', some (stoPrepare t ns o))

/-- `storage.go:186-230` `Update`. -/
def stoUpdate (hash : String → String) (c : VCache) (t : GVK) (ns name : String) (q : StoReq) : VCache × Option Obj :=
  match stoGet c t ns name with
  | none =>
    if q.allowCreate then
      match q.updated none with
      | none => (c, none)
      | some o => stoCreate hash c t ns o
    else (c, none)
  | some cur =>
    match q.updated (some cur) with
    | none => (c, none)
    | some o =>
      match c.clientUpdate hash (setGVK o t) with
      | none => (c, none)
      | some c' => (c', some (setGVK o t))

/-- `storage.go:235-261` `Delete`. -/
def stoDelete (c : VCache) (t : GVK) (ns name : String) : VCache × Option Obj :=
  match stoGet c t ns name with
  | none => (c, none)
  | some o =>
    match c.clientDelete o with
    | none => (c, none)
    | some c' => (c', some o)

/-- `storage.go:279-289`: deleting one by one; errors are only logged. -/
def stoDeleteEach (c : VCache) : List Obj → VCache
  | [] => c
  | o :: l => stoDeleteEach ((c.clientDelete o).getD c) l

/-- `storage.go:266-292` `DeleteCollection`. -/
def stoDeleteCollection (c : VCache) (t : GVK) (ns : String) (q : StoReq) : VCache × Option (List Obj) :=
  match stoList c t ns q with
  | none => (c, none)
  | some l => (stoDeleteEach c l, some l)

/-- The answer to a request: objects, a watch with its options, what other handlers answer, or an error. -/
inductive Answer where
  | objects (l : List Obj)
  | watching (listKind : GVK) (s : Select)
  | other (d : Dispatch)
  | failed
  | forbidden

/-- The result of a storage call on one object. -/
def Answer.one (r : VCache × Option Obj) : VCache × Answer :=
  match r.2 with
  | none => (r.1, .failed)
  | some o => (r.1, .objects [o])

/-- The result of a storage call on a collection. -/
def Answer.many (r : VCache × Option (List Obj)) : VCache × Answer :=
  match r.2 with
  | none => (r.1, .failed)
  | some l => (r.1, .objects l)

/-- `resource_handler.go:151-194`: the storage calls made for the handlers, with the name and namespace of the request; a patch is an update
(`handlers.PatchResource` of the library). `storage.go:297-342` `Watch`: opening a watch leaves the objects as they are. -/
def runStorage (hash : String → String) (c : VCache) (t : GVK) (ns name : String) (q : StoReq) : StorageCall → VCache × Answer
  | .get => Answer.one (c, stoGet c t ns name)
  | .list => Answer.many (c, stoList c t ns q)
  | .watch => (c, .watching (stoListKind t) (stoSelect ns q))
  | .create => Answer.one (stoCreate hash c t ns q.body)
  | .update => Answer.one (stoUpdate hash c t ns name q)
  | .patch => Answer.one (stoUpdate hash c t ns name q)
  | .delete => Answer.one (stoDelete c t ns name)
  | .deleteCollection => Answer.many (stoDeleteCollection c t ns q)

/-- The attributes of a request (`WithAuthorization` of the library, `builder.go:144-163`). -/
def reqAttrs (user : Option UserInfo) (r : ReqInfo) : Attrs := ⟨user, r.isResource, r.verb, r.apiGroup, r.resource, r.name, r.ns⟩

/-- `builder.go:144-163`: the way of a request with authorization on, after authentication: the authorizer, then the handlers. -/
def ApiSrv.handle (s : ApiSrv) (hash : String → String) (c : VCache) (user : Option UserInfo) (path : String) (r : ReqInfo) (q : StoReq) : VCache × Answer :=
  if authorize (reqAttrs user r) then
    match s.serve path (some r) with
    | .storage t call => runStorage hash c t r.ns r.name q call
    | d => (c, .other d)
  else (c, .forbidden)

end Dctl
