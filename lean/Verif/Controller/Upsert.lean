import Verif.Cache.Client
/-!
# Creating and updating native objects (`pkg/reconciler/ctrlutils.go`), with a concurrent writer

The API server is environment: it is modelled for one object as documented by Kubernetes (optimistic concurrency by resource versions, status as
a subresource). A concurrent writer may change the object before every request.
-/
set_option autoImplicit false
namespace Dctl

/-- A stored object: content without status, status, resource version (environment: the API server). -/
structure SObj where
  body : Obj
  status : Option Obj
  rv : Nat
deriving DecidableEq

/-- The object as a client holds it; without resource version if it has not been read (environment). -/
structure HObj where
  body : Obj
  status : Option Obj
  rv : Option Nat
deriving DecidableEq

/-- The kind: does it have a status subresource; does the server accept updates without resource version (environment). -/
structure KindCfg where
  sub : Bool
  uncond : Bool

/-- The server: the object, the next resource version, the number of write requests received (environment). -/
structure Srv where
  cur : Option SObj
  next : Nat
  writes : Nat
deriving DecidableEq

/-- What a client holds after reading or writing a stored object. -/
def SObj.held (o : SObj) : HObj := ⟨o.body, o.status, some o.rv⟩

/-- A write request has been received. -/
def Srv.req (s : Srv) : Srv := { s with writes := s.writes + 1 }

/-- `client.Create` (environment): fails if the object exists; the status is dropped if it is a subresource. -/
def Srv.create (cfg : KindCfg) (s : Srv) (o : HObj) : Option Srv :=
  match s.cur with
  | some _ => none
  | none => some { s with cur := some ⟨o.body, if cfg.sub then none else o.status, s.next⟩, next := s.next + 1 }

/-- The version check of an update (environment). -/
def rvOk (cfg : KindCfg) (cur : SObj) (o : HObj) : Bool :=
  match o.rv with
  | some v => v == cur.rv
  | none => cfg.uncond

/-- Store new content; the resource version changes if the content does (environment). -/
def Srv.put (s : Srv) (cur : SObj) (body : Obj) (status : Option Obj) : Srv × HObj :=
  if body = cur.body ∧ status = cur.status then (s, cur.held)
  else ({ s with cur := some ⟨body, status, s.next⟩, next := s.next + 1 }, ⟨body, status, some s.next⟩)

/-- Why a request fails (environment). -/
inductive ReqErr where
  | notFound
  | conflict
deriving DecidableEq

/-- `client.Update` (environment): keeps the status if it is a subresource. Returns the object as stored. -/
def Srv.update (cfg : KindCfg) (s : Srv) (o : HObj) : Except ReqErr (Srv × HObj) :=
  match s.cur with
  | none => .error .notFound
  | some cur => if rvOk cfg cur o then .ok (s.put cur o.body (if cfg.sub then cur.status else o.status)) else .error .conflict

/-- `client.Status().Update` (environment): writes the status only; kinds without the subresource answer "not found". -/
def Srv.updateStatus (cfg : KindCfg) (s : Srv) (o : HObj) : Except ReqErr (Srv × HObj) :=
  match s.cur with
  | none => .error .notFound
  | some cur =>
    if cfg.sub then if rvOk cfg cur o then .ok (s.put cur cur.body o.status) else .error .conflict
    else .error .notFound

/-- `controllerutil.OperationResult`, or an error. -/
inductive UpsertRes where
  | created
  | updated
  | failed
deriving DecidableEq

/-- `ctrlutils.go:55-80`: the update branch, for native objects. `e2`, `e3` is what the concurrent writer does before the two requests; `f` is the
mutation with the check that name and namespace stay (lines 146-154). -/
def upsertUpdate (cfg : KindCfg) (f : HObj → Option HObj) (e2 e3 : Srv → Srv) (o : HObj) (s : Srv) : Srv × UpsertRes :=
  match f o with
  | none => (s, .failed)
  | some d =>
    match (e2 s).req.update cfg d with
    | .error _ => ((e2 s).req, .failed)
    | .ok (s, o') =>
      match d.status with
      | none => (s, .updated)
      | some st =>
        match (e3 s).req.updateStatus cfg { o' with status := some st } with
        | .error _ => ((e3 s).req, .failed)
        | .ok (s, _) => (s, .updated)

/-- `ctrlutils.go:38-81` `CreateOrUpdate`, for native objects; `e0` … `e3` is what the concurrent writer does before the requests, `o` the object given. -/
def createOrUpdate (cfg : KindCfg) (f : HObj → Option HObj) (e0 e1 e2 e3 : Srv → Srv) (o : HObj) (s : Srv) : Srv × UpsertRes :=
  match (e0 s).cur with
  | some x => upsertUpdate cfg f e2 e3 x.held (e0 s)
  | none =>
    match f o with
    | none => (e0 s, .failed)
    | some d =>
      match (e1 (e0 s)).req.create cfg d with
      | some s => (s, .created)
      | none => upsertUpdate cfg f e2 e3 d (e1 (e0 s)).req

/-- `ctrlutils.go:102-143`: one attempt of `Update`, for native objects; `rv` is the resource version used, `e1`, `e2` is what the concurrent writer does
before the requests. -/
def updateAttempt (cfg : KindCfg) (e1 e2 : Srv → Srv) (o : HObj) (s : Srv) : Srv × Except ReqErr HObj :=
  match (e1 s).req.update cfg o with
  | .error e => ((e1 s).req, .error e)
  | .ok (s, o') =>
    match o.status with
    | none => (s, .ok o')
    | some st =>
      match (e2 s).req.updateStatus cfg { o' with status := some st } with
      | .error e => ((e2 s).req, .error e)
      | .ok (s, o') => (s, .ok o')

/-- `ctrlutils.go:96-144` `Update`, for native objects: on a conflict the resource version is read again and the attempt repeated (`n` attempts;
`retry.DefaultRetry` has 5). If the status update conflicts, the object is the one returned by the first request with the status
put back, as the content is the same only its version matters. `env i` is what the concurrent writer does before request `i`. -/
def updateRetry (cfg : KindCfg) (env : Nat → Srv → Srv) (o : HObj) : Nat → Srv → Srv × Bool
  | 0, s => (s, false)
  | n + 1, s =>
    match updateAttempt cfg (env (3 * n + 2)) (env (3 * n + 1)) o s with
    | (s, .ok _) => (s, true)
    | (s, .error .notFound) => (s, false)
    | (s, .error .conflict) =>
      match (env (3 * n) s).cur with
      | none => (env (3 * n) s, false)
      | some x => updateRetry cfg env { o with rv := some x.rv } n (env (3 * n) s)

end Dctl
