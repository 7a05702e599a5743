import Verif.Cache.View
/-!
# Registering views with the API server, dispatching requests (`pkg/apiserver`)

Go maps from keys to handlers are functions into `Option`.
-/
set_option autoImplicit false
namespace Dctl

/-- `resource.go:25-46` `findAPIResource`. -/
def findAPIResource (t : GVK) : Option ApiResource :=
  if isViewKind t then some ⟨lower t.kind, t.kind, t.group, t.version⟩ else none

/-- `registry.go:73-77,122-126`: the resource of a kind. -/
def gvrFor (t : GVK) (r : ApiResource) : GVR := ⟨t.group, t.version, r.name⟩

/-- The state of the API server (`apiserver.go:58-79`): the storage map (`resource_handler.go:55`, with the kind served, the rest of the serving info
follows from it), the registered kinds of each group, the handlers for /apis/<group> (with the versions they list) and /apis/<group>/<version> (with
the resources they list), and the groups and versions announced by the two discovery managers of the library. The type scheme and the OpenAPI caches are
in `Apiserver/OpenApi`. -/
structure ApiSrv where
  storage : GVR → Option GVK
  groupGVKs : String → Option (List GVK)
  groupH : String → Option (List String)
  versionH : String → Option (List ApiResource)
  discV1 : String → Option (List String)
  discV2 : String × String → Option (List ApiResource)

/-- `apiserver.go:89-94`, `builder.go:45-65`: nothing is registered. -/
def ApiSrv.init : ApiSrv := ⟨fun _ => none, fun _ => none, fun _ => none, fun _ => none, fun _ => none, fun _ => none⟩

namespace ApiSrv

/-- `registry.go:66-82` with `resource_handler.go:203-228` `addStorage`. That the client can watch (`resource_handler.go:257-260`) is assumed. -/
def addStorage (s : ApiSrv) : List GVK → ApiSrv
  | [] => s
  | t :: l =>
    match findAPIResource t with
    | none => s.addStorage l
    | some r => { s with storage := upd s.storage (gvrFor t r) (some t) }.addStorage l

/-- `registry.go:157-160,186-208`: the resources of the kinds of one version. -/
def resourcesOf (gvks : List GVK) (version : String) : List ApiResource := (gvks.filter (fun t => t.version == version)).filterMap findAPIResource

/-- `registry.go:181-231`: the handlers of the versions, in some order. -/
def addVersions (s : ApiSrv) (group : String) (gvks : List GVK) : List String → ApiSrv
  | [] => s
  | v :: vs =>
    { s with versionH := upd s.versionH (group ++ "/" ++ v) (some (resourcesOf gvks v)),
             discV2 := upd s.discV2 (group, v) (some (resourcesOf gvks v)) }.addVersions group gvks vs

/-- `registry.go:154-233` `registerDiscoveryHandlers`, with the versions in the order the map is traversed in. Without kinds there is no preferred version
and the code panics (line 176): none. -/
def registerDiscovery (s : ApiSrv) (group : String) (gvks : List GVK) (versions : List String) : Option ApiSrv :=
  if gvks.length = 0 then none
  else some ({ s with groupH := upd s.groupH group (some versions), discV1 := upd s.discV1 group (some versions) }.addVersions group gvks versions)

/-- `registry.go:52-101` `RegisterAPIGroup`. Adding the types to the scheme (lines 62-64), which can panic, is in `Apiserver/OpenApi`. -/
def registerGroup (s : ApiSrv) (group : String) (gvks : List GVK) (versions : List String) : Option ApiSrv :=
  if !isViewGroup group then some s
  else
    match (s.addStorage gvks).registerDiscovery group gvks versions with
    | none => none
    | some s => some { s with groupGVKs := upd s.groupGVKs group (some gvks) }

/-- `registry.go:116-129` with `resource_handler.go:231-248` `removeStorage`. -/
def removeStorage (s : ApiSrv) : List GVK → ApiSrv
  | [] => s
  | t :: l =>
    match findAPIResource t with
    | none => s.removeStorage l
    | some r => { s with storage := upd s.storage (gvrFor t r) none }.removeStorage l

/-- `registry.go:133-135`. -/
def removeVersions (s : ApiSrv) : List GVK → ApiSrv
  | [] => s
  | t :: l => { s with versionH := upd s.versionH (t.group ++ "/" ++ t.version) none }.removeVersions l

/-- `registry.go:104-150` `UnregisterAPIGroup`. -/
def unregisterGroup (s : ApiSrv) (group : String) : ApiSrv :=
  match s.groupGVKs group with
  | none => s
  | some gvks =>
    let s := s.removeStorage gvks
    let s := { s with groupH := upd s.groupH group none }
    let s := s.removeVersions gvks
    { s with discV1 := upd s.discV1 group none, discV2 := fun k => if k.1 = group then none else s.discV2 k, groupGVKs := upd s.groupGVKs group none }

/-- `registry.go:23-33`: the groups one after the other, in the order given; `vs` gives the versions of a group in the order they are traversed in. An error or
panic stops the loop. -/
def registerGroups (s : ApiSrv) (gvks : List GVK) (vs : String → List String) : List String → Option ApiSrv
  | [] => some s
  | g :: gs =>
    match s.registerGroup g (gvks.filter (fun t => t.group == g)) (vs g) with
    | none => none
    | some s => s.registerGroups gvks vs gs

/-- `registry.go:37-47` `UnregisterGVKs`, the groups in the order given. -/
def unregisterGroups (s : ApiSrv) : List String → ApiSrv
  | [] => s
  | g :: gs => (s.unregisterGroup g).unregisterGroups gs

end ApiSrv

/-- A call of `RegisterGVKs` (`registry.go:20-34`) or `UnregisterGVKs` (`registry.go:37-47`), with the orders in which groups and versions are
traversed. -/
inductive ApiOp where
  | register (gvks : List GVK) (groups : List String) (versions : String → List String)
  | unregister (gvks : List GVK) (groups : List String)

/-- `registry.go:20-47`. -/
def ApiSrv.step (s : ApiSrv) : ApiOp → Option ApiSrv
  | .register gvks gs vs => s.registerGroups gvks vs gs
  | .unregister _ gs => some (s.unregisterGroups gs)

/-- A sequence of calls; none if one panics. -/
def ApiSrv.run (s : ApiSrv) : List ApiOp → Option ApiSrv
  | [] => some s
  | op :: ops =>
    match s.step op with
    | none => none
    | some s => s.run ops

/-! ### dispatching requests -/

/-- `genericapirequest.RequestInfo` (`resource_handler.go:85-107,145-151`) and the path of the request. -/
structure ReqInfo where
  isResource : Bool
  verb : String
  apiGroup : String
  apiVersion : String
  resource : String
  subresource : String
  name : String
  ns : String

/-- `strings.Split(s, "/")` (`dynamic_discovery.go:158`). -/
def splitSlash : List Char → List (List Char)
  | [] => [[]]
  | c :: l =>
    match splitSlash l with
    | [] => [[c]]
    | w :: ws => if c = '/' then [] :: w :: ws else (c :: w) :: ws

/-- `strings.Trim(path, "/")` (`dynamic_discovery.go:154`). -/
def trimSlash (l : List Char) : List Char := ((l.dropWhile (· == '/')).reverse.dropWhile (· == '/')).reverse

/-- `dynamic_discovery.go:153-159` `splitPath`. -/
def splitPath (path : String) : List String :=
  if trimSlash path.toList = [] then [] else (splitSlash (trimSlash path.toList)).map String.ofList

/-- The handlers of `handlers` a request is passed to (`resource_handler.go:151-194`). -/
inductive StorageCall where
  | get
  | list
  | watch
  | create
  | update
  | patch
  | delete
  | deleteCollection
deriving DecidableEq, Repr

/-- What becomes of a request. -/
inductive Dispatch where
  | storage (t : GVK) (call : StorageCall)
  | group (versions : List String)
  | version (resources : List ApiResource)
  | rejected (status : Nat)
deriving DecidableEq

/-- `dynamic_discovery.go:35-64` `dynamicGroupHandler.ServeHTTP`. -/
def ApiSrv.serveGroup (s : ApiSrv) (path : String) : Dispatch :=
  match splitPath path with
  | [a, g] =>
    if a = "apis" then
      match s.groupH g with
      | none => .rejected 404
      | some vs => .group vs
    else .rejected 400
  | _ => .rejected 400

/-- `dynamic_discovery.go:105-131` `dynamicVersionHandler.ServeHTTP`. -/
def ApiSrv.serveVersion (s : ApiSrv) (path : String) : Dispatch :=
  match splitPath path with
  | [a, g, v] =>
    if a = "apis" then
      match s.versionH (g ++ "/" ++ v) with
      | none => s.serveGroup path
      | some rs => .version rs
    else s.serveGroup path
  | _ => s.serveGroup path

/-- `resource_handler.go:151-199`: the handler for a verb. -/
def storageCall : String → Option StorageCall
  | "get" => some .get
  | "list" => some .list
  | "watch" => some .watch
  | "create" => some .create
  | "update" => some .update
  | "patch" => some .patch
  | "delete" => some .delete
  | "deletecollection" => some .deleteCollection
  | _ => none

/-- `resource_handler.go:135-200` `routeRequest`. -/
def routeRequest (r : ReqInfo) (t : GVK) : Dispatch :=
  if r.subresource ≠ "" then .rejected 404
  else
    match storageCall r.verb with
    | none => .rejected 405
    | some c => .storage t c

/-- `resource_handler.go:83-132` `ServeHTTP` for paths under /apis/ (`builder.go:72`); the delegate is the version handler (`builder.go:58-64`). -/
def ApiSrv.serve (s : ApiSrv) (path : String) (info : Option ReqInfo) : Dispatch :=
  match info with
  | none => s.serveVersion path
  | some r =>
    if !r.isResource then s.serveVersion path
    else if !isViewGroup r.apiGroup then s.serveVersion path
    else
      match s.storage ⟨r.apiGroup, r.apiVersion, r.resource⟩ with
      | none => s.serveVersion path
      | some t => routeRequest r t

end Dctl
