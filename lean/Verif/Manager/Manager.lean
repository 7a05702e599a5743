import Verif.Cache.Client
/-!
# Which storage the client and the cache of an operator use (`pkg/manager/manager.go`, `pkg/cache/composite.go`, `client.go`)

View storages are numbered; a storage is the state of one `ViewCache`. Native objects are all in the one cluster the configuration names.
-/
set_option autoImplicit false
namespace Dctl

/-- The implementations of `cache.ViewCacheInterface` (`cache.go:24-38`): a `ViewCache`, or a `DelegatingViewCache` on a shared `ViewCache`
(`delegating_view_cache.go:30-32`). -/
inductive ViewRef where
  | direct (store : Nat)
  | delegating (store : Nat)
deriving DecidableEq, Repr

/-- The `ViewCache` all operations end in (`delegating_view_cache.go:164-195,255-304`). -/
def ViewRef.store : ViewRef → Nat
  | .direct n => n
  | .delegating n => n

/-- The caches: views only; the `CompositeCache` of `composite.go:20-24`, `native`: is there a default cache?; or another one (any other implementation of
`cache.Cache`). -/
inductive CacheRef where
  | view (v : ViewRef)
  | composite (native : Bool) (v : ViewRef)
  | other
deriving DecidableEq, Repr

/-- The clients: the view client of `view_client.go:23-25`; the `CompositeClient` of `client.go:20-25`, `native`: is there a native client?, with its view client, if set,
and its cache. -/
inductive ClientRef where
  | view (v : ViewRef)
  | composite (native : Bool) (viewClient : Option ViewRef) (cache : CacheRef)
deriving DecidableEq, Repr

/-- `manager.go:46-77` `CacheInjector` applied to the configuration (`config`: is there one?) of the manager; `none` is the error. -/
def cacheInjector (config : Bool) : CacheRef → Option CacheRef
  | .composite _ (.direct n) => some (.composite config (.delegating n))
  | .composite _ (.delegating _) => none
  | .view (.direct n) => some (.view (.delegating n))
  | .view (.delegating _) => none
  | .other => none

/-- `client.go:66-71` `SetCache` of the composite client: the view client is that of the view cache (`view_client.go:28-30`, for a delegating cache that of the shared
storage, `delegating_view_cache.go:241-244`), and is set for a `CompositeCache` only. -/
def setCache (native : Bool) (c : CacheRef) : ClientRef :=
  .composite native (match c with
    | .composite _ v => some (.direct v.store)
    | _ => none) c

/-- What a manager hands to the controllers. -/
structure MgrRef where
  cache : CacheRef
  client : ClientRef
deriving DecidableEq, Repr

/-- `manager.go:84-129` `New` and `manager.go:134-177` `NewHeadless`: `config`: is there a configuration?, `shared`: the cache injected through
`CacheInjector` (`operator.go:75-78`), if any; `fresh` is the number of a new storage. `none` is the error. A headless manager gives the injector an empty configuration
(`manager.go:161`), not none. -/
def newManager (fresh : Nat) (config : Bool) (shared : Option CacheRef) : Option MgrRef :=
  if config then
    match shared with
    | none => let c := CacheRef.composite true (.direct fresh); some ⟨c, setCache true c⟩
    | some s =>
      match cacheInjector true s with
      | none => none
      | some c => some ⟨c, setCache true c⟩
  else
    match shared with
    | none => some ⟨.view (.direct fresh), .view (.direct fresh)⟩
    | some s =>
      match cacheInjector true s with
      | some (.view v) => some ⟨.view v, .view v⟩
      | _ => none

/-- Where an operation on an object ends. -/
inductive Where where
  /-- in a view storage -/
  | store (n : Nat)
  /-- in the cluster -/
  | cluster
  /-- an error is returned -/
  | error
  /-- a nil pointer is dereferenced -/
  | panic
deriving DecidableEq, Repr

/-- Reading an object of kind `t` from a cache (`composite.go:150-174`, `view_cache.go:402-413`, `delegating_view_cache.go:164-182`). -/
def CacheRef.read (t : GVK) : CacheRef → Where
  | .view v => if isViewKind t then .store v.store else .error
  | .composite native v => if isViewKind t then .store v.store else if native then .cluster else .panic
  | .other => .error

/-- Writing an object of kind `t` with a client (`client.go:84-121`, `view_client.go:60-104`, `view_cache.go:236-240`). -/
def ClientRef.write (t : GVK) : ClientRef → Where
  | .view v => if isViewKind t then .store v.store else .error
  | .composite native vc _ =>
    if isViewKind t then
      match vc with
      | some v => .store v.store
      | none => .panic
    else if native then .cluster else .panic

/-- Reading an object of kind `t` with a client (`client.go:124-131`, `view_client.go:45-52`). -/
def ClientRef.read (t : GVK) : ClientRef → Where
  | .view v => if isViewKind t then .store v.store else .error
  | .composite _ _ c => c.read t

/-! ### several operators -/

/-- A write of a view object. -/
inductive ViewWrite where
  | create (o : Obj)
  | update (o : Obj)
  | delete (o : Obj)

/-- The object of the write. -/
def ViewWrite.obj : ViewWrite → Obj
  | .create o => o
  | .update o => o
  | .delete o => o

/-- The write on a storage; with an error the storage stays (`view_client.go:60-104`). -/
def VCache.write (hash : String → String) (c : VCache) : ViewWrite → VCache
  | .create o => (c.clientCreate hash o).getD c
  | .update o => (c.clientUpdate hash o).getD c
  | .delete o => (c.clientDelete o).getD c

/-- A write through the client of some manager, on all storages: it changes the one the client writes to, if any. -/
def storesWrite (hash : String → String) (s : Nat → VCache) (m : MgrRef) (w : ViewWrite) : Nat → VCache :=
  match m.client.write (objGVK w.obj) with
  | .store n => fun i => if i = n then (s n).write hash w else s i
  | _ => s

/-- Writes through the clients of several managers, in the order in which they happen. -/
def storesRun (hash : String → String) (s : Nat → VCache) : List (MgrRef × ViewWrite) → Nat → VCache
  | [] => s
  | (m, w) :: l => storesRun hash (storesWrite hash s m w) l

/-- What a cache returns for an object that is a view. -/
def CacheRef.get (s : Nat → VCache) (c : CacheRef) (t : GVK) (k : ObjKey) : Option Obj :=
  match c.read t with
  | .store n => (s n).get t k
  | _ => none

end Dctl
