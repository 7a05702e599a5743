import Verif.Cache.Group
import Verif.Controller.Target
/-!
# The view cache and its informers (`pkg/cache/view_cache.go`, `view_cache_informer.go`, `delegating_view_cache.go`)

One state holds the shared view cache, the delegating caches of the operators (numbered) and all informers (numbered in the order of their
creation). Operations are atomic here; interleavings are in `Verif/Cache/Race.lean`. Not modelled: logging, transforms (`SetTransform` is
never called), field indexes, `Run` (informers deliver events whether or not they run). Objects are values here;
`Verif/Cache/HeapCache.lean` models them in memory, and C122 says that nobody can tell the difference.
-/
set_option autoImplicit false
namespace Dctl

/-- An object is its content (`pkg/object/object.go:32`). -/
abbrev Obj := SMap Json

/-- `pkg/object/object.go:93-111` `DeepCopy`, `DeepCopyInto`: the kind is written anew into the copy. -/
def copyObj (m : Obj) : Obj := setGVK m (objGVK m)

/-- `toolscache.MetaNamespaceKeyFunc` and `ObjectName.String` (used in `view_cache.go:80,418,768-773`). -/
def cacheKey (k : ObjKey) : String := if k.1 = "" then k.2 else k.1 ++ "/" ++ k.2

/-- `toolscache.Indexer`, keyed by `MetaNamespaceKeyFunc` (`view_cache.go:79-82`). -/
abbrev Indexer := AMap String Obj

/-- A function changed at one point (environment: assignment to a Go map entry). -/
def upd {A B : Type} [DecidableEq A] (f : A → B) (a : A) (b : B) : A → B := fun x => if x = a then b else f x

/-- A call of `OnAdd`, `OnUpdate`, `OnDelete` of an event handler (`view_cache_informer.go:101,176-184`). -/
inductive CEv where
  | add (o : Obj)
  | update (old new : Obj)
  | delete (o : Obj)
deriving DecidableEq

/-- `view_cache.go:33-44` `ViewCache`, `delegating_view_cache.go:30-44` `DelegatingViewCache`, `view_cache_informer.go:22-31` `ViewCacheInformer`.
A kind without indexer is the same as one with an empty indexer: `view_cache.go:90-113` creates it on first use. `log i h` are the calls
received by handler `h` of informer `i`. -/
structure VCache where
  /-- the indexers -/
  stored : GVK → Indexer
  /-- `ViewCache.informers` -/
  shared : GVK → Option Nat
  /-- `ViewCache.delegatingInformers` -/
  deleg : GVK → List Nat
  /-- `DelegatingViewCache.informers`, for each operator -/
  locals : Nat → GVK → Option Nat
  /-- kind (and so indexer) of each informer -/
  kindOf : Nat → GVK
  /-- keys of `handlers`, for each informer -/
  live : Nat → List Nat
  /-- `handlerCounter`, for each informer -/
  counter : Nat → Nat
  log : Nat → Nat → List CEv
  /-- number of informers created so far -/
  next : Nat

/-- `view_cache.go:47-61` `NewViewCache`, `delegating_view_cache.go:48-61`. -/
def VCache.init : VCache where
  stored := fun _ => []
  shared := fun _ => none
  deleg := fun _ => []
  locals := fun _ _ => none
  kindOf := fun _ => ⟨"", "", ""⟩
  live := fun _ => []
  counter := fun _ => 0
  log := fun _ _ => []
  next := 0

namespace VCache

/-- `view_cache_informer.go:44-56` `NewViewCacheInformer`; the new informer is number `c.next`. -/
def newInformer (c : VCache) (g : GVK) : VCache :=
  { c with kindOf := upd c.kindOf c.next g, live := upd c.live c.next [], counter := upd c.counter c.next 0,
           log := upd c.log c.next (fun _ => []), next := c.next + 1 }

/-- `view_cache.go:116-140,190-218` `RegisterInformerForKind`, `GetInformerForKind`. -/
def getShared (c : VCache) (g : GVK) : Option (VCache × Nat) :=
  if isViewKind g then
    match c.shared g with
    | some i => some (c, i)
    | none => some ({ c.newInformer g with shared := upd c.shared g (some c.next) }, c.next)
  else none

/-- `view_cache.go:221-233` `RemoveInformer`. -/
def removeShared (c : VCache) (g : GVK) : VCache := { c with shared := upd c.shared g none }

/-- `view_cache_informer.go:139-190` `TriggerEvent`: each handler is called once; the order among handlers does not show in the logs. -/
def trigger (c : VCache) (e : CEv) (i : Nat) : VCache :=
  { c with log := upd c.log i (fun h => if h ∈ c.live i then c.log i h ++ [e] else c.log i h) }

/-- `view_cache.go:262-277,313-328,374-389`: the shared informer (created if missing), then all delegating informers. -/
def notify (c : VCache) (g : GVK) (e : CEv) : Option VCache :=
  match c.getShared g with
  | some (c, i) => some ((c.deleg g).foldl (fun c i => c.trigger e i) (c.trigger e i))
  | none => none

/-- `view_cache.go:236-280` `Add`. -/
def add (hash : String → String) (c : VCache) (o : Obj) : Option VCache :=
  if isViewKind (objGVK o) then
    let o' := withUID hash (copyObj o)
    { c with stored := upd c.stored (objGVK o) ((c.stored (objGVK o)).set (cacheKey (objKey o')) o') }.notify (objGVK o) (.add (copyObj o'))
  else none

/-- `view_cache.go:283-331` `Update`; `object.DeepEqual` is equality of contents. -/
def update (hash : String → String) (c : VCache) (old new : Obj) : Option VCache :=
  let o := withUID hash (copyObj new)
  if isViewKind (objGVK o) then
    if old = o then some c
    else { c with stored := upd c.stored (objGVK o) ((c.stored (objGVK o)).set (cacheKey (objKey o)) o) }.notify (objGVK o) (.update old (copyObj o))
  else none

/-- `view_cache.go:334-392` `Delete`. -/
def delete (c : VCache) (o : Obj) : Option VCache :=
  if isViewKind (objGVK o) then
    match (c.stored (objGVK o)).get (cacheKey (objKey o)) with
    | none => none
    | some x =>
      { c with stored := upd c.stored (objGVK o) ((c.stored (objGVK o)).erase (cacheKey (objKey x))) }.notify (objGVK o) (.delete (copyObj x))
  else none

/-- `view_cache.go:402-438` `Get`, `delegating_view_cache.go:164-182`. -/
def get (c : VCache) (g : GVK) (k : ObjKey) : Option Obj :=
  if isViewKind g then ((c.stored g).get (cacheKey k)).map copyObj else none

/-- `view_cache_informer.go:61-105` `AddEventHandler`: the initial list is sent in some order. -/
def addHandler (c : VCache) (i : Nat) (order : Indexer → Indexer) : VCache :=
  let h := c.counter i + 1
  { c with counter := upd c.counter i h, live := upd c.live i (h :: c.live i),
           log := upd c.log i (upd (c.log i) h ((order (c.stored (c.kindOf i))).map (fun p => .add (copyObj p.2)))) }

/-- `view_cache_informer.go:123-134` `RemoveEventHandler`. -/
def removeHandler (c : VCache) (i h : Nat) : VCache := { c with live := upd c.live i ((c.live i).erase h) }

/-- `view_cache.go:144-157` `RegisterDelegatingInformer`. -/
def registerDelegating (c : VCache) (g : GVK) (i : Nat) : VCache := { c with deleg := upd c.deleg g (c.deleg g ++ [i]) }

end VCache

/-- `view_cache.go:170-178`: remove the first occurrence, putting the last element in its place. -/
def swapRemove (l : List Nat) (x : Nat) : List Nat :=
  match l.idxOf? x with
  | none => l
  | some i => (l.set i (l.getLastD x)).dropLast

namespace VCache

/-- `view_cache.go:160-181` `UnregisterDelegatingInformer`. -/
def unregisterDelegating (c : VCache) (g : GVK) (i : Nat) : VCache := { c with deleg := upd c.deleg g (swapRemove (c.deleg g) i) }

/-- `delegating_view_cache.go:72-134` `GetInformerForKind`, `registerInformerForKind`, for operator `n`. -/
def getLocal (c : VCache) (n : Nat) (g : GVK) : Option (VCache × Nat) :=
  if isViewKind g then
    match c.locals n g with
    | some i => some (c, i)
    | none => some ({ c.newInformer g with locals := upd c.locals n (upd (c.locals n) g (some c.next)) }.registerDelegating g c.next, c.next)
  else none

/-- `delegating_view_cache.go:137-155` `RemoveInformer` (for kinds that are no views there is no informer). -/
def removeLocal (c : VCache) (n : Nat) (g : GVK) : VCache :=
  match c.locals n g with
  | some i => { c with locals := upd c.locals n (upd (c.locals n) g none) }.unregisterDelegating g i
  | none => c

/-- `delegating_view_cache.go:213-230`: the clean-up when the context of a delegating cache ends; its map of informers is kept. The kinds are
visited in any order, each has its own list. -/
def stop (c : VCache) (n : Nat) : VCache :=
  { c with deleg := fun g =>
      match c.locals n g with
      | some i => swapRemove (c.deleg g) i
      | none => c.deleg g }

end VCache

/-- The operations of the view cache and of the delegating caches. -/
inductive VOp where
  | add (o : Obj)
  | update (old new : Obj)
  | delete (o : Obj)
  | getShared (g : GVK)
  | removeShared (g : GVK)
  | getLocal (n : Nat) (g : GVK)
  | removeLocal (n : Nat) (g : GVK)
  | stop (n : Nat)
  | addHandler (i : Nat) (order : Indexer → Indexer)
  | removeHandler (i h : Nat)

/-- One operation; one that fails changes nothing. -/
def VCache.step (hash : String → String) (c : VCache) : VOp → VCache
  | .add o => (c.add hash o).getD c
  | .update old new => (c.update hash old new).getD c
  | .delete o => (c.delete o).getD c
  | .getShared g => ((c.getShared g).map (·.1)).getD c
  | .removeShared g => c.removeShared g
  | .getLocal n g => ((c.getLocal n g).map (·.1)).getD c
  | .removeLocal n g => c.removeLocal n g
  | .stop n => c.stop n
  | .addHandler i order => c.addHandler i order
  | .removeHandler i h => c.removeHandler i h

/-- A sequence of operations. -/
def VCache.run (hash : String → String) (c : VCache) (ops : List VOp) : VCache := ops.foldl (VCache.step hash) c

/-! ### selecting objects -/

/-- `view_cache.go:509-527,681-701` `matchesFieldSelector`: the fields a field selector sees. -/
def selectorFields (o : Obj) : SMap String :=
  let f := SMap.set (SMap.set [] "metadata.name" (objKey o).2) "metadata.namespace" (objKey o).1
  let f := match nested o ["status", "phase"] with
    | some (.str s) => SMap.set f "status.phase" s
    | _ => f
  match nested o ["status", "ready"] with
  | some (.bool b) => SMap.set f "status.ready" (if b then "true" else "false")
  | _ => f

/-- The options of List and Watch (`view_cache.go:457-478,557-578`). The matching of label and field selectors is library code: any predicate on
label sets and on field sets. -/
structure Select where
  namespace' : String
  labels : Option (SMap String → Bool)
  fields : Option (SMap String → Bool)

/-- `view_cache.go:488-501` in `List`, `view_cache.go:654-678` `shouldIncludeObject`. Absent labels are an empty label set. -/
def Select.includes (s : Select) (o : Obj) : Bool :=
  (s.namespace' == "" || (objKey o).1 == s.namespace') &&
  (match s.labels with
   | some f => f ((getStrings o "labels").getD [])
   | none => true) &&
  (match s.fields with
   | some f => f (selectorFields o)
   | none => true)

/-- `view_cache.go:441-506` `List`; the order is that of the indexer. -/
def VCache.list (c : VCache) (listKind : GVK) (s : Select) : Option (List Obj) :=
  let g := objFromList listKind
  if isViewKind g then some (((c.stored g).map (·.2)).filter s.includes |>.map copyObj) else none

/-! ### watching -/

/-- An event of a watch (`view_cache.go:594-612`). -/
inductive WEv where
  | added (o : Obj)
  | modified (o : Obj)
  | deleted (o : Obj)
deriving DecidableEq

/-- `view_cache.go:588-612`: what the handler of a watch sends for a call. -/
def watchEv (s : Select) : CEv → Option WEv
  | .add o => if s.includes o then some (.added o) else none
  | .update _ o => if s.includes o then some (.modified o) else none
  | .delete o => if s.includes o then some (.deleted o) else none

/-- `view_cache.go:650-662` `ViewCacheWatcher`: the channel and what the client has received from it. -/
structure Watcher where
  chan : List WEv
  got : List WEv

/-- `view_cache.go:29` `DefaultWatchChannelBuffer`. -/
def watchBuffer : Nat := 256

/-- `view_cache.go:704-730` `sendEvent`: with the channel full the event is dropped after a second (a client that receives within the second comes
first here). -/
def Watcher.send (w : Watcher) (e : WEv) : Watcher := if w.chan.length < watchBuffer then { w with chan := w.chan ++ [e] } else w

/-- The client receives an event (`view_cache.go:745-747` `ResultChan`). -/
def Watcher.recv (w : Watcher) : Watcher :=
  match w.chan with
  | [] => w
  | e :: es => { chan := es, got := w.got ++ [e] }

/-- The handler of the watch called with an event. -/
def Watcher.handle (s : Select) (w : Watcher) (e : CEv) : Watcher :=
  match watchEv s e with
  | some x => w.send x
  | none => w

/-- `view_cache.go:580-616`: opening a watch: the initial list is sent before the watcher is returned to the client. -/
def Watcher.open (s : Select) (initial : List Obj) : Watcher := (initial.map CEv.add).foldl (Watcher.handle s) ⟨[], []⟩

end Dctl
