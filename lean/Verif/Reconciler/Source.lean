import Verif.Reconciler.Predicate
/-!
# Sources, event handlers and the work queue (`pkg/reconciler/source.go`, `reconciler.go`, `pkg/controller/reconcilers.go`)

Every source has its own work queue and one worker (`pkg/controller/declarative.go:100-140`). The queue (client-go `workqueue`) and the worker loop
(controller-runtime) are library code, modelled by their documentation.
-/
set_option autoImplicit false
namespace Dctl

/-- The filters of a source in its specification (`source.go:102-124`). `labels` is `some none` for a malformed label selector. -/
structure SourceSpec where
  predicate : Option Pred := none
  labels : Option (Option (SMap String → Bool)) := none
  namespace' : Option String := none

/-- `source.go:103-124` in `watchSource.GetSource`: the list of predicates; `none` is an error. -/
def SourceSpec.filters (s : SourceSpec) : Option (List RPred) :=
  match (match s.predicate with
    | none => some []
    | some p =>
      match p.toRuntime with
      | some r => some [r]
      | none => none) with
  | none => none
  | some ps =>
    match (match s.labels with
      | none => some ps
      | some (some f) => some (ps ++ [RPred.labels f])
      | some none => none) with
    | none => none
    | some ps =>
      match s.namespace' with
      | none => some ps
      | some ns => some (ps ++ [RPred.inNamespace ns])

/-- `TypedKind` calls the handler if all predicates hold (library, `source.go:127`). -/
def passes (fs : List RPred) (e : CEv) : Bool := fs.all (fun p => p.eval e)

/-- `reconciler.go:61-66` `Request`. The snapshot is a pointer: requests are compared by the identity of the snapshot, its content is on the heap. -/
structure Request where
  key : ObjKey
  type : DeltaType
  gvk : GVK
  ptr : Option Nat
deriving DecidableEq

/-- The work queue of a source: client-go `workqueue.Typed` with its `queue`, `dirty` and `processing` (library, used in `reconciler.go:129`). -/
structure Wq where
  queue : List Request := []
  dirty : List Request := []
  processing : List Request := []

/-- `workqueue.Add` (library, `reconciler.go:129`, `source.go:276`). -/
def Wq.add (q : Wq) (r : Request) : Wq :=
  if r ∈ q.dirty then q
  else if r ∈ q.processing then { q with dirty := q.dirty ++ [r] }
  else { q with dirty := q.dirty ++ [r], queue := q.queue ++ [r] }

/-- `workqueue.Get` (library): take the first request. -/
def Wq.get (q : Wq) : Option (Request × Wq) :=
  match q.queue with
  | [] => none
  | r :: t => some (r, { queue := t, dirty := q.dirty.erase r, processing := r :: q.processing })

/-- `workqueue.Done` (library): a request added again while it was processed is queued now. -/
def Wq.finish (q : Wq) (r : Request) : Wq :=
  if r ∈ q.dirty then { q with processing := q.processing.erase r, queue := q.queue ++ [r] }
  else { q with processing := q.processing.erase r }

/-- A source with its queue and its worker. `heap` are the snapshots, `next` is the next free address; `cur` is the request being reconciled, `delayed` the
ones waiting for a retry (`AddRateLimited`), `log` the deltas the reconciler has been given, `finished` the requests reconciled with success. -/
structure Src where
  wq : Wq := {}
  heap : Nat → Obj := fun _ => []
  next : Nat := 0
  cur : Option Request := none
  delayed : List Request := []
  log : List (Request × DeltaType × Option Obj) := []
  finished : List Request := []

/-- `reconciler.go:121-136` `enqueue`: a snapshot of the object and a request. -/
def Src.enqueue (s : Src) (o : Obj) (ty : DeltaType) : Src :=
  { s with
    heap := upd s.heap s.next (copyObj o)
    next := s.next + 1
    wq := s.wq.add ⟨objKey o, ty, objGVK o, some s.next⟩ }

/-- `reconciler.go:98-119` `EventHandler.Create`, `Update`, `Delete`. -/
def Src.handle (s : Src) : CEv → Src
  | .add o => s.enqueue o .added
  | .update _ o => s.enqueue o .updated
  | .delete o => s.enqueue o .deleted

/-- `source.go:271-276`: the request of a tick of a periodic source. -/
def tickReq (g : GVK) : Request := ⟨("", "periodic-trigger"), .updated, g, none⟩

/-- Start of a reconciliation: `reconcilers.go:36-56` and, for periodic sources, `reconcilers.go:102-104`. `DecodeSecretData` works in place: the snapshot
is modified, and a retry starts from the modified one. -/
def Src.take (b64 : String → Option String) (s : Src) : Src :=
  match s.cur with
  | some _ => s
  | none =>
    match s.wq.get with
    | none => s
    | some (r, q) =>
      match r.ptr with
      | none => { s with wq := q, cur := some r, log := s.log ++ [(r, r.type, none)] }
      | some i =>
        { s with wq := q, cur := some r, heap := upd s.heap i (decodeSecret b64 (s.heap i))
                 log := s.log ++ [(r, r.type, some (decodeSecret b64 (s.heap i)))] }

/-- End of a reconciliation (`reconcilers.go:57-80`, controller-runtime `reconcileHandler`): a failed request is added again after a delay. -/
def Src.finish (s : Src) (ok : Bool) : Src :=
  match s.cur with
  | none => s
  | some r =>
    if ok then { s with cur := none, wq := s.wq.finish r, finished := s.finished ++ [r] }
    else { s with cur := none, wq := s.wq.finish r, delayed := if r ∈ s.delayed then s.delayed else s.delayed ++ [r] }

/-- The delay of a failed request is over (client-go delaying queue). -/
def Src.due (s : Src) (r : Request) : Src :=
  if r ∈ s.delayed then { s with delayed := s.delayed.erase r, wq := s.wq.add r } else s

/-- What can happen at a source: an event of the informer, a tick, the worker starts or ends a reconciliation, a delay ends. -/
inductive SStep where
  | event (e : CEv)
  | tick
  | take
  | finish (ok : Bool)
  | due (r : Request)

/-- One step of a source with the given filters and kind. -/
def Src.step (b64 : String → Option String) (fs : List RPred) (g : GVK) (s : Src) : SStep → Src
  | .event e => if passes fs e then s.handle e else s
  | .tick => { s with wq := s.wq.add (tickReq g) }
  | .take => s.take b64
  | .finish ok => s.finish ok
  | .due r => s.due r

/-- A run of a source. -/
def Src.run (b64 : String → Option String) (fs : List RPred) (g : GVK) (steps : List SStep) : Src := steps.foldl (Src.step b64 fs g) {}

end Dctl
