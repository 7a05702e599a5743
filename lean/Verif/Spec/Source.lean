import Verif.Reconciler.Source
/-!
# Events and the requests they should lead to
-/
set_option autoImplicit false
namespace Dctl

/-- The object an event is about, as it is at the time of the event. -/
def CEv.obj : CEv → Obj
  | .add o => o
  | .update _ o => o
  | .delete o => o

/-- The type of delta an event stands for. -/
def CEv.deltaType : CEv → DeltaType
  | .add _ => .added
  | .update _ _ => .updated
  | .delete _ => .deleted

/-- The request for the `i`-th event that passes the filters. -/
def eventReq (i : Nat) (e : CEv) : Request := ⟨objKey e.obj, e.deltaType, objGVK e.obj, some i⟩

/-- The events of a run that pass the filters, in order. -/
def passing (fs : List RPred) (steps : List SStep) : List CEv :=
  steps.filterMap (fun s =>
    match s with
    | .event e => if passes fs e then some e else none
    | _ => none)

/-- How often a request is to be found at a source: waiting, being reconciled, waiting for a retry, or done. -/
def Src.occurrences (s : Src) (r : Request) : Nat :=
  s.wq.queue.count r + s.cur.toList.count r + s.delayed.count r + s.finished.count r

/-- `f` applied `n` times. -/
def iter {A : Type} (f : A → A) : Nat → A → A
  | 0, a => a
  | n + 1, a => f (iter f n a)

/-- How often a request has been reconciled so far. -/
def Src.attempts (log : List (Request × DeltaType × Option Obj)) (r : Request) : Nat := (log.filter (fun x => x.1 = r)).length

end Dctl
