import Verif.Operator.Status
import Verif.Cache.View
/-!
# How errors of controllers reach the status in the cluster (`pkg/kubernetes/controllers/operator.go`)

Goroutines: the controllers of each operator push errors (`status_reporter.go:81-99`); one goroutine for each operator passes the errors from the channel
of the operator on to the channel of the operator controller (`operator.go:263-277`); one loop takes them from there and updates the status
(`operator.go:340-364`); the worker that reconciles operator objects updates the status, too (`operator.go:281-306`). One step is what happens between
two operations on channels, on the cluster, or on the map of operators.
-/
set_option autoImplicit false
namespace Dctl
namespace Pump

/-- An error on its way (`status_reporter.go:28-31,82`): the operator, the controller (by its position; names need not differ), the text. -/
structure Sig where
  op : String
  ctrl : Nat
  text : Text
deriving DecidableEq, Repr

/-- An operator: its name, the names of its controllers and their error reporters, the errors in its channel (`operator.go:203`; those after the first 64 are
held by senders that wait), the error the goroutine passing them on holds, if the operator was not cancelled (`operator.go:39`), and if that goroutine runs. -/
structure Inst where
  name : String
  ctrls : List String
  reps : Nat → Reporter
  chan : List Sig
  slot : Option Sig
  live : Bool
  pumping : Bool

/-- The two goroutines that update the status. -/
inductive Agent where
  | loop
  | worker
deriving DecidableEq, Repr

/-- A status taken to be written (`operator.go:383`). -/
structure Snap where
  name : String
  status : List CtrlStatus
deriving DecidableEq, Repr

/-- What the loop has received (`operator.go:344-358`): an error of a controller, an error of another kind, or the operator it found for an error. -/
inductive Got where
  | sig (s : Sig)
  | other
  | op (id : Nat)
deriving DecidableEq, Repr

/-- The operator controller, as far as errors matter: all operators ever made, the map of operators (`operator.go:50`), what the loop has received, what the
worker has to update, the statuses taken and not yet written, the statuses in the cluster, whether the context is done, and whether the channel of the
operator controller is closed. -/
structure St where
  insts : Nat → Option Inst
  next : Nat
  current : String → Option Nat
  got : Option Got
  todo : Option Nat
  holds : Agent → Option Snap
  shown : String → Option (List CtrlStatus)
  stopped : Bool
  closed : Bool

/-- `operator.go:99-109` `NewOpController`, started. -/
def init : St := ⟨fun _ => none, 0, fun _ => none, none, none, fun _ => none, fun _ => none, false, false⟩

/-- `operator.go:34`: the size of the buffer of the channel of an operator. -/
def bufSize : Nat := 64

/-- `pkg/operator/operator.go:230-240` `GetStatus` of an operator with declarative controllers only. -/
def Inst.status (i : Inst) : List CtrlStatus := operatorStatus (i.ctrls.zipIdx.map (fun c => .declarative c.1 (i.reps c.2)))

/-- What happens next: a controller pushes an error; a goroutine takes an error from the channel of its operator, hands it to the loop, or ends; an operator
stops with an error (`operator.go:256-260`); the loop looks up the operator an error came from, and takes its status (`getOk`: the operator object could be
read); the worker creates or replaces an operator, deletes one, or takes its status; a status is written (or that fails); the context is done; the loop ends. -/
inductive Ev where
  | push (id ctrl : Nat) (p : Push)
  | take (id : Nat)
  | handOver (id : Nat)
  | pumpEnds (id : Nat)
  | opFails (id : Nat)
  | loopFind
  | loopSnap (getOk : Bool)
  | upsert (name : String) (ctrls : List String)
  | delete (name : String)
  | workerSnap (getOk : Bool)
  | write (a : Agent) (ok : Bool)
  | stop
  | loopEnds

/-- The outcome of a step: it cannot happen now, the program panics, or the next state. -/
inductive Res where
  | blocked
  | panics
  | ok (s : St)

/-- The loop waits for an error (`operator.go:343-344`). -/
def St.loopIdle (s : St) : Bool := s.got.isNone && (s.holds .loop).isNone && !s.closed

/-- The worker waits for a request. -/
def St.workerIdle (s : St) : Bool := s.todo.isNone && (s.holds .worker).isNone

/-- Change an operator. -/
def St.setInst (s : St) (id : Nat) (i : Inst) : St := { s with insts := upd s.insts id (some i) }

/-- `status_reporter.go:81-99` `push`: the error is kept, and sent unless the rate limiter drops it. A controller one of whose senders waits for room in the
channel holds the lock of its rate limiter, so it cannot push on. -/
def Inst.push (i : Inst) (c : Nat) (p : Push) : Option Inst :=
  if (i.chan.drop bufSize).any (fun x => x.ctrl == c) then none
  else if c < i.ctrls.length then
    some { i with reps := upd i.reps c ((i.reps c).push p), chan := if (i.reps c).signals p then i.chan ++ [⟨i.name, c, p.text⟩] else i.chan }
  else none

/-- `operator.go:231-244` `DeleteOperator`: out of the map, and cancelled. -/
def St.cancel (s : St) (name : String) : St :=
  match s.current name with
  | none => s
  | some id =>
    let s := { s with current := upd s.current name none }
    match s.insts id with
    | none => s
    | some i => s.setInst id { i with live := false }

/-- One step. -/
def St.step (s : St) : Ev → Res
  -- `status_reporter.go:81-99`
  | .push id c p =>
    match s.insts id with
    | none => .blocked
    | some i =>
      match i.push c p with
      | none => .blocked
      | some i => .ok (s.setInst id i)
  -- `operator.go:266`
  | .take id =>
    match s.insts id with
    | none => .blocked
    | some i =>
      match i.pumping, i.slot, i.chan with
      | true, none, x :: xs => .ok (s.setInst id { i with slot := some x, chan := xs })
      | _, _, _ => .blocked
  -- `operator.go:268-270`; a send on a closed channel panics, and `select` may choose it although the context is done
  | .handOver id =>
    match s.insts id with
    | none => .blocked
    | some i =>
      match i.slot with
      | none => .blocked
      | some x =>
        if s.closed then .panics
        else if s.loopIdle then .ok { s.setInst id { i with slot := none } with got := some (.sig x) }
        else .blocked
  -- `operator.go:270-275`
  | .pumpEnds id =>
    match s.insts id with
    | none => .blocked
    | some i => if i.pumping && (!i.live || s.stopped) then .ok (s.setInst id { i with slot := none, pumping := false }) else .blocked
  -- `operator.go:256-260`
  | .opFails id =>
    match s.insts id with
    | none => .blocked
    | some _ =>
      if s.closed then .panics
      else if s.loopIdle then .ok { s with got := some .other }
      else .blocked
  -- `operator.go:345-358`
  | .loopFind =>
    match s.got with
    | some .other => .ok { s with got := none }
    | some (.sig x) => .ok { s with got := (s.current x.op).map .op }
    | _ => .blocked
  -- `operator.go:354,371-383`
  | .loopSnap getOk =>
    match s.got with
    | some (.op id) =>
      match s.insts id with
      | none => .blocked
      | some i =>
        if getOk then .ok { s with got := none, holds := upd s.holds .loop (some ⟨i.name, i.status⟩) }
        else .ok { s with got := none }
    | _ => .blocked
  -- `operator.go:219-228,298`; started (`operator.go:183-194,247-277`)
  | .upsert name ctrls =>
    if s.workerIdle then
      let s := s.cancel name
      .ok { s with insts := upd s.insts s.next (some ⟨name, ctrls, fun _ => Reporter.init, [], none, true, true⟩), next := s.next + 1,
                   current := upd s.current name (some s.next), todo := some s.next }
    else .blocked
  -- `operator.go:289-291`
  | .delete name => if s.workerIdle then .ok (s.cancel name) else .blocked
  -- `operator.go:303,371-383`
  | .workerSnap getOk =>
    match s.todo with
    | none => .blocked
    | some id =>
      match s.insts id with
      | none => .blocked
      | some i =>
        if getOk then .ok { s with todo := none, holds := upd s.holds .worker (some ⟨i.name, i.status⟩) }
        else .ok { s with todo := none }
  -- `operator.go:385-408`: after a conflict the object is read again, and the status taken before is written to it
  | .write a ok =>
    match s.holds a with
    | none => .blocked
    | some x =>
      let s := { s with holds := upd s.holds a none }
      if ok then .ok { s with shown := upd s.shown x.name (some x.status) } else .ok s
  | .stop => .ok { s with stopped := true }
  -- `operator.go:341,360-361`
  | .loopEnds => if s.stopped && s.loopIdle then .ok { s with closed := true } else .blocked

/-- A sequence of steps, all of which can happen. -/
def St.run (s : St) : List Ev → Res
  | [] => .ok s
  | e :: es =>
    match s.step e with
    | .blocked => .blocked
    | .panics => .panics
    | .ok s => s.run es

end Pump
end Dctl
