/-!
# Errors and status of controllers (`pkg/controller/status_reporter.go`, `declarative.go`, `native.go`, `pkg/operator/operator.go`)
-/
set_option autoImplicit false
namespace Dctl

/-- The text of an error, as bytes. -/
abbrev Text := List UInt8

/-- `status_reporter.go:14` `ErrorReporterStackSize`. -/
def stackSize : Nat := 10

/-- `status_reporter.go:18` `TrimPrefixSuffixLen`. -/
def trimLen : Nat := 120

/-- The text "[...]" (`status_reporter.go:152`). -/
def ellipsis : Text := [91, 46, 46, 46, 93]

/-- `status_reporter.go:147-153` `trim`. -/
def trimText (s : Text) : Text :=
  if s.length ≤ 2 * trimLen + 5 then s
  else s.take (trimLen - 1) ++ ellipsis ++ s.drop (s.length - trimLen)

/-- `rate.Sometimes` of `golang.org/x/time/rate`, with `First` 3 and `Interval` 2 s (`status_reporter.go:23-25`); times in nanoseconds. -/
structure Limiter where
  count : Nat
  last : Int
deriving DecidableEq, Repr

/-- If `Do` calls the function (`status_reporter.go:85`). -/
def Limiter.allows (l : Limiter) (now : Int) : Bool := l.count == 0 || decide (l.count < 3) || decide (2000000000 ≤ now - l.last)

/-- The limiter after a call of `Do`. -/
def Limiter.next (l : Limiter) (now : Int) : Limiter := if l.allows now then ⟨l.count + 1, now⟩ else ⟨l.count + 1, l.last⟩

/-- `status_reporter.go:34-40` `errorReporter`: errors by their texts (the wrapper with operator and controller does not change the text). -/
structure Reporter where
  stack : List Text
  critical : Bool
  limiter : Limiter
deriving DecidableEq, Repr

/-- `status_reporter.go:43-45` `NewErrorReporter`. -/
def Reporter.init : Reporter := ⟨[], false, ⟨0, 0⟩⟩

/-- A call of one of the functions that push (`status_reporter.go:48-78`): the text, if it is critical, and the time. -/
structure Push where
  text : Text
  critical : Bool
  time : Int
deriving DecidableEq, Repr

/-- `status_reporter.go:63-99` `PushCritical…`, `Push…`, `push`. -/
def Reporter.push (r : Reporter) (p : Push) : Reporter :=
  { stack := if r.stack.length = stackSize then r.stack.drop 1 ++ [p.text] else r.stack ++ [p.text]
    critical := r.critical || p.critical
    limiter := r.limiter.next p.time }

/-- `status_reporter.go:85-89`: if the push sends the error to the channel. A channel is taken to be set; a send that blocks is not modelled. -/
def Reporter.signals (r : Reporter) (p : Push) : Bool := r.limiter.allows p.time

/-- `status_reporter.go:133-139` `Report`. -/
def Reporter.report (r : Reporter) : List Text := r.stack.map trimText

/-- The three conditions (`declarative.go:180-207`). -/
inductive Cond where
  | ready
  | notReady
  | failed
deriving DecidableEq, Repr

/-- `ControllerStatus`, without generation, time and messages. -/
structure CtrlStatus where
  name : String
  cond : Cond
  lastErrors : List Text
deriving DecidableEq, Repr

/-- `declarative.go:176-216` `GetStatus`. -/
def Reporter.status (r : Reporter) (name : String) : CtrlStatus :=
  { name := name
    cond := if r.stack.length = 0 then .ready else if r.critical then .notReady else .failed
    lastErrors := r.report }

/-- `native.go:47-64` `GetStatus`. -/
def nativeStatus (name : String) : CtrlStatus := ⟨name, .ready, []⟩

/-- The controllers of an operator, as far as their status matters. -/
inductive StatusOf where
  | declarative (name : String) (r : Reporter)
  | native (name : String)

/-- `pkg/operator/operator.go:230-240` `GetStatus`. -/
def operatorStatus : List StatusOf → List CtrlStatus
  | [] => []
  | .declarative n r :: l => r.status n :: operatorStatus l
  | .native n :: l => nativeStatus n :: operatorStatus l

/-- The status written to the cluster (`pkg/kubernetes/controllers/operator.go:329-350,371-409`): at every signal the current one, taken before any
further push. Failures of the write, and the writes after a reconciliation of the operator, are left out. -/
def Reporter.follow (name : String) (r : Reporter) (shown : CtrlStatus) : List Push → Reporter × CtrlStatus
  | [] => (r, shown)
  | p :: ps => Reporter.follow name (r.push p) (if r.signals p then (r.push p).status name else shown) ps

/-! ### without a lock -/

/-- `status_reporter.go:91-96`: there is no lock; a push of several goroutines first reads the slice and later stores it. -/
inductive StackStep where
  | load (thread : Nat)
  | store (thread : Nat) (text : Text)

/-- The slice, and what the goroutines read. -/
structure StackRace where
  stack : List Text
  seen : Nat → List Text

/-- `status_reporter.go:91-96`, for stacks that are not full. -/
def StackRace.step (s : StackRace) : StackStep → StackRace
  | .load t => { s with seen := fun t' => if t' = t then s.stack else s.seen t' }
  | .store t e => { s with stack := s.seen t ++ [e] }

end Dctl
