import Verif.Operator.Errors
/-!
# What the status of an operator should show
-/
set_option autoImplicit false
namespace Dctl
namespace Pump

/-- The errors of the controllers of an operator, in order: the controller and the error. -/
abbrev Hist := List (Nat × Push)

/-- The errors pushed by the controllers of the operator `id` in a run. -/
def pushesOf (id : Nat) : List Ev → Hist
  | [] => []
  | .push id' c p :: es => if id' = id then (c, p) :: pushesOf id es else pushesOf id es
  | _ :: es => pushesOf id es

/-- The number of errors of the operator `id` handed to the loop in a run. -/
def handOvers (id : Nat) : List Ev → Nat
  | [] => 0
  | .handOver id' :: es => (if id' = id then 1 else 0) + handOvers id es
  | _ :: es => handOvers id es

/-- The errors of one controller. -/
def errorsOf (c : Nat) (l : Hist) : List Push := (l.filter (fun x => x.1 == c)).map (·.2)

/-- The reporter of a controller after the errors `l` of all controllers. -/
def reporterAfter (c : Nat) (l : Hist) : Reporter := (errorsOf c l).foldl Reporter.push Reporter.init

/-- The status of an operator with the controllers named after the errors `l`. -/
def statusAfter (ctrls : List String) (l : Hist) : List CtrlStatus :=
  (List.range ctrls.length).map (fun c => (reporterAfter c l).status (ctrls.getD c ""))

/-- The errors among `l` that the rate limiters let through, after the errors `done`. -/
def signals (done : Hist) : Hist → Hist
  | [] => []
  | x :: l => (if (reporterAfter x.1 done).signals x.2 then [x] else []) ++ signals (done ++ [x]) l

/-- An error on its way. -/
def sigOf (name : String) (x : Nat × Push) : Sig := ⟨name, x.1, x.2.text⟩

/-- The loop works on the operator called `name`. -/
def St.LoopOn (s : St) (name : String) : Prop :=
  (∃ id i, s.got = some (.op id) ∧ s.insts id = some i ∧ i.name = name) ∨ ∃ x, s.holds .loop = some x ∧ x.name = name

/-- The worker is writing a status of the operator called `name`. -/
def St.WorkerWrites (s : St) (name : String) : Prop := ∃ x, s.holds .worker = some x ∧ x.name = name

/-- A step that leaves the two goroutines that write statuses alone: neither takes a status while the other writes one of the same operator, no operator is
replaced or deleted while the loop works on it, and the cluster can be read and written. -/
def Tame (s : St) : Ev → Prop
  | .upsert name _ => ¬ s.LoopOn name
  | .delete name => ¬ s.LoopOn name
  | .loopSnap ok => ok = true ∧ ∀ id i, s.got = some (.op id) → s.insts id = some i → ¬ s.WorkerWrites i.name
  | .workerSnap ok => ok = true ∧ ∀ id i, s.todo = some id → s.insts id = some i → ¬ ∃ x, s.holds .loop = some x ∧ x.name = i.name
  | .write _ ok => ok = true
  | _ => True

/-- All steps of a run are of the kind given. -/
def Always (P : St → Ev → Prop) (s : St) : List Ev → Prop
  | [] => True
  | e :: es => P s e ∧ ∀ s', s.step e = .ok s' → Always P s' es

/-- Nothing is on its way for the operator `i`, and neither goroutine is busy. -/
def Settled (s : St) (i : Inst) : Prop := i.chan = [] ∧ i.slot = none ∧ s.got = none ∧ s.todo = none ∧ ∀ a, s.holds a = none

/-- The steps that pass on errors and update the status, with success. -/
def Internal : Ev → Prop
  | .take _ | .handOver _ | .loopFind | .loopSnap true | .workerSnap true | .write _ true => True
  | _ => False

end Pump
end Dctl
