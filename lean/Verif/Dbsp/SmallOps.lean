import Verif.Dbsp.Declared
/-!
# The operators without state outside the chains (`op_misc.go`): inputs, constants, sums and differences
-/
set_option autoImplicit false
namespace Dctl
variable {D : Type} [DecidableEq D]

/-- `InputOp` (`op_misc.go:117-122`), `ConstantOp` (`151-154`), `AddOp` (`173-175`), `SubtractOp` (`197-199`), `NegateOp` (`221-223`). -/
inductive SmallOp (D : Type) where
  | input (data : ZSet D)
  | constant (value : ZSet D)
  | add
  | subtract
  | negate

/-- `op_misc.go:125-131` `NewInput`. -/
def SmallOp.newInput : SmallOp D := .input []

/-- Number of inputs, set by `NewInput` (`op_misc.go:127`), `NewConstant` (`159`), `NewAdd` (`181`), `NewSubtract` (`205`), `NewNegate` (`228`). -/
def SmallOp.arity : SmallOp D → Nat
  | .input _ => 0
  | .constant _ => 0
  | .add => 2
  | .subtract => 2
  | .negate => 1

/-- `OpType` (`op_misc.go:133`). The others have no such method, and hence are no `Operator`s (`none`). -/
def SmallOp.opType : SmallOp D → Option OpType
  | .input _ => some .linear
  | _ => none

/-- `op_misc.go:146` `SetData`. -/
def SmallOp.setData (z : ZSet D) : SmallOp D → SmallOp D
  | .input _ => .input z
  | o => o

/-- `Process` of `InputOp` (`op_misc.go:138-143`), `ConstantOp` (`166-171`), `AddOp` (`186-195`), `SubtractOp` (`210-219`), `NegateOp` (`233-242`),
with `validateInputs` (`op.go:69-74`). `DeepCopy` is the identity here. -/
def SmallOp.proc (o : SmallOp D) (ins : List (ZSet D)) : Except Err (ZSet D) :=
  if ins.length ≠ o.arity then .error "inputs"
  else
    match o, ins with
    | .input z, _ => .ok z
    | .constant z, _ => .ok z
    | .add, [a, b] => .ok (a.add b)
    | .subtract, [a, b] => .ok (a.sub b)
    | .negate, [a] => .ok (ZSet.sub [] a)
    | _, _ => .error "inputs"

/-- One step of an input run by a caller: set what arrives (`op_misc.go:146`), then process (`138-143`). The executor does neither: it takes what
arrives at an input node as the value of the node (`executor.go:62`, `73`). -/
def SmallOp.feed (o : SmallOp D) (z : ZSet D) : SmallOp D × Except Err (ZSet D) := (o.setData z, (o.setData z).proc [])

end Dctl
