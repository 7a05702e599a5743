import Verif.Dbsp.Graph
/-!
# What the operators declare about themselves (`op.go`)

Every `Operator` returns constants from `OpType`, `IsTimeInvariant` and `HasZeroPreservationProperty`. The rewrite
engine trusts the first (`rewrite_engine.go:98`, `121`, `149`): a chain operator that does not say it is non-linear is
run on changes as it is. The other two are `true` for every operator, so they have no definition here: they are
claims about `proc`.
-/
set_option autoImplicit false
namespace Dctl
variable {D J : Type} [DecidableEq D] [DecidableEq J]

/-- `op.go:26-33` `OperatorType`. `OpTypeStructural` is declared by no operator. -/
inductive OpType where
  | linear
  | bilinear
  | nonLinear
  | structural
  deriving DecidableEq, Repr

/-- `OpType` of the chain operators: `op_linear.go:21`, `65`, `164`, `op_nonlinear.go:131`, `op_misc.go:15`, `64`, `108`,
`277`, `fused_op.go:58`, `147`. `NegateOp` (`op_misc.go:222-243`) declares nothing: it has no such method and hence is not
an `Operator` at all (`none`). -/
def Op.opType : Op D J → Option OpType
  | .project _ => some .linear
  | .select _ => some .linear
  | .unwind _ _ => some .linear
  | .gather _ => some .nonLinear
  | .distinct => some .nonLinear
  | .integ _ => some .linear
  | .diff _ => some .linear
  | .delay _ => some .linear
  | .negate => none
  | .projSel _ _ => some .linear
  | .selProjs _ _ => some .linear

/-- `OpType` of the joins: `op_bilinear.go:25`, `59`, `186`, `312`. -/
def JoinOp.opType : JoinOp D → OpType
  | .snap _ _ => .bilinear
  | .incr _ _ _ => .bilinear
  | .snapBin _ => .bilinear
  | .incrBin _ _ => .bilinear

/-- `fused_op.go:190` `FusedOp.OpType`: whatever the nodes are. -/
def fusedOpType (_ : List (Op D J)) : OpType := .linear

/-- `op.go:66` `Arity` of the joins, set by the constructors `op_bilinear.go:13-21`, `49-57`, `177-184`, `249-260`. -/
def JoinOp.arity : JoinOp D → Nat
  | .snap _ n => n
  | .incr _ n _ => n
  | .snapBin _ => 2
  | .incrBin _ _ => 2

end Dctl
