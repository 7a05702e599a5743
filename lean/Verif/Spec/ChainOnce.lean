import Verif.Dbsp.Graph
/-!
# What a chain of operators without memory gives on complete input
-/
set_option autoImplicit false
namespace Dctl
variable {D J : Type} [DecidableEq D] [DecidableEq J]

/-- The operators without memory: all but the integrator, the differentiator and the delay. -/
def Op.stateless : Op D J → Bool
  | .integ _ => false
  | .diff _ => false
  | .delay _ => false
  | _ => true

/-- The operators one after the other, each on its input in some order. -/
inductive Once : List (Op D J) → ZSet D → ZSet D → Prop
  | nil {z : ZSet D} : Once [] z z
  | cons {op : Op D J} {ops : List (Op D J)} {z z' m o : ZSet D} : z'.Perm z → (op.proc z').2 = .ok m → Once ops m o → Once (op :: ops) z o

end Dctl
