import Verif.Expr.Marshal
/-!
# Reading and writing pipelines (`pkg/api/operator/v1alpha1/pipeline_types.go`)
-/
set_option autoImplicit false
namespace Dctl

/-- `pipeline_types.go:24-88` `PipelineOp`: the five operations. -/
inductive SpecOp where
  | join (e : Expr)
  | select (e : Expr)
  | project (e : Expr)
  | unwind (e : Expr)
  | gather (e : Expr)

/-- `pipeline_types.go:36,48,60,72,84` `GetExpression`. -/
def SpecOp.expr : SpecOp → Expr
  | .join e | .select e | .project e | .unwind e | .gather e => e

/-- `pipeline_types.go:39,51,63,75,87` `OpType`. -/
def SpecOp.opType : SpecOp → String
  | .join _ => "@join"
  | .select _ => "@select"
  | .project _ => "@project"
  | .unwind _ => "@unwind"
  | .gather _ => "@gather"

/-- `pipeline_types.go:179-192`: the operation of a name. -/
def specOpOf (name : String) (e : Expr) : Res SpecOp :=
  if name = "@join" then .ok (.join e)
  else if name = "@select" then .ok (.select e)
  else if name = "@project" then .ok (.project e)
  else if name = "@unwind" ∨ name = "@demux" then .ok (.unwind e)
  else if name = "@gather" ∨ name = "@mux" then .ok (.gather e)
  else .error .err

/-- `pipeline_types.go:161-193` `unmarshalPipelineOp`; a null leaves the map empty. -/
def unmarshalSpecOp (env : Env) : Json → Res SpecOp
  | .map m =>
    match unmarshalM env m with
    | .error e => .error e
    | .ok es =>
      match es with
      | [(name, e)] => specOpOf name e
      | _ => .error .err
  | _ => .error .err

/-- `pipeline_types.go:141-147`: the operations of a list. -/
def unmarshalSpecOps (env : Env) : List Json → Res (List SpecOp)
  | [] => .ok []
  | j :: l =>
    match unmarshalSpecOp env j with
    | .error e => .error e
    | .ok x =>
      match unmarshalSpecOps env l with
      | .error e => .error e
      | .ok xs => .ok (x :: xs)

/-- `pipeline_types.go:136-158` `UnmarshalJSON`: a list of operations, null for none, or a single operation. -/
def unmarshalPipeline (env : Env) : Json → Res (List SpecOp)
  | .null => .ok []
  | .list l => unmarshalSpecOps env l
  | j =>
    match unmarshalSpecOp env j with
    | .error e => .error e
    | .ok x => .ok [x]

/-- `pipeline_types.go:214-223` `marshalPipelineOp`. -/
def marshalSpecOp (env : Env) (o : SpecOp) : Res Json :=
  match marshalExpr env o.expr with
  | .error e => .error e
  | .ok j => .ok (.map [(o.opType, j)])

/-- `pipeline_types.go:202-209`: the elements. -/
def marshalSpecOps (env : Env) : List SpecOp → Res (List Json)
  | [] => .ok []
  | o :: l =>
    match marshalSpecOp env o with
    | .error e => .error e
    | .ok j =>
      match marshalSpecOps env l with
      | .error e => .error e
      | .ok js => .ok (j :: js)

/-- `pipeline_types.go:197-211` `MarshalJSON`. -/
def marshalPipeline (env : Env) (p : List SpecOp) : Res Json :=
  match p with
  | [o] => marshalSpecOp env o
  | p =>
    match marshalSpecOps env p with
    | .error e => .error e
    | .ok js => .ok (.list js)

/-- `pipeline_types.go:92-132` `DeepCopyInto`, `deepCopyPipelineOp`: values are copied, sharing of memory is not modelled. -/
def copySpecOp : SpecOp → SpecOp
  | .join e => .join e
  | .select e => .select e
  | .project e => .project e
  | .unwind e => .unwind e
  | .gather e => .gather e

/-- `pipeline_types.go:92-100` `DeepCopyInto`. -/
def copyPipeline (p : List SpecOp) : List SpecOp := p.map copySpecOp

end Dctl
