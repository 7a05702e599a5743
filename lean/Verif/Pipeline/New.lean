import Verif.Dbsp.Rewrite
/-!
# Pipeline compilation (`pkg/pipeline/pipeline.go:77-170`)
-/
set_option autoImplicit false
namespace Dctl
variable {D J : Type} [DecidableEq D] [DecidableEq J]

/-- A pipeline operation with its compiled evaluators (`pkg/pipeline/op.go`): `@join`, `@select`,
`@project`, `@unwind`/`@demux`, `@gather`/`@mux`. Expressions are represented by the functions they
evaluate to; operations with a missing or malformed expression (rejected by `New`, lines 118-120,
132-135, 139-142) are not represented. -/
inductive PipeOp (D J : Type) where
  | join (ev : JEv D)
  | select (ev : Ev D)
  | project (ev : Ev D)
  | unwind (ex : D → Except Err (Option (List J))) (tr : D → J → Except Err D)
  | gather (g : Gather D J)

/-- `pipeline.go:122-149`: the operator added to the chain; `@join` in a later position is an unknown
operation. -/
def PipeOp.toOp : PipeOp D J → Except Err (Op D J)
  | .select ev => .ok (.select ev)
  | .project ev => .ok (.project ev)
  | .unwind ex tr => .ok (.unwind ex tr)
  | .gather g => .ok (.gather g)
  | .join _ => .error "unknown pipeline op: @join"

/-- `pipeline.go:115-152`: the loop adding the remaining operations to the chain. -/
def buildChain (g : Graph D J) : List (PipeOp D J) → Except Err (Graph D J)
  | [] => .ok g
  | p :: ps =>
    match p.toOp with
    | .error e => .error e
    | .ok o => buildChain (g.addToChain o) ps

/-- `pipeline.go:97-113`: inputs (one per source kind) and the optional join. `NewJoinOp`
(`pkg/pipeline/op.go:274-281`) declares the join on all sources. -/
def buildGraph (sources : List String) (cfg : List (PipeOp D J)) : Except Err (Graph D J) :=
  let g : Graph D J := sources.foldl (fun g k => g.addInput k) {}
  match cfg with
  | .join ev :: rest => buildChain (g.setJoin (JoinOp.newIncremental ev sources.length)) rest
  | _ => buildChain g cfg

/-- `pipeline.go:79`: is the first operation a join? -/
def startsWithJoin : List (PipeOp D J) → Bool
  | .join _ :: _ => true
  | _ => false

/-- `pipeline.go:77-170` `New` (graph part): check, build, optimize, validate. -/
def newPipeline (sources : List String) (cfg : List (PipeOp D J)) : Except Err (Graph D J) :=
  if sources.length > 1 ∧ startsWithJoin cfg = false then .error "multiple base resources must specify @join"
  else
    match buildGraph sources cfg with
    | .error e => .error e
    | .ok g =>
      match Rewrite.optimize g with
      | .error e => .error e
      | .ok g' =>
        match g'.validate with
        | .error e => .error e
        | .ok () => .ok g'

end Dctl
