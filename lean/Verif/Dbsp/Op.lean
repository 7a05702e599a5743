import Verif.Dbsp.ZSet
/-!
# DBSP operators (`op_linear.go`, `op_nonlinear.go`, `op_misc.go`, `fused_op.go`)

`D` is the type of documents, `J` the type of the values (`any`) handled by extractors.
`Process` of an operator is a function from the operator (with its state) and its input to the new
operator and the result. Deep copies disappear because model values are immutable.
-/
set_option autoImplicit false
namespace Dctl

/-- Errors are values. -/
abbrev Err := String

/-- `pkg/dbsp/op.go:8-11` `Evaluator.Evaluate`: an arbitrary deterministic function. -/
abbrev Ev (D : Type) := D → Except Err (List D)

variable {D J : Type} [DecidableEq D] [DecidableEq J]

namespace ZSet
/-- The inner loops `for _, d := range docs { result.AddDocumentMutate(d, m) }`
(`op_linear.go:41-45`, `87-91`, `op_bilinear.go:138-142`). -/
def emit (acc : ZSet D) (ds : List D) (m : Int) : ZSet D := ds.foldl (fun a d => addDoc a d m) acc
end ZSet

/-- The outer loop of `op_linear.go:34-46` / `79-92`: evaluate each entry, add every produced document with
the entry's multiplicity, stop at the first error. -/
def linGo (f : Ev D) : ZSet D → ZSet D → Except Err (ZSet D)
  | acc, [] => .ok acc
  | acc, (x, m) :: t =>
    match f x with
    | .error e => .error e
    | .ok ds => linGo f (acc.emit ds m) t

/-- `op_linear.go:26-49` `ProjectionOp.Process` and `op_linear.go:70-95` `SelectionOp.Process`: the two
loops are identical up to the deep copy of the argument. -/
def linProc (f : Ev D) (z : ZSet D) : Except Err (ZSet D) := linGo f [] z

/-- `op_linear.go:143-158`, inner loop of `UnwindOp.Process` over the array elements. -/
def unwindElems (tr : D → J → Except Err D) (x : D) (m : Int) :
    ZSet D → List J → Except Err (ZSet D)
  | acc, [] => .ok acc
  | acc, e :: es =>
    match tr x e with
    | .error e => .error e
    | .ok d => unwindElems tr x m (acc.addDoc d m) es

/-- `op_linear.go:116-162` `UnwindOp.Process`, outer loop. The extractor returns `none` when the field is
missing (`nil`) or not an array: both skip the document (lines 133-141). -/
def unwindGo (ex : D → Except Err (Option (List J))) (tr : D → J → Except Err D) :
    ZSet D → ZSet D → Except Err (ZSet D)
  | acc, [] => .ok acc
  | acc, (x, m) :: t =>
    match ex x with
    | .error e => .error e
    | .ok none => unwindGo ex tr acc t
    | .ok (some es) =>
      match unwindElems tr x m acc es with
      | .error e => .error e
      | .ok acc' => unwindGo ex tr acc' t

/-- `op_linear.go:116-162` `UnwindOp.Process`. -/
def unwindProc (ex : D → Except Err (Option (List J))) (tr : D → J → Except Err D) (z : ZSet D) :
    Except Err (ZSet D) := unwindGo ex tr [] z

/-- `op_nonlinear.go:15-20` `GatherOp`: key and value extractors (`none` = Go `nil`, document skipped),
aggregator, and the sort applied to the collected values (`sortValues`, 148-175; a parameter here,
applied to every list: the code skips it for lists shorter than 2, where sorting does nothing). -/
structure Gather (D J : Type) where
  key : D → Except Err (Option J)
  val : D → Except Err (Option J)
  agg : D → J → List J → Except Err D
  sort : List J → List J

/-- `op_nonlinear.go:119-123` `GroupData`. -/
structure Group (D J : Type) where
  key : J
  vals : List J
  doc : D

/-- `op_nonlinear.go:135-144` `removeFirstMatch`. -/
def removeFirstMatch (l : List J) (v : J) : List J := l.erase v

/-- `op_nonlinear.go:79-89`: append `m` copies for positive, remove `-m` copies for negative `m`. -/
def applyMult (vals : List J) (v : J) (m : Int) : List J :=
  if m > 0 then vals ++ List.replicate m.toNat v
  else (List.replicate (-m).toNat v).foldl removeFirstMatch vals

/-- `op_nonlinear.go:69-89`: create the group if missing (with `x` as representative), update its values.
The groups map is an association list. -/
def updGroup (k v : J) (x : D) (m : Int) : List (Group D J) → List (Group D J)
  | [] => [⟨k, applyMult [] v m, x⟩]
  | g :: gs => if g.key = k then { g with vals := applyMult g.vals v m } :: gs else g :: updGroup k v x m gs

/-- `op_nonlinear.go:43-90`, the grouping loop. -/
def gatherGroups (g : Gather D J) : List (Group D J) → ZSet D → Except Err (List (Group D J))
  | acc, [] => .ok acc
  | acc, (x, m) :: t =>
    match g.key x with
    | .error e => .error e
    | .ok none => gatherGroups g acc t
    | .ok (some k) =>
      match g.val x with
      | .error e => .error e
      | .ok none => gatherGroups g acc t
      | .ok (some v) => gatherGroups g (updGroup k v x m acc) t

/-- `op_nonlinear.go:93-113`, the aggregation loop. -/
def gatherAgg (g : Gather D J) : ZSet D → List (Group D J) → Except Err (ZSet D)
  | acc, [] => .ok acc
  | acc, gr :: gs =>
    match g.agg gr.doc gr.key (g.sort gr.vals) with
    | .error e => .error e
    | .ok d => gatherAgg g (acc.addDoc d 1) gs

/-- `op_nonlinear.go:33-116` `GatherOp.Process`. -/
def gatherProc (g : Gather D J) (z : ZSet D) : Except Err (ZSet D) :=
  match gatherGroups g [] z with
  | .error e => .error e
  | .ok gs => gatherAgg g [] gs

/-- The loop "evaluate every document of a list and collect all results" that occurs in the fused operators
(`fused_op.go:40-53`, `121-142`). -/
def bindDocs {A B : Type} (f : A → Except Err (List B)) : List A → Except Err (List B)
  | [] => .ok []
  | x :: xs =>
    match f x with
    | .error e => .error e
    | .ok ys =>
      match bindDocs f xs with
      | .error e => .error e
      | .ok zs => .ok (ys ++ zs)

/-- `fused_op.go:35-53`: what `ProjectThenSelectOp.Process` adds for one document. -/
def projSelEv (p s : Ev D) : Ev D := fun x =>
  match p x with
  | .error e => .error e
  | .ok ps => bindDocs s ps

/-- `fused_op.go:125-136`: the chain of projections on one document; every step must produce exactly
one document. -/
def projChain : List (Ev D) → D → Except Err D
  | [], x => .ok x
  | p :: ps, x =>
    match p x with
    | .error e => .error e
    | .ok [y] => projChain ps y
    | .ok _ => .error "projection evaluator did not produce exactly 1 document"

/-- `fused_op.go:107-141`: what `SelectThenProjectionsOp.Process` adds for one document. -/
def selProjsEv (s : Option (Ev D)) (ps : List (Ev D)) : Ev D := fun x =>
  match (match s with
    | some s => s x
    | none => .ok [x]) with
  | .error e => .error e
  | .ok ds => bindDocs (fun d => match projChain ps d with
      | .error e => .error e
      | .ok y => .ok [y]) ds

/-- Operators of the chain with their state. `op_linear.go`, `op_nonlinear.go`, `op_misc.go`,
`fused_op.go`. Not included: `InputOp`, `ConstantOp`, `AddOp`, `SubtractOp` (not unary, so never valid in a
chain) and `FusedOp` (see `fusedProc`), none of which the pipeline compiler or the rewriter creates
in a chain. -/
inductive Op (D J : Type) where
  | project (ev : Ev D)
  | select (ev : Ev D)
  | unwind (ex : D → Except Err (Option (List J))) (tr : D → J → Except Err D)
  | gather (g : Gather D J)
  | distinct
  | integ (state : ZSet D)
  | diff (prev : ZSet D)
  | delay (buf : ZSet D)
  | negate
  | projSel (p s : Ev D)
  | selProjs (s : Option (Ev D)) (ps : List (Ev D))

namespace Op

/-- `op_misc.go:39-44` `NewIntegrator`. -/
def newIntegrator : Op D J := .integ []
/-- `op_misc.go:81-86` `NewDifferentiator`. -/
def newDifferentiator : Op D J := .diff []
/-- `op_misc.go:253-258` `NewDelay`. -/
def newDelay : Op D J := .delay []

/-- `Process` of each operator with one input:
`ProjectionOp` `op_linear.go:26-49`, `SelectionOp` `op_linear.go:70-95`, `UnwindOp` `op_linear.go:116-162`,
`GatherOp` `op_nonlinear.go:33-116`, `DistinctOp` `op_misc.go:20-29`, `IntegratorOp` `op_misc.go:47-62`,
`DifferentiatorOp` `op_misc.go:89-106`, `DelayOp` `op_misc.go:261-275`, `NegateOp` `op_misc.go:234-243`,
`ProjectThenSelectOp` `fused_op.go:22-56`, `SelectThenProjectionsOp` `fused_op.go:96-145`. -/
def proc : Op D J → ZSet D → Op D J × Except Err (ZSet D)
  | project ev, z => (project ev, linProc ev z)
  | select ev, z => (select ev, linProc ev z)
  | unwind ex tr, z => (unwind ex tr, unwindProc ex tr z)
  | gather g, z => (gather g, gatherProc g z)
  | distinct, z => (distinct, .ok z.distinct)
  | integ s, z => (integ (s.add z), .ok (s.add z))
  | diff p, z => (diff z, .ok (z.sub p))
  | delay b, z => (delay z, .ok b)
  | negate, z => (negate, .ok (ZSet.sub [] z))
  | projSel p s, z => (projSel p s, linProc (projSelEv p s) z)
  | selProjs s ps, z => (selProjs s ps, linProc (selProjsEv s ps) z)

/-- `OpType() == OpTypeNonLinear` (`op_nonlinear.go:131`, `op_misc.go:15`; all other chain operators
are linear). -/
def isNonLinear : Op D J → Bool
  | gather _ => true
  | distinct => true
  | _ => false

/-- `executor.go:110-123` `resetOperator` on chain operators (with the `Reset` methods of
`op_misc.go:69-71`, `113-115`, `282-284`). -/
def reset : Op D J → Op D J
  | integ _ => integ []
  | diff _ => diff []
  | delay _ => delay []
  | o => o

end Op

/-- `fused_op.go:171-188` `FusedOp.Process`: run the nodes in sequence; the first error ends the run
(nodes before it have already changed state). -/
def fusedProc : List (Op D J) → ZSet D → List (Op D J) × Except Err (ZSet D)
  | [], z => ([], .ok z)
  | o :: os, z =>
    match o.proc z with
    | (o', .error e) => (o' :: os, .error e)
    | (o', .ok r) =>
      let (os', res) := fusedProc os r
      (o' :: os', res)

end Dctl
