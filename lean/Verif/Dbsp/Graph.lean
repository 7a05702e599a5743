import Verif.Dbsp.Join
/-!
# Operator graph, executor, snapshot conversion (`chain.go`, `executor.go`, `graph_converter.go`)
-/
set_option autoImplicit false
namespace Dctl
variable {D J : Type} [DecidableEq D] [DecidableEq J]

/-- The join node of a graph: `JoinOp`, `IncrementalJoinOp`, `BinaryJoinOp`, `IncrementalBinaryJoinOp`
(`op_bilinear.go`), with the number of inputs the join was declared with and, for the incremental
ones, the state. -/
inductive JoinOp (D : Type) where
  | snap (ev : JEv D) (n : Nat)
  | incr (ev : JEv D) (n : Nat) (prevs : List (ZSet D))
  | snapBin (ev : D → D → Except Err (List D))
  | incrBin (ev : D → D → Except Err (List D)) (prevs : ZSet D × ZSet D)

namespace JoinOp
/-- `op_bilinear.go:49-57` `NewIncrementalJoin`. -/
def newIncremental (ev : JEv D) (n : Nat) : JoinOp D := .incr ev n (List.replicate n [])
/-- `op_bilinear.go:249-260` `NewIncrementalBinaryJoin`. -/
def newIncrementalBinary (ev : D → D → Except Err (List D)) : JoinOp D := .incrBin ev ([], [])

/-- `Process` of the join operators (`op_bilinear.go:30`, `64`, `191`, `263`). -/
def proc : JoinOp D → List (ZSet D) → JoinOp D × Except Err (ZSet D)
  | snap ev n, ins => (snap ev n, snapJoin ev n ins)
  | incr ev n ps, ins => let (ps', r) := incJoin ev n ps ins; (incr ev n ps', r)
  | snapBin ev, [l, r] => (snapBin ev, binJoin ev l r)
  | incrBin ev ps, [l, r] => let (ps', res) := incBinJoin ev ps l r; (incrBin ev ps', res)
  | o, _ => (o, .error "arity mismatch")

/-- `executor.go:110-123` `resetOperator` on join operators: only the binary incremental join is reset. -/
def reset : JoinOp D → JoinOp D
  | incrBin ev _ => incrBin ev ([], [])
  | o => o

/-- `graph_converter.go:63-77` `convertToSnapshotJoin`. -/
def toSnapshot : JoinOp D → JoinOp D
  | incr ev n _ => snap ev n
  | incrBin ev _ => snapBin ev
  | o => o

/-- `graph_converter.go:80-94` `convertToIncrementalJoin`. -/
def toIncremental : JoinOp D → JoinOp D
  | snap ev n => newIncremental ev n
  | snapBin ev => newIncrementalBinary ev
  | o => o

/-- `op.go:80-93` `IncrementalizeOp` on join operators; `none` = "no change". -/
def incrementalize : JoinOp D → Option (JoinOp D)
  | snap ev n => some (newIncremental ev n)
  | snapBin ev => some (newIncrementalBinary ev)
  | _ => none
end JoinOp

/-- `chain.go:21-27` `GraphNode` of a chain element: operator and the `Lifted` mark. -/
structure Node (D J : Type) where
  op : Op D J
  lifted : Bool := false

/-- `chain.go:10-18` `ChainGraph`. Node IDs are dropped: `inputs` lists the external input names in
order (`inputs` + `inputIdx`), `chain` the chain nodes in order; `output` is always the last node and
is not used by the executor. -/
structure Graph (D J : Type) where
  inputs : List String := []
  join : Option (JoinOp D) := none
  chain : List (Node D J) := []

namespace Graph

/-- `chain.go:41-54` `AddInput`: an input name already present is silently ignored. -/
def addInput (g : Graph D J) (name : String) : Graph D J :=
  if name ∈ g.inputs then g else { g with inputs := g.inputs ++ [name] }

/-- `chain.go:73-86` `SetJoin`. -/
def setJoin (g : Graph D J) (j : JoinOp D) : Graph D J := { g with join := some j }

/-- `chain.go:98-108` `AddToChain`. -/
def addToChain (g : Graph D J) (o : Op D J) : Graph D J := { g with chain := g.chain ++ [⟨o, false⟩] }

/-- `chain.go:122-143` `Validate` (the inference of the output node cannot fail after the first two
checks). -/
def validate (g : Graph D J) : Except Err Unit :=
  if g.inputs = [] then .error "no input nodes"
  else if g.inputs.length > 1 ∧ g.join.isNone then .error "multiple inputs require a join node"
  else .ok ()

end Graph

/-- Order in which a Go map is iterated: a function that returns some permutation of the entries.
`σ i z` is the order in which the `i`-th consumer (0 = join / input, `i+1` = chain position `i`)
sees the Z-set `z`. Go leaves map iteration order unspecified; theorems quantify over all `σ`. -/
abbrev Order (D : Type) := Nat → ZSet D → ZSet D

/-- An order only permutes. -/
def Order.Valid (σ : Order D) : Prop := ∀ i z, (σ i z).Perm z

/-- `executor.go:79-90`: the chain loop. Nodes before a failing node have already updated their state,
nodes after it have not been called. -/
def runChain (σ : Order D) (i : Nat) :
    List (Node D J) → ZSet D → List (Node D J) × Except Err (ZSet D)
  | [], z => ([], .ok z)
  | nd :: nds, z =>
    match nd.op.proc (σ i z) with
    | (o', .error e) => ({ nd with op := o' } :: nds, .error e)
    | (o', .ok r) =>
      let (nds', res) := runChain σ (i + 1) nds r
      ({ nd with op := o' } :: nds', res)

/-- Go map lookup `inputs[name]` (`executor.go:44`, `62`). -/
def lookupInput (ins : List (String × ZSet D)) (name : String) : Option (ZSet D) := ins.lookup name

/-- `executor.go:34-49` input validation and `61-63` collection of the inputs in graph order. -/
def collectInputs (names : List String) (ins : List (String × ZSet D)) :
    Except Err (List (ZSet D)) :=
  if ins.length ≠ names.length then .error "wrong number of inputs"
  else names.mapM (fun n => match lookupInput ins n with
    | some z => .ok z
    | none => .error "missing input")

/-- `executor.go:32-95` `Executor.Process`. For a graph without join and without inputs the code would
index out of range (excluded by `Validate`); here it is an error. -/
def Graph.process (σ : Order D) (g : Graph D J) (ins : List (String × ZSet D)) :
    Graph D J × Except Err (ZSet D) :=
  match collectInputs g.inputs ins with
  | .error e => (g, .error e)
  | .ok zs =>
    match g.join with
    | some j =>
      match j.proc (zs.map (σ 0)) with
      | (j', .error e) => ({ g with join := some j' }, .error e)
      | (j', .ok r) =>
        let (c', res) := runChain σ 1 g.chain r
        ({ g with join := some j', chain := c' }, res)
    | none =>
      match zs with
      | [] => (g, .error "no input")
      | z :: _ =>
        let (c', res) := runChain σ 1 g.chain z
        ({ g with chain := c' }, res)

/-- `executor.go:98-108` `Executor.Reset`. -/
def Graph.reset (g : Graph D J) : Graph D J :=
  { g with join := g.join.map JoinOp.reset, chain := g.chain.map (fun nd => { nd with op := nd.op.reset }) }

/-- `graph_converter.go:97-122` `convertToSnapshotOperator`. `negate` and `unwind` fall into the default
case. -/
def Op.toSnapshot : Op D J → Except Err (Op D J)
  | .project ev => .ok (.project ev)
  | .select ev => .ok (.select ev)
  | .distinct => .ok .distinct
  | .projSel p s => .ok (.projSel p s)
  | .selProjs s ps => .ok (.selProjs s ps)
  | .gather g => .ok (.gather g)
  | .integ _ => .error "IntegratorOp cannot be converted to snapshot"
  | .diff _ => .error "DifferentiatorOp cannot be converted to snapshot"
  | .delay _ => .error "DelayOp cannot be converted to snapshot"
  | _ => .error "unsupported operator type for snapshot conversion"

/-- `graph_converter.go:125-147` `convertToIncrementalOperator`. -/
def Op.toIncremental : Op D J → Except Err (Op D J)
  | .unwind _ _ => .error "unsupported operator type for incremental conversion"
  | .negate => .error "unsupported operator type for incremental conversion"
  | o => .ok o

/-- `graph_converter.go:50-57`: convert the chain operators in order; converted nodes are added with
`AddToChain`, so the `Lifted` mark is lost. -/
def convertChain (f : Op D J → Except Err (Op D J)) : List (Node D J) → Except Err (List (Node D J))
  | [] => .ok []
  | nd :: nds =>
    match f nd.op with
    | .error e => .error e
    | .ok o =>
      match convertChain f nds with
      | .error e => .error e
      | .ok r => .ok (⟨o, false⟩ :: r)

/-- `graph_converter.go:25-60` `convertGraph`. -/
def Graph.convert (jf : JoinOp D → JoinOp D) (f : Op D J → Except Err (Op D J)) (g : Graph D J) :
    Except Err (Graph D J) :=
  match g.validate with
  | .error e => .error e
  | .ok () =>
    match convertChain f g.chain with
    | .error e => .error e
    | .ok c => .ok { inputs := g.inputs.foldl (fun acc n => if n ∈ acc then acc else acc ++ [n]) [],
                     join := g.join.map jf, chain := c }

/-- `graph_converter.go:12-14` `ToSnapshotGraph`. -/
def Graph.toSnapshot (g : Graph D J) : Except Err (Graph D J) :=
  g.convert JoinOp.toSnapshot Op.toSnapshot

/-- `graph_converter.go:20-22` `ToIncrementalGraph`. -/
def Graph.toIncremental (g : Graph D J) : Except Err (Graph D J) :=
  g.convert JoinOp.toIncremental Op.toIncremental

end Dctl
