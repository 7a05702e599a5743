import Verif.Dbsp.NodeIds
import Verif.Pipeline.New
/-!
# Specification: graphs with and without node identifiers

The calls that can be made on a graph, what they do on `Graph` and what they do on `IdGraph`, and what a consistent `IdGraph` is.
-/
set_option autoImplicit false
namespace Dctl
variable {D J : Type} [DecidableEq D] [DecidableEq J]

/-- A call on a graph. `process` makes an executor (`NewExecutor`, `executor.go:19-28`) and processes; `snapshot` and `incremental` go on with the converted graph; `replace` replaces an
operator by at least one. -/
inductive GraphCmd (D J : Type) where
  | input (name : String)
  | join (j : JoinOp D)
  | chain (o : Op D J)
  | replace (i : Nat) (o : Op D J) (ops : List (Op D J))
  | optimize
  | process (σ : Order D) (ins : List (String × ZSet D))
  | reset
  | snapshot
  | incremental

/-- The answer to a call: an error, a Z-set for `process`, nothing for the others. -/
abbrev GraphReply (D : Type) := Except Err (Option (ZSet D))

/-- `chain.go:178-207` `ReplaceInChain` on a graph without identifiers. -/
def Graph.replaceInChain (g : Graph D J) (i : Nat) (ops : List (Op D J)) : Graph D J :=
  if i < g.chain.length then { g with chain := g.chain.take i ++ ops.map (fun o => ⟨o, false⟩) ++ g.chain.drop (i + 1) } else g

/-- `Rewrite.loop` with the graph it ends with also if it fails (`rewrite_engine.go:57-79`). -/
def Rewrite.loopG (rs : List (Rule D J)) : Nat → Graph D J → Graph D J × Except Err Unit
  | 0, g => (g, .error "rewrite engine did not converge")
  | fuel + 1, g =>
    match Rewrite.step rs g with
    | some g' => loopG rs fuel g'
    | none => (g, if fuel = 0 then .error "rewrite engine did not converge" else .ok ())

/-- `rewrite_engine.go:52-83` `Optimize`, with the graph also on failure. -/
def Rewrite.optimizeG (g : Graph D J) : Graph D J × Except Err Unit :=
  match g.validate with
  | .error e => (g, .error e)
  | .ok () => Rewrite.loopG Rewrite.rules 20 g

/-- A call on a graph without identifiers. -/
def Graph.exec (g : Graph D J) : GraphCmd D J → Graph D J × GraphReply D
  | .input n => (g.addInput n, .ok none)
  | .join j => (g.setJoin j, .ok none)
  | .chain o => (g.addToChain o, .ok none)
  | .replace i o ops => (g.replaceInChain i (o :: ops), .ok none)
  | .optimize => let (g', r) := Rewrite.optimizeG g; (g', r.map (fun _ => none))
  | .process σ ins =>
    match g.validate with
    | .error e => (g, .error e)
    | .ok () => let (g', r) := g.process σ ins; (g', r.map some)
  | .reset => (g.reset, .ok none)
  | .snapshot =>
    match g.toSnapshot with
    | .error e => (g, .error e)
    | .ok g' => (g', .ok none)
  | .incremental =>
    match g.toIncremental with
    | .error e => (g, .error e)
    | .ok g' => (g', .ok none)

/-- A call on a graph with identifiers; `none` is a panic. -/
def IdGraph.exec (g : IdGraph D J) : GraphCmd D J → Option (IdGraph D J × GraphReply D)
  | .input n => some (g.addInput n, .ok none)
  | .join j => some (g.setJoin j, .ok none)
  | .chain o => some (g.addToChain o, .ok none)
  | .replace i o ops => some (g.replaceInChain i (o :: ops), .ok none)
  | .optimize => g.optimize.map (fun r => (r.1, r.2.map (fun _ => none)))
  | .process σ ins =>
    match g.validate with
    | (g', .error e) => some (g', .error e)
    | (g', .ok ()) => (g'.process σ ins).map (fun r => (r.1, r.2.map some))
  | .reset => g.reset.map (fun g' => (g', .ok none))
  | .snapshot => g.toSnapshot.map (fun r => match r with
    | (g', .error e) => (g', .error e)
    | (_, .ok t) => (t, .ok none))
  | .incremental => g.toIncremental.map (fun r => match r with
    | (g', .error e) => (g', .error e)
    | (_, .ok t) => (t, .ok none))

/-- A sequence of calls and the answers. -/
def Graph.execAll : Graph D J → List (GraphCmd D J) → Graph D J × List (GraphReply D)
  | g, [] => (g, [])
  | g, c :: cs => let (g', r) := g.exec c; let (g'', rs) := execAll g' cs; (g'', r :: rs)

/-- A sequence of calls and the answers, or a panic. -/
def IdGraph.execAll : IdGraph D J → List (GraphCmd D J) → Option (IdGraph D J × List (GraphReply D))
  | g, [] => some (g, [])
  | g, c :: cs =>
    match g.exec c with
    | none => none
    | some (g', r) => (execAll g' cs).map (fun p => (p.1, r :: p.2))

/-- The identifier of the last node: the end of the chain, else the join, else the first input. -/
def IdGraph.lastNode (g : IdGraph D J) : Option String :=
  if g.chain ≠ [] then g.chain.getLast? else if g.joinNode ≠ "" then some g.joinNode else g.inputs.head?

/-- Every identifier in use has a node of the right kind, no identifier is used twice, the nodes that are not in use are gone (joins that were replaced excepted), new
identifiers will not meet old ones, and the output is the last node once it is known. -/
structure IdGraph.Consistent (g : IdGraph D J) : Prop where
  nodup : (g.inputs ++ g.chain).Nodup
  inputs : ∀ id ∈ g.inputs, ∃ name, g.inputIdx.get id = some name ∧ g.nodes.get id = some ⟨.input name, false⟩
  join : g.joinNode ≠ "" → ∃ j l, g.nodes.get g.joinNode = some ⟨.join j, l⟩
  chain : ∀ id ∈ g.chain, ∃ o l, g.nodes.get id = some ⟨.chain o, l⟩
  used : ∀ id n, g.nodes.get id = some n → id ∈ g.inputs ∨ id ∈ g.chain ∨ ∃ j, n.op = .join j
  fresh : ∀ pre ∈ ["input", "join", "op"], ∀ k, g.nextID ≤ k → g.nodes.get (nodeId pre k) = none
  output : g.output ≠ "" → some g.output = g.lastNode

/-- The graph with only the first `n` operators of its chain. -/
def Graph.upTo (a : Graph D J) (n : Nat) : Graph D J := { a with chain := a.chain.take n }

/-- A graph that ran up to its operator number `n`, with the other operators of `a` as they were. -/
def Graph.thenRest (t a : Graph D J) (n : Nat) : Graph D J := { t with chain := t.chain ++ a.chain.drop n }

/-- `pkg/pipeline/pipeline.go:97-170`: what `New` calls. -/
def newCmds (sources : List String) (cfg : List (PipeOp D J)) : Except Err (List (GraphCmd D J)) :=
  match cfg with
  | .join ev :: rest =>
    match rest.mapM PipeOp.toOp with
    | .error e => .error e
    | .ok os => .ok (sources.map .input ++ [.join (JoinOp.newIncremental ev sources.length)] ++ os.map .chain ++ [.optimize])
  | l =>
    match l.mapM PipeOp.toOp with
    | .error e => .error e
    | .ok os => .ok (sources.map .input ++ os.map .chain ++ [.optimize])

end Dctl
