import Verif.Dbsp.Rewrite
import Verif.Util.Assoc
/-!
# The operator graph with its node identifiers (`chain.go`, `rewrite_engine.go`, `executor.go`, `graph_converter.go`)

`Graph` (`Verif/Dbsp/Graph.lean`) has the operators themselves in its chain. The code has identifiers there and a map from identifiers to nodes, which the rewrite rules
update while they walk over the chain. This is the model of the latter; `none` is a panic (a nil pointer from a map without the key, or a failed type assertion).
Simplifications: every node holds an operator of its own (the compiler makes a new one for each operation); the fields `ID`, `Inputs` and `Output` of a node are left out (the
first repeats the key, the others are never set).
-/
set_option autoImplicit false
namespace Dctl
variable {D J : Type} [DecidableEq D] [DecidableEq J]

/-- What a node can hold (`chain.go:51`, `77`, `102`): an `InputOp`, a join, an operator of the chain. -/
inductive AnyOp (D J : Type) where
  | input (name : String)
  | join (j : JoinOp D)
  | chain (o : Op D J)

/-- `chain.go:21-27` `GraphNode`. -/
structure IdNode (D J : Type) where
  op : AnyOp D J
  lifted : Bool := false

/-- `chain.go:10-18` `ChainGraph`, with the initial values of `NewChainGraph` (`30-38`). -/
structure IdGraph (D J : Type) where
  inputs : List String := []
  inputIdx : AMap String String := []
  joinNode : String := ""
  chain : List String := []
  output : String := ""
  nodes : AMap String (IdNode D J) := []
  nextID : Nat := 0

/-- `fmt.Sprintf("op_%d", g.nextID)` (`chain.go:48`, `74`, `99`, `191`). -/
def nodeId (pre : String) (n : Nat) : String := pre ++ "_" ++ toString n

namespace AnyOp
/-- `Process` (`op_misc.go:138-143` for inputs, `op_bilinear.go` for joins, `Op.proc` for the others); the number of arguments is checked (`op.go:68-73`). -/
def proc : AnyOp D J → List (ZSet D) → AnyOp D J × Except Err (ZSet D)
  | .input n, _ => (.input n, .error "arity mismatch")
  | .join j, ins => let (j', r) := j.proc ins; (.join j', r)
  | .chain o, [z] => let (o', r) := o.proc z; (.chain o', r)
  | .chain o, _ => (.chain o, .error "arity mismatch")

/-- `executor.go:110-123` `resetOperator`. -/
def reset : AnyOp D J → AnyOp D J
  | .input n => .input n
  | .join j => .join j.reset
  | .chain o => .chain o.reset

/-- `op.go:80-93` `IncrementalizeOp`; `none` is "no change". -/
def incrementalize : AnyOp D J → Option (AnyOp D J)
  | .join j => j.incrementalize.map .join
  | _ => none

/-- `OpType() == OpTypeNonLinear` (`rewrite_engine.go:98`). -/
def isNonLinear : AnyOp D J → Bool
  | .chain o => o.isNonLinear
  | _ => false

/-- `op.(*IntegratorOp)` (`rewrite_engine.go:208`, `226`). -/
def isInteg : AnyOp D J → Bool
  | .chain (.integ _) => true
  | _ => false

/-- `op.(*DifferentiatorOp)` (`rewrite_engine.go:209`, `227`). -/
def isDiff : AnyOp D J → Bool
  | .chain (.diff _) => true
  | _ => false

/-- `op.(*DistinctOp)` (`rewrite_engine.go:273-274`, `292-293`). -/
def isDistinct : AnyOp D J → Bool
  | .chain .distinct => true
  | _ => false

/-- `op.(*SelectionOp)` (`rewrite_engine.go:347`, `388`, `403`, `489`). -/
def asSelect : AnyOp D J → Option (Ev D)
  | .chain (.select s) => some s
  | _ => none

/-- `op.(*ProjectionOp)` (`rewrite_engine.go:352`, `370`, `387`, `409`, `436`, `442`, `488`). -/
def asProject : AnyOp D J → Option (Ev D)
  | .chain (.project p) => some p
  | _ => none
end AnyOp

namespace IdGraph

/-! ## Building (`chain.go`) -/

/-- `chain.go:41-54` `AddInput`. -/
def addInput (g : IdGraph D J) (name : String) : IdGraph D J :=
  if name ∈ g.inputIdx.map Prod.snd then g
  else
    let id := nodeId "input" g.nextID
    { g with nextID := g.nextID + 1, inputs := g.inputs ++ [id], inputIdx := g.inputIdx.set id name, nodes := g.nodes.set id ⟨.input name, false⟩ }

/-- `chain.go:73-86` `SetJoin`. -/
def setJoin (g : IdGraph D J) (j : JoinOp D) : IdGraph D J :=
  let id := nodeId "join" g.nextID
  { g with nextID := g.nextID + 1, nodes := g.nodes.set id ⟨.join j, false⟩, joinNode := id, output := if g.chain = [] then id else g.output }

/-- `chain.go:98-108` `AddToChain`. -/
def addToChain (g : IdGraph D J) (o : Op D J) : IdGraph D J :=
  let id := nodeId "op" g.nextID
  { g with nextID := g.nextID + 1, nodes := g.nodes.set id ⟨.chain o, false⟩, chain := g.chain ++ [id], output := id }

/-- `chain.go:122-143` `Validate`: infers the output. -/
def validate (g : IdGraph D J) : IdGraph D J × Except Err Unit :=
  if g.inputs = [] then (g, .error "no input nodes")
  else if g.inputs.length > 1 ∧ g.joinNode = "" then (g, .error "multiple inputs require a join node")
  else if g.output = "" then
    match g.chain.getLast? with
    | some id => ({ g with output := id }, .ok ())
    | none =>
      if g.joinNode ≠ "" then ({ g with output := g.joinNode }, .ok ())
      else
        match g.inputs with
        | [id] => ({ g with output := id }, .ok ())
        | _ => (g, .error "no output node and cannot infer one")
  else (g, .ok ())

/-- `chain.go:188-195`: nodes for new operators, their identifiers, the next number. -/
def addNodes (nodes : AMap String (IdNode D J)) (n : Nat) : List (Op D J) → AMap String (IdNode D J) × Nat × List String
  | [] => (nodes, n, [])
  | o :: os =>
    let (nodes', n', ids) := addNodes (nodes.set (nodeId "op" n) ⟨.chain o, false⟩) (n + 1) os
    (nodes', n', nodeId "op" n :: ids)

/-- `chain.go:178-207` `ReplaceInChain`; the index is not negative. -/
def replaceInChain (g : IdGraph D J) (i : Nat) (ops : List (Op D J)) : IdGraph D J :=
  match g.chain[i]? with
  | none => g
  | some old =>
    let (nodes, n, ids) := addNodes (g.nodes.erase old) g.nextID ops
    let chain := g.chain.take i ++ ids ++ g.chain.drop (i + 1)
    { g with nodes := nodes, nextID := n, chain := chain, output := chain.getLast?.getD g.output }

/-! ## Rewriting (`rewrite_engine.go`) -/

/-- A loop over the chain that returns true at the first node with the property (`rewrite_engine.go:96-106`, `173-178`). -/
def anyNode (p : IdNode D J → Bool) (nodes : AMap String (IdNode D J)) : List String → Option Bool
  | [] => some false
  | id :: t =>
    match nodes.get id with
    | none => none
    | some n => if p n then some true else anyNode p nodes t

/-- A loop over the pairs of neighbours that returns true at the first with the property (`rewrite_engine.go:204-214`, `269-280`, `383-393`). -/
def anyPair (p : AnyOp D J → AnyOp D J → Bool) (nodes : AMap String (IdNode D J)) : List String → Option Bool
  | a :: b :: t =>
    match nodes.get a, nodes.get b with
    | some x, some y => if p x.op y.op then some true else anyPair p nodes (b :: t)
    | _, _ => none
  | _ => some false

/-- `rewrite_engine.go:94-107` `NonLinearLiftingRule.CanApply`. -/
def liftCan (g : IdGraph D J) : Option Bool := anyNode (fun n => n.op.isNonLinear && !n.lifted) g.nodes g.chain

/-- `rewrite_engine.go:127`: mark the node at an index as lifted. -/
def markLifted (g : IdGraph D J) (i : Nat) : Option (IdGraph D J) :=
  match g.chain[i]? with
  | none => none
  | some id =>
    match g.nodes.get id with
    | none => none
    | some n => some { g with nodes := g.nodes.set id { n with lifted := true } }

/-- `rewrite_engine.go:114-133` `NonLinearLiftingRule.Apply`: the loop from the end; `k` is the index plus one. -/
def liftFrom : Nat → IdGraph D J → Option (IdGraph D J)
  | 0, g => some g
  | k + 1, g =>
    match g.chain[k]? with
    | none => none
    | some id =>
      match g.nodes.get id with
      | none => none
      | some n =>
        if n.op.isNonLinear && !n.lifted then
          match n.op with
          | .chain o =>
            match markLifted (g.replaceInChain k [Op.newIntegrator, o, Op.newDifferentiator]) (k + 1) with
            | none => none
            | some g' => liftFrom k g'
          | _ => none
        else liftFrom k g

/-- `rewrite_engine.go:142-150` `JoinIncrementalizationRule.CanApply`; joins are bilinear. -/
def joinCan (g : IdGraph D J) : Option Bool :=
  if g.joinNode = "" then some false
  else
    match g.nodes.get g.joinNode with
    | none => none
    | some n => some n.op.incrementalize.isSome

/-- `rewrite_engine.go:152-160` `JoinIncrementalizationRule.Apply`. -/
def joinApply (g : IdGraph D J) : Option (IdGraph D J) :=
  match g.nodes.get g.joinNode with
  | none => none
  | some n => some { g with nodes := g.nodes.set g.joinNode { n with op := n.op.incrementalize.getD n.op } }

/-- `rewrite_engine.go:169-178` `LinearChainIncrementalizationRule.CanApply`. -/
def chainIncCan (g : IdGraph D J) : Option Bool := anyNode (fun n => n.op.incrementalize.isSome) g.nodes g.chain

/-- `rewrite_engine.go:180-193` `LinearChainIncrementalizationRule.Apply`. -/
def chainIncApply (nodes : AMap String (IdNode D J)) : List String → Option (AMap String (IdNode D J))
  | [] => some nodes
  | id :: t =>
    match nodes.get id with
    | none => none
    | some n => chainIncApply (nodes.set id { n with op := n.op.incrementalize.getD n.op }) t

/-- `rewrite_engine.go:202-215` `IntegrationDifferentiationEliminationRule.CanApply`. -/
def idCan (g : IdGraph D J) : Option Bool := anyPair (fun a b => a.isInteg && b.isDiff) g.nodes g.chain

/-- `rewrite_engine.go:217-244`: the loop of `IntegrationDifferentiationEliminationRule.Apply`; `acc` is `newChain`. -/
def idLoop : List String → AMap String (IdNode D J) → List String → Option (AMap String (IdNode D J) × List String)
  | a :: b :: t, nodes, acc =>
    match nodes.get a, nodes.get b with
    | some x, some y => if x.op.isInteg && y.op.isDiff then idLoop t ((nodes.erase a).erase b) acc else idLoop (b :: t) nodes (acc ++ [a])
    | _, _ => none
  | [a], nodes, acc => some (nodes, acc ++ [a])
  | [], nodes, acc => some (nodes, acc)

/-- `rewrite_engine.go:246-255`: the output after the elimination. -/
def idOutput (g : IdGraph D J) : String :=
  match g.chain.getLast? with
  | some id => id
  | none => if g.joinNode ≠ "" then g.joinNode else match g.inputs with
    | id :: _ => id
    | [] => g.output

/-- `rewrite_engine.go:267-281` `DistinctOptimizationRule.CanApply`. -/
def ddCan (g : IdGraph D J) : Option Bool := anyPair (fun a b => a.isDistinct && b.isDistinct) g.nodes g.chain

/-- `rewrite_engine.go:283-309`: the loop of `DistinctOptimizationRule.Apply`. -/
def ddLoop : List String → AMap String (IdNode D J) → List String → Option (AMap String (IdNode D J) × List String)
  | a :: b :: t, nodes, acc =>
    match nodes.get a, nodes.get b with
    | some x, some y => if x.op.isDistinct && y.op.isDistinct then ddLoop t (nodes.erase a) (acc ++ [b]) else ddLoop (b :: t) nodes (acc ++ [a])
    | _, _ => none
  | [a], nodes, acc => some (nodes, acc ++ [a])
  | [], nodes, acc => some (nodes, acc)

/-- `rewrite_engine.go:351-358`, `408-415`, `441-448`: the evaluators of the projections at the start, and what follows them. -/
def spanProj (nodes : AMap String (IdNode D J)) : List String → Option (List (Ev D) × List String)
  | [] => some ([], [])
  | id :: t =>
    match nodes.get id with
    | none => none
    | some n =>
      match n.op.asProject with
      | some p => match spanProj nodes t with
        | none => none
        | some (ps, r) => some (p :: ps, r)
      | none => some ([], id :: t)

/-- `rewrite_engine.go:345-365` `hasSelectionThenProjections`. -/
def hasSP (nodes : AMap String (IdNode D J)) : List String → Option Bool
  | a :: b :: t =>
    match nodes.get a with
    | none => none
    | some x =>
      match x.op.asSelect with
      | none => hasSP nodes (b :: t)
      | some _ =>
        match spanProj nodes (b :: t) with
        | none => none
        | some (ps, _) => if ps.length > 0 then some true else hasSP nodes (b :: t)
  | _ => some false

/-- `rewrite_engine.go:367-380` `hasConsecutiveProjections`; `k` is the counter. -/
def hasPP (nodes : AMap String (IdNode D J)) (k : Nat) : List String → Option Bool
  | [] => some false
  | id :: t =>
    match nodes.get id with
    | none => none
    | some n =>
      match n.op.asProject with
      | some _ => if k + 1 ≥ 2 then some true else hasPP nodes (k + 1) t
      | none => hasPP nodes 0 t

/-- `rewrite_engine.go:382-394` `hasProjectThenSelect`. -/
def hasPS (nodes : AMap String (IdNode D J)) (ids : List String) : Option Bool := anyPair (fun a b => a.asProject.isSome && b.asSelect.isSome) nodes ids

/-- Go `a() || b()` where a call can panic (`rewrite_engine.go:326-328`). -/
def orElse (a : Option Bool) (b : Option Bool) : Option Bool :=
  match a with
  | none => none
  | some true => some true
  | some false => b

/-- `rewrite_engine.go:325-329` `LinearOperatorFusionRule.CanApply`. -/
def fuseCan (g : IdGraph D J) : Option Bool := orElse (hasSP g.nodes g.chain) (orElse (hasPP g.nodes 0 g.chain) (hasPS g.nodes g.chain))

/-- `rewrite_engine.go:397-477`: the loop of `fuseSelectionThenProjections`. The first argument bounds the recursion; the length of the chain suffices. -/
def fuseSPLoop : Nat → List String → AMap String (IdNode D J) → List String → Option (AMap String (IdNode D J) × List String)
  | _, [], nodes, acc => some (nodes, acc)
  | 0, _ :: _, _, _ => none
  | n + 1, a :: t, nodes, acc =>
    match nodes.get a with
    | none => none
    | some x =>
      match x.op.asSelect with
      | some s =>
        match spanProj nodes t with
        | none => none
        | some ([], _) => fuseSPLoop n t nodes (acc ++ [a])
        | some (p :: ps, r) =>
          fuseSPLoop n r ((t.take (p :: ps).length).foldl AMap.erase (nodes.set a { x with op := .chain (.selProjs (some s) (p :: ps)) })) (acc ++ [a])
      | none =>
        match x.op.asProject with
        | none => fuseSPLoop n t nodes (acc ++ [a])
        | some p =>
          match spanProj nodes t with
          | none => none
          | some ([], _) => fuseSPLoop n t nodes (acc ++ [a])
          | some (q :: ps, r) =>
            fuseSPLoop n r ((t.take (q :: ps).length).foldl AMap.erase (nodes.set a { x with op := .chain (.selProjs none (p :: q :: ps)) })) (acc ++ [a])

/-- `rewrite_engine.go:479-510`: the loop of `fuseProjectThenSelect`. -/
def fusePSLoop : List String → AMap String (IdNode D J) → List String → Option (AMap String (IdNode D J) × List String)
  | a :: b :: t, nodes, acc =>
    match nodes.get a, nodes.get b with
    | some x, some y =>
      match x.op.asProject, y.op.asSelect with
      | some p, some s => fusePSLoop t ((nodes.set b { y with op := .chain (.projSel p s) }).erase a) (acc ++ [b])
      | _, _ => fusePSLoop (b :: t) nodes (acc ++ [a])
    | _, _ => none
  | [a], nodes, acc => some (nodes, acc ++ [a])
  | [], nodes, acc => some (nodes, acc)

/-- `rewrite_engine.go:513-519` `updateOutput`. -/
def fuseOutput (g : IdGraph D J) : String :=
  match g.chain.getLast? with
  | some id => id
  | none => if g.joinNode ≠ "" then g.joinNode else g.output

/-- `rewrite_engine.go:330-342` `LinearOperatorFusionRule.Apply`. -/
def fuseApply (g : IdGraph D J) : Option (IdGraph D J) :=
  match orElse (hasSP g.nodes g.chain) (hasPP g.nodes 0 g.chain) with
  | none => none
  | some true =>
    match fuseSPLoop g.chain.length g.chain g.nodes [] with
    | none => none
    | some (ns, c) => some { g with nodes := ns, chain := c, output := fuseOutput { g with nodes := ns, chain := c } }
  | some false =>
    match hasPS g.nodes g.chain with
    | none => none
    | some false => some g
    | some true =>
      match fusePSLoop g.chain g.nodes [] with
      | none => none
      | some (ns, c) => some { g with nodes := ns, chain := c, output := fuseOutput { g with nodes := ns, chain := c } }

/-- A rule (`rewrite_engine.go:40-44`). -/
structure IdRule (D J : Type) where
  canApply : IdGraph D J → Option Bool
  apply : IdGraph D J → Option (IdGraph D J)

/-- `rewrite_engine.go:23-37`: the rules in the order of their priority. -/
def rules : List (IdRule D J) := [
  ⟨joinCan, joinApply⟩,
  ⟨liftCan, fun g => liftFrom g.chain.length g⟩,
  ⟨chainIncCan, fun g => (chainIncApply g.nodes g.chain).map (fun ns => { g with nodes := ns })⟩,
  ⟨idCan, fun g => (idLoop g.chain g.nodes []).map (fun r => { g with nodes := r.1, chain := r.2, output := idOutput { g with chain := r.2 } })⟩,
  ⟨ddCan, fun g => (ddLoop g.chain g.nodes []).map (fun r => { g with nodes := r.1, chain := r.2, output := r.2.getLast?.getD g.output })⟩,
  ⟨fuseCan, fuseApply⟩]

/-- `rewrite_engine.go:65-74`: apply the first rule that can be applied; the second component tells whether there was one. -/
def step : List (IdRule D J) → IdGraph D J → Option (IdGraph D J × Bool)
  | [], g => some (g, false)
  | r :: rs, g =>
    match r.canApply g with
    | none => none
    | some false => step rs g
    | some true => (r.apply g).map (fun g' => (g', true))

/-- `rewrite_engine.go:57-79`: the loop; `fuel` is `maxIterations - iterations`. -/
def loop (rs : List (IdRule D J)) : Nat → IdGraph D J → Option (IdGraph D J × Except Err Unit)
  | 0, g => some (g, .error "rewrite engine did not converge")
  | fuel + 1, g =>
    match step rs g with
    | none => none
    | some (g', true) => loop rs fuel g'
    | some (g', false) => some (g', if fuel = 0 then .error "rewrite engine did not converge" else .ok ())

/-- `rewrite_engine.go:52-83` `Optimize`. -/
def optimize (g : IdGraph D J) : Option (IdGraph D J × Except Err Unit) :=
  match g.validate with
  | (g', .error e) => some (g', .error e)
  | (g', .ok ()) => loop rules 20 g'

/-! ## Execution (`executor.go`) -/

/-- `executor.go:34-49` and `61-63`: the inputs in the order of the graph. -/
def collect (g : IdGraph D J) (ins : List (String × ZSet D)) : Except Err (List (ZSet D)) :=
  if ins.length ≠ g.inputs.length then .error "wrong number of inputs"
  else g.inputs.mapM (fun id => match g.inputIdx.get id with
    | none => .error "internal error"
    | some name => match lookupInput ins name with
      | some z => .ok z
      | none => .error "missing input")

/-- `executor.go:79-90`: the loop over the chain. -/
def runIds (σ : Order D) (i : Nat) : List String → AMap String (IdNode D J) → ZSet D → Option (AMap String (IdNode D J) × Except Err (ZSet D))
  | [], nodes, z => some (nodes, .ok z)
  | id :: t, nodes, z =>
    match nodes.get id with
    | none => none
    | some n =>
      match n.op.proc [σ i z] with
      | (o', .error e) => some (nodes.set id { n with op := o' }, .error e)
      | (o', .ok r) => runIds σ (i + 1) t (nodes.set id { n with op := o' }) r

/-- `executor.go:53-77`: the join, if there is one, or the first input. -/
def runJoin (σ : Order D) (g : IdGraph D J) (zs : List (ZSet D)) : Option (AMap String (IdNode D J) × Except Err (ZSet D)) :=
  if g.joinNode ≠ "" then
    match g.nodes.get g.joinNode with
    | none => none
    | some n => let (o', r) := n.op.proc (zs.map (σ 0)); some (g.nodes.set g.joinNode { n with op := o' }, r)
  else
    match zs with
    | [] => none
    | z :: _ => some (g.nodes, .ok z)

/-- `executor.go:32-95` `Process`. -/
def process (σ : Order D) (g : IdGraph D J) (ins : List (String × ZSet D)) : Option (IdGraph D J × Except Err (ZSet D)) :=
  match g.collect ins with
  | .error e => some (g, .error e)
  | .ok zs =>
    match g.runJoin σ zs with
    | none => none
    | some (ns, .error e) => some ({ g with nodes := ns }, .error e)
    | some (ns, .ok z) =>
      match runIds σ 1 g.chain ns z with
      | none => none
      | some (ns', r) => some ({ g with nodes := ns' }, r)

/-- `executor.go:100-102`, `106`: reset the operators of some nodes. -/
def resetIds : List String → AMap String (IdNode D J) → Option (AMap String (IdNode D J))
  | [], nodes => some nodes
  | id :: t, nodes =>
    match nodes.get id with
    | none => none
    | some n => resetIds t (nodes.set id { n with op := n.op.reset })

/-- `executor.go:98-108` `Reset`. -/
def reset (g : IdGraph D J) : Option (IdGraph D J) :=
  (resetIds ((if g.joinNode ≠ "" then [g.joinNode] else []) ++ g.chain) g.nodes).map (fun ns => { g with nodes := ns })

/-- `executor.go:173-233` `GetNodeResult`: the inputs are given by the identifiers of the input nodes. A missing one is a nil pointer and a panic in `Process`
(simplified for graphs with a join: one that does not look at the input, as another is empty, does not panic). -/
def nodeResult (σ : Order D) (g : IdGraph D J) (id : String) (ins : List (String × ZSet D)) : Option (IdGraph D J × Except Err (ZSet D)) :=
  match g.nodes.get id with
  | none => some (g, .error "node not found")
  | some _ =>
    match g.inputs.mapM (lookupInput ins) with
    | none => if id = g.joinNode ∨ id ∈ g.chain then none else some (g, .error "node not found in chain")
    | some zs =>
      if id = g.joinNode then (g.runJoin σ zs).map (fun r => ({ g with nodes := r.1 }, r.2))
      else if id ∈ g.chain then
        match g.runJoin σ zs with
        | none => none
        | some (ns, .error e) => some ({ g with nodes := ns }, .error e)
        | some (ns, .ok z) =>
          match runIds σ 1 (g.chain.take (g.chain.idxOf id + 1)) ns z with
          | none => none
          | some (ns', r) => some ({ g with nodes := ns' }, r)
      else some (g, .error "node not found in chain")

/-! ## Conversion (`graph_converter.go`) -/

/-- `graph_converter.go:33-37`: the inputs; a node of another kind fails the type assertion. -/
def copyInputs (nodes : AMap String (IdNode D J)) : List String → IdGraph D J → Option (IdGraph D J)
  | [], t => some t
  | id :: ids, t =>
    match nodes.get id with
    | some ⟨.input name, _⟩ => copyInputs nodes ids (t.addInput name)
    | _ => none

/-- `graph_converter.go:40-47`: the join. -/
def copyJoin (jf : JoinOp D → JoinOp D) (g t : IdGraph D J) : Option (Except Err (IdGraph D J)) :=
  if g.joinNode = "" then some (.ok t)
  else
    match g.nodes.get g.joinNode with
    | none => none
    | some ⟨.join j, _⟩ => some (.ok (t.setJoin (jf j)))
    | some _ => some (.error "unsupported join operator type")

/-- `graph_converter.go:50-57`: the chain. -/
def copyChain (f : Op D J → Except Err (Op D J)) (nodes : AMap String (IdNode D J)) : List String → IdGraph D J → Option (Except Err (IdGraph D J))
  | [], t => some (.ok t)
  | id :: ids, t =>
    match nodes.get id with
    | none => none
    | some ⟨.chain o, _⟩ =>
      match f o with
      | .error e => some (.error e)
      | .ok o' => copyChain f nodes ids (t.addToChain o')
    | some _ => some (.error "unsupported operator type")

/-- `graph_converter.go:25-60` `convertGraph`: the graph (whose output may be inferred) and the new one. -/
def convert (jf : JoinOp D → JoinOp D) (f : Op D J → Except Err (Op D J)) (g : IdGraph D J) : Option (IdGraph D J × Except Err (IdGraph D J)) :=
  match g.validate with
  | (g', .error e) => some (g', .error e)
  | (g', .ok ()) =>
    match copyInputs g'.nodes g'.inputs {} with
    | none => none
    | some t =>
      match copyJoin jf g' t with
      | none => none
      | some (.error e) => some (g', .error e)
      | some (.ok t') => (copyChain f g'.nodes g'.chain t').map (fun r => (g', r))

/-- `graph_converter.go:12-14` `ToSnapshotGraph`. -/
def toSnapshot (g : IdGraph D J) : Option (IdGraph D J × Except Err (IdGraph D J)) := g.convert JoinOp.toSnapshot Op.toSnapshot
/-- `graph_converter.go:20-22` `ToIncrementalGraph`. -/
def toIncremental (g : IdGraph D J) : Option (IdGraph D J × Except Err (IdGraph D J)) := g.convert JoinOp.toIncremental Op.toIncremental

end IdGraph
end Dctl
