import Verif.Dbsp.NodeIdExec
/-!
# C113, C114: the operator graph with its node identifiers
-/
set_option autoImplicit false
set_option linter.unusedSectionVars false
namespace Dctl
variable {D J : Type} [DecidableEq D] [DecidableEq J]

/-! ## C113 -/

/-- Whatever is called on a graph in whatever order, no call panics, and the answers are those of a graph without identifiers. -/
theorem C113_refines (cmds : List (GraphCmd D J)) : (IdGraph.execAll ({} : IdGraph D J) cmds).map Prod.snd = some (Graph.execAll {} cmds).2 := by
  obtain ⟨g', e, _⟩ := (IdGraph.rep_empty (D := D) (J := J)).execAll cmds
  rw [e]
  rfl

/-- The graph is consistent after any sequence of calls. -/
theorem C113_consistent {cmds : List (GraphCmd D J)} {g : IdGraph D J} {rs : List (GraphReply D)} (h : IdGraph.execAll {} cmds = some (g, rs)) : g.Consistent := by
  obtain ⟨g', e, hr⟩ := (IdGraph.rep_empty (D := D) (J := J)).execAll cmds
  rw [e] at h
  cases h
  exact hr.consistent

theorem optimizeG_snd_ok {g g' : Graph D J} (h : Rewrite.optimize g = .ok g') : Rewrite.optimizeG g = (g', .ok ()) := by
  rw [Rewrite.optimize_eq] at h
  cases hr : (Rewrite.optimizeG g).2 with
  | error e => rw [hr] at h; cases h
  | ok u =>
    rw [hr] at h
    simp only [Except.map, Except.ok.injEq] at h
    exact Prod.ext h hr

theorem optimizeG_snd_error {g : Graph D J} {e : Err} (h : Rewrite.optimize g = .error e) : (Rewrite.optimizeG g).2 = .error e := by
  rw [Rewrite.optimize_eq] at h
  cases hr : (Rewrite.optimizeG g).2 with
  | error e' => rw [hr] at h; cases h; rfl
  | ok u => rw [hr] at h; cases h

/-- A pipeline that compiles: no call of the compilation fails, and the calls after it are answered as by the graph that `newPipeline` returns. -/
theorem C113_compiled {sources : List String} {cfg : List (PipeOp D J)} {cmds : List (GraphCmd D J)} {g0 : Graph D J} (hc : newCmds sources cfg = .ok cmds)
    (hn : newPipeline sources cfg = .ok g0) (more : List (GraphCmd D J)) :
    (IdGraph.execAll ({} : IdGraph D J) (cmds ++ more)).map Prod.snd = some (List.replicate cmds.length (.ok none) ++ (g0.execAll more).2) := by
  obtain ⟨pre, g, rfl, e1, e2⟩ := newCmds_build hc
  rw [C113_refines, List.append_assoc, Graph.execAll_append, e2]
  unfold newPipeline at hn
  split at hn
  · cases hn
  · rw [e1] at hn
    dsimp only at hn
    cases ho : Rewrite.optimize g with
    | error e => rw [ho] at hn; cases hn
    | ok g' =>
      rw [ho] at hn
      dsimp only at hn
      split at hn
      · cases hn
      · cases hn
        have := optimizeG_snd_ok ho
        simp only [List.singleton_append, Graph.execAll, Graph.exec, this, Except.map, List.length_append, List.length_cons, List.length_nil]
        rw [← List.replicate_append_replicate, List.append_assoc]
        rfl

/-- A pipeline that does not compile although its operations do: the last call of the compilation fails with the error of `newPipeline`. -/
theorem C113_not_compiled {sources : List String} {cfg : List (PipeOp D J)} {cmds : List (GraphCmd D J)} {e : Err} (hc : newCmds sources cfg = .ok cmds)
    (hj : sources.length > 1 → startsWithJoin cfg = true) (hn : newPipeline sources cfg = .error e) :
    (IdGraph.execAll ({} : IdGraph D J) cmds).map Prod.snd = some (List.replicate (cmds.length - 1) (.ok none) ++ [.error e]) := by
  obtain ⟨pre, g, rfl, e1, e2⟩ := newCmds_build hc
  rw [C113_refines, Graph.execAll_append, e2]
  have hr : (Rewrite.optimizeG g).2 = .error e := by
    unfold newPipeline at hn
    rw [if_neg (fun h => by rw [hj h.1] at h; exact absurd h.2 (by simp)), e1] at hn
    dsimp only at hn
    cases ho : Rewrite.optimize g with
    | error e' => rw [ho] at hn; cases hn; exact optimizeG_snd_error ho
    | ok g' =>
      rw [ho] at hn
      have h1 := optimizeG_snd_ok ho
      have h2 := Rewrite.optimizeG_validate g
      rw [h1] at h2
      have h3 := Rewrite.optimizeG_ok (g := g) (by rw [h1])
      dsimp only at hn h2
      rw [h2, h3] at hn
      cases hn
  simp only [Graph.execAll, Graph.exec, hr, Except.map, List.length_append, List.length_cons, List.length_nil, Nat.add_sub_cancel]

/-- A pipeline with an operation that cannot be compiled is rejected before a graph is made of it. -/
theorem C113_rejected {sources : List String} {cfg : List (PipeOp D J)} {e : Err} (hc : newCmds sources cfg = .error e) (hj : sources.length > 1 → startsWithJoin cfg = true) :
    newPipeline sources cfg = .error e := by
  unfold newPipeline
  rw [if_neg (fun h => by rw [hj h.1] at h; exact absurd h.2 (by simp))]
  unfold newCmds at hc
  split at hc
  · rename_i ev rest
    cases hos : rest.mapM PipeOp.toOp with
    | error e' =>
      rw [hos] at hc
      simp only [Except.error.injEq] at hc
      subst hc
      simp only [buildGraph, buildChain_error _ hos]
    | ok os => rw [hos] at hc; cases hc
  · rename_i hl
    cases hos : cfg.mapM PipeOp.toOp with
    | error e' =>
      rw [hos] at hc
      simp only [Except.error.injEq] at hc
      subst hc
      have hb : buildGraph sources cfg = .error e' := by
        unfold buildGraph
        split
        · exact absurd rfl (hl _ _)
        · exact buildChain_error _ hos
      rw [hb]
    | ok os => rw [hos] at hc; cases hc

/-- Selections on numbers: the even ones. -/
def exEven : Ev Nat := fun n => .ok (if n % 2 = 0 then [n] else [])
/-- A projection on numbers: the successor. -/
def exSucc : Ev Nat := fun n => .ok [n + 1]
/-- Calls that build a graph, optimize it with several rules, run it and convert it. -/
def exCmds : List (GraphCmd Nat Unit) :=
  [.input "a", .input "b", .input "a", .join (.snapBin (fun x y => .ok [x + y])), .chain (.select exEven), .chain (.project exSucc), .chain .distinct, .chain .distinct,
   .chain (.project exSucc), .chain (.select exEven), .optimize, .process (fun _ z => z) [("a", [(1, 1)]), ("b", [(3, 1), (4, 1)])],
   .process (fun _ z => z) [("a", [(2, 1)]), ("b", [])], .reset, .snapshot, .incremental]

-- the join was made incremental, the two distincts were lifted, a selection and a projection fused, a projection and a selection fused
example : ((IdGraph.execAll ({} : IdGraph Nat Unit) (exCmds.take 11)).map (fun r => (r.1.inputs, r.1.joinNode, r.1.chain, r.1.output, r.1.nextID))) =
    some (["input_0", "input_1"], "join_2", ["op_3", "op_12", "op_13", "op_14", "op_9", "op_10", "op_11", "op_8"], "op_8", 15) := by decide +kernel
-- the answers: two results, a refused conversion to a snapshot graph (there are integrators now), a conversion
example : ((IdGraph.execAll ({} : IdGraph Nat Unit) exCmds).map (fun r => (r.2.drop 11).map (fun x => (x.toOption.map (fun z => z.getD []) : Option (List (Nat × Int)))))) =
    some [some [(6, 1)], some [(8, 1)], some [], none, some []] := by decide +kernel
-- a pipeline that compiles and one that does not
example : (newPipeline (J := Unit) ["a", "b"] [.join (fun l => .ok [l.headD 0]), .select exEven, .project exSucc]).toOption.isSome = true ∧
    (newPipeline (J := Unit) [] [.select exEven]).toOption.isSome = false := by decide +kernel

/-- `ReplaceInChain` without a new operator on a chain of one leaves the output at a node that is gone; the code never calls it so. -/
theorem C113_replace_by_nothing : ∃ g : IdGraph Nat Unit, g.Consistent ∧ ¬ (g.replaceInChain 0 []).Consistent := by
  refine ⟨(({} : IdGraph Nat Unit).addInput "a").addToChain .distinct, ((IdGraph.rep_empty.addInput "a").addToChain .distinct).consistent, ?_⟩
  intro h
  have h1 := h.output (by decide)
  exact absurd h1 (by decide)

/-! ## C114 -/

/-- `GetNodeResult` of an operator of the chain: the answer is that of the graph that ends there, and the operators up to there have advanced while the others have not. -/
theorem C114_chain_partial {cmds : List (GraphCmd D J)} {g : IdGraph D J} {rs : List (GraphReply D)} (h : IdGraph.execAll {} cmds = some (g, rs)) (hv : (Graph.execAll ({} : Graph D J) cmds).1.inputs ≠ [])
    (σ : Order D) {zs : List (ZSet D)} (hz : zs.length = g.inputs.length) {i : Nat} {id : String} (hid : g.chain[i]? = some id) :
    ∃ g', g.nodeResult σ id (g.inputs.zip zs) =
        some (g', (((Graph.execAll {} cmds).1.upTo (i + 1)).process σ ((Graph.execAll ({} : Graph D J) cmds).1.inputs.zip zs)).2) ∧ g'.Consistent ∧
      ∀ more, (g'.execAll more).map Prod.snd =
        some (((((Graph.execAll {} cmds).1.upTo (i + 1)).process σ ((Graph.execAll ({} : Graph D J) cmds).1.inputs.zip zs)).1.thenRest (Graph.execAll {} cmds).1 (i + 1)).execAll more).2 := by
  obtain ⟨g1, e, hr⟩ := (IdGraph.rep_empty (D := D) (J := J)).execAll cmds
  rw [e] at h
  cases h
  obtain ⟨g', e', hr'⟩ := hr.nodeResultChain hv σ hz hid
  refine ⟨g', e', hr'.consistent, ?_⟩
  intro more
  obtain ⟨g2, e2, _⟩ := hr'.execAll more
  rw [e2]
  rfl

/-- `GetNodeResult` of the join: the answer is that of the graph without a chain, and only the join has advanced. -/
theorem C114_join_partial {cmds : List (GraphCmd D J)} {g : IdGraph D J} {rs : List (GraphReply D)} (h : IdGraph.execAll {} cmds = some (g, rs)) (hj : g.joinNode ≠ "")
    (σ : Order D) {zs : List (ZSet D)} (hz : zs.length = g.inputs.length) :
    ∃ g', g.nodeResult σ g.joinNode (g.inputs.zip zs) =
        some (g', (((Graph.execAll {} cmds).1.upTo 0).process σ ((Graph.execAll ({} : Graph D J) cmds).1.inputs.zip zs)).2) ∧ g'.Consistent ∧
      ∀ more, (g'.execAll more).map Prod.snd =
        some (((((Graph.execAll {} cmds).1.upTo 0).process σ ((Graph.execAll ({} : Graph D J) cmds).1.inputs.zip zs)).1.thenRest (Graph.execAll {} cmds).1 0).execAll more).2 := by
  obtain ⟨g1, e, hr⟩ := (IdGraph.rep_empty (D := D) (J := J)).execAll cmds
  rw [e] at h
  cases h
  obtain ⟨g', e', hr'⟩ := hr.nodeResultJoin hj σ hz
  refine ⟨g', e', hr'.consistent, ?_⟩
  intro more
  obtain ⟨g2, e2, _⟩ := hr'.execAll more
  rw [e2]
  rfl

/-- For an identifier that is neither in the chain nor the join, inputs included, there is an error and nothing changes. -/
theorem C114_unknown (g : IdGraph D J) (σ : Order D) {id : String} (hj : id ≠ g.joinNode) (hc : id ∉ g.chain) (ins : List (String × ZSet D)) :
    ∃ e, g.nodeResult σ id ins = some (g, .error e) := by
  unfold IdGraph.nodeResult
  cases g.nodes.get id with
  | none => exact ⟨_, rfl⟩
  | some n =>
    cases g.inputs.mapM (lookupInput ins) with
    | none => exact ⟨"node not found in chain", by simp only [if_neg (fun h : id = g.joinNode ∨ id ∈ g.chain => h.elim hj hc)]⟩
    | some zs => exact ⟨"node not found in chain", by simp only [if_neg hj, if_neg hc]⟩

/-- Given the inputs by their names, as `Process` takes them, a graph without a join panics. -/
theorem C114_names_panic {cmds : List (GraphCmd D J)} {g : IdGraph D J} {rs : List (GraphReply D)} (h : IdGraph.execAll {} cmds = some (g, rs)) (σ : Order D) {id : String}
    (hc : id ∈ g.chain) (hi : g.inputs ≠ []) {ins : List (String × ZSet D)} (hk : ∀ k ∈ g.inputs, k ∉ ins.map Prod.fst) : g.nodeResult σ id ins = none := by
  obtain ⟨o, l, hn⟩ := (C113_consistent h).chain id hc
  have hm : g.inputs.mapM (lookupInput ins) = none := by
    cases hin : g.inputs with
    | nil => exact absurd hin hi
    | cons x l =>
      have hx : lookupInput ins x = none := by
        have := hk x (by simp [hin])
        simp only [lookupInput, List.lookup_eq_none_iff]
        intro p hp
        simp only [bne_iff_ne, ne_eq]
        intro e
        exact this (List.mem_map.mpr ⟨p, hp, e.symm⟩)
      simp [List.mapM_cons, hx]
  unfold IdGraph.nodeResult
  rw [hn]
  dsimp only
  rw [hm]
  dsimp only
  rw [if_pos (Or.inr hc)]

/-- A chain with an integrator. -/
def exAcc : IdGraph Nat Unit := (({} : IdGraph Nat Unit).addInput "a").addToChain Op.newIntegrator

/-- Asking for a result advances the operators: the same delta processed afterwards is counted twice. -/
theorem C114_not_readonly : ∃ (g g' : IdGraph Nat Unit) (σ : Order Nat) (id : String) (z : ZSet Nat) (r : Except Err (ZSet Nat)), g.nodeResult σ id [("input_0", z)] = some (g', r) ∧
    (g'.process σ [("a", z)]).map (fun r => r.2.toOption) ≠ (g.process σ [("a", z)]).map (fun r => r.2.toOption) := by
  refine ⟨exAcc, _, fun _ z => z, "op_1", [(7, 1)], _, rfl, ?_⟩
  decide

-- the result of the first operator of a chain of two after an optimized join
example : ((IdGraph.execAll ({} : IdGraph Nat Unit) exCmds).bind (fun r => r.1.nodeResult (fun _ z => z) "op_3" (r.1.inputs.zip [[(1, 1)], [(3, 1), (4, 1)]]))).map (fun r => r.2.toOption) =
    some (some [(5, 1)]) := by decide +kernel

end Dctl
