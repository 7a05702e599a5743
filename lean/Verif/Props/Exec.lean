import Verif.Dbsp.SnapLemmas
import Verif.Dbsp.DistinctLemmas
import Verif.Dbsp.LiftLemmas
import Verif.Props.Operators
/-!
# C08, C10–C14: compiled pipelines

`newPipeline sources cfg` compiles and optimises a pipeline, `Graph.process σ g ins` is one executor step
(`σ` is the map iteration order used in this step; every theorem holds for all of them, and they may
change from step to step), `PipelineSpec` (`Verif/Spec/Pipeline.lean`) says what a pipeline computes from complete
inputs.
-/
set_option autoImplicit false
set_option linter.unusedSectionVars false
namespace Dctl
variable {D J : Type} [DecidableEq D] [DecidableEq J]
open ZSet Rewrite

/-! ### C11 -/

/-- C11: for every pipeline, after any history of successfully processed changes (any map iteration orders), the
sum of the emitted changes is the result of the pipeline on the complete current inputs. With a gather stage
the current inputs must be actual collections (no negative multiplicity). -/
theorem C11_incremental_correct {sources : List String} {cfg : List (PipeOp D J)} {g : Graph D J}
    (hnew : newPipeline sources cfg = .ok g)
    {hist : List (Order D × List (String × ZSet D))} {outs : List (ZSet D)}
    (hσ : ∀ e ∈ hist, e.1.Valid) (hi : ∀ e ∈ hist, ∀ p ∈ e.2, WF p.2)
    (hr : (runs (fun g e => Graph.process e.1 g e.2) g hist).2 = outs.map Except.ok)
    {ins : List (ZSet D)} (hins : ColumnSums g.inputs.length (hist.map (fun e => inputRow g.inputs e.2)) ins)
    {o : ZSet D} (ho : SumOf outs o)
    (hpos : (∀ z ∈ ins, NonNeg z) ∨ hasGather cfg = false) : PipelineSpec cfg ins o := by
  have hw : ∀ z ∈ ins, WF z := by
    intro z hz
    obtain ⟨i, hi', rfl⟩ := List.mem_iff_getElem.mp hz
    have := (hins.2 i (by rw [← hins.1]; exact hi')).1
    rwa [getD_of_lt hi'] at this
  exact (pipeline_means hnew hσ hi hr hins ho).spec hw ho.1 hpos

/-- C11: processing never fails when no evaluator fails (projections yielding one document each, as all pipeline
projections do) and every step provides exactly the declared inputs. -/
theorem C11_never_fails {sources : List String} {cfg : List (PipeOp D J)} {g : Graph D J}
    (hnew : newPipeline sources cfg = .ok g) (hs : sources.Nodup) (ht : ∀ p ∈ cfg, p.Total)
    {hist : List (Order D × List (String × ZSet D))}
    (hi : ∀ e ∈ hist, e.2.length = sources.length ∧ ∀ n ∈ sources, ∃ z, e.2.lookup n = some z) :
    ∃ outs : List (ZSet D), (runs (fun g e => Graph.process e.1 g e.2) g hist).2 = outs.map Except.ok := by
  obtain ⟨h1, h2, h3, h4, h5, h6⟩ := newPipeline_facts hnew
  have hin := (newPipeline_inputs hnew).2 hs
  refine runs_total (newPipeline_total hnew ht) ?_ (fun e he => by rw [hin]; exact hi e he)
  cases hl : leadJoin cfg with
  | none => rw [hl] at h3; exact Or.inr ⟨h3, h4⟩
  | some ev =>
    rw [hl] at h3
    refine Or.inl ⟨ev, _, by rw [h3, hin]; rfl, ?_⟩
    unfold leadJoin at hl
    split at hl
    · simp only [Option.some.injEq] at hl
      subst hl
      exact ht (.join _) (by simp)
    · simp at hl

/-- C11: two histories with the same accumulated inputs accumulate the same output (order of changes, batching
and map iteration orders do not matter), if the gather stages are deterministic. -/
theorem C11_history_independent {sources : List String} {cfg : List (PipeOp D J)} {g : Graph D J}
    (hnew : newPipeline sources cfg = .ok g) (hdet : GatherDet cfg)
    {hist hist' : List (Order D × List (String × ZSet D))} {outs outs' : List (ZSet D)}
    (hσ : ∀ e ∈ hist, e.1.Valid) (hi : ∀ e ∈ hist, ∀ p ∈ e.2, WF p.2)
    (hσ' : ∀ e ∈ hist', e.1.Valid) (hi' : ∀ e ∈ hist', ∀ p ∈ e.2, WF p.2)
    (hr : (runs (fun g e => Graph.process e.1 g e.2) g hist).2 = outs.map Except.ok)
    (hr' : (runs (fun g e => Graph.process e.1 g e.2) g hist').2 = outs'.map Except.ok)
    {ins : List (ZSet D)} (hins : ColumnSums g.inputs.length (hist.map (fun e => inputRow g.inputs e.2)) ins)
    (hins' : ColumnSums g.inputs.length (hist'.map (fun e => inputRow g.inputs e.2)) ins)
    {o o' : ZSet D} (ho : SumOf outs o) (ho' : SumOf outs' o')
    (hpos : (∀ z ∈ ins, NonNeg z) ∨ hasGather cfg = false) : o.Perm o' := by
  have hw : ∀ z ∈ ins, WF z := by
    intro z hz
    obtain ⟨i, hi', rfl⟩ := List.mem_iff_getElem.mp hz
    have := (hins.2 i (by rw [← hins.1]; exact hi')).1
    rwa [getD_of_lt hi'] at this
  exact perm_of_eqv ho.1 ho'.1 (pipelineSpec_unique hdet (EqvL.refl hw)
    (C11_incremental_correct hnew hσ hi hr hins ho hpos) (C11_incremental_correct hnew hσ' hi' hr' hins' ho' hpos))

/-- A three-stage pipeline (join, select, project) over two sources, two steps with a retraction. -/
def exCfg : List (PipeOp Nat Nat) :=
  [.join (fun ds => .ok (if ds.sum % 2 = 0 then [ds.sum] else [])), .select (fun x => .ok (if x > 3 then [x] else [])),
   .project (fun x => .ok [x * 10])]

/-- The two-step history. -/
def exHist : List (Order Nat × List (String × ZSet Nat)) :=
  [(fun _ z => z, [("A", [(1, 1), (2, 1)]), ("B", [(3, 1), (4, 1)])]),
   (fun _ z => z.reverse, [("A", [(1, -1)]), ("B", [(6, 1)])])]

/-- The compiled graph of an accepted pipeline (used in examples). -/
def compiled (sources : List String) (cfg : List (PipeOp Nat Nat)) : Graph Nat Nat :=
  match newPipeline sources cfg with
  | .ok g => g
  | .error _ => {}

/-- The compiled join pipeline. -/
def exGraph : Graph Nat Nat := compiled ["A", "B"] exCfg

theorem exGraph_ok : newPipeline ["A", "B"] exCfg = .ok exGraph := rfl

example : ∃ g, newPipeline ["A", "B"] exCfg = .ok g ∧
    (runs (fun g e => Graph.process e.1 g e.2) g exHist).2 =
      [[(40, (1 : Int)), (60, 1)], [(80, 1), (40, -1)]].map Except.ok ∧
    ColumnSums g.inputs.length (exHist.map (fun e => inputRow g.inputs e.2)) [[(2, 1)], [(3, 1), (4, 1), (6, 1)]] ∧
    SumOf [[(40, (1 : Int)), (60, 1)], [(80, 1), (40, -1)]] [(60, 1), (80, 1)] := by
  refine ⟨exGraph, rfl, rfl, ⟨rfl, ?_⟩, by decide, ?_⟩
  · intro i hi
    match i, hi with
    | 0, _ =>
      refine ⟨by decide, fun d => ?_⟩
      simp [show exGraph.inputs = ["A", "B"] from rfl, exHist, inputRow, ZSet.get, List.lookup]
      grind
    | 1, _ =>
      refine ⟨by decide, fun d => ?_⟩
      simp [show exGraph.inputs = ["A", "B"] from rfl, exHist, inputRow, ZSet.get, List.lookup]
      grind
  · intro d
    simp [ZSet.get]
    grind

/-! ### C08 -/

/-- C08: a gather stage maintained incrementally: after any history the accumulated output is a gather of the complete
current collection: one document per group key, collecting exactly the values of the group's live documents. -/
theorem C08_gather_incremental {src : String} {ga : Gather D J} {g : Graph D J}
    (hnew : newPipeline [src] [.gather ga] = .ok g)
    {hist : List (Order D × ZSet D)} {outs : List (ZSet D)}
    (hσ : ∀ e ∈ hist, e.1.Valid) (hi : ∀ e ∈ hist, WF e.2)
    (hr : (runs (fun g e => Graph.process e.1 g [(src, e.2)]) g hist).2 = outs.map Except.ok)
    {z o : ZSet D} (hz : SumOf (hist.map Prod.snd) z) (hpos : NonNeg z) (ho : SumOf outs o) : GatherSpec ga z o := by
  have hin : g.inputs = [src] := (newPipeline_inputs hnew).2 (by simp)
  have hr' : (runs (fun g e => Graph.process e.1 g e.2) g (hist.map (fun e => (e.1, [(src, e.2)])))).2 =
      outs.map Except.ok := by
    rw [← hr]
    clear hr hnew hin hz hi hσ
    induction hist generalizing g with
    | nil => rfl
    | cons e t ih => simp only [List.map_cons, runs, ih]
  have := C11_incremental_correct (cfg := [.gather ga]) hnew (hist := hist.map (fun e => (e.1, [(src, e.2)])))
    (by intro e he; obtain ⟨x, hx, rfl⟩ := List.mem_map.mp he; exact hσ x hx)
    (by
      intro e he p hp
      obtain ⟨x, hx, rfl⟩ := List.mem_map.mp he
      simp only [List.mem_singleton] at hp
      subst hp; exact hi x hx) hr' (ins := [z]) (by
      rw [hin]
      refine ⟨rfl, ?_⟩
      intro i hi'
      match i, hi' with
      | 0, _ =>
        have e : (List.map (fun row : List (ZSet D) => row.getD 0 []) (List.map (fun e : Order D × List (String × ZSet D) => inputRow [src] e.2)
          (hist.map (fun e => (e.1, [(src, e.2)]))))) = hist.map Prod.snd := by
          simp [inputRow, Function.comp_def, List.lookup]
        rw [e]; exact hz) ho (Or.inl (by simpa using hpos))
  obtain ⟨z', hz', hs⟩ := this
  simp only [List.cons.injEq, and_true] at hz'
  subst hz'
  cases hs with
  | cons h1 h2 =>
    cases h2 with
    | nil hw he =>
      obtain ⟨hm, grs, os, a, b, c, d, e⟩ := h1
      exact ⟨hw, grs, os, a, b, c, d, fun x => by rw [← he x]; exact e x⟩

/-- C08: the result of a gather is unique when the value sort depends only on the multiset of values and the aggregate does not
depend on which group member represents the group. -/
theorem C08_gather_unique {g : Gather D J} (hd : g.Det) {z m m' : ZSet D} (hz : WF z)
    (h : GatherSpec g z m) (h' : GatherSpec g z m') : m.Perm m' :=
  perm_of_eqv h.1 h'.1 (gatherSpec_unique hd hz hz (Eqv.refl _) h h')

/-- C08: a gather of a collection with negative multiplicities, in any iteration order: every group of a document in the collection is
aggregated, and a value is there as often as additions and removals leave it, removals of copies that are not there being lost. If
no removal comes too early this is the sum of the multiplicities. -/
theorem C08_retractions {g : Gather D J} {z m : ZSet D} (h : gatherProc g z = .ok m) :
    ∃ (grs : List (Group D J)) (outs : List D), (grs.map Group.key).Nodup ∧
      (∀ k, k ∈ grs.map Group.key ↔ ∃ p ∈ z, InGroup g k p.1) ∧
      (∀ gr ∈ grs, ∀ v, gr.vals.count v = leftOver (changesOf g gr.key v z) ∧
        ((∀ pre, pre <+: changesOf g gr.key v z → 0 ≤ pre.sum) → (gr.vals.count v : Int) = (changesOf g gr.key v z).sum)) ∧
      grs.map (fun gr => g.agg gr.doc gr.key (g.sort gr.vals)) = outs.map Except.ok ∧ ∀ d, get m d = (outs.count d : Int) := by
  unfold gatherProc at h
  split at h
  · simp at h
  · rename_i gs hg
    obtain ⟨h1, h2, h3⟩ := gatherGroups_counts (by simp) hg
    obtain ⟨outs, h4, h5⟩ := gatherAgg_spec (by simp [WF]) h
    refine ⟨gs, outs, h1, by simpa using h2, fun gr hgr v => ?_, h4, by simpa [ZSet.get] using h5⟩
    have hc : gr.vals.count v = leftOver (changesOf g gr.key v z) := by
      rw [h3 gr hgr v]; simp [findG, leftOver]
    exact ⟨hc, fun hp => by rw [hc, leftOver_sum hp]⟩

/-- C08: with negative multiplicities the result depends on the order in which Go iterates over the collection. -/
theorem C08_negative_order :
    ∃ (g : Gather Nat Nat) (z z' : ZSet Nat), z.Perm z' ∧ g.Det ∧
      (gatherProc g z).toOption = some [(0, 1)] ∧ (gatherProc g z').toOption = some [(1, 1)] :=
  ⟨{ key := fun _ => .ok (some 0), val := fun _ => .ok (some 0), agg := fun _ _ vs => .ok vs.length, sort := fun l => List.replicate l.length 0 },
    [(1, 1), (2, -1)], [(2, -1), (1, 1)], by decide, ⟨by
      intro l l' h; simp only [h.length_eq], by intros; rfl⟩, rfl, rfl⟩

/-- Numbers grouped by parity, collected and summed; one number is retracted in the second step. -/
def exGather : Gather Nat Nat :=
  { key := fun x => .ok (some (x % 2)), val := fun x => .ok (some x), agg := fun _ k vs => .ok (100 * k + vs.sum),
    sort := fun l => l }

example : ∃ g, newPipeline ["A"] [.gather exGather] = .ok g ∧
    (runs (fun g e => Graph.process e.1 g [("A", e.2)]) g
      [((fun _ z => z : Order Nat), [(1, 1), (2, 1), (3, 1)]), (fun _ z => z, [(3, -1), (4, 1)])]).2 =
    [[(104, (1 : Int)), (2, 1)], [(101, 1), (6, 1), (104, -1), (2, -1)]].map Except.ok := ⟨_, rfl, rfl⟩

example : changesOf exGather 1 3 [(3, 2), (5, 1), (3, -1)] = [2, -1] ∧ leftOver [2, -1] = 1 ∧
    (gatherProc exGather [(3, 2), (5, 1), (3, -1)]).toOption = some [(108, 1)] := by decide

/-! ### C10 -/

/-- C10: exactly these configurations are accepted: at least one source; with several sources the first
operation is a join; no join elsewhere. In particular no accepted configuration fails because of the
optimizer, whatever its length. -/
theorem C10_accepted_iff {sources : List String} {cfg : List (PipeOp D J)} :
    (∃ g, newPipeline sources cfg = .ok g) ↔
      sources ≠ [] ∧ (1 < sources.length → ∃ ev rest, cfg = .join ev :: rest) ∧
      ∀ ev, PipeOp.join ev ∉ cfg.drop 1 ∧ (PipeOp.join ev ∈ cfg → ∃ ev' rest, cfg = .join ev' :: rest) := by
  rw [newPipeline_ok_iff]
  unfold Accepted
  have e1 : (leadJoin cfg).isSome = true ↔ ∃ ev rest, cfg = .join ev :: rest := by
    unfold leadJoin
    split
    · simp
    · rename_i hne
      simp only [Option.isSome_none, Bool.false_eq_true, false_iff]
      rintro ⟨ev, rest, e⟩; exact hne ev rest e
  have e2 : noJoin (tailStages cfg) = true ↔ ∀ ev, PipeOp.join ev ∉ cfg.drop 1 ∧
      (PipeOp.join ev ∈ cfg → ∃ ev' rest, cfg = .join ev' :: rest) := by
    have nj : ∀ l : List (PipeOp D J), noJoin l = true ↔ ∀ ev, PipeOp.join ev ∉ l := by
      intro l
      unfold noJoin
      rw [List.all_eq_true]
      constructor
      · intro h ev hm; have := h _ hm; simp at this
      · intro h p hp; cases p <;> simp; exact absurd hp (h _)
    rw [nj]
    unfold tailStages
    split
    · rename_i ev rest
      simp
    · rename_i hne
      constructor
      · intro h ev
        exact ⟨fun hm => h ev (List.mem_of_mem_drop hm), fun hm => absurd hm (h ev)⟩
      · intro h ev hm
        obtain ⟨ev', rest, e⟩ := (h ev).2 hm
        exact hne _ _ e
  rw [e2]
  constructor
  · rintro ⟨a, b, c⟩; exact ⟨a, fun h => e1.mp (b h), c⟩
  · rintro ⟨a, b, c⟩; exact ⟨a, fun h => e1.mpr (b h), c⟩

/-- C10: the optimizer never fails on a well-formed pipeline graph, for any number of stages. -/
theorem C10_optimizer_succeeds {sources : List String} {cfg : List (PipeOp D J)} {g0 : Graph D J}
    (hb : buildGraph sources cfg = .ok g0) (hv : g0.validate = .ok ()) : ∃ g, optimize g0 = .ok g := by
  obtain ⟨h1, h2⟩ := buildGraph_refines hb
  have hj : NoJoinRewrite g0 := by
    intro j hj
    rw [h2] at hj
    cases hl : leadJoin cfg with
    | none => rw [hl] at hj; simp at hj
    | some ev => rw [hl] at hj; simp only [Option.map_some, Option.some.injEq] at hj; subst hj; rfl
  have hlp := loop_phase0 hj h1 15
  unfold optimize
  rw [hv]
  obtain ⟨c, hc, _⟩ := hlp
  exact ⟨_, hc⟩

/-- C10: the optimised pipeline, run incrementally over any history, and the pipeline as written, run
once on the complete inputs, both compute the pipeline's meaning, and the same documents if the gather
stages (if any) are deterministic. -/
theorem C10_optimizer_preserves {sources : List String} {cfg : List (PipeOp D J)} {g g0 g0' : Graph D J}
    (hnew : newPipeline sources cfg = .ok g) (hb : buildGraph sources cfg = .ok g0)
    {hist : List (Order D × List (String × ZSet D))} {outs : List (ZSet D)}
    (hσ : ∀ e ∈ hist, e.1.Valid) (hi : ∀ e ∈ hist, ∀ p ∈ e.2, WF p.2)
    (hr : (runs (fun g e => Graph.process e.1 g e.2) g hist).2 = outs.map Except.ok)
    {full : List (String × ZSet D)} (hfw : ∀ p ∈ full, WF p.2)
    (hins : ColumnSums g.inputs.length (hist.map (fun e => inputRow g.inputs e.2)) (inputRow g0.inputs full))
    {o o0 : ZSet D} (ho : SumOf outs o) {σ : Order D} (hσ0 : σ.Valid) (h0 : g0.process σ full = (g0', .ok o0))
    (hpos : (∀ z ∈ inputRow g0.inputs full, NonNeg z) ∨ hasGather cfg = false) :
    PipelineSpec cfg (inputRow g0.inputs full) o ∧ PipelineSpec cfg (inputRow g0.inputs full) o0 ∧
      (GatherDet cfg → o.Perm o0) := by
  have hs1 := C11_incremental_correct hnew hσ hi hr hins ho hpos
  obtain ⟨h1, h2⟩ := buildGraph_refines hb
  obtain ⟨f1, f2, f3, f4, f5, f6⟩ := newPipeline_facts hnew
  obtain ⟨g1, p1, p2⟩ := newPipeline_parts hnew
  rw [hb] at p1
  simp only [Except.ok.injEq] at p1
  subst p1
  have hin : g.inputs = g0.inputs :=
    optimize_pres (P := fun g => g.inputs = g0.inputs) (fun r hr g hg => (rules_inputs r hr g).trans hg) p2 rfl
  obtain ⟨k1, k2⟩ := oneShot_means (cfg := cfg) hσ0 hfw h1 (by
    cases hl : leadJoin cfg with
    | none =>
      rw [hl] at h2 f5
      exact ⟨h2, by rw [← hin]; exact f5 rfl⟩
    | some ev =>
      rw [hl] at h2
      exact ⟨sources.length, f6, Or.inl h2⟩) h0
  have hw := inputRow_wf (names := g0.inputs) hfw
  have hs0 := k2.spec hw k1 hpos
  exact ⟨hs1, hs0, fun hd => perm_of_eqv ho.1 k1 (pipelineSpec_unique hd (EqvL.refl hw) hs1 hs0)⟩

/-- C10: dropping repeated distinct operators (rule 4), in any chain of operators in any state: the shortened chain gives the same results
over any history. -/
theorem C10_distinct_rule (c : List (Node D J)) (hc : ∀ nd ∈ c, nd.op.StateWF) (hist : List (ZSet D)) (hh : ∀ z ∈ hist, WF z) :
    (runs (runChain (fun _ z => z) 1) (elimDD c) hist).2 = (runs (runChain (fun _ z => z) 1) c hist).2 := by
  have step : ∀ (c : List (Node D J)) (_ : ∀ nd ∈ c, nd.op.StateWF) (i j : Nat) (z : ZSet D) (_ : WF z), runChain (fun _ z => z) i (elimDD c) z =
      (elimDD (runChain (fun _ z => z) j c z).1, (runChain (fun _ z => z) j c z).2) := by
    intro c
    fun_induction elimDD c with
    | case1 l l' t ih =>
      intro hc i j z hz
      have hd := (Op.proc_wf (o := (.distinct : Op D J)) trivial hz).2 _ rfl
      rw [runChain_cons, runChain_cons]
      simp only [Op.proc]
      rw [runChain_cons]
      simp only [Op.proc, distinct_distinct hz]
      rw [ih (fun x hx => hc x (by simp [hx])) (i + 1) (j + 1 + 1) _ hd]
      rfl
    | case2 nd t hne ih =>
      intro hc i j z hz
      have h : nd.op ≠ .distinct ∨ t.head?.map Node.op ≠ some .distinct := by
        by_cases e : nd.op = .distinct
        · right
          cases t with
          | nil => simp
          | cons b t =>
            intro e'
            simp at e'
            exact hne nd.lifted b.lifted t (by cases nd; simp_all) (by cases b; simp_all)
        · exact .inl e
      rw [runChain_cons, runChain_cons]
      have hd := Op.proc_distinct nd.op z
      have hw := Op.proc_wf (hc nd (by simp)) hz
      cases hp : nd.op.proc z with
      | mk o' r =>
        rw [hp] at hd hw
        cases r with
        | error e =>
          simp only
          rw [elimDD_cons (nd := { nd with op := o' })]
          rcases h with h | h
          · exact .inl (fun x => h (hd.mp x))
          · exact .inr h
        | ok r =>
          simp only
          rw [ih (fun x hx => hc x (by simp [hx])) (i + 1) (j + 1) r (hw.2 r rfl), elimDD_cons (nd := { nd with op := o' })]
          rcases h with h | h
          · exact .inl (fun x => h (hd.mp x))
          · exact .inr (fun x => h ((runChain_head _ _ _ _).mp x))
    | case3 => intro _ i j z _; rfl
  induction hist generalizing c with
  | nil => rfl
  | cons z t ih =>
    simp only [runs]
    rw [step c hc 1 1 z (hh z (by simp))]
    rw [ih _ (runChain_wf hc (hh z (by simp))) (fun z hz => hh z (List.mem_cons_of_mem _ hz))]

/-- A chain with a repeated distinct and a state. -/
def exDistinct : List (Node Nat Nat) := [⟨.distinct, false⟩, ⟨.distinct, true⟩, ⟨.integ [(1, 1)], false⟩]

example : (elimDD exDistinct).length = 2 ∧ (runs (runChain (fun _ z => z) 1) exDistinct [[(1, 3), (2, -1)], [(2, 5)]]).2.map Except.toOption =
      [some [(1, (2 : Int))], some [(1, 2), (2, 1)]] := by decide

/-- C10: lifting the non-linear operators (rule 2), in any chain of operators without memory — gather and distinct, and any linear ones: the outputs of the lifted chain
over any history of changes, in any order of iteration, add up to what the chain as written gives on the complete input. -/
theorem C10_lift_rule (c : List (Node D J)) (hc : ∀ nd ∈ c, nd.op.stateless = true ∧ nd.lifted = false) (hist : List (Order D × ZSet D))
    (hh : ∀ e ∈ hist, e.1.Valid ∧ WF e.2) (outs : List (ZSet D)) (h : (runs (fun c e => runChain e.1 1 c e.2) (lift c) hist).2 = outs.map Except.ok)
    (z : ZSet D) (hz : SumOf (hist.map Prod.snd) z) (o : ZSet D) (ho : SumOf outs o) : ∃ m, Once (c.map Node.op) z m ∧ m.Perm o := by
  obtain ⟨nds', z', o', h1, h2, h3, h4⟩ := LiftInv.runs WF.nil (LiftInv.start c hc) hist hh outs h
  obtain ⟨m, h5, h6⟩ := h2.once hz.1 (w := z) (fun d => by rw [hz.2, h3]; simp [ZSet.get, Function.comp_def])
  exact ⟨m, h5, h6.trans (perm_of_eqv h2.wf_out ho.1 (fun d => by rw [h4, ho.2]; simp [ZSet.get]))⟩

/-- The changes of a lifted distinct operator: a second copy changes nothing, and the document goes with its last copy. -/
example : (runs (fun c (e : Order Nat × ZSet Nat) => runChain e.1 1 c e.2) (lift [(⟨.distinct, false⟩ : Node Nat Nat), ⟨.project (fun n => .ok [n + 1]), false⟩])
      [((fun _ z => z), [(1, 1)]), ((fun _ z => z), [(1, 1)]), ((fun _ z => z), [(1, -2), (2, 3)])]).2.map Except.toOption =
    [some [(2, 1)], some [], some [(3, 1), (2, -1)]] := by decide

/-- C10: making a join incremental (rule 1, tried first), in any graph with a snapshot join: the join of the rewritten graph, run over any history of changes, gives in sum
what the join as written gives on the complete inputs. -/
theorem C10_join_rule (g : Graph D J) (ev : JEv D) (n : Nat) (hn : 0 < n) (hj : g.join = some (.snap ev n)) :
    ∃ (g' : Graph D J) (j' : JoinOp D), Rewrite.step rules g = some g' ∧ g'.inputs = g.inputs ∧ g'.chain = g.chain ∧ g'.join = some j' ∧
      ∀ (hist : List (List (ZSet D))) (outs : List (ZSet D)), (∀ row ∈ hist, ∀ z ∈ row, WF z) → (runs JoinOp.proc j' hist).2 = outs.map Except.ok →
        ∀ ins, ColumnSums n hist ins → ∀ o, SumOf outs o → ∃ m, ((JoinOp.snap ev n).proc ins).2 = .ok m ∧ m.Perm o := by
  refine ⟨{ g with join := some (JoinOp.newIncremental ev n) }, JoinOp.newIncremental ev n, ?_, rfl, rfl, rfl, ?_⟩
  · simp [Rewrite.step, rules, joinRule, hj, JoinOp.incrementalize]
  · intro hist outs hw h ins hins o ho
    obtain ⟨-, m, hm, hp⟩ := C05_incremental_join hn hw h hins ho
    exact ⟨m, by rw [hm], hp⟩

/-- C10: the same for the binary join. -/
theorem C10_binary_join_rule (g : Graph D J) (ev : D → D → Except Err (List D)) (hj : g.join = some (.snapBin ev)) :
    ∃ (g' : Graph D J) (j' : JoinOp D), Rewrite.step rules g = some g' ∧ g'.inputs = g.inputs ∧ g'.chain = g.chain ∧ g'.join = some j' ∧
      ∀ (hist : List (ZSet D × ZSet D)) (outs : List (ZSet D)), (∀ p ∈ hist, WF p.1 ∧ WF p.2) → (runs JoinOp.proc j' (hist.map (fun p => [p.1, p.2]))).2 = outs.map Except.ok →
        ∀ l r o, SumOf (hist.map Prod.fst) l → SumOf (hist.map Prod.snd) r → SumOf outs o → ∃ m, ((JoinOp.snapBin ev).proc [l, r]).2 = .ok m ∧ m.Perm o := by
  refine ⟨{ g with join := some (JoinOp.newIncrementalBinary ev) }, JoinOp.newIncrementalBinary ev, ?_, rfl, rfl, rfl, ?_⟩
  · simp [Rewrite.step, rules, joinRule, hj, JoinOp.incrementalize]
  · intro hist outs hw h l r o hl hr ho
    obtain ⟨-, m, hm, hp⟩ := C06_incremental_binary_join hw h hl hr ho
    exact ⟨m, by rw [hm], hp⟩

example : ({ inputs := ["A", "B"], join := some (.snap (fun ds => .ok [ds.sum]) 2), chain := [] } : Graph Nat Nat).join = some (.snap (fun ds => .ok [ds.sum]) 2) := rfl

/-- C10: the iteration limit of the optimizer does matter for hand-built graphs: a valid graph with 20 nested
`I … D` pairs is rejected. Such graphs are never produced from a pipeline specification. -/
theorem C10_limit_reachable_by_hand :
    ∃ g : Graph Nat Nat, g.validate = .ok () ∧ ∃ e, optimize g = .error e :=
  ⟨{ inputs := ["A"], chain := List.replicate 20 ⟨Op.newIntegrator, false⟩ ++ List.replicate 20 ⟨Op.newDifferentiator, false⟩ },
    rfl, _, rfl⟩

example : ∃ g g0, newPipeline ["A", "B"] exCfg = .ok g ∧ buildGraph ["A", "B"] exCfg = .ok g0 ∧
    g.chain.length = 1 ∧ g0.chain.length = 2 ∧
    (g0.process (fun _ z => z) [("A", [(2, 1)]), ("B", [(3, 1), (4, 1), (6, 1)])]).2 = .ok [(60, 1), (80, 1)] :=
  ⟨exGraph, _, rfl, rfl, rfl, rfl, rfl⟩

/-! ### C12 -/

/-- C12: a wrong number of inputs or a missing declared input is an error and leaves the whole executor state
untouched. -/
theorem C12_bad_inputs_rejected {g : Graph D J} {σ : Order D} {ins : List (String × ZSet D)}
    (h : ins.length ≠ g.inputs.length ∨ ∃ n ∈ g.inputs, ins.lookup n = none) :
    ∃ e, g.process σ ins = (g, .error e) := by
  obtain ⟨e, he⟩ := collectInputs_err h
  exact ⟨e, by simp [Graph.process, he]⟩

/-- C12 (part): exactly the declared inputs are never rejected: in a pipeline with distinct source kinds whose
evaluators do not fail, a step with exactly the declared inputs succeeds. Missing: two sources of the same
kind, see `C12_same_kind_rejected`. -/
theorem C12_exact_inputs_accepted_partial {sources : List String} {cfg : List (PipeOp D J)} {g : Graph D J}
    (hnew : newPipeline sources cfg = .ok g) (hs : sources.Nodup) (ht : ∀ p ∈ cfg, p.Total)
    {hist : List (Order D × List (String × ZSet D))}
    (hi : ∀ e ∈ hist, e.2.length = sources.length ∧ ∀ n ∈ sources, ∃ z, e.2.lookup n = some z)
    {σ : Order D} {ins : List (String × ZSet D)} (hl : ins.length = sources.length)
    (hall : ∀ n ∈ sources, ∃ z, ins.lookup n = some z) :
    ∃ r, ((runs (fun g e => Graph.process e.1 g e.2) g hist).1.process σ ins).2 = .ok r := by
  obtain ⟨outs, ho⟩ := C11_never_fails hnew hs ht (hist := hist ++ [(σ, ins)]) (by
    intro e he
    rcases List.mem_append.mp he with he | he
    · exact hi e he
    · simp only [List.mem_singleton] at he; subst he; exact ⟨hl, hall⟩)
  have snoc : ∀ (g : Graph D J) (h : List (Order D × List (String × ZSet D))) (e : Order D × List (String × ZSet D)),
      (runs (fun g e => Graph.process e.1 g e.2) g (h ++ [e])).2 =
      (runs (fun g e => Graph.process e.1 g e.2) g h).2 ++
        [(Graph.process e.1 (runs (fun g e => Graph.process e.1 g e.2) g h).1 e.2).2] := by
    intro g h e
    induction h generalizing g with
    | nil => rfl
    | cons a t ih => simp only [List.cons_append, runs, ih]
  rw [snoc] at ho
  have hm : (Graph.process σ (runs (fun g e => Graph.process e.1 g e.2) g hist).1 ins).2 ∈ outs.map Except.ok := by
    rw [← ho]; simp
  obtain ⟨r, _, hr⟩ := List.mem_map.mp hm
  exact ⟨r, hr.symm⟩

/-- C12: a controller with two sources of the same kind (say two API groups) compiles, but its executor then
rejects exactly the declared inputs: the join expects two inputs, the graph declares one. -/
theorem C12_same_kind_rejected :
    ∃ g, newPipeline ["Pod", "Pod"] [(.join (fun ds => .ok ds) : PipeOp Nat Nat)] = .ok g ∧ g.inputs = ["Pod"] ∧
      ∃ e, (g.process (fun _ z => z) [("Pod", [(1, 1)])]).2 = .error e :=
  ⟨_, rfl, rfl, _, rfl⟩

example : ∃ g, newPipeline ["A", "B"] exCfg = .ok g ∧
    (∃ e, g.process (fun _ z => z) [("A", [(1, 1)])] = (g, .error e)) ∧
    ∃ e, g.process (fun _ z => z) [("A", [(1, 1)]), ("C", [])] = (g, .error e) :=
  ⟨exGraph, rfl, C12_bad_inputs_rejected (Or.inl (by decide)), C12_bad_inputs_rejected (Or.inr ⟨"B", by decide, rfl⟩)⟩

/-! ### C13 -/

/-- A graph in its initial state: all operators as their constructors leave them. -/
def Graph.Initial (g : Graph D J) : Prop :=
  (∀ nd ∈ g.chain, ∀ s, (nd.op = .integ s ∨ nd.op = .diff s ∨ nd.op = .delay s) → s = []) ∧
  (∀ ev ps, g.join = some (.incrBin ev ps) → ps = ([], [])) ∧
  (∀ ev n ps, g.join = some (.incr ev n ps) → ps = List.replicate n [])

/-- C13 (part): for executors whose join, if any, is not the n-ary incremental one, Reset after any history
(including failed steps) restores exactly the initial executor, so everything it does afterwards is what a
fresh one does. Missing: the n-ary incremental join, see `C13_reset_keeps_join_state`. -/
theorem C13_reset_partial {g : Graph D J} (hinit : g.Initial) (hj : ∀ ev n ps, g.join ≠ some (.incr ev n ps))
    (hist : List (Order D × List (String × ZSet D))) :
    (runs (fun g e => Graph.process e.1 g e.2) g hist).1.reset = g := by
  rw [runs_reset hj]
  obtain ⟨h1, h2, _⟩ := hinit
  obtain ⟨ins, join, chain⟩ := g
  unfold Graph.reset
  have hc : chain.map (fun nd => ({ nd with op := nd.op.reset } : Node D J)) = chain := by
    refine (List.map_congr_left (g := id) ?_).trans (List.map_id _)
    intro nd hnd
    obtain ⟨o, l⟩ := nd
    have := h1 _ hnd
    cases o <;> simp_all [Op.reset]
  have hjn : join.map JoinOp.reset = join := by
    cases join with
    | none => rfl
    | some j =>
      cases j with
      | incrBin ev ps =>
        have := h2 ev ps rfl
        subst this; rfl
      | _ => rfl
  simp only [hc, hjn]

/-- C13 fails for joins: after Reset, the executor of a two-source pipeline still remembers the earlier inputs, and
answers differently from a fresh one. -/
theorem C13_reset_keeps_join_state :
    ∃ (g : Graph Nat Nat) (hist : List (Order Nat × List (String × ZSet Nat))) (ins : List (String × ZSet Nat)),
      newPipeline ["A", "B"] exCfg = .ok g ∧
      ((runs (fun g e => Graph.process e.1 g e.2) g hist).1.reset.process (fun _ z => z) ins).2 = .ok [(40, 1)] ∧
      (g.process (fun _ z => z) ins).2 = .ok [] :=
  ⟨exGraph, [(fun _ z => z, [("A", [(1, 1)]), ("B", [])])], [("A", []), ("B", [(3, 1)])], exGraph_ok, rfl, rfl⟩

example : ∃ g, newPipeline ["A"] [.gather exGather] = .ok g ∧ g.Initial ∧
    (runs (fun g e => Graph.process e.1 g e.2) g [((fun _ z => z : Order Nat), [("A", [(1, 1)])])]).1.reset = g := by
  refine ⟨compiled ["A"] [.gather exGather], rfl, ?_, rfl⟩
  have hj : (compiled ["A"] [.gather exGather]).join = none := rfl
  have hc : (compiled ["A"] [.gather exGather]).chain =
    [⟨.integ [], false⟩, ⟨.gather exGather, true⟩, ⟨.diff [], false⟩] := rfl
  refine ⟨?_, by simp [hj], by simp [hj]⟩
  intro nd hnd s hs
  rw [hc] at hnd
  simp at hnd
  rcases hnd with rfl | rfl | rfl <;> simp_all

/-! ### C14 -/

/-- C14 (part): a state-of-the-world executor can be created for a compiled pipeline — at any moment of its life —
exactly if the pipeline has no gather and no unwind stage. Missing: pipelines with gather or unwind, for which
creation fails, see `C14_gather_has_no_snapshot` and `C14_unwind_has_no_snapshot`. -/
theorem C14_snapshot_exists_partial {sources : List String} {cfg : List (PipeOp D J)} {g : Graph D J}
    (hnew : newPipeline sources cfg = .ok g) (hist : List (Order D × List (String × ZSet D))) :
    (∃ s, (runs (fun g e => Graph.process e.1 g e.2) g hist).1.toSnapshot = .ok s) ↔
      (∀ ex tr, PipeOp.unwind ex tr ∉ cfg) ∧ ∀ ga, PipeOp.gather ga ∉ cfg := by
  rw [toSnapshot_runs, ← tail_selProj_iff hnew]
  obtain ⟨h1, h2⟩ := toSnapshot_spec hnew
  cases hs : (tailStages cfg).all PipeOp.isSelProj with
  | true =>
    obtain ⟨s, hs', _⟩ := h1 hs
    simp only [iff_true]; exact ⟨s, hs'⟩
  | false =>
    obtain ⟨e, he⟩ := h2 hs
    rw [he]; simp

/-- C14: the state-of-the-world executor is stateless and computes the pipeline's meaning from the inputs it is
given. -/
theorem C14_snapshot_correct_partial {sources : List String} {cfg : List (PipeOp D J)} {g s s' : Graph D J}
    (hnew : newPipeline sources cfg = .ok g) (hist : List (Order D × List (String × ZSet D)))
    (hs : (runs (fun g e => Graph.process e.1 g e.2) g hist).1.toSnapshot = .ok s)
    {σ : Order D} (hσ : σ.Valid) {ins : List (String × ZSet D)} (hi : ∀ p ∈ ins, WF p.2) {o : ZSet D}
    (h : s.process σ ins = (s', .ok o)) : s' = s ∧ s.inputs = g.inputs ∧ PipelineSpec cfg (inputRow g.inputs ins) o := by
  obtain ⟨h1, h2⟩ := toSnapshot_spec hnew
  rw [toSnapshot_runs] at hs
  have hsp : (tailStages cfg).all PipeOp.isSelProj = true := by
    cases hh : (tailStages cfg).all PipeOp.isSelProj with
    | true => rfl
    | false => obtain ⟨e, he⟩ := h2 hh; rw [he] at hs; simp at hs
  obtain ⟨s1, hs1, hin, href, hjn⟩ := h1 hsp
  rw [hs] at hs1
  simp only [Except.ok.injEq] at hs1
  subst hs1
  obtain ⟨f1, f2, f3, f4, f5, f6⟩ := newPipeline_facts hnew
  have hst := process_stateless (s := s) (href.lin_of_selProj hsp) (by
    intro j hj
    rw [hjn] at hj
    cases hl : leadJoin cfg with
    | none => rw [hl] at hj; simp at hj
    | some ev => rw [hl] at hj; simp at hj; exact ⟨ev, _, hj.symm⟩) σ ins
  rw [h] at hst
  obtain ⟨k1, k2⟩ := oneShot_means (cfg := cfg) hσ hi href (by
    cases hl : leadJoin cfg with
    | none =>
      rw [hl] at hjn f5
      exact ⟨hjn, by rw [hin]; exact f5 rfl⟩
    | some ev =>
      rw [hl] at hjn
      exact ⟨sources.length, f6, Or.inr hjn⟩) h
  rw [hin] at k2
  have hng : hasGather cfg = false := by
    have := ((tail_selProj_iff hnew).mp hsp).2
    unfold hasGather
    rw [List.any_eq_false]
    intro p hp
    cases p <;> simp
    exact absurd hp (this _)
  exact ⟨hst, hin, k2.spec (inputRow_wf hi) k1 (Or.inr hng)⟩

/-- C14 fails for gather: the pipeline compiles, but no state-of-the-world executor can be created. -/
theorem C14_gather_has_no_snapshot :
    ∃ g, newPipeline ["A"] [.gather exGather] = .ok g ∧ ∃ e, g.toSnapshot = .error e := ⟨_, rfl, _, rfl⟩

/-- C14 fails for unwind in the same way. -/
theorem C14_unwind_has_no_snapshot :
    ∃ g, newPipeline ["A"] [(.unwind (fun n => .ok (some [n])) (fun _ m => .ok m) : PipeOp Nat Nat)] = .ok g ∧
      ∃ e, g.toSnapshot = .error e := ⟨_, rfl, _, rfl⟩

example : ∃ g s, newPipeline ["A", "B"] exCfg = .ok g ∧ g.toSnapshot = .ok s ∧
    (s.process (fun _ z => z) [("A", [(2, 1)]), ("B", [(3, 1), (4, 1), (6, 1)])]).2 = .ok [(60, 1), (80, 1)] :=
  ⟨exGraph, _, rfl, rfl, rfl⟩

/-- C14: converting the state-of-the-world executor back (`ToIncrementalGraph`) gives a pipeline that answers every history of changes exactly as the compiled pipeline
did when it was new — nothing of the state of the pipeline it was made from is left. -/
theorem C14_back {sources : List String} {cfg : List (PipeOp D J)} {g s : Graph D J} (hnew : newPipeline sources cfg = .ok g)
    (past : List (Order D × List (String × ZSet D))) (hs : (runs (fun g e => Graph.process e.1 g e.2) g past).1.toSnapshot = .ok s) :
    ∃ i, s.toIncremental = .ok i ∧ ∀ hist : List (Order D × List (String × ZSet D)), (runs (fun g e => Graph.process e.1 g e.2) i hist).2 = (runs (fun g e => Graph.process e.1 g e.2) g hist).2 := by
  rw [toSnapshot_runs] at hs
  obtain ⟨_, _, h3, h4, h5, _⟩ := newPipeline_facts hnew
  have hv := newPipeline_validate hnew
  obtain ⟨hn, _⟩ := newPipeline_inputs hnew
  unfold Graph.toSnapshot Graph.convert at hs
  rw [hv] at hs
  simp only at hs
  split at hs
  · simp at hs
  · rename_i c hc
    simp only [Except.ok.injEq] at hs
    rw [dedup_nodup (by simpa using hn), List.nil_append] at hs
    subst hs
    obtain ⟨-, c'', hc2, hc3⟩ := convertChain_ops hc
    have hv' : (Graph.validate { inputs := g.inputs, join := g.join.map JoinOp.toSnapshot, chain := c } : Except Err Unit) = .ok () := by
      rw [← hv]; simp [Graph.validate]
    refine ⟨{ inputs := g.inputs, join := g.join, chain := c'' }, ?_, fun hist => runs_marks _ _ hist rfl rfl hc3⟩
    unfold Graph.toIncremental Graph.convert
    rw [hv']
    simp only
    rw [hc2]
    simp only
    rw [dedup_nodup (by simpa using hn), List.nil_append, h3]
    cases leadJoin cfg <;> rfl

/-- C14: `ToIncrementalGraph` on a graph with a binary join: the join of the new graph, run over any history of changes, gives in sum what the join as written gives on the
complete inputs. -/
theorem C14_back_binary (g g' : Graph D J) (ev : D → D → Except Err (List D)) (hj : g.join = some (.snapBin ev)) (hg : g.toIncremental = .ok g') :
    ∃ j', g'.join = some j' ∧ ∀ (hist : List (ZSet D × ZSet D)) (outs : List (ZSet D)), (∀ p ∈ hist, WF p.1 ∧ WF p.2) →
      (runs JoinOp.proc j' (hist.map (fun p => [p.1, p.2]))).2 = outs.map Except.ok →
        ∀ l r o, SumOf (hist.map Prod.fst) l → SumOf (hist.map Prod.snd) r → SumOf outs o → ∃ m, ((JoinOp.snapBin ev).proc [l, r]).2 = .ok m ∧ m.Perm o := by
  unfold Graph.toIncremental Graph.convert at hg
  split at hg
  · simp at hg
  · split at hg
    · simp at hg
    · simp only [Except.ok.injEq] at hg
      subst hg
      refine ⟨JoinOp.newIncrementalBinary ev, by simp [hj, JoinOp.toIncremental], ?_⟩
      intro hist outs hw h l r o hl hr ho
      obtain ⟨-, m, hm, hp⟩ := C06_incremental_binary_join hw h hl hr ho
      exact ⟨m, by rw [hm], hp⟩

example : ∃ g s i, newPipeline ["A", "B"] exCfg = .ok g ∧ g.toSnapshot = .ok s ∧ s.toIncremental = .ok i ∧
    (runs (fun g e => Graph.process e.1 g e.2) i [((fun _ z => z), [("A", [(2, 1)]), ("B", [(3, 1), (4, 1), (6, 1)])])]).2 = [.ok [(60, 1), (80, 1)]] :=
  ⟨exGraph, _, _, rfl, rfl, rfl, rfl⟩

example : ∃ g', Graph.toIncremental ({ inputs := ["A", "B"], join := some (.snapBin fun a b => .ok [a + b]), chain := [⟨.distinct, false⟩] } : Graph Nat Nat) = .ok g' := ⟨_, rfl⟩

end Dctl
