import Verif.Dbsp.SpecLemmas
/-! The optimizer on compiled pipelines, and the invariant of a running pipeline (helper lemmas). -/
set_option autoImplicit false
set_option linter.unusedSectionVars false
namespace Dctl
variable {D J : Type} [DecidableEq D] [DecidableEq J]
open ZSet Rewrite

/-- The join part needs no rewriting. -/
def NoJoinRewrite (g : Graph D J) : Prop := ∀ j, g.join = some j → j.incrementalize = none

theorem step_refined {g : Graph D J} {st : List (PipeOp D J)} (hj : NoJoinRewrite g) (h : Refines g.chain st) :
    Rewrite.step rules g =
      if liftCan g.chain then some { g with chain := Rewrite.lift g.chain }
      else if hasSP g.chain || hasPP g.chain then some { g with chain := Rewrite.fuseSP g.chain }
      else if hasPS g.chain then some { g with chain := Rewrite.fusePS g.chain }
      else none := by
  obtain ⟨h1, h2⟩ := h.hasID
  have hj' : (joinRule : Rule D J).canApply g = false := by
    simp only [joinRule]
    split
    · rename_i j hg; rw [hj j hg]; rfl
    · rfl
  simp only [rules, Rewrite.step, hj', liftRule, chainIncRule, idRule, ddRule, fuseRule, h1, h2]
  by_cases hl : liftCan g.chain = true
  · simp [hl]
  · by_cases hs : (hasSP g.chain || hasPP g.chain) = true
    · simp [hl, hs]
    · by_cases hq : hasPS g.chain = true <;> simp [hl, hs, hq]

/-- Result of the fixpoint loop. -/
def LoopOk (g : Graph D J) (st : List (PipeOp D J)) (r : Except Err (Graph D J)) : Prop :=
  ∃ c, r = .ok { g with chain := c } ∧ Refines c st ∧ liftCan c = false

theorem loop_phase3 {g : Graph D J} {st : List (PipeOp D J)} (hj : NoJoinRewrite g) (h : Refines g.chain st)
    (h1 : liftCan g.chain = false) (h2 : hasSP g.chain = false) (h3 : hasPP g.chain = false)
    (h4 : hasPS g.chain = false) (n : Nat) : LoopOk g st (loop rules (n + 2) g) := by
  rw [loop, step_refined hj h]
  simp [h1, h2, h3, h4]
  exact ⟨g.chain, rfl, h, h1⟩

theorem loop_phase2 {g : Graph D J} {st : List (PipeOp D J)} (hj : NoJoinRewrite g) (h : Refines g.chain st)
    (h1 : liftCan g.chain = false) (h2 : hasSP g.chain = false) (h3 : hasPP g.chain = false) (n : Nat) :
    LoopOk g st (loop rules (n + 3) g) := by
  cases h4 : hasPS g.chain with
  | false => exact loop_phase3 hj h h1 h2 h3 h4 (n + 1)
  | true =>
    rw [loop, step_refined hj h]
    simp only [h1, h2, h3, h4]
    obtain ⟨a, b, c⟩ := fusePS_done h2 h3
    exact loop_phase3 (g := { g with chain := Rewrite.fusePS g.chain }) hj h.fusePS (liftCan_fusePS h1) a b c n

theorem loop_phase1 {g : Graph D J} {st : List (PipeOp D J)} (hj : NoJoinRewrite g) (h : Refines g.chain st)
    (h1 : liftCan g.chain = false) (n : Nat) : LoopOk g st (loop rules (n + 4) g) := by
  cases h2 : hasSP g.chain || hasPP g.chain with
  | false =>
    simp only [Bool.or_eq_false_iff] at h2
    exact loop_phase2 hj h h1 h2.1 h2.2 (n + 1)
  | true =>
    rw [loop, step_refined hj h]
    simp only [h1, h2]
    obtain ⟨a, b⟩ := fuseSP_done g.chain
    exact loop_phase2 (g := { g with chain := Rewrite.fuseSP g.chain }) hj h.fuseSP (liftCan_fuseSP h1) a b n

theorem loop_phase0 {g : Graph D J} {st : List (PipeOp D J)} (hj : NoJoinRewrite g) (h : Refines g.chain st)
    (n : Nat) : LoopOk g st (loop rules (n + 5) g) := by
  cases h1 : liftCan g.chain with
  | false => exact loop_phase1 hj h h1 (n + 1)
  | true =>
    rw [loop, step_refined hj h]
    simp only [h1]
    exact loop_phase1 (g := { g with chain := Rewrite.lift g.chain }) hj h.lift (liftCan_lift _) n

/-- No join among the stages. -/
def noJoin (st : List (PipeOp D J)) : Bool := st.all (fun p => match p with | .join _ => false | _ => true)

theorem Refines.snoc {c : List (Node D J)} {st : List (PipeOp D J)} (h : Refines c st) {p : PipeOp D J}
    {o : Op D J} (hp : p.toOp = .ok o) : Refines (c ++ [⟨o, false⟩]) (st ++ [p]) := by
  have hbase : Refines [⟨o, false⟩] [p] := by
    cases p with
    | join ev => simp [PipeOp.toOp] at hp
    | select ev =>
      simp only [PipeOp.toOp, Except.ok.injEq] at hp; subst hp
      exact Refines.lin (ss := [_]) (st := []) rfl (Fuses.self rfl) rfl .nil
    | project ev =>
      simp only [PipeOp.toOp, Except.ok.injEq] at hp; subst hp
      exact Refines.lin (ss := [_]) (st := []) rfl (Fuses.self rfl) rfl .nil
    | unwind ex tr =>
      simp only [PipeOp.toOp, Except.ok.injEq] at hp; subst hp
      exact Refines.lin (ss := [_]) (st := []) rfl (Fuses.self rfl) rfl .nil
    | gather g =>
      simp only [PipeOp.toOp, Except.ok.injEq] at hp; subst hp
      exact .raw .nil
  induction h with
  | nil => exact hbase
  | lin a b c _ ih => exact (Refines.lin a b c ih).of_eq (List.append_assoc ..).symm
  | triple _ ih => exact .triple ih
  | raw _ ih => exact .raw ih

theorem buildChain_ok {g : Graph D J} {st ps : List (PipeOp D J)} (h : Refines g.chain st)
    (hn : noJoin ps = true) : ∃ c, buildChain g ps = .ok { g with chain := c } ∧ Refines c (st ++ ps) := by
  induction ps generalizing g st with
  | nil => exact ⟨g.chain, rfl, by simpa using h⟩
  | cons p ps ih =>
    simp only [noJoin, List.all_cons, Bool.and_eq_true] at hn
    have : ∃ o, p.toOp = .ok o := by
      cases p <;> simp_all [PipeOp.toOp]
    obtain ⟨o, ho⟩ := this
    obtain ⟨c, h1, h2⟩ := ih (g := g.addToChain o) (h.snoc ho) hn.2
    refine ⟨c, ?_, by simpa using h2⟩
    simp only [buildChain, ho, h1]
    rfl

theorem buildChain_err {g : Graph D J} {ps : List (PipeOp D J)} (hn : noJoin ps = false) :
    ∃ e, buildChain g ps = .error e := by
  induction ps generalizing g with
  | nil => simp [noJoin] at hn
  | cons p ps ih =>
    unfold buildChain
    cases p with
    | join ev => exact ⟨_, rfl⟩
    | _ =>
      simp only [PipeOp.toOp]
      exact ih (by simpa [noJoin] using hn)

theorem foldl_addInput (sources : List String) (g : Graph D J) :
    ∃ l, sources.foldl (fun g k => g.addInput k) g = { g with inputs := l } ∧
      (sources = [] → l = g.inputs) ∧ (g.inputs ≠ [] ∨ sources ≠ [] → l ≠ []) ∧
      l.length ≤ g.inputs.length + sources.length := by
  induction sources generalizing g with
  | nil => exact ⟨g.inputs, rfl, fun _ => rfl, by simp, by simp⟩
  | cons k t ih =>
    obtain ⟨l, h1, h2, h3, h4⟩ := ih (g.addInput k)
    refine ⟨l, ?_, by simp, fun _ => h3 (Or.inl ?_), ?_⟩
    · rw [List.foldl_cons, h1]
      unfold Graph.addInput; split <;> rfl
    · unfold Graph.addInput
      split
      · rename_i hm; exact List.ne_nil_of_mem hm
      · simp
    · have : (g.addInput k).inputs.length ≤ g.inputs.length + 1 := by
        unfold Graph.addInput; split <;> simp
      simp only [List.length_cons]; omega

/-- The stages after the optional join. -/
def tailStages : List (PipeOp D J) → List (PipeOp D J)
  | .join _ :: rest => rest
  | cfg => cfg

/-- A leading join. -/
def leadJoin : List (PipeOp D J) → Option (JEv D)
  | .join ev :: _ => some ev
  | _ => none

/-- The pipelines `newPipeline` accepts. -/
def Accepted (sources : List String) (cfg : List (PipeOp D J)) : Prop :=
  sources ≠ [] ∧ (1 < sources.length → (leadJoin cfg).isSome) ∧ noJoin (tailStages cfg)

theorem buildGraph_ne {sources : List String} {cfg : List (PipeOp D J)} (hne : ∀ ev rest, cfg ≠ .join ev :: rest) :
    buildGraph sources cfg = buildChain (sources.foldl (fun g k => g.addInput k) {}) cfg := by
  unfold buildGraph
  split
  · exact absurd rfl (hne _ _)
  · rfl

theorem newPipeline_spec {sources : List String} {cfg : List (PipeOp D J)} (h : Accepted sources cfg) :
    ∃ g, newPipeline sources cfg = .ok g ∧ Refines g.chain (tailStages cfg) ∧ liftCan g.chain = false ∧
      g.join = (leadJoin cfg).map (fun ev => JoinOp.newIncremental ev sources.length) ∧
      g.inputs ≠ [] ∧ ((leadJoin cfg).isNone → g.inputs.length = 1) ∧ g.inputs.length ≤ sources.length := by
  obtain ⟨h1, h2, h3⟩ := h
  obtain ⟨l, hl, _, hl2, hl3⟩ := foldl_addInput (D := D) (J := J) sources {}
  have hlne : l ≠ [] := hl2 (Or.inr h1)
  have hlen : l.length ≤ sources.length := by simpa using hl3
  have hlpos : 0 < l.length := List.length_pos_iff.mpr hlne
  have key : ∀ (jn : Option (JoinOp D)), (∀ j, jn = some j → j.incrementalize = none) →
      (1 < l.length → jn.isSome) → ∃ c,
      (match buildChain { inputs := l, join := jn, chain := ([] : List (Node D J)) } (tailStages cfg) with
        | .error e => .error e
        | .ok g =>
          match Rewrite.optimize g with
          | .error e => .error e
          | .ok g' =>
            match g'.validate with
            | .error e => .error e
            | .ok () => .ok g') = (.ok { inputs := l, join := jn, chain := c } : Except Err (Graph D J)) ∧
      Refines c (tailStages cfg) ∧ liftCan c = false := by
    intro jn hjn hjs
    obtain ⟨c, hc1, hc2⟩ := buildChain_ok
      (g := { inputs := l, join := jn, chain := ([] : List (Node D J)) }) (st := []) .nil h3
    rw [hc1]
    have hval : ∀ c : List (Node D J), Graph.validate { inputs := l, join := jn, chain := c } = .ok () := by
      intro c
      unfold Graph.validate
      simp only [hlne, if_false]
      split
      · rename_i hx
        have := hjs hx.1
        cases jn <;> simp_all
      · rfl
    obtain ⟨c', hc1', hc2', hc3'⟩ := loop_phase0
      (g := { inputs := l, join := jn, chain := c }) (fun j hj => hjn j hj) hc2 15
    refine ⟨c', ?_, by simpa using hc2', hc3'⟩
    simp only [Rewrite.optimize, hval]
    rw [hc1']
    simp only [hval]
  by_cases hx : ∃ ev rest, cfg = .join ev :: rest
  · obtain ⟨ev, rest, rfl⟩ := hx
    obtain ⟨c, k1, k2, k3⟩ := key (some (JoinOp.newIncremental ev sources.length))
      (by intro j hj; simp only [Option.some.injEq] at hj; subst hj; rfl) (by simp)
    refine ⟨{ inputs := l, join := some (JoinOp.newIncremental ev sources.length), chain := c }, ?_, k2, k3,
      by simp [leadJoin], hlne, by simp [leadJoin], hlen⟩
    simp only [newPipeline, buildGraph, hl]
    rw [if_neg (by simp [startsWithJoin])]
    exact k1
  · have hne : ∀ ev rest, cfg ≠ .join ev :: rest := fun ev rest e => hx ⟨ev, rest, e⟩
    have ht : tailStages cfg = cfg := by
      unfold tailStages; split
      · exact absurd rfl (hne _ _)
      · rfl
    have hlj : leadJoin cfg = none := by
      unfold leadJoin; split
      · exact absurd rfl (hne _ _)
      · rfl
    have hl0 : ¬ 1 < sources.length := by
      intro hx
      have := h2 hx
      simp [hlj] at this
    obtain ⟨c, k1, k2, k3⟩ := key none (by simp) (by intro hx; exact absurd hx (by omega))
    rw [ht] at k1 k2
    refine ⟨{ inputs := l, join := none, chain := c }, ?_, by rw [ht]; exact k2, k3, by simp [hlj], hlne, fun _ => ?_, hlen⟩
    · unfold newPipeline
      rw [if_neg (fun h => hl0 h.1), buildGraph_ne hne, hl]
      exact k1
    · simp only; omega

theorem newPipeline_reject {sources : List String} {cfg : List (PipeOp D J)} (h : ¬ Accepted sources cfg) :
    ∃ e, newPipeline sources cfg = .error e := by
  unfold newPipeline
  split
  · exact ⟨_, rfl⟩
  · rename_i hcond
    by_cases hn : noJoin (tailStages cfg) = true
    · have hs : sources = [] := by
        apply Classical.byContradiction
        intro hs
        apply h
        refine ⟨hs, fun hl => ?_, hn⟩
        unfold leadJoin
        split
        · rfl
        · rename_i hne
          refine absurd ⟨hl, ?_⟩ hcond
          unfold startsWithJoin
          split
          · exact absurd rfl (hne _ _)
          · rfl
      subst hs
      have hgen : ∀ (g : Graph D J), g.inputs = [] → ∃ e, Rewrite.optimize g = .error e := by
        intro g hg
        refine ⟨"no input nodes", ?_⟩
        unfold Rewrite.optimize Graph.validate
        simp [hg]
      have hb : ∃ g, buildGraph [] cfg = .ok g ∧ g.inputs = [] := by
        unfold buildGraph
        split
        · obtain ⟨c, h1, _⟩ := buildChain_ok (g := (Graph.setJoin (D := D) (J := J) {} (JoinOp.newIncremental ‹_› 0)))
            (st := []) .nil (by simpa [tailStages] using hn)
          exact ⟨_, h1, rfl⟩
        · rename_i hne
          have ht : tailStages cfg = cfg := by
            unfold tailStages; split
            · exact absurd rfl (hne _ _)
            · rfl
          rw [ht] at hn
          obtain ⟨c, h1, _⟩ := buildChain_ok (g := ({} : Graph D J)) (st := []) .nil hn
          exact ⟨_, h1, rfl⟩
      obtain ⟨g, hg1, hg2⟩ := hb
      obtain ⟨e, he⟩ := hgen g hg2
      rw [hg1]
      simp only [he]
      exact ⟨e, rfl⟩
    · have : ∃ e, buildGraph sources cfg = .error e := by
        unfold buildGraph
        split
        · exact buildChain_err (by simpa [tailStages] using hn)
        · rename_i hne
          have ht : tailStages cfg = cfg := by
            unfold tailStages; split
            · exact absurd rfl (hne _ _)
            · rfl
          rw [ht] at hn
          exact buildChain_err (by simpa using hn)
      obtain ⟨e, he⟩ := this
      rw [he]
      exact ⟨e, rfl⟩

theorem newPipeline_ok_iff {sources : List String} {cfg : List (PipeOp D J)} :
    (∃ g, newPipeline sources cfg = .ok g) ↔ Accepted sources cfg := by
  constructor
  · rintro ⟨g, hg⟩
    apply Classical.byContradiction
    intro h
    obtain ⟨e, he⟩ := newPipeline_reject h
    rw [he] at hg; exact absurd hg (by simp)
  · intro h; obtain ⟨g, hg, _⟩ := newPipeline_spec h; exact ⟨g, hg⟩

/-! ### running -/

theorem mapM_lookup {names : List String} {ins : List (String × ZSet D)} {zs : List (ZSet D)}
    (h : names.mapM (fun n => match lookupInput ins n with
      | some z => Except.ok z
      | none => Except.error "missing input") = (.ok zs : Except Err _)) : zs = inputRow names ins := by
  induction names generalizing zs with
  | nil => simp [pure, Except.pure] at h; subst h; rfl
  | cons n t ih =>
    rw [List.mapM_cons] at h
    cases hl : lookupInput ins n with
    | none => simp [hl, bind, Except.bind] at h
    | some z =>
      simp only [hl, bind, Except.bind, pure, Except.pure] at h
      split at h
      · exact absurd h (by simp)
      · rename_i zs' hzs
        simp only [Except.ok.injEq] at h; subst h
        rw [ih hzs]
        simp only [lookupInput] at hl
        simp [inputRow, hl]

theorem collectInputs_ok {names : List String} {ins : List (String × ZSet D)} {zs : List (ZSet D)}
    (h : collectInputs names ins = .ok zs) : zs = inputRow names ins ∧ ins.length = names.length := by
  unfold collectInputs at h
  split at h
  · exact absurd h (by simp)
  · rename_i hl
    exact ⟨mapM_lookup h, by omega⟩

theorem lookup_mem {ins : List (String × ZSet D)} {n : String} {z : ZSet D} (h : ins.lookup n = some z) :
    ∃ k, (k, z) ∈ ins := by
  induction ins with
  | nil => simp at h
  | cons p t ih =>
    obtain ⟨k, w⟩ := p
    rw [List.lookup_cons] at h
    split at h
    · simp only [Option.some.injEq] at h; subst h; exact ⟨k, by simp⟩
    · obtain ⟨k', hk'⟩ := ih h; exact ⟨k', List.mem_cons_of_mem _ hk'⟩

theorem inputRow_wf {names : List String} {ins : List (String × ZSet D)} (h : ∀ p ∈ ins, WF p.2) :
    ∀ z ∈ inputRow names ins, WF z := by
  intro z hz
  simp only [inputRow, List.mem_map] at hz
  obtain ⟨n, _, rfl⟩ := hz
  cases hl : ins.lookup n with
  | none => exact WF.nil
  | some w => obtain ⟨k, hk⟩ := lookup_mem hl; exact h _ hk

/-- Invariant of a running pipeline: `ins` are the accumulated inputs, `o` the accumulated output. -/
def GraphInv (cfg : List (PipeOp D J)) (g : Graph D J) (ins : List (ZSet D)) (o : ZSet D) : Prop :=
  match leadJoin cfg with
  | some ev => ∃ n st m, g.join = some (.incr ev n st) ∧ st.length = n ∧ 0 < n ∧ ins.length = g.inputs.length ∧
      0 < ins.length ∧
      (EqvL st ins ∨ (n ≠ ins.length ∧ st = List.replicate n [] ∧ ins = List.replicate ins.length [])) ∧
      JoinOk ev st [] ∧
      WF m ∧ (∀ f, wsum f m = joinSum (evSumJ ev f) st []) ∧ ChainInv g.chain (tailStages cfg) m o
  | none => ∃ z, g.join = none ∧ ins = [z] ∧ g.inputs.length = 1 ∧ ChainInv g.chain (tailStages cfg) z o

theorem EqvL.perm {zs : List (ZSet D)} {σ : Order D} (hσ : σ.Valid) (i : Nat) (h : ∀ z ∈ zs, WF z) :
    EqvL (zs.map (σ i)) zs := by
  induction zs with
  | nil => exact .nil
  | cons z t ih =>
    obtain ⟨h1, h2⟩ := order_eqv hσ i (h z (by simp))
    exact .cons h1 (h z (by simp)) h2 (ih (fun w hw => h w (List.mem_cons_of_mem _ hw)))

theorem GraphInv.step {cfg : List (PipeOp D J)} {g g' : Graph D J} {ins : List (ZSet D)} {o out : ZSet D}
    (h : GraphInv cfg g ins o) {σ : Order D} (hσ : σ.Valid) {i : List (String × ZSet D)} (hi : ∀ p ∈ i, WF p.2)
    (hp : g.process σ i = (g', .ok out)) :
    WF out ∧ g'.inputs = g.inputs ∧
    GraphInv cfg g' (List.zipWith ZSet.add ins (inputRow g.inputs i)) (o.add out) := by
  unfold Graph.process at hp
  split at hp
  · simp at hp
  · rename_i zs hzs
    obtain ⟨rfl, _⟩ := collectInputs_ok hzs
    have hrw := inputRow_wf (names := g.inputs) hi
    have hrl : (inputRow g.inputs i).length = g.inputs.length := by simp [inputRow]
    unfold GraphInv at h ⊢
    cases hlj : leadJoin cfg with
    | none =>
      simp only [hlj] at h ⊢
      obtain ⟨z, h1, rfl, h2, h3⟩ := h
      simp only [h1] at hp
      split at hp
      · simp at hp
      · rename_i w ws hw
        cases hrun : runChain σ 1 g.chain w with
        | mk c' res =>
        simp only [hrun, Prod.mk.injEq] at hp
        obtain ⟨rfl, rfl⟩ := hp
        rw [hw] at hrw hrl
        obtain ⟨k1, k2⟩ := h3.step hσ (hrw w (by simp)) hrun
        refine ⟨k1, rfl, z.add w, rfl, ?_, h2, k2⟩
        simp [hw]
    | some ev =>
      simp only [hlj] at h ⊢
      obtain ⟨n, st, m, h1, h2, h3, h4, h5, h6, h7, h8, h9, h10⟩ := h
      simp only [h1, JoinOp.proc] at hp
      cases hj : incJoin ev n st ((inputRow g.inputs i).map (σ 0)) with
      | mk st' res =>
      simp only [hj] at hp
      split at hp
      · simp at hp
      · rename_i j' r hx
        simp only [Prod.mk.injEq] at hx
        obtain ⟨rfl, rfl⟩ := hx
        cases hrun : runChain σ 1 g.chain r with
        | mk c' res =>
        simp only [hrun, Prod.mk.injEq] at hp
        obtain ⟨rfl, rfl⟩ := hp
        obtain ⟨a1, a2, a3, a4, a5⟩ := incJoin_step h2 h7 hj
        obtain ⟨k1, k2⟩ := h10.step hσ a3 hrun
        have hnl : n = ins.length := by simp [hrl] at a1; omega
        have he : EqvL st ins := by
          rcases h6 with h6 | ⟨h6, _⟩
          · exact h6
          · exact absurd hnl h6
        refine ⟨k1, rfl, n, st', m.add r, rfl, ?_, h3, ?_, ?_, Or.inl ?_, a4, h8.add _, ?_, k2⟩
        · subst a2; simp [hrl] at a1 ⊢; omega
        · simp [hrl]; omega
        · simp [hrl]; omega
        · subst a2
          exact he.zipAdd (EqvL.perm hσ 0 hrw)
        · intro f; rw [wsum_add, h9, a5]

theorem GraphInv.runs {cfg : List (PipeOp D J)} {g : Graph D J} {ins : List (ZSet D)} {o : ZSet D}
    (h : GraphInv cfg g ins o) {hist : List (Order D × List (String × ZSet D))} {outs : List (ZSet D)}
    (hσ : ∀ e ∈ hist, e.1.Valid) (hi : ∀ e ∈ hist, ∀ p ∈ e.2, WF p.2)
    (hr : (runs (fun g e => Graph.process e.1 g e.2) g hist).2 = outs.map Except.ok) :
    (∀ z ∈ outs, WF z) ∧
    GraphInv cfg (runs (fun g e => Graph.process e.1 g e.2) g hist).1
      (hist.foldl (fun ins e => List.zipWith ZSet.add ins (inputRow g.inputs e.2)) ins) (outs.foldl ZSet.add o) := by
  induction hist generalizing g ins o outs with
  | nil =>
    simp only [Dctl.runs] at hr ⊢
    have : outs = [] := by simpa using hr.symm
    subst this
    exact ⟨by simp, h⟩
  | cons e t ih =>
    simp only [Dctl.runs] at hr ⊢
    cases outs with
    | nil => simp at hr
    | cons out outs =>
      simp only [List.map_cons, List.cons.injEq] at hr
      cases hp : Graph.process e.1 g e.2 with
      | mk g' res =>
      rw [hp] at hr
      obtain ⟨h1, h2, h3⟩ := h.step (hσ e (by simp)) (hi e (by simp)) (out := out) (g' := g')
        (by rw [hp, ← hr.1])
      obtain ⟨h4, h5⟩ := ih h3 (fun x hx => hσ x (List.mem_cons_of_mem _ hx))
        (fun x hx => hi x (List.mem_cons_of_mem _ hx)) hr.2
      refine ⟨?_, ?_⟩
      · intro z hz
        rcases List.mem_cons.mp hz with rfl | hz
        · exact h1
        · exact h4 z hz
      · rw [h2] at h5
        exact h5

theorem GraphInv.wf_out {cfg : List (PipeOp D J)} {g : Graph D J} {ins : List (ZSet D)} {o : ZSet D}
    (h : GraphInv cfg g ins o) : WF o := by
  unfold GraphInv at h
  split at h
  · obtain ⟨_, _, _, _, _, _, _, _, _, _, _, _, h⟩ := h; exact h.wf_out
  · obtain ⟨_, _, _, _, h⟩ := h; exact h.wf_out

theorem StagesMean.eqv_out {ss : List (PipeOp D J)} {z o o' : ZSet D} (h : StagesMean ss z o) (he : Eqv o o') :
    StagesMean ss z o' := by
  induction h with
  | nil h => exact .nil (h.trans he)
  | cons a b _ ih => exact .cons a b (ih he)

theorem pipelineMeans_iff {cfg : List (PipeOp D J)} {ins : List (ZSet D)} {o : ZSet D} :
    PipelineMeans cfg ins o ↔ match leadJoin cfg with
      | some ev => ∃ m, cartesianJoin ev ins [] 1 = .ok m ∧ StagesMean (tailStages cfg) m o
      | none => ∃ z, ins = [z] ∧ StagesMean (tailStages cfg) z o := by
  unfold PipelineMeans leadJoin tailStages
  split <;> simp_all

theorem GraphInv.means {cfg : List (PipeOp D J)} {g : Graph D J} {ins ins' : List (ZSet D)} {o o' : ZSet D}
    (h : GraphInv cfg g ins o) (he : EqvL ins ins') (heo : Eqv o o') : PipelineMeans cfg ins' o' := by
  rw [pipelineMeans_iff]
  unfold GraphInv at h
  cases hlj : leadJoin cfg with
  | none =>
    simp only [hlj] at h ⊢
    obtain ⟨z, _, rfl, _, h⟩ := h
    cases he with
    | cons a b c d =>
      cases d
      exact ⟨_, rfl, (h.means.eqv a b c).eqv_out heo⟩
  | some ev =>
    simp only [hlj] at h ⊢
    obtain ⟨n, st, m, h1, h2, h3, h4, h5, h6, h7, h8, h9, h10⟩ := h
    have hst : JoinOk ev ins [] ∧ ∀ f, joinSum f ins [] = joinSum f st [] := by
      rcases h6 with h6 | ⟨_, h6, h6'⟩
      · exact ⟨joinOk_eqv h6 h7, fun f => (joinSum_eqv f h6 []).symm⟩
      · rw [h6', h6]
        exact ⟨joinOk_empty ev h5, fun f => by rw [joinSum_empty f h5, joinSum_empty f h3]⟩
    obtain ⟨r, hr⟩ := cart_ok 1 hst.1
    obtain ⟨r', hr', hre⟩ := cart_eqv he hr
    obtain ⟨k1, k2, k3⟩ := cart_spec hr'
    obtain ⟨l1, l2, l3⟩ := cart_spec hr
    refine ⟨r', hr', (h10.means.eqv h8 k1 ?_).eqv_out heo⟩
    intro d
    rw [hre d, ← wsum_ind h8, ← wsum_ind l1, l2, h9, hst.2]
    omega

theorem newPipeline_inv {sources : List String} {cfg : List (PipeOp D J)} {g : Graph D J}
    (h : newPipeline sources cfg = .ok g) : GraphInv cfg g (List.replicate g.inputs.length []) [] := by
  have hacc := newPipeline_ok_iff.mp ⟨g, h⟩
  obtain ⟨g', h1, h2, h3, h4, h5, h6, h7⟩ := newPipeline_spec hacc
  rw [h] at h1
  simp only [Except.ok.injEq] at h1
  subst h1
  unfold GraphInv
  have hpos : 0 < g.inputs.length := List.length_pos_iff.mpr h5
  cases hlj : leadJoin cfg with
  | none =>
    simp only [hlj] at h4 h6 ⊢
    have := h6 rfl
    exact ⟨[], h4, by simp [this], this, h2.inv h3⟩
  | some ev =>
    simp only [hlj] at h4 ⊢
    have hn : 0 < sources.length := by omega
    refine ⟨sources.length, List.replicate sources.length [], [], h4, by simp, hn, by simp, by simpa, ?_,
      joinOk_empty ev hn, WF.nil, fun f => by rw [joinSum_empty _ hn]; rfl, h2.inv h3⟩
    by_cases he : sources.length = g.inputs.length
    · left; rw [he]; exact EqvL.refl (by intro z hz; rw [List.mem_replicate] at hz; rw [hz.2]; exact WF.nil)
    · right; simpa using he

theorem foldl_add_get {outs : List (ZSet D)} (hw : ∀ z ∈ outs, WF z) {o : ZSet D} (ho : WF o) (d : D) :
    get (outs.foldl ZSet.add o) d = get o d + (outs.map (fun y => get y d)).sum := by
  induction outs generalizing o with
  | nil => simp
  | cons z t ih =>
    rw [List.foldl_cons, ih (fun w hw' => hw w (List.mem_cons_of_mem _ hw')) (ho.add _),
      get_add ho (hw z (by simp))]
    simp; omega

/-- Incremental execution of a compiled pipeline equals recomputation with the model's operators. -/
theorem pipeline_means {sources : List String} {cfg : List (PipeOp D J)} {g : Graph D J}
    (hnew : newPipeline sources cfg = .ok g)
    {hist : List (Order D × List (String × ZSet D))} {outs : List (ZSet D)}
    (hσ : ∀ e ∈ hist, e.1.Valid) (hi : ∀ e ∈ hist, ∀ p ∈ e.2, WF p.2)
    (hr : (runs (fun g e => Graph.process e.1 g e.2) g hist).2 = outs.map Except.ok)
    {ins : List (ZSet D)} (hins : ColumnSums g.inputs.length (hist.map (fun e => inputRow g.inputs e.2)) ins)
    {o : ZSet D} (ho : SumOf outs o) : PipelineMeans cfg ins o := by
  obtain ⟨h1, h2⟩ := (newPipeline_inv hnew).runs hσ hi hr
  refine h2.means ?_ ?_
  · have := columnSums_eqvL (hist := hist.map (fun e => inputRow g.inputs e.2))
      (by intro row hrow; obtain ⟨e, _, rfl⟩ := List.mem_map.mp hrow; simp [inputRow])
      (by intro row hrow; obtain ⟨e, he, rfl⟩ := List.mem_map.mp hrow; exact inputRow_wf (hi e he)) hins
    rw [List.foldl_map] at this
    exact this
  · intro d
    rw [foldl_add_get h1 WF.nil, ho.2 d]; simp

end Dctl
