import Verif.Dbsp.PropLemmas
/-! Helper lemmas about snapshot conversion (C14). -/
set_option autoImplicit false
set_option linter.unusedSectionVars false
namespace Dctl
variable {D J : Type} [DecidableEq D] [DecidableEq J]
open ZSet Rewrite

theorem Op.toSnapshot_proc (o : Op D J) (z : ZSet D) : (o.proc z).1.toSnapshot = o.toSnapshot := by
  cases o <;> rfl

theorem JoinOp.toSnapshot_proc (j : JoinOp D) (zs : List (ZSet D)) : (j.proc zs).1.toSnapshot = j.toSnapshot := by
  unfold JoinOp.proc
  split <;> rfl

theorem convertChain_run (σ : Order D) (i : Nat) (c : List (Node D J)) (z : ZSet D) :
    convertChain Op.toSnapshot (runChain σ i c z).1 = convertChain Op.toSnapshot c := by
  induction c generalizing i z with
  | nil => rfl
  | cons nd t ih =>
    have h := Op.toSnapshot_proc nd.op (σ i z)
    cases hp : nd.op.proc (σ i z) with
    | mk o' res =>
    rw [hp] at h
    simp only at h
    cases res with
    | error e => simp only [runChain, hp]; simp only [convertChain, h]
    | ok r => simp only [runChain, hp]; simp only [convertChain, h, ih]

theorem toSnapshot_process (σ : Order D) (g : Graph D J) (i : List (String × ZSet D)) :
    (g.process σ i).1.toSnapshot = g.toSnapshot := by
  unfold Graph.process
  split
  · rfl
  · rename_i zs _
    split
    · rename_i j hj
      have h := JoinOp.toSnapshot_proc j (zs.map (σ 0))
      cases hp : j.proc (zs.map (σ 0)) with
      | mk j' res =>
      rw [hp] at h
      simp only at h
      cases res with
      | error e => simp [Graph.toSnapshot, Graph.convert, Graph.validate, hj, h]
      | ok r => simp [Graph.toSnapshot, Graph.convert, Graph.validate, hj, h, convertChain_run]
    · rename_i hj
      split
      · rfl
      · simp [Graph.toSnapshot, Graph.convert, Graph.validate, hj, convertChain_run]

theorem toSnapshot_runs (g : Graph D J) (hist : List (Order D × List (String × ZSet D))) :
    (runs (fun g e => Graph.process e.1 g e.2) g hist).1.toSnapshot = g.toSnapshot := by
  induction hist generalizing g with
  | nil => rfl
  | cons e t ih => simp only [runs]; rw [ih, toSnapshot_process]

theorem newPipeline_validate {sources : List String} {cfg : List (PipeOp D J)} {g : Graph D J}
    (h : newPipeline sources cfg = .ok g) : g.validate = .ok () := by
  unfold newPipeline at h
  split at h
  · simp at h
  · split at h
    · simp at h
    · split at h
      · simp at h
      · split at h
        · simp at h
        · rename_i hv
          simp only [Except.ok.injEq] at h; subst h; exact hv

/-- Snapshot conversion of a compiled pipeline. -/
theorem toSnapshot_spec {sources : List String} {cfg : List (PipeOp D J)} {g : Graph D J}
    (h : newPipeline sources cfg = .ok g) :
    ((tailStages cfg).all PipeOp.isSelProj = true → ∃ s, g.toSnapshot = .ok s ∧ s.inputs = g.inputs ∧
      Refines s.chain (tailStages cfg) ∧ s.join = (leadJoin cfg).map (fun ev => JoinOp.snap ev sources.length)) ∧
    ((tailStages cfg).all PipeOp.isSelProj = false → ∃ e, g.toSnapshot = .error e) := by
  obtain ⟨h1, h2, h3, h4, h5, h6⟩ := newPipeline_facts h
  have hv := newPipeline_validate h
  obtain ⟨hn, _⟩ := newPipeline_inputs h
  obtain ⟨c1, c2⟩ := convertChain_refines h1 h2
  unfold Graph.toSnapshot Graph.convert
  rw [hv]
  refine ⟨fun hs => ?_, fun hs => ?_⟩
  · obtain ⟨c', hc', hr⟩ := c1 hs
    refine ⟨_, by rw [hc'], ?_, hr, ?_⟩
    · simp only
      rw [dedup_nodup (by simpa using hn)]; simp
    · simp only [h3, Option.map_map]; rfl
  · obtain ⟨e, he⟩ := c2 hs
    exact ⟨e, by rw [he]⟩

theorem process_stateless {s : Graph D J} (hc : ∀ nd ∈ s.chain, ∃ f, nd.op.linEv = some f)
    (hj : ∀ j, s.join = some j → ∃ ev n, j = .snap ev n) (σ : Order D) (i : List (String × ZSet D)) :
    (s.process σ i).1 = s := by
  unfold Graph.process
  split
  · rfl
  · rename_i zs _
    split
    · rename_i j hjj
      obtain ⟨ev, n, rfl⟩ := hj j hjj
      cases hp : snapJoin ev n (zs.map (σ 0)) with
      | error e =>
        simp only [JoinOp.proc, hp]
        rw [← hjj]
      | ok r =>
        simp only [JoinOp.proc, hp, runChain_stateless hc]
        rw [← hjj]
    · rename_i hjj
      split
      · rfl
      · simp only [runChain_stateless hc]

theorem tail_selProj_iff {sources : List String} {cfg : List (PipeOp D J)} {g : Graph D J}
    (h : newPipeline sources cfg = .ok g) :
    (tailStages cfg).all PipeOp.isSelProj = true ↔
      (∀ ex tr, PipeOp.unwind ex tr ∉ cfg) ∧ ∀ g, PipeOp.gather g ∉ cfg := by
  have ha := newPipeline_accepted h
  have hn := ha.2.2
  have hmem : ∀ p : PipeOp D J, (∀ ev, p ≠ .join ev) → (p ∈ cfg ↔ p ∈ tailStages cfg) := by
    intro p hp
    unfold tailStages
    split
    · rename_i ev rest
      rw [List.mem_cons]
      constructor
      · rintro (e | h)
        · exact absurd e (hp ev)
        · exact h
      · exact Or.inr
    · exact Iff.rfl
  constructor
  · intro hs
    rw [List.all_eq_true] at hs
    refine ⟨fun ex tr hm => ?_, fun g hm => ?_⟩
    · have := hs _ ((hmem (.unwind ex tr) (by simp)).mp hm); simp [PipeOp.isSelProj] at this
    · have := hs _ ((hmem (.gather g) (by simp)).mp hm); simp [PipeOp.isSelProj] at this
  · rintro ⟨h1, h2⟩
    rw [List.all_eq_true]
    intro p hp
    cases p with
    | select _ => rfl
    | project _ => rfl
    | unwind ex tr => exact absurd ((hmem (.unwind ex tr) (by simp)).mpr hp) (h1 ex tr)
    | gather g => exact absurd ((hmem (.gather g) (by simp)).mpr hp) (h2 g)
    | join ev =>
      simp only [noJoin, List.all_eq_true] at hn
      have := hn _ hp
      simp at this

/-- Two graphs that differ only in the `Lifted` marks process alike. -/
theorem runChain_marks (σ : Order D) (i : Nat) (c c' : List (Node D J)) (z : ZSet D) (h : c.map Node.op = c'.map Node.op) :
    (runChain σ i c z).1.map Node.op = (runChain σ i c' z).1.map Node.op ∧ (runChain σ i c z).2 = (runChain σ i c' z).2 := by
  induction c generalizing i z c' with
  | nil => cases c' with
    | nil => exact ⟨rfl, rfl⟩
    | cons a t => simp at h
  | cons a t ih =>
    cases c' with
    | nil => simp at h
    | cons b u =>
      simp only [List.map_cons, List.cons.injEq] at h
      obtain ⟨h1, h2⟩ := h
      simp only [runChain, h1]
      cases hp : b.op.proc (σ i z) with
      | mk o r =>
        cases r with
        | error e => simp [h2]
        | ok w =>
          obtain ⟨i1, i2⟩ := ih (i + 1) u w h2
          exact ⟨by simp [i1], i2⟩

theorem process_marks (σ : Order D) (g g' : Graph D J) (ins : List (String × ZSet D)) (hi : g.inputs = g'.inputs) (hj : g.join = g'.join)
    (hc : g.chain.map Node.op = g'.chain.map Node.op) :
    ((g.process σ ins).1.inputs = (g'.process σ ins).1.inputs ∧ (g.process σ ins).1.join = (g'.process σ ins).1.join ∧
      (g.process σ ins).1.chain.map Node.op = (g'.process σ ins).1.chain.map Node.op) ∧ (g.process σ ins).2 = (g'.process σ ins).2 := by
  unfold Graph.process
  rw [hi]
  cases collectInputs g'.inputs ins with
  | error e => exact ⟨⟨hi, hj, hc⟩, rfl⟩
  | ok zs =>
    simp only
    rw [hj]
    cases hjj : g'.join with
    | none =>
      cases zs with
      | nil => simp only; exact ⟨⟨by first | trivial | exact hi, by first | trivial | exact hj, hc⟩, by first | rfl | trivial⟩
      | cons z zt =>
        obtain ⟨m1, m2⟩ := runChain_marks σ 1 g.chain g'.chain z hc
        simp only
        exact ⟨⟨by first | trivial | exact hi, by first | trivial | exact hj, m1⟩, m2⟩
    | some j =>
      simp only
      cases hp : j.proc (zs.map (σ 0)) with
      | mk j' r =>
        cases r with
        | error e => simp only; exact ⟨⟨by first | trivial | exact hi, by first | trivial | rfl, hc⟩, by first | rfl | trivial⟩
        | ok w =>
          obtain ⟨m1, m2⟩ := runChain_marks σ 1 g.chain g'.chain w hc
          simp only
          exact ⟨⟨by first | trivial | exact hi, by first | trivial | rfl, m1⟩, m2⟩

theorem runs_marks (g g' : Graph D J) (hist : List (Order D × List (String × ZSet D))) (hi : g.inputs = g'.inputs) (hj : g.join = g'.join)
    (hc : g.chain.map Node.op = g'.chain.map Node.op) :
    (runs (fun g e => Graph.process e.1 g e.2) g hist).2 = (runs (fun g e => Graph.process e.1 g e.2) g' hist).2 := by
  induction hist generalizing g g' with
  | nil => rfl
  | cons e t ih =>
    obtain ⟨⟨h1, h2, h3⟩, h4⟩ := process_marks e.1 g g' e.2 hi hj hc
    simp only [runs]
    rw [h4, ih _ _ h1 h2 h3]

theorem toSnapshot_op {o o' : Op D J} (h : o.toSnapshot = .ok o') : o' = o ∧ o'.toIncremental = .ok o := by
  cases o <;> simp_all [Op.toSnapshot, Op.toIncremental] <;> (subst h; simp)

theorem convertChain_ops {c c' : List (Node D J)} (h : convertChain Op.toSnapshot c = .ok c') :
    c'.map Node.op = c.map Node.op ∧ ∃ c'', convertChain Op.toIncremental c' = .ok c'' ∧ c''.map Node.op = c.map Node.op := by
  induction c generalizing c' with
  | nil => simp only [convertChain, Except.ok.injEq] at h; subst h; exact ⟨rfl, [], rfl, rfl⟩
  | cons a t ih =>
    simp only [convertChain] at h
    split at h
    · simp at h
    · rename_i o ho
      split at h
      · simp at h
      · rename_i r hr
        simp only [Except.ok.injEq] at h; subst h
        obtain ⟨e1, e2⟩ := toSnapshot_op ho
        obtain ⟨i1, c'', i2, i3⟩ := ih hr
        exact ⟨by simp [e1, i1], ⟨a.op, false⟩ :: c'', by simp only [convertChain, e2, i2], by simp [i3]⟩

end Dctl
