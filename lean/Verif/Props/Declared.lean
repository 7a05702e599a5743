import Verif.Dbsp.DeclaredLemmas
/-!
# C109: operators are what they declare to be
-/
set_option autoImplicit false
set_option linter.unusedSectionVars false
namespace Dctl
variable {D J : Type} [DecidableEq D] [DecidableEq J]
open ZSet

/-- An operator of a chain that declares itself linear is: where it answers two streams of changes, it answers their
sum, with the sum of the answers. This covers the operators with state (integrator, differentiator, delay). -/
theorem C109_linear (o : Op D J) (hf : o.Fresh) (ht : o.opType = some .linear) : StreamLinear Op.proc o :=
  streamLinear_of_coupling (R := OpSum) (fun h hq ha hb => h.step hq ha hb) (OpSum.of_fresh hf ht)

/-- What the rewriter relies on ("Op^Δ = Op", `op.go:29`): an operator it does not lift, run on what arrived so far
instead of on what arrives, puts out all it put out so far. So running it on changes computes the changes. -/
theorem C109_unlifted (o : Op D J) (hf : o.Fresh) (hn : o.isNonLinear = false) (hd : o.opType ≠ none) (hist outs : List (ZSet D))
    (hwf : ∀ z ∈ hist, WF z) (hrun : (runs Op.proc o hist).2 = outs.map .ok) :
    ∃ rc, (runs Op.proc o (accumulated [] hist)).2 = rc.map .ok ∧ StreamEqv rc (accumulated [] outs) := by
  have ht : o.opType = some .linear := by cases o <;> simp_all [Op.isNonLinear, Op.opType]
  exact accumulated_runs (R := OpSum) (fun h hq ha hb => h.step hq ha hb) hwf WF.nil WF.nil (Op.fresh_zero hf) (Eqv.refl _)
    (OpSum.of_fresh hf ht) hrun

/-- The rewriter lifts exactly the operators that declare themselves non-linear, and these are not linear, unless
they have nothing to say about any single document: no such declaration is idle. -/
theorem C109_nonlinear (o : Op D J) :
    (o.isNonLinear = true ↔ o.opType = some .nonLinear) ∧
    (o.opType = some .nonLinear → ∀ (x : D) (r : ZSet D), (o.proc [(x, 1)]).2 = .ok r → r ≠ [] → ¬ StreamLinear Op.proc o) := by
  refine ⟨by cases o <;> simp [Op.isNonLinear, Op.opType], fun ht x r hr hne hl => ?_⟩
  have hwf : ∀ z ∈ [([(x, 1)] : ZSet D)], WF z := by
    intro z hz
    rw [List.mem_singleton] at hz
    subst hz
    exact ⟨by simp, by simp⟩
  have hsum : ZSet.add [(x, 1)] [(x, 1)] = [(x, 2)] := by
    simp [ZSet.add, ZSet.addDoc, ZSet.upd]
  obtain ⟨rc, h1, h2, -, h3⟩ := hl [[(x, 1)]] [[(x, 1)]] [r] [r] rfl hwf hwf (by simp [runs, hr]) (by simp [runs, hr])
  simp only [List.zipWith_cons_cons, List.zipWith_nil_left, hsum, runs] at h1
  match rc, h1, h2 with
  | [q], h1, _ =>
    simp only [List.map_cons, List.map_nil, List.cons.injEq, and_true] at h1
    have h3 : ∀ d, get q d = get r d + get r d := fun d => by simpa using h3 0 d
    have hcase : (∃ g, o = .gather g) ∨ o = .distinct := by cases o <;> simp_all [Op.opType]
    rcases hcase with ⟨g, rfl⟩ | rfl
    · simp only [Op.proc, gatherProc, gatherGroups] at hr h1
      cases hk : g.key x with
      | error e => rw [hk] at hr; simp at hr
      | ok k =>
        rw [hk] at hr h1
        cases k with
        | none => simp [gatherAgg] at hr; exact hne hr
        | some k =>
          simp only at hr h1
          cases hv : g.val x with
          | error e => rw [hv] at hr; simp at hr
          | ok v =>
            rw [hv] at hr h1
            cases v with
            | none => simp [gatherAgg] at hr; exact hne hr
            | some v =>
              simp only [updGroup, gatherAgg] at hr h1
              cases ha : g.agg x k (g.sort (applyMult [] v 1)) with
              | error e => rw [ha] at hr; simp at hr
              | ok d =>
                rw [ha] at hr
                cases ha' : g.agg x k (g.sort (applyMult [] v 2)) with
                | error e => rw [ha'] at h1; simp at h1
                | ok d' =>
                  rw [ha'] at h1
                  simp only [Except.ok.injEq] at hr h1
                  subst hr h1
                  have := h3 d
                  rw [get_addDoc WF.nil, get_addDoc WF.nil] at this
                  simp only [ZSet.get, if_true] at this
                  split at this <;> simp at this
    · simp only [Op.proc, Except.ok.injEq] at hr h1
      subst hr h1
      have := h3 x
      simp [ZSet.distinct, ZSet.addDoc, ZSet.upd, ZSet.get] at this

/-- Every join is linear in each of its inputs, whether it keeps state or not: adding up two streams at one input,
with the other inputs fixed, adds up the answers. -/
theorem C109_bilinear (j : JoinOp D) (hf : j.Fresh) : j.opType = .bilinear ∧ StreamMultilinear JoinOp.proc j j.arity := by
  refine ⟨by cases j <;> rfl, ?_⟩
  intro i hist ra rb hi hrows ha hb
  refine streamSum_of_coupling (R := JoinSum i) (Q := SumAt i) ?_ (fun h => h.1.set i h.2.1) (fun h => h.1.set i h.2.2)
    (fun h => h.1.set i (h.2.1.add h.2.2)) hist ?_ (JoinSum.of_fresh hf hi) ha hb
  · intro sa sb sc x y z ra rb hr hq h1 h2
    obtain ⟨rc, h3, h4, h5⟩ := hr.step hq h1 h2
    exact ⟨rc, h3, h4, h5.2.2.2⟩
  · intro h hh
    obtain ⟨h1, h2, h3, h4⟩ := hrows h hh
    exact SumAt.of_set (by omega) h2 h3 h4

/-- Every operator is time invariant and preserves zero: chain operators, joins, and chains of operators fused to one. -/
theorem C109_quiet :
    (∀ o : Op D J, o.Fresh → StreamTimeInvariant Op.proc o [] ∧ StreamZeroPreserving Op.proc o []) ∧
    (∀ j : JoinOp D, j.Fresh → StreamTimeInvariant JoinOp.proc j (List.replicate j.arity []) ∧
      StreamZeroPreserving JoinOp.proc j (List.replicate j.arity [])) ∧
    (∀ os : List (Op D J), (∀ o ∈ os, o.Fresh) → StreamTimeInvariant fusedProc os [] ∧ StreamZeroPreserving fusedProc os []) := by
  refine ⟨fun o hf => ?_, fun j hf => ?_, fun os hf => ?_⟩
  · have := timeInvariant_of_zero (step := Op.proc) (Op.fresh_zero hf); exact ⟨this, this.zeroPreserving⟩
  · have := timeInvariant_of_zero (step := JoinOp.proc) (JoinOp.fresh_zero hf); exact ⟨this, this.zeroPreserving⟩
  · have := timeInvariant_of_zero (step := fusedProc) (fusedProc_fresh_zero hf); exact ⟨this, this.zeroPreserving⟩

/-- A fused operator is linear if each of its nodes declares itself linear. Missing from the full statement (a fused
operator is what it declares, linear): the hypothesis on the nodes, see `C109_fused_wrong`. -/
theorem C109_fused_partial (os : List (Op D J)) (hf : ∀ o ∈ os, o.Fresh ∧ o.opType = some .linear) :
    fusedOpType os = .linear ∧ StreamLinear fusedProc os :=
  ⟨rfl, streamLinear_of_coupling (R := OpsSum) (fun h hq ha hb => h.step hq ha hb) (OpsSum.of_fresh hf)⟩

/-- The full statement is false: `NewFusedOp` (`fused_op.go:160-169`) accepts any operators, and the result declares itself linear
although the operator in it declares that it is not. -/
theorem C109_fused_wrong (x : D) : fusedOpType [(.distinct : Op D J)] = .linear ∧ (.distinct : Op D J).opType = some .nonLinear ∧
    ¬ StreamLinear fusedProc [(.distinct : Op D J)] := by
  refine ⟨rfl, rfl, fun hl => ?_⟩
  have hwf : ∀ z ∈ [([(x, 1)] : ZSet D)], WF z := by
    intro z hz
    rw [List.mem_singleton] at hz
    subst hz
    exact ⟨by simp, by simp⟩
  have hr : (runs fusedProc [(.distinct : Op D J)] [[(x, 1)]]).2 = [[(x, 1)]].map .ok := by
    simp [runs, fusedProc, Op.proc, ZSet.distinct, ZSet.addDoc, ZSet.upd]
  obtain ⟨rc, h1, -, -, h3⟩ := hl [[(x, 1)]] [[(x, 1)]] _ _ rfl hwf hwf hr hr
  have : rc = [[(x, 1)]] := by
    have hc : (runs fusedProc [(.distinct : Op D J)] [ZSet.add [(x, 1)] [(x, 1)]]).2 = [[(x, 1)]].map .ok := by
      simp [runs, fusedProc, Op.proc, ZSet.add, ZSet.distinct, ZSet.addDoc, ZSet.upd]
    simp only [List.zipWith_cons_cons, List.zipWith_nil_left] at h1
    rw [hc] at h1
    exact (List.map_inj_right (fun a b h => by simpa using h)).mp h1.symm
  subst this
  have := h3 0 x
  simp [ZSet.get] at this

/-! ### cases -/

/-- A running sum, a selection of the even documents, and a join of three inputs with state meet the hypotheses, and answer. -/
example : (Op.newIntegrator : Op Nat Nat).Fresh ∧ (Op.newIntegrator : Op Nat Nat).opType = some .linear ∧
    (runs Op.proc (Op.newIntegrator : Op Nat Nat) [[(1, 1)], [(2, 1), (1, -1)]]).2 = [[(1, 1)], [(2, 1)]].map .ok ∧
    (runs Op.proc (Op.newIntegrator : Op Nat Nat) (accumulated [] [[(1, 1)], [(2, 1), (1, -1)]])).2 = [[(1, 1)], [(1, 1), (2, 1)]].map .ok :=
  ⟨rfl, rfl, rfl, rfl⟩

example : (Op.select (J := Nat) (fun n : Nat => .ok (if n % 2 = 0 then [n] else []))).isNonLinear = false ∧
    (runs Op.proc (Op.select (J := Nat) (fun n : Nat => .ok (if n % 2 = 0 then [n] else []))) [[(1, 1), (4, 2)], [(4, -1)]]).2 =
      [[(4, 2)], [(4, -1)]].map .ok := ⟨rfl, rfl⟩

example : (JoinOp.newIncremental (fun l : List Nat => .ok [l.sum]) 3).Fresh ∧
    (runs JoinOp.proc (JoinOp.newIncremental (fun l : List Nat => .ok [l.sum]) 3) [[[(1, 1)], [(10, 1)], [(100, 2)]], [[], [(20, 1)], []]]).2 =
      [[(111, 2)], [(121, 2)]].map .ok := ⟨.inl ⟨_, 3, by omega, .inr rfl⟩, rfl⟩

/-- The non-linear operators have something to say: each answers a single document with a non-empty result. -/
example : ((.distinct : Op Nat Nat).proc [(1, 1)]).2 = .ok [(1, 1)] := rfl
example : ((.gather ⟨fun x => .ok (some x), fun x => .ok (some x), fun _ k vs => .ok (k + vs.length), id⟩ : Op Nat Nat).proc [(1, 1)]).2 =
    .ok [(2, 1)] := rfl

example : ∀ o ∈ ([.select (fun n => .ok [n]), .newIntegrator, .newDifferentiator] : List (Op Nat Nat)), o.Fresh ∧ o.opType = some .linear := by
  simp [Op.Fresh, Op.opType, Op.newIntegrator, Op.newDifferentiator]

end Dctl
