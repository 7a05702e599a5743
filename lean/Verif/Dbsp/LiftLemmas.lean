import Verif.Dbsp.DistinctLemmas
import Verif.Spec.Sum
import Verif.Spec.ChainOnce
/-!
# Lemmas about lifting non-linear operators
-/
set_option autoImplicit false
set_option linter.unusedSectionVars false
namespace Dctl
variable {D J : Type} [DecidableEq D] [DecidableEq J]
open ZSet Rewrite

/-- Running the operator on changes adds up to running it on the sum. -/
structure Additive (o : Op D J) : Prop where
  keeps : ∀ z, (o.proc z).1 = o
  eqv : ∀ {z z' r : ZSet D}, WF z → WF z' → Eqv z z' → (o.proc z).2 = .ok r → ∃ r', (o.proc z').2 = .ok r' ∧ Eqv r' r
  add : ∀ {z w r s : ZSet D}, WF z → WF w → (o.proc z).2 = .ok r → (o.proc w).2 = .ok s → ∃ t, (o.proc (z.add w)).2 = .ok t ∧ ∀ d, get t d = get r d + get s d

theorem Additive.linEv {o : Op D J} {f : Ev D} (h : o.linEv = some f) : Additive o where
  keeps z := by rw [Op.proc_linEv h]
  eqv := fun hz hz' he hr => by
    rw [Op.proc_linEv h] at hr ⊢
    exact linProc_eqv hz hz' he hr
  add := fun _ _ hr hs => by
    rw [Op.proc_linEv h] at hr hs ⊢
    exact linProc_add hr hs

theorem Additive.negate : Additive (.negate : Op D J) where
  keeps _ := rfl
  eqv := fun hz hz' he hr => by
    simp only [Op.proc, Except.ok.injEq] at hr ⊢
    subst hr
    exact ⟨_, rfl, sub_eqv WF.nil WF.nil hz' hz (Eqv.refl _) he.symm⟩
  add := fun hz hw hr hs => by
    simp only [Op.proc, Except.ok.injEq] at hr hs ⊢
    subst hr hs
    refine ⟨_, rfl, fun d => ?_⟩
    rw [get_sub WF.nil (hz.add _), get_add hz hw, get_sub WF.nil hz, get_sub WF.nil hw]
    simp [ZSet.get]; omega

theorem Op.additive_of {o : Op D J} (hs : o.stateless = true) (hn : o.isNonLinear = false) : Additive o := by
  cases o <;> simp [Op.stateless, Op.isNonLinear] at hs hn
  · exact Additive.linEv rfl
  · exact Additive.linEv rfl
  · exact Additive.linEv rfl
  · exact Additive.negate
  · exact Additive.linEv rfl
  · exact Additive.linEv rfl

theorem Op.stateless_keeps {o : Op D J} (hs : o.stateless = true) (z : ZSet D) : (o.proc z).1 = o := by
  cases o <;> simp [Op.stateless] at hs <;> rfl

theorem Op.stateless_wf {o : Op D J} (hs : o.stateless = true) : o.StateWF := by
  cases o <;> simp [Op.stateless] at hs <;> exact trivial

theorem Op.stateless_empty {o : Op D J} (hs : o.stateless = true) : (o.proc []).2 = .ok [] := by
  cases o <;> simp [Op.stateless] at hs <;> rfl

/-- Invariant of a running lifted chain: `z` is the accumulated input, `o` the accumulated output. -/
inductive LiftInv : List (Node D J) → List (Op D J) → ZSet D → ZSet D → Prop
  | nil {z o : ZSet D} : WF z → WF o → Eqv z o → LiftInv [] [] z o
  | plain {op : Op D J} {b : Bool} {nds : List (Node D J)} {ops : List (Op D J)} {z m' m o : ZSet D} :
      Additive op → op.StateWF → WF z → WF m → (op.proc z).2 = .ok m' → Eqv m' m →
      LiftInv nds ops m o → LiftInv (⟨op, b⟩ :: nds) (op :: ops) z o
  | lifted {op : Op D J} {b1 b2 b3 : Bool} {nds : List (Node D J)} {ops : List (Op D J)} {s p z z' m' m o : ZSet D} :
      op.stateless = true → WF z → WF m → WF s → WF p → Eqv s z → z'.Perm z → (op.proc z').2 = .ok m' → Eqv p m' → Eqv m' m →
      LiftInv nds ops m o → LiftInv (⟨.integ s, b1⟩ :: ⟨op, b2⟩ :: ⟨.diff p, b3⟩ :: nds) (op :: ops) z o

theorem LiftInv.wf_out {nds : List (Node D J)} {ops : List (Op D J)} {z o : ZSet D} (h : LiftInv nds ops z o) : WF o := by
  induction h with
  | nil _ h _ => exact h
  | plain _ _ _ _ _ _ _ ih => exact ih
  | lifted _ _ _ _ _ _ _ _ _ _ _ ih => exact ih

theorem LiftInv.start (c : List (Node D J)) (hc : ∀ nd ∈ c, nd.op.stateless = true ∧ nd.lifted = false) : LiftInv (lift c) (c.map Node.op) [] [] := by
  induction c with
  | nil => exact .nil WF.nil WF.nil (Eqv.refl _)
  | cons nd t ih =>
    have ih := ih (fun x hx => hc x (List.mem_cons_of_mem _ hx))
    obtain ⟨hs, hl⟩ := hc nd (by simp)
    obtain ⟨op, l⟩ := nd
    simp only at hs hl
    subst hl
    show LiftInv (((if op.isNonLinear && !false then [⟨Op.newIntegrator, false⟩, ⟨op, true⟩, ⟨Op.newDifferentiator, false⟩] else [⟨op, false⟩]) : List (Node D J)) ++ lift t) (op :: t.map Node.op) [] []
    cases hn : op.isNonLinear with
    | true => exact .lifted hs WF.nil WF.nil WF.nil WF.nil (Eqv.refl _) (List.Perm.refl _) (Op.stateless_empty hs) (Eqv.refl _) (Eqv.refl _) ih
    | false => exact .plain (Op.additive_of hs hn) (Op.stateless_wf hs) WF.nil WF.nil (Op.stateless_empty hs) (Eqv.refl _) ih

theorem LiftInv.once {nds : List (Node D J)} {ops : List (Op D J)} {z o w : ZSet D} (h : LiftInv nds ops z o) (hw : WF w) (he : Eqv w z) :
    ∃ m, Once ops w m ∧ m.Perm o := by
  induction h generalizing w with
  | nil hz ho e => exact ⟨w, .nil, perm_of_eqv hw ho (he.trans e)⟩
  | plain ha hs hz hm h1 h2 _ ih =>
    obtain ⟨r, hr, hre⟩ := ha.eqv hz hw he.symm h1
    obtain ⟨m, h3, h4⟩ := ih ((Op.proc_wf hs hw).2 _ hr) (hre.trans h2)
    exact ⟨m, .cons (List.Perm.refl _) hr h3, h4⟩
  | lifted hs hz hm _ _ _ h2 h3 _ h5 _ ih =>
    obtain ⟨m, h6, h7⟩ := ih ((Op.proc_wf (Op.stateless_wf hs) (hz.perm h2.symm)).2 _ h3) h5
    exact ⟨m, .cons (h2.trans (perm_of_eqv hz hw he.symm)) h3 h6, h7⟩

theorem LiftInv.step {nds : List (Node D J)} {ops : List (Op D J)} {z o : ZSet D} (h : LiftInv nds ops z o) {σ : Order D} (hσ : σ.Valid) {i : Nat}
    {δ out : ZSet D} {nds' : List (Node D J)} (hδ : WF δ) (hrun : runChain σ i nds δ = (nds', .ok out)) : WF out ∧ LiftInv nds' ops (z.add δ) (o.add out) := by
  induction h generalizing i δ nds' with
  | nil hz ho he =>
    simp only [runChain, Prod.mk.injEq, Except.ok.injEq] at hrun
    obtain ⟨rfl, rfl⟩ := hrun
    exact ⟨hδ, .nil (hz.add _) (ho.add _) (add_eqv hz ho hδ hδ he (Eqv.refl _))⟩
  | @plain op b nds ops z m' m o ha hs hz hm h1 he _ ih =>
    obtain ⟨hσw, hσe⟩ := order_eqv hσ i hδ
    rw [runChain_cons] at hrun
    have hk := ha.keeps (σ i δ)
    cases hp : op.proc (σ i δ) with
    | mk o' r =>
    rw [hp] at hk hrun
    simp only at hk
    subst hk
    cases r with
    | error e => simp at hrun
    | ok r =>
      simp only [Prod.mk.injEq] at hrun
      obtain ⟨rfl, h2⟩ := hrun
      have hr : (o'.proc (σ i δ)).2 = .ok r := by rw [hp]
      have hrw := (Op.proc_wf hs hσw).2 _ hr
      obtain ⟨hwo, hci⟩ := ih hrw (nds' := (runChain σ (i + 1) nds r).1) (by rw [← h2])
      refine ⟨hwo, ?_⟩
      obtain ⟨t, ht, hte⟩ := ha.add hz hσw h1 hr
      obtain ⟨t', ht', hte'⟩ := ha.eqv (hz.add (σ i δ)) (hz.add δ) (add_eqv hz hz hσw hδ (Eqv.refl _) hσe) ht
      refine .plain (m := m.add r) ha hs (hz.add _) (hm.add _) ht' ?_ hci
      intro d
      rw [hte' d, hte d, get_add hm hrw, he d]
  | @lifted op b1 b2 b3 nds ops s p z z' m' m o hst hz hm hs hp h1 h2 h3 h4 h5 _ ih =>
    obtain ⟨hσw, hσe⟩ := order_eqv hσ i hδ
    have hs1 : WF (s.add (σ i δ)) := hs.add _
    obtain ⟨hτw, hτe⟩ := order_eqv hσ (i + 1) hs1
    have hk := Op.stateless_keeps hst (σ (i + 1) (s.add (σ i δ)))
    cases hg : op.proc (σ (i + 1) (s.add (σ i δ))) with
    | mk o' res =>
    rw [hg] at hk
    simp only at hk
    subst hk
    cases res with
    | error e =>
      have : (runChain σ i (⟨.integ s, b1⟩ :: ⟨o', b2⟩ :: ⟨.diff p, b3⟩ :: nds) δ).2 = .error e := by
        rw [runChain_cons]
        simp only [Op.proc]
        rw [runChain_cons]
        simp only [hg]
      rw [hrun] at this
      simp at this
    | ok mm =>
      have hgo : (o'.proc (σ (i + 1) (s.add (σ i δ)))).2 = .ok mm := by rw [hg]
      have hmm := (Op.proc_wf (Op.stateless_wf hst) hτw).2 _ hgo
      obtain ⟨hρw, hρe⟩ := order_eqv hσ (i + 1 + 1) hmm
      cases hrest : runChain σ (i + 1 + 1 + 1) nds ((σ (i + 1 + 1) mm).sub p) with
      | mk nds'' res =>
      have : runChain σ i (⟨.integ s, b1⟩ :: ⟨o', b2⟩ :: ⟨.diff p, b3⟩ :: nds) δ =
          (⟨.integ (s.add (σ i δ)), b1⟩ :: ⟨o', b2⟩ :: ⟨.diff (σ (i + 1 + 1) mm), b3⟩ :: nds'', res) := by
        rw [runChain_cons]
        simp only [Op.proc]
        rw [runChain_cons]
        simp only [hg]
        rw [runChain_cons]
        simp only [Op.proc, hrest]
      rw [this] at hrun
      simp only [Prod.mk.injEq] at hrun
      obtain ⟨rfl, rfl⟩ := hrun
      have hwd : WF ((σ (i + 1 + 1) mm).sub p) := hρw.sub _
      obtain ⟨hwo, hci⟩ := ih hwd hrest
      refine ⟨hwo, ?_⟩
      have hse : Eqv (s.add (σ i δ)) (z.add δ) := add_eqv hs hz hσw hδ h1 hσe
      refine .lifted (m := m.add ((σ (i + 1 + 1) mm).sub p)) hst (hz.add _) (hm.add _) hs1 hρw hse
        ((hσ (i + 1) _).trans (perm_of_eqv hs1 (hz.add _) hse)) hgo hρe ?_ hci
      intro d
      rw [get_add hm hwd, get_sub hρw hp, hρe d, h4 d, h5 d]; omega

theorem LiftInv.runs {nds : List (Node D J)} {ops : List (Op D J)} {z o : ZSet D} (hz : WF z) (h : LiftInv nds ops z o) (hist : List (Order D × ZSet D))
    (hσ : ∀ e ∈ hist, e.1.Valid ∧ WF e.2) (outs : List (ZSet D)) (hr : (Dctl.runs (fun c e => runChain e.1 1 c e.2) nds hist).2 = outs.map Except.ok) :
    ∃ nds' z' o', WF z' ∧ LiftInv nds' ops z' o' ∧ (∀ d, get z' d = get z d + (hist.map (fun e => get e.2 d)).sum) ∧
      ∀ d, get o' d = get o d + (outs.map (fun y => get y d)).sum := by
  induction hist generalizing nds z o outs with
  | nil =>
    cases outs with
    | nil => exact ⟨nds, z, o, hz, h, by simp, by simp⟩
    | cons _ _ => simp [Dctl.runs] at hr
  | cons e t ih =>
    obtain ⟨hv, hw⟩ := hσ e (by simp)
    cases outs with
    | nil => simp [Dctl.runs] at hr
    | cons out outs =>
      simp only [Dctl.runs, List.map_cons, List.cons.injEq] at hr
      obtain ⟨hwo, hi⟩ := h.step hv (i := 1) (out := out) (nds' := (runChain e.1 1 nds e.2).1) hw (by rw [← hr.1])
      obtain ⟨nds', z', o', h1, h2, h3, h4⟩ := ih (hz.add _) hi (fun x hx => hσ x (List.mem_cons_of_mem _ hx)) outs hr.2
      refine ⟨nds', z', o', h1, h2, fun d => ?_, fun d => ?_⟩
      · rw [h3, get_add hz hw]; simp; omega
      · rw [h4, get_add h.wf_out hwo]; simp; omega

end Dctl
