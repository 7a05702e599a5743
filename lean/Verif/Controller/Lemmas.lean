import Verif.Controller.Reconcile
import Verif.Pipeline.RunLemmas
/-! Helper lemmas about controllers. -/
set_option autoImplicit false
set_option linter.unusedSectionVars false
namespace Dctl
variable {D J : Type} [DecidableEq D] [DecidableEq J]
open ZSet

theorem writeAll_eq (O : ObjOps D) (fails : Nat → Bool) (T : Target D) (ws : List (Delta D)) :
    (writeAll O fails T ws).1 = Target.writes O T (ws.take (writeAll O fails T ws).2.1) ∧
    ((writeAll O fails T ws).2.2 = true ↔ (writeAll O fails T ws).2.1 = ws.length) ∧
    (writeAll O fails T ws).2.1 ≤ ws.length := by
  induction ws generalizing fails T with
  | nil => simp [writeAll, Target.writes]
  | cons w ws ih =>
    unfold writeAll
    by_cases h : fails 0 = true
    · simp [h, Target.writes]
    · obtain ⟨h1, h2, h3⟩ := ih (fun i => fails (i + 1)) (Target.write O T w)
      rcases hw : writeAll O (fun i => fails (i + 1)) (Target.write O T w) ws with ⟨T', n, ok⟩
      rw [hw] at h1 h2 h3
      simp only at h1 h2 h3
      simp only [h]
      refine ⟨by simp [h1, Target.writes], ?_, ?_⟩
      · simp only [Bool.false_eq_true, if_false, h2, List.length_cons]; omega
      · simp only [Bool.false_eq_true, if_false, List.length_cons]; omega

theorem writeAll_nofail (O : ObjOps D) {fails : Nat → Bool} (h : ∀ i, fails i = false) (T : Target D) (ws : List (Delta D)) :
    (writeAll O fails T ws).2.1 = ws.length := by
  induction ws generalizing fails T with
  | nil => rfl
  | cons w ws ih =>
    unfold writeAll
    have := ih (fails := fun i => fails (i + 1)) (fun i => h (i + 1)) (Target.write O T w)
    rcases hw : writeAll O (fun i => fails (i + 1)) (Target.write O T w) ws with ⟨T', n, ok⟩
    rw [hw] at this
    simp only at this
    simp [h 0, this]

theorem Target.writes_append (O : ObjOps D) (T : Target D) (a b : List (Delta D)) :
    Target.writes O T (a ++ b) = Target.writes O (Target.writes O T a) b := by
  simp [Target.writes]

/-- An evaluation changes the target record exactly by the writes it returns. -/
theorem evaluate_record {O : ObjOps D} {ω : EvalOrder D} (hω : ω.Valid) {p : Pipe D J} (h : AMap.WF p.tgt) (δ : Delta D) :
    AMap.WF (p.evaluate O ω δ).1.tgt ∧
    match (p.evaluate O ω δ).2 with
    | .ok ws => (fun k => (p.evaluate O ω δ).1.tgt.get k) = Target.writes O (fun k => p.tgt.get k) ws ∧
        ∃ ds, reconcile O ω.recon p.tgt ds = .ok ((p.evaluate O ω δ).1.tgt, ws)
    | .error _ => (p.evaluate O ω δ).1.tgt = p.tgt := by
  cases hev : p.evaluate O ω δ with
  | mk p' r =>
  cases r with
  | ok ws =>
    obtain ⟨src', z, g', r, ds, tgt', h1, h2, h3, h4, rfl⟩ := evaluate_ok hev
    obtain ⟨a, b⟩ := (reconcile_spec hω.recon h4).2.2.2.1 h
    exact ⟨a, b, ds, h4⟩
  | error e =>
    have : p'.tgt = p.tgt := by
      unfold Pipe.evaluate at hev
      split at hev
      · simp at hev; rw [← hev.1]
      · split at hev
        · simp at hev; rw [← hev.1]
        · split at hev
          · simp at hev; rw [← hev.1]
          · split at hev
            · simp at hev; rw [← hev.1]
            · simp at hev
    simp only
    rw [this]
    exact ⟨h, rfl⟩

/-- What a successful Sync did. -/
theorem syncAll_ok {O : ObjOps D} {ω : EvalOrder D} {p p' : Pipe D J} {ws : List (Delta D)}
    (h : p.syncAll O ω = (p', .ok ws)) :
    ∃ s s' req ds tgt', p.snapshot = .ok s ∧ s.process ω.exec (syncInputs O ω p.sources p.src) = (s', .ok req) ∧
      convertZSet O p.target (ω.list (ZSet.sub req (storeZSet O (ω.store p.tgt)))) = .ok ds ∧
      reconcile O ω.recon p.tgt ds = .ok (tgt', ws) ∧ p' = { p with snap := some s', tgt := tgt' } := by
  unfold Pipe.syncAll at h
  split at h
  · simp at h
  · rename_i s hs
    split at h
    · simp at h
    · rename_i s' req hp
      split at h
      · simp at h
      · rename_i ds hd
        split at h
        · simp at h
        · rename_i tgt' ws' hr
          simp only [Prod.mk.injEq, Except.ok.injEq] at h
          obtain ⟨h1, h2⟩ := h
          subst h2
          exact ⟨s, s', req, ds, tgt', hs, hp, hd, hr, h1.symm⟩

theorem syncAll_record {O : ObjOps D} {ω : EvalOrder D} (hω : ω.Valid) {p : Pipe D J} (h : AMap.WF p.tgt) :
    AMap.WF (p.syncAll O ω).1.tgt ∧
    match (p.syncAll O ω).2 with
    | .ok ws => (fun k => (p.syncAll O ω).1.tgt.get k) = Target.writes O (fun k => p.tgt.get k) ws ∧
        ∃ ds, reconcile O ω.recon p.tgt ds = .ok ((p.syncAll O ω).1.tgt, ws)
    | .error _ => (p.syncAll O ω).1.tgt = p.tgt := by
  cases hev : p.syncAll O ω with
  | mk p' r =>
  cases r with
  | ok ws =>
    obtain ⟨s, s', req, ds, tgt', h1, h2, h3, h4, rfl⟩ := syncAll_ok hev
    obtain ⟨a, b⟩ := (reconcile_spec hω.recon h4).2.2.2.1 h
    exact ⟨a, b, ds, h4⟩
  | error e =>
    have : p'.tgt = p.tgt := by
      unfold Pipe.syncAll at hev
      split at hev
      · simp at hev; rw [← hev.1]
      · split at hev
        · simp at hev; rw [← hev.1]
        · split at hev
          · simp at hev; rw [← hev.1]
          · split at hev
            · simp at hev; rw [← hev.1]
            · simp at hev
    simp only
    rw [this]
    exact ⟨h, rfl⟩

end Dctl
