import Verif.Controller.SyncLemmas
import Verif.Json.ObjectLemmas
import Verif.Props.Patch
/-!
# Lemmas for the composition of pipelines, JSON objects and target writes
-/
set_option autoImplicit false
set_option linter.unusedSectionVars false
namespace Dctl
variable {D J : Type} [DecidableEq D] [DecidableEq J]

theorem reconcile_enforced {O : ObjOps D} (L : O.Lawful) {t : GVK} {ρ : RecOrder D} (hρ : ρ.Valid) {tgt tgt' : Store D}
    {zl : ZSet D} {ds ws : List (Delta D)} (hc : convertZSet O t zl = .ok ds) (hr : reconcile O ρ tgt ds = .ok (tgt', ws)) :
    ∀ w ∈ ws, (w.type = .upserted ∨ w.type = .deleted) ∧ O.enforce t w.obj = .ok w.obj := by
  obtain ⟨_, c2⟩ := convertZSet_spec hc
  obtain ⟨_, r2, _, _, r5⟩ := reconcile_spec hρ hr
  intro w hw
  refine ⟨?_, ?_⟩
  · obtain ⟨dels, ups, rfl, h1, h2⟩ := r2
    rcases List.mem_append.mp hw with h | h
    · exact .inr (h1 w h)
    · exact .inl (h2 w h)
  rw [r5] at hw
  have hmem : ∃ ty, w.obj ∈ objsOf O ty (O.key w.obj) ds := by
    unfold writeOf at hw
    split at hw
    · rename_i a ha _
      simp at hw; rw [← hw] at ha ⊢
      exact ⟨_, List.mem_of_getLast? ha⟩
    · rename_i d _ hd
      split at hw
      · simp at hw; rw [← hw] at hd ⊢
        exact ⟨_, List.mem_of_head? hd⟩
      · simp at hw
    · rename_i a d ha hd
      split at hw
      · simp at hw; rw [← hw] at ha ⊢
        exact ⟨_, List.mem_of_getLast? ha⟩
      · simp at hw
    · simp at hw
  obtain ⟨ty, hmem⟩ := hmem
  obtain ⟨hm, _⟩ := mem_objsOf.mp hmem
  obtain ⟨p, _, he, _, _⟩ := (c2 _).mp hm
  exact L.enforce_idem _ _ _ he

theorem step_target (O : ObjOps D) (p : Pipe D J) (e : EvalOrder D × Option (Delta D)) : (p.step O e).1.target = p.target := by
  obtain ⟨ω, δ⟩ := e
  cases δ with
  | none =>
    simp only [Pipe.step, Pipe.syncAll]
    repeat' split
    all_goals rfl
  | some δ =>
    simp only [Pipe.step, Pipe.evaluate]
    repeat' split
    all_goals rfl

theorem step_enforced {O : ObjOps D} (L : O.Lawful) (p : Pipe D J) (e : EvalOrder D × Option (Delta D)) (he : e.1.Valid) {ws : List (Delta D)}
    (h : (p.step O e).2 = .ok ws) : ∀ w ∈ ws, (w.type = .upserted ∨ w.type = .deleted) ∧ O.enforce p.target w.obj = .ok w.obj := by
  obtain ⟨ω, δ⟩ := e
  cases δ with
  | none =>
    simp only [Pipe.step, Pipe.syncAll] at h
    repeat' split at h
    all_goals simp only [reduceCtorEq, Except.ok.injEq] at h
    subst h
    rename_i hc _ _ _ hr
    exact reconcile_enforced L he.recon hc hr
  | some δ =>
    simp only [Pipe.step, Pipe.evaluate] at h
    repeat' split at h
    all_goals simp only [reduceCtorEq, Except.ok.injEq] at h
    subst h
    rename_i hc _ _ _ hr
    exact reconcile_enforced L he.recon hc hr

theorem runs_enforced {O : ObjOps D} (L : O.Lawful) (p : Pipe D J) (hist : List (EvalOrder D × Option (Delta D))) (hω : ∀ e ∈ hist, e.1.Valid) :
    ∀ w ∈ emitted (runs (Pipe.step O) p hist).2, (w.type = .upserted ∨ w.type = .deleted) ∧ O.enforce p.target w.obj = .ok w.obj := by
  induction hist generalizing p with
  | nil => simp [runs, emitted]
  | cons e t ih =>
    have ht := step_target O p e
    have ih := ih (p.step O e).1 (fun x hx => hω x (List.mem_cons_of_mem _ hx))
    rw [ht] at ih
    have h1 := fun ws => step_enforced L p e (hω e (by simp)) (ws := ws)
    simp only [runs, emitted, List.flatMap_cons, List.mem_append]
    rintro w (hw | hw)
    · cases hr : (p.step O e).2 with
      | error x => rw [hr] at hw; simp at hw
      | ok ws => rw [hr] at hw; exact h1 ws hr w hw
    · exact ih w hw

theorem updaterMutate_canon {t : GVK} {new obj : SMap Json} (hn : (Json.map new).Canon) (ho : (Json.map obj).Canon) :
    (Json.map (updaterMutate t new obj)).Canon :=
  restore_canon (mergeStrings_canon (mergeStrings_canon (upd_content_canon hn ho)))

theorem metadata_of_name {m : SMap Json} (h : (objKey m).2 ≠ "") : ∃ x, SMap.get m "metadata" = some (.map x) := by
  simp only [objKey, nestedString] at h
  rw [nested_cons] at h
  revert h
  cases hm : SMap.get m "metadata" with
  | none => simp
  | some v => cases v <;> simp [Json.at, Json.field]

end Dctl
