import Verif.Props.Pipeline
/-!
# C22–C24: controllers: failing evaluations, failing writes, concurrent sources

The controller model is in `Verif/Controller/Reconcile.lean`.
-/
set_option autoImplicit false
namespace Dctl
variable {D J : Type} [DecidableEq D] [DecidableEq J]
open ZSet

/-! ### C22 -/

/-- A projection that fails on pods with value 5 (a type error in an expression, say). -/
def exFail : List (PipeOp ExObj Nat) :=
  [.project (fun x => if x.val = 5 then .error "cannot evaluate" else .ok [{ x with kind := "" }])]

/-- C22 fails: a pod on which the projection fails is later updated to one on which it does not. The update fails, too (it retracts the
old version, which makes the projection fail again), and the target never gets the object, although the pipeline computes it from the
live sources: on a fresh pipeline the update alone, or a Sync, produces it. -/
theorem C22_stuck :
    ((runs (Pipe.step exOps) (newPipe [podK] exFail) [(ω0, some (pod .added "a" 5)), (ω0, some (pod .updated "a" 6))]).2.map
        (fun r => r.toOption)) = [none, none] ∧
    LiveAs exOps [pod .added "a" 5, pod .updated "a" 6] podK ("default", "a") ⟨"Pod", "a", false, 6⟩ ∧
    ((newPipe [podK] exFail).step exOps (ω0, some (pod .updated "a" 6))).2 = .ok [view .upserted "a" 6] ∧
    ((runs (Pipe.step exOps) (newPipe [podK] exFail) [(ω0, some (pod .added "a" 5)), (ω0, some (pod .updated "a" 6))]).1.step exOps
      (ω0, none)).2 = .ok [view .upserted "a" 6] :=
  ⟨rfl, by rw [liveAs_iff_src exOps_lawful]; rfl, rfl, rfl⟩

/-- C22 (part): an event that is rejected before it reaches the executor (a delete of an unknown object, a sync event) leaves the
whole pipeline untouched, so later events are processed as if it had not been delivered. -/
theorem C22_rejected_event_partial {O : ObjOps D} {ω : EvalOrder D} {p : Pipe D J} {δ : Delta D}
    (h : (δ.type = .deleted ∧ (p.src (O.gvk δ.obj)).get (O.key δ.obj) = none) ∨ δ.type = .sync) :
    ∃ e, p.evaluate O ω δ = (p, .error e) := by
  have : ∃ e, convertDelta O p.src δ = .error e := by
    unfold convertDelta
    rcases h with ⟨h1, h2⟩ | h
    · simp [h1, h2, DeltaType.isUpsert]
    · simp [h, DeltaType.isUpsert]
  obtain ⟨e, he⟩ := this
  exact ⟨e, by unfold Pipe.evaluate; rw [he]⟩

/-- C22 (part): after any history with any failures a successful Sync brings the target record to what the pipeline computes from the
live sources, as if all events had been applied. Missing: incremental recovery without Sync (see `C22_stuck`) and pipelines
without a snapshot form. -/
theorem C22_sync_recovers_partial {O : ObjOps D} (L : O.Lawful) {sources : List GVK} {target : GVK} {cfg : List (PipeOp D J)}
    {p0 p' : Pipe D J} (hn : (sources.map GVK.kind).Nodup) (hnew : Pipe.new target sources cfg = .ok p0)
    {hist : List (EvalOrder D × Option (Delta D))} (hω : ∀ e ∈ hist, e.1.Valid)
    (hone : ∀ ins o, LiveInputs O (hist.filterMap Prod.snd) sources ins → PipelineSpec cfg ins o → OnePerName O target o)
    {ω : EvalOrder D} (hω' : ω.Valid) {ws : List (Delta D)}
    (hs : (runs (Pipe.step O) p0 hist).1.step O (ω, none) = (p', .ok ws)) :
    ∃ ins o, LiveInputs O (hist.filterMap Prod.snd) sources ins ∧ PipelineSpec cfg ins o ∧
      HoldsUpTo O.removeUID O target o (fun k => p'.tgt.get k) := by
  have hT := C20_record_good L hnew hω
  obtain ⟨⟨ins, o, h1, h2, h3, _⟩, _, _⟩ := C20_sync L hn hnew hω hone (T := (runs (Pipe.step O) p0 hist).1.tgt) hT hω' (ws := ws) (p' := p') hs
  exact ⟨ins, o, h1, h2, h3⟩

/-! ### C23 -/

/-- Start of a controller: a new pipeline and an empty target. -/
def exCtl : Ctl ExObj Nat := { pipe := newPipe [podK] exSel, tgt := fun _ => none }

/-- Requests with no failing write, and with the first write failing. -/
def okReq (δ : Delta ExObj) : EvalOrder ExObj × (Nat → Bool) × Req ExObj := (ω0, fun _ => false, .event δ)
def badReq (δ : Delta ExObj) : EvalOrder ExObj × (Nat → Bool) × Req ExObj := (ω0, fun _ => true, .event δ)

/-- The controller after a pod was added and its update was computed but not written. -/
def exLost : Ctl ExObj Nat := (runs (Ctl.step exOps id) exCtl [okReq (pod .added "a" 2), badReq (pod .updated "a" 3)]).1

/-- C23 fails for updates: the write of an update fails, the event is retried any number of times without further failure,
and the target still holds the old object: the retries are suppressed as no-op updates. (Whether the next tick of
a periodic source repairs it: `C102_repaired_partial`, `C102_left`.) -/
theorem C23_update_lost (n : Nat) :
    ((runs (Ctl.step exOps id) exLost (List.replicate n (okReq (pod .updated "a" 3)))).1.tgt ("default", "a") = some ⟨"View", "a", false, 20⟩) ∧
    (runs (Ctl.step exOps id) exLost (List.replicate n (okReq (pod .updated "a" 3)))).1.pipe.tgt.get ("default", "a") = some ⟨"View", "a", false, 30⟩ ∧
    ∀ r ∈ (runs (Ctl.step exOps id) exLost (List.replicate n (okReq (pod .updated "a" 3)))).2, r.ok = true := by
  have hfix : Ctl.step exOps id exLost (okReq (pod .updated "a" 3)) = (exLost, { writes := [], done := 0, ok := true }) := rfl
  have h : (runs (Ctl.step exOps id) exLost (List.replicate n (okReq (pod .updated "a" 3)))).1 = exLost ∧
      ∀ r ∈ (runs (Ctl.step exOps id) exLost (List.replicate n (okReq (pod .updated "a" 3)))).2, r.ok = true := by
    induction n with
    | zero => exact ⟨rfl, by simp [runs]⟩
    | succ n ih =>
      simp only [List.replicate_succ, runs, hfix]
      refine ⟨ih.1, ?_⟩
      intro r hr
      rcases List.mem_cons.mp hr with rfl | hr
      · rfl
      · exact ih.2 r hr
  rw [h.1]
  exact ⟨rfl, rfl, h.2⟩

/-- The controller after a pod was deleted but the delete was not written. -/
def exLostDel : Ctl ExObj Nat := (runs (Ctl.step exOps id) exCtl [okReq (pod .added "a" 2), badReq (pod .deleted "a" 2)]).1

/-- C23 fails for deletes: every retry is rejected (the object is already gone from the source record), the target object stays. -/
theorem C23_delete_lost (n : Nat) :
    ((runs (Ctl.step exOps id) exLostDel (List.replicate n (okReq (pod .deleted "a" 2)))).1.tgt ("default", "a") = some ⟨"View", "a", false, 20⟩) ∧
    (runs (Ctl.step exOps id) exLostDel (List.replicate n (okReq (pod .deleted "a" 2)))).1.pipe.tgt.get ("default", "a") = none ∧
    ∀ r ∈ (runs (Ctl.step exOps id) exLostDel (List.replicate n (okReq (pod .deleted "a" 2)))).2, r.ok = false := by
  have hfix : Ctl.step exOps id exLostDel (okReq (pod .deleted "a" 2)) = (exLostDel, { writes := [], done := 0, ok := false }) := rfl
  have h : (runs (Ctl.step exOps id) exLostDel (List.replicate n (okReq (pod .deleted "a" 2)))).1 = exLostDel ∧
      ∀ r ∈ (runs (Ctl.step exOps id) exLostDel (List.replicate n (okReq (pod .deleted "a" 2)))).2, r.ok = false := by
    induction n with
    | zero => exact ⟨rfl, by simp [runs]⟩
    | succ n ih =>
      simp only [List.replicate_succ, runs, hfix]
      refine ⟨ih.1, ?_⟩
      intro r hr
      rcases List.mem_cons.mp hr with rfl | hr
      · rfl
      · exact ih.2 r hr
  rw [h.1]
  exact ⟨rfl, rfl, h.2⟩

/-- C23: a stale retry reverts the target: the update to 3 is written only on retry, after the update to 4 was processed; the
controller goes back to 3 although the live object is at 4. -/
theorem C23_stale_retry :
    ((runs (Ctl.step exOps id) exCtl [okReq (pod .added "a" 2), badReq (pod .updated "a" 3), okReq (pod .updated "a" 4), okReq (pod .updated "a" 3)]).1.tgt
      ("default", "a") = some ⟨"View", "a", false, 30⟩) := rfl

/-- Writes computed and writes performed in a list of reconciliations. -/
def computed (rs : List (RecRes D)) : List (Delta D) := rs.flatMap RecRes.writes
def performed (rs : List (RecRes D)) : List (Delta D) := rs.flatMap (fun r => r.writes.take r.done)

theorem ctlStep_record {O : ObjOps D} {dec : D → D} (c : Ctl D J) (e : EvalOrder D × (Nat → Bool) × Req D) (hω : e.1.Valid)
    (h : AMap.WF c.pipe.tgt) :
    AMap.WF (c.step O dec e).1.pipe.tgt ∧
    (fun k => (c.step O dec e).1.pipe.tgt.get k) = Target.writes O (fun k => c.pipe.tgt.get k) (c.step O dec e).2.writes ∧
    (c.step O dec e).1.tgt = Target.writes O c.tgt ((c.step O dec e).2.writes.take (c.step O dec e).2.done) ∧
    ((c.step O dec e).2.writes.map (fun w => O.key w.obj)).Nodup ∧
    ((∀ i, e.2.1 i = false) → (c.step O dec e).2.done = (c.step O dec e).2.writes.length) := by
  obtain ⟨ω, fails, req⟩ := e
  have key : ∀ (p' : Pipe D J) (res : Except Err (List (Delta D))), AMap.WF p'.tgt →
      (match res with
        | .ok ws => (fun k => p'.tgt.get k) = Target.writes O (fun k => c.pipe.tgt.get k) ws ∧ ∃ ds, reconcile O ω.recon c.pipe.tgt ds = .ok (p'.tgt, ws)
        | .error _ => p'.tgt = c.pipe.tgt) →
      ∀ (R : Ctl D J × RecRes D), R = (match (p', res) with
        | (p', .error _) => ({ c with pipe := p' }, { ok := false })
        | (p', .ok ws) =>
          ({ pipe := p', tgt := (writeAll O fails c.tgt ws).1 }, { writes := ws, done := (writeAll O fails c.tgt ws).2.1, ok := (writeAll O fails c.tgt ws).2.2 })) →
      AMap.WF R.1.pipe.tgt ∧ (fun k => R.1.pipe.tgt.get k) = Target.writes O (fun k => c.pipe.tgt.get k) R.2.writes ∧
      R.1.tgt = Target.writes O c.tgt (R.2.writes.take R.2.done) ∧ (R.2.writes.map (fun w => O.key w.obj)).Nodup ∧
      ((∀ i, fails i = false) → R.2.done = R.2.writes.length) := by
    intro p' res h1 h2 R hR
    subst hR
    cases res with
    | error er => simp only at h2 ⊢; rw [h2]; exact ⟨h, rfl, rfl, by simp, fun _ => rfl⟩
    | ok ws =>
      simp only at h2 ⊢
      obtain ⟨w1, w2, w3⟩ := writeAll_eq O fails c.tgt ws
      obtain ⟨a, ds, hd⟩ := h2
      exact ⟨h1, a, w1, (reconcile_spec hω.recon hd).1, fun hk => writeAll_nofail O hk _ _⟩
  cases req with
  | tick =>
    obtain ⟨h1, h2⟩ := syncAll_record (O := O) (ω := ω) hω h
    refine key (c.pipe.syncAll O ω).1 (c.pipe.syncAll O ω).2 h1 h2 _ ?_
    simp only [Ctl.step, Ctl.stateOfTheWorld]
    rcases c.pipe.syncAll O ω with ⟨p', res⟩
    cases res <;> rfl
  | event δ =>
    have hnone : AMap.WF c.pipe.tgt ∧ (fun k => c.pipe.tgt.get k) = Target.writes O (fun k => c.pipe.tgt.get k) [] ∧ c.tgt = Target.writes O c.tgt [] ∧
        (([] : List (Delta D)).map (fun w => O.key w.obj)).Nodup ∧ ((∀ i, fails i = false) → 0 = ([] : List (Delta D)).length) := ⟨h, rfl, rfl, by simp, by simp⟩
    obtain ⟨h1, h2⟩ := evaluate_record (O := O) (ω := ω) hω h ⟨δ.type, dec δ.obj⟩
    have hk := key (c.pipe.evaluate O ω ⟨δ.type, dec δ.obj⟩).1 (c.pipe.evaluate O ω ⟨δ.type, dec δ.obj⟩).2 h1 h2
    have hR : (c.incremental O dec ω fails δ) = (c, { ok := true }) ∨ (c.incremental O dec ω fails δ) =
        (match ((c.pipe.evaluate O ω ⟨δ.type, dec δ.obj⟩).1, (c.pipe.evaluate O ω ⟨δ.type, dec δ.obj⟩).2) with
        | (p', .error _) => ({ c with pipe := p' }, { ok := false })
        | (p', .ok ws) =>
          ({ pipe := p', tgt := (writeAll O fails c.tgt ws).1 }, { writes := ws, done := (writeAll O fails c.tgt ws).2.1, ok := (writeAll O fails c.tgt ws).2.2 })) := by
      unfold Ctl.incremental
      cases ht : δ.type <;> simp only
      · right; rcases c.pipe.evaluate O ω ⟨.added, dec δ.obj⟩ with ⟨p', res⟩; cases res <;> rfl
      · right; rcases c.pipe.evaluate O ω ⟨.deleted, dec δ.obj⟩ with ⟨p', res⟩; cases res <;> rfl
      · right; rcases c.pipe.evaluate O ω ⟨.updated, dec δ.obj⟩ with ⟨p', res⟩; cases res <;> rfl
      · right; rcases c.pipe.evaluate O ω ⟨.replaced, dec δ.obj⟩ with ⟨p', res⟩; cases res <;> rfl
      · left; trivial
      · left; trivial
    show AMap.WF (c.incremental O dec ω fails δ).1.pipe.tgt ∧ _
    rcases hR with hR | hR
    · simp only [Ctl.step, hR]; exact hnone
    · have := hk _ hR
      simpa only [Ctl.step] using this

/-- C23 (part): for any requests, any write failures, any retries: the target is the effect of the writes performed, the pipeline's
record the effect of all writes computed, and for every object whose last computed write was performed (or that was never
written) the target holds what the pipeline has recorded. Missing: an object whose last computed write failed is not written again by
retrying the event, see `C23_update_lost` and `C23_delete_lost`. -/
theorem C23_target_partial {O : ObjOps D} {dec : D → D} {c0 : Ctl D J} (h0 : c0.pipe.tgt = []) (hT : c0.tgt = fun _ => none)
    (reqs : List (EvalOrder D × (Nat → Bool) × Req D)) (hω : ∀ e ∈ reqs, e.1.Valid) :
    let c := (runs (Ctl.step O dec) c0 reqs).1
    let rs := (runs (Ctl.step O dec) c0 reqs).2
    (∀ k, c.tgt k = Target.writes O (fun _ => none) (performed rs) k) ∧
    (∀ k, c.pipe.tgt.get k = Target.writes O (fun _ => none) (computed rs) k) ∧
    (∀ k, (∀ w ∈ computed rs, O.key w.obj ≠ k) → c.tgt k = c.pipe.tgt.get k) ∧
    (∀ k before r after w, rs = before ++ r :: after → w ∈ r.writes.take r.done → O.key w.obj = k →
      (∀ v ∈ computed after, O.key v.obj ≠ k) → c.tgt k = c.pipe.tgt.get k) := by
  have gen : ∀ (reqs : List (EvalOrder D × (Nat → Bool) × Req D)) (c0 : Ctl D J), AMap.WF c0.pipe.tgt → (∀ e ∈ reqs, e.1.Valid) →
      (runs (Ctl.step O dec) c0 reqs).1.tgt = Target.writes O c0.tgt (performed (runs (Ctl.step O dec) c0 reqs).2) ∧
      (fun k => (runs (Ctl.step O dec) c0 reqs).1.pipe.tgt.get k) = Target.writes O (fun k => c0.pipe.tgt.get k) (computed (runs (Ctl.step O dec) c0 reqs).2) ∧
      ∀ r ∈ (runs (Ctl.step O dec) c0 reqs).2, (r.writes.map (fun w => O.key w.obj)).Nodup := by
    intro reqs
    induction reqs with
    | nil => intro c0 _ _; exact ⟨rfl, rfl, by simp [runs]⟩
    | cons e t ih =>
      intro c0 hwf hv
      obtain ⟨s1, s2, s3, s4, s5⟩ := ctlStep_record (O := O) (dec := dec) c0 e (hv e (by simp)) hwf
      obtain ⟨i1, i2, i3⟩ := ih _ s1 (fun x hx => hv x (List.mem_cons_of_mem _ hx))
      simp only [runs, performed, computed, List.flatMap_cons] at i1 i2 i3 ⊢
      refine ⟨?_, ?_, ?_⟩
      · rw [i1, s3, ← Target.writes_append]
      · rw [i2, s2, ← Target.writes_append]
      · intro r hr
        rcases List.mem_cons.mp hr with rfl | hr
        · exact s4
        · exact i3 r hr
  obtain ⟨g1, g2, g3⟩ := gen reqs c0 (by rw [h0]; simp [AMap.WF]) hω
  have g2' : (fun k => (runs (Ctl.step O dec) c0 reqs).1.pipe.tgt.get k) =
      Target.writes O (fun _ => none) (computed (runs (Ctl.step O dec) c0 reqs).2) := by
    rw [g2, h0]; rfl
  rw [hT] at g1
  have skip : ∀ (l : List (Delta D)) (S : Target D) (k : ObjKey), (∀ u ∈ l, O.key u.obj ≠ k) → Target.writes O S l k = S k := by
    intro l
    induction l with
    | nil => intro S k _; rfl
    | cons u l ihl =>
      intro S k hl
      show Target.writes O (Target.write O S u) l k = S k
      rw [ihl _ k (fun x hx => hl x (List.mem_cons_of_mem _ hx))]
      simp [Target.write, hl u (by simp)]
  have sub : ∀ (rs : List (RecRes D)) u, u ∈ performed rs → u ∈ computed rs := by
    intro rs u hu
    simp only [performed, computed, List.mem_flatMap] at hu ⊢
    obtain ⟨r, hr, hu⟩ := hu
    exact ⟨r, hr, List.mem_of_mem_take hu⟩
  refine ⟨fun k => congrFun g1 k, fun k => congrFun g2' k, fun k hk => ?_, ?_⟩
  · rw [g1, congrFun g2' k, skip _ _ k hk, skip _ _ k (fun u hu => hk u (sub _ u hu))]
  · intro k before r after w hrs hw hk hafter
    have hnd := g3 r (by rw [hrs]; simp)
    have hnd' : ((r.writes.take r.done).map (fun w => O.key w.obj)).Nodup := by
      rw [List.map_take]; exact hnd.sublist (List.take_sublist _ _)
    rw [g1, congrFun g2' k, hrs]
    have e1 : performed (before ++ r :: after) = performed before ++ (r.writes.take r.done ++ performed after) := by simp [performed]
    have e2 : computed (before ++ r :: after) = computed before ++ (r.writes ++ computed after) := by simp [computed]
    rw [e1, e2, Target.writes_append, Target.writes_append, Target.writes_append, Target.writes_append,
      skip _ _ k hafter, skip _ _ k (fun u hu => hafter u (sub _ u hu)),
      (Target.writes_get _ hnd' k).1 w hw hk, (Target.writes_get _ hnd k).1 w (List.mem_of_mem_take hw) hk]

/-- C23 (part): if no write fails (evaluations may), the target is what the pipeline has recorded. -/
theorem C23_no_failure_partial {O : ObjOps D} {dec : D → D} {c0 : Ctl D J} (h0 : c0.pipe.tgt = []) (hT : c0.tgt = fun _ => none)
    (reqs : List (EvalOrder D × (Nat → Bool) × Req D)) (hω : ∀ e ∈ reqs, e.1.Valid)
    (hok : ∀ e ∈ reqs, ∀ i, e.2.1 i = false) :
    ∀ k, (runs (Ctl.step O dec) c0 reqs).1.tgt k = (runs (Ctl.step O dec) c0 reqs).1.pipe.tgt.get k := by
  have gen : ∀ (reqs : List (EvalOrder D × (Nat → Bool) × Req D)) (c0 : Ctl D J), AMap.WF c0.pipe.tgt → (∀ e ∈ reqs, e.1.Valid) →
      (∀ e ∈ reqs, ∀ i, e.2.1 i = false) → performed (runs (Ctl.step O dec) c0 reqs).2 = computed (runs (Ctl.step O dec) c0 reqs).2 := by
    intro reqs
    induction reqs with
    | nil => intro c0 _ _ _; rfl
    | cons e t ih =>
      intro c0 hwf hv hf
      obtain ⟨s1, _, _, _, s5⟩ := ctlStep_record (O := O) (dec := dec) c0 e (hv e (by simp)) hwf
      have i1 := ih _ s1 (fun x hx => hv x (List.mem_cons_of_mem _ hx)) (fun x hx => hf x (List.mem_cons_of_mem _ hx))
      simp only [runs, performed, computed, List.flatMap_cons] at i1 ⊢
      rw [i1, s5 (hf e (by simp)), List.take_length]
  obtain ⟨h1, h2, _⟩ := C23_target_partial (O := O) (dec := dec) h0 hT reqs hω
  intro k
  rw [h1 k, h2 k, gen reqs c0 (by rw [h0]; simp [AMap.WF]) hω hok]

/-- A history with a failed write of "a" and a successful one of "b": the target agrees with the record at "b" but not at "a". -/
example :
    let c := (runs (Ctl.step exOps id) exCtl [badReq (pod .added "a" 2), okReq (pod .added "b" 3)]).1
    c.tgt ("default", "b") = c.pipe.tgt.get ("default", "b") ∧ c.tgt ("default", "a") ≠ c.pipe.tgt.get ("default", "a") := by
  refine ⟨?_, by decide⟩
  exact (C23_target_partial (O := exOps) (dec := id) (c0 := exCtl) rfl rfl [badReq (pod .added "a" 2), okReq (pod .added "b" 3)]
    (by intro e he; simp at he; rcases he with rfl | rfl <;> exact ω0_valid)).2.2.2 _
    [{ writes := [view .upserted "a" 20], done := 0, ok := false }] { writes := [view .upserted "b" 30], done := 1, ok := true } []
    (view .upserted "b" 30) rfl (by simp) rfl (by simp [computed])

example : (runs (Ctl.step exOps id) exCtl [okReq (pod .added "a" 2), okReq (pod .updated "a" 3)]).1.tgt ("default", "a") =
    some ⟨"View", "a", false, 30⟩ := rfl

/-! ### C62: what the pipeline is given -/

/-- The events as the pipeline of a controller gets them. -/
def decoded (dec : D → D) (reqs : List (EvalOrder D × (Nat → Bool) × Delta D)) : List (EvalOrder D × Delta D) :=
  reqs.map (fun e => (e.1, ⟨e.2.2.type, dec e.2.2.obj⟩))

theorem ctl_decoded {O : ObjOps D} {dec : D → D} : ∀ (reqs : List (EvalOrder D × (Nat → Bool) × Delta D)) (c : Ctl D J),
    (∀ e ∈ reqs, e.2.2.type ≠ .upserted ∧ e.2.2.type ≠ .sync) →
    (∀ r ∈ (runs (Ctl.step O dec) c (reqs.map (fun e => (e.1, e.2.1, Req.event e.2.2)))).2, r.ok = true) →
    ∃ wss : List (List (Delta D)), (runs (fun p (e : EvalOrder D × Delta D) => p.evaluate O e.1 e.2) c.pipe (decoded dec reqs)).2 = wss.map Except.ok ∧
      (runs (Ctl.step O dec) c (reqs.map (fun e => (e.1, e.2.1, Req.event e.2.2)))).1.tgt = Target.writes O c.tgt wss.flatten
  | [], c, _, _ => ⟨[], rfl, rfl⟩
  | (ω, fails, δ) :: reqs, c, ht, hok => by
    have hstep : Ctl.step O dec c (ω, fails, .event δ) = (match c.pipe.evaluate O ω ⟨δ.type, dec δ.obj⟩ with
        | (p', .error _) => ({ c with pipe := p' }, { ok := false })
        | (p', .ok ws) => ({ pipe := p', tgt := (writeAll O fails c.tgt ws).1 },
            { writes := ws, done := (writeAll O fails c.tgt ws).2.1, ok := (writeAll O fails c.tgt ws).2.2 })) := by
      obtain ⟨h1, h2⟩ := ht (ω, fails, δ) (by simp)
      simp only at h1 h2
      simp only [Ctl.step, Ctl.incremental]
      cases hty : δ.type <;> first | rfl | exact absurd hty h1 | exact absurd hty h2
    simp only [List.map_cons, runs] at hok ⊢
    rw [hstep] at hok ⊢
    cases hev : c.pipe.evaluate O ω ⟨δ.type, dec δ.obj⟩ with
    | mk p' res =>
      rw [hev] at hok
      cases res with
      | error er =>
        have := hok _ (List.mem_cons_self ..)
        cases this
      | ok ws =>
        have h1 := hok _ (List.mem_cons_self ..)
        simp only at h1
        obtain ⟨w1, w2, _⟩ := writeAll_eq O fails c.tgt ws
        rw [w2.mp h1, List.take_length] at w1
        obtain ⟨wss, i1, i2⟩ := ctl_decoded reqs _ (fun e he => ht e (List.mem_cons_of_mem _ he)) (fun r hr => hok r (List.mem_cons_of_mem _ hr))
        refine ⟨ws :: wss, ?_, ?_⟩
        · simp only [decoded, List.map_cons, runs, hev]
          exact congrArg _ i1
        · simp only at i2 ⊢
          rw [i2, w1, List.flatten_cons, Target.writes, Target.writes, Target.writes, List.foldl_append]

/-- **C62** (the pipeline sees decoded objects): a controller that processes watch events, one after the other, all successfully, holds in its target exactly the
objects its pipeline computes from the decoded live objects. Missing: see `C19_view_maintenance_partial`; retries after failures are C23. -/
theorem C62_controller_partial {O : ObjOps D} (L : O.Lawful) (dec : D → D) {sources : List GVK} {target : GVK} {cfg : List (PipeOp D J)} {p0 : Pipe D J}
    (hn : (sources.map GVK.kind).Nodup) (hnew : Pipe.new target sources cfg = .ok p0) (reqs : List (EvalOrder D × (Nat → Bool) × Delta D))
    (hω : ∀ e ∈ reqs, e.1.Valid) (hs : ∀ e ∈ reqs, O.gvk (dec e.2.2.obj) ∈ sources) (ht : ∀ e ∈ reqs, e.2.2.type ≠ .upserted)
    (hw : WatchOk O ((decoded dec reqs).map Prod.snd))
    (hone : ∀ pre, pre <+: (decoded dec reqs).map Prod.snd → ∀ ins o, LiveInputs O pre sources ins → PipelineSpec cfg ins o → OnePerName O target o)
    (hok : ∀ r ∈ (runs (Ctl.step O dec) ⟨p0, fun _ => none⟩ (reqs.map (fun e => (e.1, e.2.1, Req.event e.2.2)))).2, r.ok = true) :
    ∃ ins o, LiveInputs O ((decoded dec reqs).map Prod.snd) sources ins ∧ PipelineSpec cfg ins o ∧
      Holds O target o (runs (Ctl.step O dec) ⟨p0, fun _ => none⟩ (reqs.map (fun e => (e.1, e.2.1, Req.event e.2.2)))).1.tgt := by
  obtain ⟨wss, h1, h2⟩ := ctl_decoded reqs ⟨p0, fun _ => none⟩ (fun e he => ⟨ht e he, by
    have hm : (⟨e.2.2.type, dec e.2.2.obj⟩ : Delta D) ∈ (decoded dec reqs).map Prod.snd := by
      simp only [decoded, List.map_map, List.mem_map, Function.comp_apply]
      exact ⟨e, he, rfl⟩
    obtain ⟨pre, post, hpp⟩ := List.append_of_mem hm
    exact (hw pre _ post hpp).2.2⟩) hok
  obtain ⟨ins, o, h3, h4, h5⟩ := C19_view_maintenance_partial L hn hnew (hist := decoded dec reqs)
    (by intro e he; obtain ⟨e', he', rfl⟩ := List.mem_map.mp he; exact hω e' he')
    (by intro e he; obtain ⟨e', he', rfl⟩ := List.mem_map.mp he; exact hs e' he') hw hone h1
  exact ⟨ins, o, h3, h4, by rw [h2]; exact h5⟩

-- pods whose value is one more when decoded
example : ((runs (Ctl.step exOps (fun d => { d with val := d.val + 1 })) exCtl [okReq (pod .added "a" 2), okReq (pod .updated "a" 3)]).1.tgt ("default", "a") =
    some ⟨"View", "a", false, 40⟩) ∧
    ∀ r ∈ (runs (Ctl.step exOps (fun d => { d with val := d.val + 1 })) exCtl [okReq (pod .added "a" 2), okReq (pod .updated "a" 3)]).2, r.ok = true := by
  refine ⟨rfl, ?_⟩
  intro r hr
  have : (runs (Ctl.step exOps (fun d => { d with val := d.val + 1 })) exCtl [okReq (pod .added "a" 2), okReq (pod .updated "a" 3)]).2.all (·.ok) = true := rfl
  exact List.all_eq_true.mp this r hr

/-! ### C24 -/

/-- A controller joining pods and services, with one worker per source. -/
def exConc : Conc ExObj Nat := { pipe := newPipe [podK, svcK] exJoin, tgt := fun _ => none }

/-- C24 fails: the service worker (1) computes the view for value 1+10, then the pod worker (0) computes it for 2+10; the pod worker
writes first. The pipeline's record says 12, the target stays at 11, with nothing left to be written. -/
theorem C24_reordered_writes :
    let c := [Act.eval 0 ω0 (pod .added "a" 1), .eval 1 ω0 (svc .added "a" 10), .eval 0 ω0 (pod .updated "a" 2), .write 0, .write 1].foldl
      (Conc.step exOps) exConc
    (∀ i, c.pend i = []) ∧ c.pipe.tgt.get ("default", "a") = some ⟨"View", "a", false, 12⟩ ∧ c.tgt ("default", "a") = some ⟨"View", "a", false, 11⟩ := by
  refine ⟨?_, rfl, rfl⟩
  intro i
  match i with
  | 0 => rfl
  | 1 => rfl
  | _ + 2 => rfl

/-- No step computes a write for an object for which another worker has a write it has not performed yet. -/
def ConflictFree (O : ObjOps D) : Conc D J → List (Act D) → Prop
  | _, [] => True
  | c, a :: as =>
    (match a with
     | .eval i _ _ => ∀ w ∈ (c.step O a).pend i, ∀ j, j ≠ i → ∀ v ∈ c.pend j, O.key v.obj ≠ O.key w.obj
     | .write _ => True) ∧ ConflictFree O (c.step O a) as

/-- The record is what the target will be when the pending writes are done. -/
structure ConcInv (O : ObjOps D) (c : Conc D J) : Prop where
  wf : AMap.WF c.pipe.tgt
  nodup : ∀ i, ((c.pend i).map (fun w => O.key w.obj)).Nodup
  apart : ∀ i j, i ≠ j → ∀ w ∈ c.pend i, ∀ v ∈ c.pend j, O.key w.obj ≠ O.key v.obj
  todo : ∀ i, ∀ w ∈ c.pend i, c.pipe.tgt.get (O.key w.obj) = if w.type = .deleted then none else some w.obj
  done : ∀ k, (∀ i, ∀ w ∈ c.pend i, O.key w.obj ≠ k) → c.tgt k = c.pipe.tgt.get k

theorem ConcInv.step {O : ObjOps D} {c : Conc D J} (h : ConcInv O c) (a : Act D)
    (hω : ∀ i ω δ, a = .eval i ω δ → ω.Valid) (hc : ConflictFree O c [a]) : ConcInv O (c.step O a) := by
  cases a with
  | write i =>
    unfold Conc.step
    cases hp : c.pend i with
    | nil => simpa only [hp] using h
    | cons w ws =>
      simp only [hp]
      have hnd := h.nodup i
      rw [hp] at hnd
      simp only [List.map_cons, List.nodup_cons, List.mem_map, not_exists, not_and] at hnd
      have hsub : ∀ j, ∀ v ∈ (if j = i then ws else c.pend j), v ∈ c.pend j := by
        intro j v hv
        split at hv
        · rename_i e; subst e; rw [hp]; exact List.mem_cons_of_mem _ hv
        · exact hv
      refine ⟨h.wf, ?_, ?_, ?_, ?_⟩
      · intro j
        simp only
        split
        · exact hnd.2
        · exact h.nodup j
      · intro j l hjl v hv u hu
        exact h.apart j l hjl v (hsub j v hv) u (hsub l u hu)
      · intro j v hv; exact h.todo j v (hsub j v hv)
      · intro k hk
        simp only [Target.write]
        by_cases e : O.key w.obj = k
        · subst e
          simp only [if_true]
          rw [h.todo i w (by rw [hp]; simp)]
        · simp only [e, if_false]
          apply h.done
          intro j v hv
          by_cases hj : j = i
          · subst hj
            rw [hp] at hv
            rcases List.mem_cons.mp hv with rfl | hv
            · exact e
            · exact hk j v (by simpa using hv)
          · exact hk j v (by simpa [hj] using hv)
  | eval i ω δ =>
    have hcf := hc.1
    simp only at hcf
    unfold Conc.step at hcf ⊢
    by_cases hp : c.pend i = []
    · simp only [hp, if_true] at hcf ⊢
      obtain ⟨r1, r2⟩ := evaluate_record (O := O) (ω := ω) (hω i ω δ rfl) h.wf δ
      rcases he : c.pipe.evaluate O ω δ with ⟨p', res⟩
      rw [he] at r1 r2
      cases res with
      | error er =>
        simp only at r2 ⊢
        exact ⟨r1, h.nodup, h.apart, by simp only [r2]; exact h.todo, by simp only [r2]; exact h.done⟩
      | ok ws =>
        simp only [he] at r2 hcf ⊢
        obtain ⟨r2, ds, hd⟩ := r2
        have hnd := (reconcile_spec (hω i ω δ rfl).recon hd).1
        have hr : ∀ k, p'.tgt.get k = Target.writes O (fun k => c.pipe.tgt.get k) ws k := fun k => congrFun r2 k
        refine ⟨r1, ?_, ?_, ?_, ?_⟩
        · intro j
          simp only
          split
          · exact hnd
          · exact h.nodup j
        · intro j l hjl v hv u hu
          simp only at hv hu
          by_cases hj : j = i
          · subst hj
            have hl : l ≠ j := fun e => hjl e.symm
            simp only [if_true, hl, if_false] at hv hu
            exact fun e => hcf v (by simpa using hv) l hl u hu e.symm
          · by_cases hl : l = i
            · subst hl
              simp only [if_true, hj, if_false] at hv hu
              exact hcf u (by simpa using hu) j hj v hv
            · simp only [hj, hl, if_false] at hv hu
              exact h.apart j l hjl v hv u hu
        · intro j v hv
          simp only at hv
          rw [hr]
          by_cases hj : j = i
          · subst hj
            simp only [if_true] at hv
            exact (Target.writes_get _ hnd _).1 v hv rfl
          · simp only [hj, if_false] at hv
            rw [(Target.writes_get _ hnd _).2 (fun u hu => fun e => hcf u (by simpa using hu) j hj v hv e.symm)]
            exact h.todo j v hv
        · intro k hk
          simp only at hk
          rw [hr, (Target.writes_get _ hnd k).2 (fun u hu => hk i u (by simpa using hu))]
          apply h.done
          intro j v hv
          by_cases hj : j = i
          · subst hj; rw [hp] at hv; simp at hv
          · exact hk j v (by simpa [hj] using hv)
    · simp only [hp, if_false]
      exact h

/-- C24 (part): over every interleaving of any number of workers in which no worker computes a write for an object for which another
worker still has one to perform, whenever nothing is left to be written, the target holds what the pipeline has recorded. Missing: two workers
writing the same object (see `C24_reordered_writes`). -/
theorem C24_conflict_free_partial {O : ObjOps D} {c0 : Conc D J} (h0 : c0.pipe.tgt = []) (hT : c0.tgt = fun _ => none)
    (hp : ∀ i, c0.pend i = []) (acts : List (Act D)) (hω : ∀ i ω δ, Act.eval i ω δ ∈ acts → ω.Valid) (hc : ConflictFree O c0 acts)
    (hq : ∀ i, (acts.foldl (Conc.step O) c0).pend i = []) :
    ∀ k, (acts.foldl (Conc.step O) c0).tgt k = (acts.foldl (Conc.step O) c0).pipe.tgt.get k := by
  have gen : ∀ (acts : List (Act D)) (c : Conc D J), ConcInv O c → (∀ i ω δ, Act.eval i ω δ ∈ acts → ω.Valid) → ConflictFree O c acts →
      ConcInv O (acts.foldl (Conc.step O) c) := by
    intro acts
    induction acts with
    | nil => intro c h _ _; exact h
    | cons a t ih =>
      intro c h hv hc
      exact ih _ (h.step a (fun i ω δ e => hv i ω δ (by rw [e]; simp)) ⟨hc.1, trivial⟩) (fun i ω δ hm => hv i ω δ (List.mem_cons_of_mem _ hm)) hc.2
  have hi : ConcInv O c0 := ⟨by rw [h0]; simp [AMap.WF], by simp [hp], by simp [hp], by simp [hp], by simp [h0, hT, AMap.get]⟩
  intro k
  exact (gen acts c0 hi hω hc).done k (by simp [hq])

/-- C24 (part): with one worker (a controller with a single source) there is no reordering, whatever the schedule. -/
theorem C24_single_source_partial {O : ObjOps D} {c0 : Conc D J} (h0 : c0.pipe.tgt = []) (hT : c0.tgt = fun _ => none)
    (hp : ∀ i, c0.pend i = []) (acts : List (Act D)) (hω : ∀ i ω δ, Act.eval i ω δ ∈ acts → ω.Valid)
    (hone : ∀ i ω δ, Act.eval i ω δ ∈ acts → i = 0) (hq : (acts.foldl (Conc.step O) c0).pend 0 = []) :
    ∀ k, (acts.foldl (Conc.step O) c0).tgt k = (acts.foldl (Conc.step O) c0).pipe.tgt.get k := by
  have keep : ∀ (c : Conc D J) (a : Act D), (∀ i ω δ, a = .eval i ω δ → i = 0) → (∀ j, j ≠ 0 → c.pend j = []) →
      ∀ j, j ≠ 0 → (c.step O a).pend j = [] := by
    intro c a ha h j hj
    cases a with
    | eval i ω δ =>
      have := ha i ω δ rfl
      subst this
      simp only [Conc.step]
      by_cases e : c.pend 0 = []
      · simp only [e, if_true]
        rcases c.pipe.evaluate O ω δ with ⟨p', _ | ws⟩ <;> simp [h j hj, hj]
      · simp only [e, if_false]; exact h j hj
    | write i =>
      simp only [Conc.step]
      cases e : c.pend i with
      | nil => exact h j hj
      | cons w ws =>
        by_cases hji : j = i
        · subst hji; rw [h j hj] at e; simp at e
        · simp [hji, h j hj]
  have gen : ∀ (acts : List (Act D)) (c : Conc D J), (∀ i ω δ, Act.eval i ω δ ∈ acts → i = 0) → (∀ j, j ≠ 0 → c.pend j = []) →
      ConflictFree O c acts ∧ ∀ j, j ≠ 0 → (acts.foldl (Conc.step O) c).pend j = [] := by
    intro acts
    induction acts with
    | nil => intro c _ h; exact ⟨trivial, h⟩
    | cons a t ih =>
      intro c hv h
      obtain ⟨i1, i2⟩ := ih (c.step O a) (fun i ω δ hm => hv i ω δ (List.mem_cons_of_mem _ hm))
        (keep c a (fun i ω δ e => hv i ω δ (by rw [e]; simp)) h)
      refine ⟨⟨?_, i1⟩, i2⟩
      cases a with
      | eval i ω δ =>
        have := hv i ω δ (by simp)
        subst this
        intro w _ j hj v hv'
        rw [h j hj] at hv'
        simp at hv'
      | write i => trivial
  obtain ⟨g1, g2⟩ := gen acts c0 hone (fun j _ => hp j)
  refine C24_conflict_free_partial h0 hT hp acts hω g1 (fun i => ?_)
  by_cases hi : i = 0
  · subst hi; exact hq
  · exact g2 i hi

/-- Two workers on different objects, evaluations and writes interleaved. -/
example :
    let acts := [Act.eval 0 ω0 (pod .added "a" 1), .eval 1 ω0 (svc .added "a" 10), .eval 0 ω0 (pod .added "b" 2), .write 1, .eval 1 ω0 (svc .added "b" 10),
      .write 0, .write 1]
    (acts.foldl (Conc.step exOps) exConc).tgt ("default", "a") = some ⟨"View", "a", false, 11⟩ ∧
    (acts.foldl (Conc.step exOps) exConc).tgt ("default", "b") = some ⟨"View", "b", false, 12⟩ := ⟨rfl, rfl⟩

example : ConflictFree exOps exConc [Act.eval 0 ω0 (pod .added "a" 1), .eval 1 ω0 (svc .added "a" 10), .eval 0 ω0 (pod .added "b" 2), .write 1,
    .eval 1 ω0 (svc .added "b" 10), .write 0, .write 1] := by
  refine ⟨?_, ?_, ?_, trivial, ?_, trivial, trivial, trivial⟩ <;> intro w _ j hj v hv
  · simp [exConc] at hv
  · exact absurd hv (by match j with | 0 => exact List.not_mem_nil | 1 => omega | _ + 2 => exact List.not_mem_nil)
  · match j with
    | 0 => omega
    | 1 => rename_i hw; exact absurd hw (by show w ∉ ([] : List (Delta ExObj)); simp)
    | _ + 2 => exact absurd hv List.not_mem_nil
  · match j with
    | 0 => exact absurd hv (by show v ∉ ([] : List (Delta ExObj)); simp)
    | 1 => omega
    | _ + 2 => exact absurd hv List.not_mem_nil

end Dctl
