import Verif.Pipeline.HistLemmas
/-!
# C15–C21: one pipeline with its caches

`Pipe.evaluate` is one event, `Pipe.syncAll` one Sync, `Pipe.step` either of them (`Verif/Pipeline/Eval.lean`). Histories are
run with `runs`; `e.1` of a history element holds the map iteration orders of that call, they may differ from call to call.
`LiveAs`, `WatchOk`, `LiveInputs` (`Verif/Spec/Live.lean`) describe the objects alive after a history of events,
`Target.writes`, `Holds` (`Verif/Spec/Writes.lean`) the effect of writes, `PipelineSpec` (`Verif/Spec/Pipeline.lean`) the
result of a pipeline on complete inputs.
-/
set_option autoImplicit false
namespace Dctl
variable {D J : Type} [DecidableEq D] [DecidableEq J]
open ZSet

/-! ### a small instance, used in the examples -/

/-- Example objects. -/
structure ExObj where
  kind : String
  name : String
  uid : Bool := false
  val : Nat
deriving DecidableEq, Repr

/-- Example object operations. -/
def exOps : ObjOps ExObj :=
  { gvk := fun d => ⟨"", "v1", d.kind⟩, key := fun d => ("default", d.name), removeUID := fun d => { d with uid := false },
    enforce := fun t d => if d.name = "" then .error "name" else .ok { d with kind := t.kind } }

theorem exOps_lawful : exOps.Lawful := by
  refine ⟨fun _ => rfl, fun _ => rfl, fun _ => rfl, ?_, ?_⟩
  · intro t d o h
    simp only [exOps] at h ⊢
    split at h
    · simp at h
    · simp only [Except.ok.injEq] at h; subst h; simp [*]
  · intro t o h
    simp only [exOps] at h ⊢
    split at h
    · simp at h
    · rename_i hn
      simp only [Except.ok.injEq] at h
      rw [if_neg hn]
      have : o.kind = t.kind := by rw [← h]
      rw [this]

/-- Iteration in list order. -/
def ω0 {A : Type} : EvalOrder A := { exec := fun _ z => z, list := fun z => z, recon := ⟨fun l => l, fun l => l, fun l => l⟩, store := fun s => s }

theorem ω0_valid {A : Type} : (ω0 : EvalOrder A).Valid :=
  ⟨fun _ _ => List.Perm.refl _, fun _ => List.Perm.refl _,
   ⟨fun _ => List.Perm.refl _, fun _ => List.Perm.refl _, fun _ => List.Perm.refl _⟩, fun _ => List.Perm.refl _⟩

/-- Iteration in reverse order. -/
def ω1 {A : Type} : EvalOrder A :=
  { exec := fun _ z => z.reverse, list := fun z => z.reverse, recon := ⟨fun l => l.reverse, fun l => l.reverse, fun l => l.reverse⟩, store := fun s => s.reverse }

theorem ω1_valid {A : Type} : (ω1 : EvalOrder A).Valid :=
  ⟨fun _ _ => List.reverse_perm _, fun _ => List.reverse_perm _,
   ⟨fun _ => List.reverse_perm _, fun _ => List.reverse_perm _, fun _ => List.reverse_perm _⟩, fun _ => List.reverse_perm _⟩

/-- Kinds of the example. -/
def podK : GVK := ⟨"", "v1", "Pod"⟩
def svcK : GVK := ⟨"", "v1", "Svc"⟩
def viewK : GVK := ⟨"", "v1", "View"⟩

/-- Pods with value above 1, value times ten. -/
def exSel : List (PipeOp ExObj Nat) :=
  [.select (fun x => .ok (if x.val > 1 then [x] else [])), .project (fun x => .ok [{ x with kind := "", val := x.val * 10 }])]

/-- Pods joined with services of the same name, values added. -/
def exJoin : List (PipeOp ExObj Nat) :=
  [.join (fun ds => match ds with
    | [a, b] => .ok (if a.name = b.name then [{ kind := "", name := a.name, val := a.val + b.val }] else [])
    | _ => .ok [])]

/-- The compiled pipeline of an accepted configuration (used in examples). -/
def newPipe (sources : List GVK) (cfg : List (PipeOp ExObj Nat)) : Pipe ExObj Nat :=
  match Pipe.new viewK sources cfg with
  | .ok p => p
  | .error _ => { sources := [], target := viewK, graph := {} }

/-- Example events. -/
def pod (t : DeltaType) (n : String) (v : Nat) : Delta ExObj := ⟨t, { kind := "Pod", name := n, val := v }⟩
def svc (t : DeltaType) (n : String) (v : Nat) : Delta ExObj := ⟨t, { kind := "Svc", name := n, val := v }⟩
def view (t : DeltaType) (n : String) (v : Nat) : Delta ExObj := ⟨t, { kind := "View", name := n, val := v }⟩

/-! ### C15 -/

/-- C15: after any sequence of events and syncs, whether they succeed or fail, the record of the sources holds exactly the
latest version of each object that was last added or updated and not deleted since. -/
theorem C15_source_record {O : ObjOps D} (L : O.Lawful) {p0 : Pipe D J} (h0 : p0.src = fun _ => [])
    (hist : List (EvalOrder D × Option (Delta D))) (g : GVK) (k : ObjKey) (d : D) :
    ((runs (Pipe.step O) p0 hist).1.src g).get k = some d ↔ LiveAs O (hist.filterMap Prod.snd) g k d := by
  have gen : ∀ (hist : List (EvalOrder D × Option (Delta D))) (pre : List (Delta D)) (p : Pipe D J), SrcInv O p.src →
      Tracks O p.src pre → Tracks O (runs (Pipe.step O) p hist).1.src (pre ++ hist.filterMap Prod.snd) := by
    intro hist
    induction hist with
    | nil => intro pre p _ h; simpa [runs] using h
    | cons e t ih =>
      intro pre p hi ht
      obtain ⟨ω, ev⟩ := e
      simp only [runs, Pipe.step]
      cases ev with
      | none =>
        simp only [List.filterMap_cons]
        exact ih pre _ (by rw [syncAll_src]; exact hi) (by rw [syncAll_src]; exact ht)
      | some δ =>
        simp only [List.filterMap_cons]
        have := ih (pre ++ [δ]) (p.evaluate O ω δ).1 (by rw [evaluate_src]; exact srcAfter_inv L hi δ)
          (by rw [evaluate_src]; exact srcAfter_tracks hi ht δ)
        simpa using this
  have := gen hist [] p0 (by rw [h0]; exact srcInv_empty O) (by rw [h0]; exact tracks_empty O)
  simpa using this g k d

/-- Two objects, an update, a delete, a failing delete of an unknown object and a sync. -/
def exHist15 : List (EvalOrder ExObj × Option (Delta ExObj)) :=
  [(ω0, some (pod .added "a" 2)), (ω1, some (pod .added "b" 3)), (ω0, some (pod .updated "a" 5)), (ω0, some (pod .deleted "zz" 1)),
   (ω0, none), (ω0, some (pod .deleted "b" 3))]

example : ((runs (Pipe.step exOps) (newPipe [podK] exSel) exHist15).1.src podK) = [(("default", "a"), ⟨"Pod", "a", false, 5⟩)] ∧
    (runs (Pipe.step exOps) (newPipe [podK] exSel) exHist15).2.map (fun r => r.toOption.isSome) = [true, true, true, false, true, true] :=
  ⟨rfl, rfl⟩

/-! ### C16 -/

/-- Feed one event to the adaptor. -/
def feed (O : ObjOps D) (c : SrcCache D) (δ : Delta D) : SrcCache D × Except Err (ZSet D) :=
  match convertDelta O c δ with
  | .ok (c', z) => (c', .ok z)
  | .error e => (c, .error e)

/-- C16 (part): for a history as a watch delivers it, no event is rejected, and the sum of the change sets holds every live
object exactly once and nothing else. Missing: histories with a repeated `Added` or a `Deleted` carrying an outdated
object, see `C16_repeated_add` and `C16_stale_delete`. -/
theorem C16_changes_sum_partial {O : ObjOps D} (L : O.Lawful) {hist : List (Delta D)} (hw : WatchOk O hist) :
    ∃ zs : List (ZSet D), (runs (feed O) (fun _ => []) hist).2 = zs.map Except.ok ∧
      ∀ z, SumOf zs z → ∀ d, (LiveAs O hist (O.gvk d) (O.key d) d → get z d = 1) ∧ (¬ LiveAs O hist (O.gvk d) (O.key d) d → get z d = 0) := by
  have gen : ∀ (hist pre : List (Delta D)) (c : SrcCache D), SrcInv O c → Tracks O c pre → WatchOk O (pre ++ hist) →
      ∃ zs : List (ZSet D), (runs (feed O) c hist).2 = zs.map Except.ok ∧
        (∀ d, (zs.map (fun y => get y d)).sum = liveInd O (runs (feed O) c hist).1 d - liveInd O c d) ∧
        Tracks O (runs (feed O) c hist).1 (pre ++ hist) := by
    intro hist
    induction hist with
    | nil => intro pre c _ ht _; exact ⟨[], rfl, fun d => by simp [runs], by simpa [runs] using ht⟩
    | cons δ t ih =>
      intro pre c hi ht hw
      have hw1 : WatchOk O (pre ++ [δ]) := watchOk_prefix (b := t) (by simpa using hw)
      have he := (watchOk_snoc hw1).2 c ht
      obtain ⟨c', z, hc⟩ := eventOk_ok hi he
      have hsa : srcAfter O c δ = c' := by unfold srcAfter; rw [hc]
      obtain ⟨zs, i1, i2, i3⟩ := ih (pre ++ [δ]) c' (by rw [← hsa]; exact srcAfter_inv L hi δ)
        (by rw [← hsa]; exact srcAfter_tracks hi ht δ) (by simpa using hw)
      have hf : feed O c δ = (c', .ok z) := by unfold feed; rw [hc]
      refine ⟨z :: zs, ?_, ?_, ?_⟩
      · simp [runs, hf, i1]
      · intro d
        simp only [runs, hf, List.map_cons, List.sum_cons]
        rw [i2, convertDelta_ind L hi he hc]; omega
      · simp only [runs, hf]; simpa using i3
  obtain ⟨zs, h1, h2, h3⟩ := gen hist [] _ (srcInv_empty O) (tracks_empty O) (by simpa using hw)
  refine ⟨zs, h1, fun z hz d => ?_⟩
  have h0 : liveInd O (fun _ => []) d = 0 := by simp [liveInd, AMap.get]
  rw [hz.2, h2, h0]
  simp only [List.nil_append] at h3
  unfold liveInd
  refine ⟨fun h => ?_, fun h => ?_⟩
  · rw [if_pos ((h3 _ _ _).mpr h)]; decide
  · rw [if_neg (fun hc => h ((h3 _ _ _).mp hc))]; decide

/-- C16 fails for a repeated `Added` (for instance a retried event): the old version is never retracted. -/
theorem C16_repeated_add :
    (runs (feed exOps) (fun _ => []) [pod .added "a" 1, pod .added "a" 2]).2 =
      [[((pod .added "a" 1).obj, (1 : Int))], [((pod .added "a" 2).obj, 1)]].map Except.ok ∧
    ¬ LiveAs exOps [pod .added "a" 1, pod .added "a" 2] podK ("default", "a") (pod .added "a" 1).obj := by
  refine ⟨rfl, ?_⟩
  have := C15_source_record exOps_lawful (p0 := newPipe [podK] exSel) rfl
    [(ω0, some (pod .added "a" 1)), (ω0, some (pod .added "a" 2))] podK ("default", "a") (pod .added "a" 1).obj
  simp only [List.filterMap_cons, List.filterMap_nil] at this
  rw [← this]
  decide

/-- C16 fails for a `Deleted` carrying an outdated object: the recorded version stays, the outdated one gets multiplicity -1. -/
theorem C16_stale_delete :
    (runs (feed exOps) (fun _ => []) [pod .added "a" 1, pod .deleted "a" 7]).2 =
      [[((pod .added "a" 1).obj, (1 : Int))], [((pod .added "a" 7).obj, -1)]].map Except.ok := rfl

theorem liveAs_iff_src {O : ObjOps D} (L : O.Lawful) (hist : List (Delta D)) (g : GVK) (k : ObjKey) (d : D) :
    LiveAs O hist g k d ↔ ((runs (feed O) (fun _ => []) hist).1 g).get k = some d := by
  have gen : ∀ (hist pre : List (Delta D)) (c : SrcCache D), SrcInv O c → Tracks O c pre →
      Tracks O (runs (feed O) c hist).1 (pre ++ hist) := by
    intro hist
    induction hist with
    | nil => intro pre c _ h; simpa [runs] using h
    | cons δ t ih =>
      intro pre c hi ht
      have hf : (feed O c δ).1 = srcAfter O c δ := by unfold feed srcAfter; split <;> (rename_i h; rw [h])
      simp only [runs, hf]
      simpa using ih (pre ++ [δ]) _ (srcAfter_inv L hi δ) (srcAfter_tracks hi ht δ)
  have := gen hist [] _ (srcInv_empty O) (tracks_empty O)
  rw [List.nil_append] at this
  exact (this g k d).symm

/-- Decidable check of `WatchOk` used in examples. -/
def watchOkB (O : ObjOps D) : SrcCache D → List (Delta D) → Bool
  | _, [] => true
  | c, δ :: t =>
    (match δ.type with
     | .added => ((c (O.gvk δ.obj)).get (O.key δ.obj)).isNone
     | .deleted => (c (O.gvk δ.obj)).get (O.key δ.obj) = some (O.removeUID δ.obj)
     | .sync => false
     | _ => true) && watchOkB O (feed O c δ).1 t

theorem watchOk_of_check {O : ObjOps D} (L : O.Lawful) {hist : List (Delta D)} (h : watchOkB O (fun _ => []) hist = true) :
    WatchOk O hist := by
  have gen : ∀ (pre post : List (Delta D)) (δ : Delta D) (c : SrcCache D), watchOkB O c (pre ++ δ :: post) = true →
      (match δ.type with
       | .added => (((runs (feed O) c pre).1 (O.gvk δ.obj)).get (O.key δ.obj)).isNone
       | .deleted => ((runs (feed O) c pre).1 (O.gvk δ.obj)).get (O.key δ.obj) = some (O.removeUID δ.obj)
       | .sync => false
       | _ => true) = true := by
    intro pre
    induction pre with
    | nil =>
      intro post δ c h
      simp only [List.nil_append, watchOkB, Bool.and_eq_true] at h
      exact h.1
    | cons a t ih =>
      intro post δ c h
      simp only [List.cons_append, watchOkB, Bool.and_eq_true] at h
      exact ih post δ _ h.2
  intro pre δ post e
  rw [e] at h
  have := gen pre post δ _ h
  refine ⟨fun ht d => ?_, fun ht => ?_, fun ht => ?_⟩
  · rw [ht] at this
    rw [liveAs_iff_src L]
    intro hc; rw [hc] at this; simp at this
  · rw [ht] at this
    rw [liveAs_iff_src L]
    simpa using this
  · rw [ht] at this; simp at this

example : WatchOk exOps [pod .added "a" 1, svc .added "a" 2, pod .updated "a" 5, pod .deleted "a" 5, pod .added "a" 6] :=
  watchOk_of_check exOps_lawful rfl

/-! ### C17 -/

/-- C17: an update whose object equals the recorded one (up to the view UID) yields an empty change set and leaves the source
record alone, in every state. -/
theorem C17_no_change (O : ObjOps D) (c : SrcCache D) (δ : Delta D)
    (ht : δ.type = .updated ∨ δ.type = .replaced ∨ δ.type = .upserted) {y : D}
    (hy : (c (O.gvk δ.obj)).get (O.key δ.obj) = some y) (he : O.removeUID y = O.removeUID δ.obj) :
    convertDelta O c δ = .ok (c, []) := by
  have hu : δ.type.isUpsert = true := by rcases ht with h | h | h <;> rw [h] <;> rfl
  unfold convertDelta
  simp [hu, hy, he]

/-- C17: after any successful watch history, an update whose object is the live one emits no writes and leaves the source
record and the target record unchanged (with gather stages: if they are deterministic), and it does not change what is
accumulated in the executor: nothing is emitted. -/
theorem C17_noop_update {O : ObjOps D} (L : O.Lawful) {sources : List GVK} {target : GVK} {cfg : List (PipeOp D J)} {p0 p' : Pipe D J}
    (hn : (sources.map GVK.kind).Nodup) (hnew : Pipe.new target sources cfg = .ok p0) (hdet : GatherDet cfg)
    {hist : List (EvalOrder D × Delta D)} (hω : ∀ e ∈ hist, e.1.Valid) (hs : ∀ e ∈ hist, O.gvk e.2.obj ∈ sources)
    (hw : WatchOk O (hist.map Prod.snd)) {wss : List (List (Delta D))}
    (hr : (runs (fun p (e : EvalOrder D × Delta D) => p.evaluate O e.1 e.2) p0 hist).2 = wss.map Except.ok)
    {ω : EvalOrder D} (hω' : ω.Valid) {δ : Delta D} (ht : δ.type = .updated ∨ δ.type = .replaced ∨ δ.type = .upserted)
    (hs' : O.gvk δ.obj ∈ sources)
    (hl : LiveAs O (hist.map Prod.snd) (O.gvk δ.obj) (O.key δ.obj) (O.removeUID δ.obj))
    {ws : List (Delta D)}
    (he : (runs (fun p (e : EvalOrder D × Delta D) => p.evaluate O e.1 e.2) p0 hist).1.evaluate O ω δ = (p', .ok ws)) :
    ws = [] ∧ p'.src = (runs (fun p (e : EvalOrder D × Delta D) => p.evaluate O e.1 e.2) p0 hist).1.src ∧
      p'.tgt = (runs (fun p (e : EvalOrder D × Delta D) => p.evaluate O e.1 e.2) p0 hist).1.tgt := by
  obtain ⟨o, h1, _, _⟩ := runs_inv L hn (runInv_new (O := O) hn hnew) hω hs (by simpa using hw) hr
  rw [List.nil_append] at h1
  have hrec := (h1.tracks _ _ _).mpr hl
  have hcv := C17_no_change O _ δ ht hrec (L.uid_idem _)
  have hne : δ.type ≠ .added ∧ δ.type ≠ .deleted ∧ δ.type ≠ .sync := by rcases ht with h | h | h <;> rw [h] <;> simp
  have heo : EventOk O (runs (fun p (e : EvalOrder D × Delta D) => p.evaluate O e.1 e.2) p0 hist).1.src δ :=
    ⟨fun h => absurd h hne.1, fun h => absurd h hne.2.1, hne.2.2⟩
  obtain ⟨r, ds, k1, k2, k3, k4⟩ := h1.step L hn hω' hs' heo he
  have hsame : ∀ g ∈ sources, ∀ k d, LiveAs O (hist.map Prod.snd) g k d ↔ LiveAs O (hist.map Prod.snd ++ [δ]) g k d := by
    intro g _ k d
    by_cases hc : Concerns O g k δ
    · rw [liveAs_snoc_of hc]
      obtain ⟨rfl, rfl, _⟩ := hc
      constructor
      · intro h
        refine ⟨hne.2.1, ?_⟩
        have a := (h1.tracks _ _ _).mpr h
        rw [hrec] at a
        simpa using a
      · rintro ⟨_, rfl⟩; exact hl
    · rw [liveAs_snoc_not hc]
  have hz := RunInv.zero_step L hdet h1 k2 k1 hsame
  subst hz
  have hl0 := List.perm_nil.mp (hω'.list [])
  rw [hl0] at k3
  simp only [convertZSet, Except.ok.injEq] at k3
  subst k3
  rw [reconcile_nil hω'.recon] at k4
  simp only [Except.ok.injEq, Prod.mk.injEq] at k4
  refine ⟨k4.2.symm, ?_, k4.1.symm⟩
  have := evaluate_src O ω (runs (fun p (e : EvalOrder D × Delta D) => p.evaluate O e.1 e.2) p0 hist).1 δ
  rw [he] at this
  rw [this]; unfold srcAfter; rw [hcv]

/-- Hypotheses of C17 on a join history; the no-op update carries a view UID. -/
def exHist17 : List (EvalOrder ExObj × Delta ExObj) :=
  [(ω0, pod .added "a" 2), (ω1, svc .added "a" 3), (ω0, pod .updated "a" 5)]

example : Pipe.new viewK [podK, svcK] exJoin = .ok (newPipe [podK, svcK] exJoin) ∧
    (runs (fun p (e : EvalOrder ExObj × Delta ExObj) => p.evaluate exOps e.1 e.2) (newPipe [podK, svcK] exJoin) exHist17).2 =
      [[], [view .upserted "a" 5], [view .upserted "a" 8]].map Except.ok ∧
    LiveAs exOps (exHist17.map Prod.snd) podK ("default", "a") (exOps.removeUID ⟨"Pod", "a", true, 5⟩) ∧
    ((runs (fun p (e : EvalOrder ExObj × Delta ExObj) => p.evaluate exOps e.1 e.2) (newPipe [podK, svcK] exJoin) exHist17).1.evaluate
      exOps ω0 ⟨.updated, ⟨"Pod", "a", true, 5⟩⟩).2 = .ok [] :=
  ⟨rfl, rfl, by rw [liveAs_iff_src exOps_lawful]; rfl, rfl⟩

/-! ### C18 -/

/-- C18: after any steps (events and syncs, successful or not) of a pipeline that started with an empty target record, a further
successful step emits at most one write per object, deletes before upserts; a delete only for an object that was upserted before
and not deleted since; and the target record is the effect of everything emitted so far. -/
theorem C18_write_batches {O : ObjOps D} {p0 : Pipe D J} (h0 : p0.tgt = [])
    (hist : List (EvalOrder D × Option (Delta D))) (hω : ∀ e ∈ hist, e.1.Valid) :
    (∀ k, (runs (Pipe.step O) p0 hist).1.tgt.get k = Target.writes O (fun _ => none) (emitted (runs (Pipe.step O) p0 hist).2) k) ∧
    ∀ (e : EvalOrder D × Option (Delta D)) (ws : List (Delta D)), e.1.Valid → ((runs (Pipe.step O) p0 hist).1.step O e).2 = .ok ws →
      (ws.map (fun w => O.key w.obj)).Nodup ∧
      (∃ dels ups, ws = dels ++ ups ∧ (∀ w ∈ dels, w.type = .deleted) ∧ ∀ w ∈ ups, w.type = .upserted) ∧
      ∀ w ∈ ws, w.type = .deleted → ∃ before u after, emitted (runs (Pipe.step O) p0 hist).2 = before ++ u :: after ∧
        u.type = .upserted ∧ O.key u.obj = O.key w.obj ∧ ∀ v ∈ after, O.key v.obj ≠ O.key w.obj := by
  obtain ⟨h1, h2, h3⟩ := steps_record (O := O) (p := p0) (by rw [h0]; simp [AMap.WF]) hist hω
  have h2' : (fun k => (runs (Pipe.step O) p0 hist).1.tgt.get k) = Target.writes O (fun _ => none) (emitted (runs (Pipe.step O) p0 hist).2) := by
    rw [h2, h0]; rfl
  refine ⟨fun k => congrFun h2' k, fun e ws he hs => ?_⟩
  obtain ⟨_, _, s3⟩ := step_record (O := O) h1 e he
  obtain ⟨ds, hd⟩ := s3 ws hs
  obtain ⟨r1, r2, _, _, r5⟩ := reconcile_spec he.recon hd
  refine ⟨r1, r2, fun w hw ht => ?_⟩
  have hex : ∃ y, (runs (Pipe.step O) p0 hist).1.tgt.get (O.key w.obj) = some y := by
    rw [r5] at hw
    unfold writeOf at hw
    split at hw
    · simp at hw; rw [← hw] at ht; simp at ht
    · split at hw
      · rename_i hx; exact Option.isSome_iff_exists.mp hx
      · simp at hw
    · split at hw
      · simp at hw; rw [← hw] at ht; simp at ht
      · simp at hw
    · simp at hw
  obtain ⟨y, hy⟩ := hex
  have hy' := (congrFun h2' (O.key w.obj)).symm.trans hy
  obtain ⟨a, u, b, e1, e2, e3, e4, e5⟩ := target_last (T := fun _ => none) rfl hy'
  refine ⟨a, u, b, e1, ?_, e2, e5⟩
  rcases h3 u (by rw [e1]; simp) with h | h
  · exact absurd h e3
  · exact h

/-- C18: what one batch writes, per object: the last added version, unless something was retracted for an object not in the
record; a delete if something was retracted, nothing added, and the object is in the record. -/
theorem C18_decision {O : ObjOps D} {ρ : RecOrder D} (hρ : ρ.Valid) {tgt tgt' : Store D} {ds ws : List (Delta D)}
    (h : reconcile O ρ tgt ds = .ok (tgt', ws)) (w : Delta D) :
    w ∈ ws ↔
      (w.type = .upserted ∧
        (∃ a b, ds = a ++ ⟨.added, w.obj⟩ :: b ∧ ∀ δ ∈ b, δ.type = .added → O.key δ.obj ≠ O.key w.obj) ∧
        ((∃ δ ∈ ds, δ.type = .deleted ∧ O.key δ.obj = O.key w.obj) → ∃ y, tgt.get (O.key w.obj) = some y)) ∨
      (w.type = .deleted ∧
        (∃ a b, ds = a ++ ⟨.deleted, w.obj⟩ :: b ∧ ∀ δ ∈ a, δ.type = .deleted → O.key δ.obj ≠ O.key w.obj) ∧
        (∀ δ ∈ ds, δ.type = .added → O.key δ.obj ≠ O.key w.obj) ∧ ∃ y, tgt.get (O.key w.obj) = some y) := by
  obtain ⟨r1, r2, r3, r4, r5⟩ := reconcile_spec hρ h
  rw [r5]
  have last : ∀ (k : ObjKey) (x : D) (ds : List (Delta D)), (objsOf O .added k ds).getLast? = some x ↔
      ∃ a b, ds = a ++ ⟨.added, x⟩ :: b ∧ O.key x = k ∧ ∀ δ ∈ b, δ.type = .added → O.key δ.obj ≠ k := by
    intro k x ds
    induction ds with
    | nil => simp [objsOf]
    | cons δ ds ih =>
      rw [objsOf_cons]
      constructor
      · intro hx
        by_cases hc : δ.type = .added ∧ O.key δ.obj = k
        · rw [if_pos hc] at hx
          cases hl : objsOf O .added k ds with
          | nil =>
            rw [hl] at hx
            simp at hx
            obtain ⟨t, o⟩ := δ
            simp only at hx hc
            obtain ⟨rfl, hk⟩ := hc
            subst hx
            refine ⟨[], ds, rfl, hk, fun ε hε h1 h2 => ?_⟩
            have : ε.obj ∈ objsOf O .added k ds := mem_objsOf.mpr ⟨by obtain ⟨t, o⟩ := ε; simp only at h1; subst h1; exact hε, h2⟩
            rw [hl] at this; simp at this
          | cons y ys =>
            rw [hl, List.getLast?_cons_cons] at hx
            rw [hl] at ih
            obtain ⟨a, b, e, r⟩ := ih.mp hx
            exact ⟨δ :: a, b, by rw [e]; rfl, r⟩
        · rw [if_neg hc] at hx
          obtain ⟨a, b, e, r⟩ := ih.mp hx
          exact ⟨δ :: a, b, by rw [e]; rfl, r⟩
      · rintro ⟨a, b, e, hk, hb⟩
        cases a with
        | nil =>
          simp only [List.nil_append, List.cons.injEq] at e
          obtain ⟨rfl, rfl⟩ := e
          rw [if_pos ⟨rfl, hk⟩]
          have : objsOf O .added k ds = [] := by
            rw [List.eq_nil_iff_forall_not_mem]
            intro y hy
            obtain ⟨m1, m2⟩ := mem_objsOf.mp hy
            exact hb _ m1 rfl m2
          rw [this]; rfl
        | cons a0 a =>
          simp only [List.cons_append, List.cons.injEq] at e
          obtain ⟨rfl, e⟩ := e
          have := ih.mpr ⟨a, b, e, hk, hb⟩
          split
          · cases hl : objsOf O .added k ds with
            | nil => rw [hl] at this; simp at this
            | cons y ys => rw [List.getLast?_cons_cons, ← hl]; exact this
          · exact this
  have first : ∀ (k : ObjKey) (x : D) (ds : List (Delta D)), (objsOf O .deleted k ds).head? = some x ↔
      ∃ a b, ds = a ++ ⟨.deleted, x⟩ :: b ∧ O.key x = k ∧ ∀ δ ∈ a, δ.type = .deleted → O.key δ.obj ≠ k := by
    intro k x ds
    induction ds with
    | nil => simp [objsOf]
    | cons δ ds ih =>
      rw [objsOf_cons]
      by_cases hc : δ.type = .deleted ∧ O.key δ.obj = k
      · rw [if_pos hc]
        constructor
        · intro hx
          simp only [List.head?_cons, Option.some.injEq] at hx
          obtain ⟨t, o⟩ := δ
          simp only at hx hc
          obtain ⟨rfl, hk⟩ := hc
          subst hx
          exact ⟨[], ds, rfl, hk, by simp⟩
        · rintro ⟨a, b, e, hk, hb⟩
          cases a with
          | nil => simp only [List.nil_append, List.cons.injEq] at e; rw [e.1]; rfl
          | cons a0 a =>
            simp only [List.cons_append, List.cons.injEq] at e
            exact absurd hc.2 (hb δ (by rw [e.1]; simp) hc.1)
      · rw [if_neg hc, ih]
        constructor
        · rintro ⟨a, b, e, hk, hb⟩
          refine ⟨δ :: a, b, by rw [e]; rfl, hk, ?_⟩
          intro ε hε h1 h2
          rcases List.mem_cons.mp hε with rfl | hε
          · exact hc ⟨h1, h2⟩
          · exact hb ε hε h1 h2
        · rintro ⟨a, b, e, hk, hb⟩
          cases a with
          | nil =>
            simp only [List.nil_append, List.cons.injEq] at e
            exact absurd ⟨by rw [e.1], by rw [e.1]; exact hk⟩ hc
          | cons a0 a =>
            simp only [List.cons_append, List.cons.injEq] at e
            exact ⟨a, b, e.2, hk, fun ε hε => hb ε (List.mem_cons_of_mem _ hε)⟩
  have noadd : ∀ k, (objsOf O .added k ds).getLast? = none ↔ ∀ δ ∈ ds, δ.type = .added → O.key δ.obj ≠ k := by
    intro k
    rw [List.getLast?_eq_none_iff, List.eq_nil_iff_forall_not_mem]
    constructor
    · intro h δ hδ ht hk
      exact h δ.obj (mem_objsOf.mpr ⟨by obtain ⟨t, o⟩ := δ; simp only at ht; subst ht; exact hδ, hk⟩)
    · intro h x hx
      obtain ⟨m1, m2⟩ := mem_objsOf.mp hx
      exact h _ m1 rfl m2
  have nodel : ∀ k, (objsOf O .deleted k ds).head? = none ↔ ¬ ∃ δ ∈ ds, δ.type = .deleted ∧ O.key δ.obj = k := by
    intro k
    rw [List.head?_eq_none_iff, List.eq_nil_iff_forall_not_mem]
    constructor
    · rintro h ⟨δ, hδ, ht, hk⟩
      exact h δ.obj (mem_objsOf.mpr ⟨by obtain ⟨t, o⟩ := δ; simp only at ht; subst ht; exact hδ, hk⟩)
    · intro h x hx
      obtain ⟨m1, m2⟩ := mem_objsOf.mp hx
      exact h ⟨_, m1, rfl, m2⟩
  have hex : ∀ k, (tgt.get k).isSome = true ↔ ∃ y, tgt.get k = some y := fun k => Option.isSome_iff_exists
  obtain ⟨t, x⟩ := w
  simp only
  rw [show (∃ a b, ds = a ++ ⟨.added, x⟩ :: b ∧ ∀ δ ∈ b, δ.type = .added → O.key δ.obj ≠ O.key x) ↔
      (objsOf O .added (O.key x) ds).getLast? = some x by rw [last]; simp,
    show (∃ a b, ds = a ++ ⟨.deleted, x⟩ :: b ∧ ∀ δ ∈ a, δ.type = .deleted → O.key δ.obj ≠ O.key x) ↔
      (objsOf O .deleted (O.key x) ds).head? = some x by rw [first]; simp,
    ← noadd, ← hex]
  have hnd := nodel (O.key x)
  rw [show (∃ δ ∈ ds, δ.type = .deleted ∧ O.key δ.obj = O.key x) ↔ (objsOf O .deleted (O.key x) ds).head? ≠ none by
    rw [ne_eq, hnd]; simp]
  unfold writeOf
  simp only
  rcases (objsOf O .added (O.key x) ds).getLast? with _ | a <;> rcases (objsOf O .deleted (O.key x) ds).head? with _ | d <;>
    cases (tgt.get (O.key x)).isSome <;> simp <;> grind

example : reconcile exOps ω1.recon [(("default", "b"), ⟨"View", "b", false, 1⟩)]
      [view .added "a" 1, view .added "b" 2, view .deleted "b" 1, view .deleted "c" 3] =
    .ok ([(("default", "b"), ⟨"View", "b", false, 2⟩), (("default", "a"), ⟨"View", "a", false, 1⟩)],
      [view .upserted "a" 1, view .upserted "b" 2]) := rfl

/-! ### C19 -/

/-- C19 (part): for every pipeline over sources of different kinds, after any successful history as delivered by watches on its
sources, with any map iteration orders, applying all emitted writes to an empty target leaves exactly the objects the
pipeline computes from the live sources, if no prefix of the history makes the pipeline compute two documents with the same name.
Missing: histories with repeated `Added` or outdated `Deleted`, failing evaluations (`C22_stuck`), and outputs passing through a
state with two equal documents, see `C19_duplicates_lost`. -/
theorem C19_view_maintenance_partial {O : ObjOps D} (L : O.Lawful) {sources : List GVK} {target : GVK} {cfg : List (PipeOp D J)}
    {p0 : Pipe D J} (hn : (sources.map GVK.kind).Nodup) (hnew : Pipe.new target sources cfg = .ok p0)
    {hist : List (EvalOrder D × Delta D)} (hω : ∀ e ∈ hist, e.1.Valid) (hs : ∀ e ∈ hist, O.gvk e.2.obj ∈ sources)
    (hw : WatchOk O (hist.map Prod.snd))
    (hone : ∀ pre, pre <+: hist.map Prod.snd → ∀ ins o, LiveInputs O pre sources ins → PipelineSpec cfg ins o → OnePerName O target o)
    {wss : List (List (Delta D))}
    (hr : (runs (fun p (e : EvalOrder D × Delta D) => p.evaluate O e.1 e.2) p0 hist).2 = wss.map Except.ok) :
    ∃ ins o, LiveInputs O (hist.map Prod.snd) sources ins ∧ PipelineSpec cfg ins o ∧
      Holds O target o (Target.writes O (fun _ => none) wss.flatten) := by
  obtain ⟨o, h1, h2, h3⟩ := runs_inv L hn (runInv_new (O := O) hn hnew) hω hs (by simpa using hw) hr
  obtain ⟨g, _, rfl⟩ := pipe_new_ok hnew
  obtain ⟨_, _, hH⟩ := h2 (holds_empty O target) (enforced_empty O target).1 (enforced_empty O target).2
    (fun h' _ hp => by simpa using hone h' hp)
  rw [List.nil_append] at h1
  have hl := liveInputs_stores L h1.inv h1.tracks sources
  rw [h3] at hH
  exact ⟨_, o, hl, h1.spec L hl, hH⟩

/-- C19 (part), for every result: if the gather stages are deterministic the target holds the objects of any result of the pipeline
on any representation of the live inputs. -/
theorem C19_every_result_partial {O : ObjOps D} (L : O.Lawful) {sources : List GVK} {target : GVK} {cfg : List (PipeOp D J)}
    {p0 : Pipe D J} (hn : (sources.map GVK.kind).Nodup) (hnew : Pipe.new target sources cfg = .ok p0) (hdet : GatherDet cfg)
    {hist : List (EvalOrder D × Delta D)} (hω : ∀ e ∈ hist, e.1.Valid) (hs : ∀ e ∈ hist, O.gvk e.2.obj ∈ sources)
    (hw : WatchOk O (hist.map Prod.snd))
    (hone : ∀ pre, pre <+: hist.map Prod.snd → ∀ ins o, LiveInputs O pre sources ins → PipelineSpec cfg ins o → OnePerName O target o)
    {wss : List (List (Delta D))}
    (hr : (runs (fun p (e : EvalOrder D × Delta D) => p.evaluate O e.1 e.2) p0 hist).2 = wss.map Except.ok)
    {ins : List (ZSet D)} {o : ZSet D} (hl : LiveInputs O (hist.map Prod.snd) sources ins) (hp : PipelineSpec cfg ins o) :
    Holds O target o (Target.writes O (fun _ => none) wss.flatten) := by
  obtain ⟨ins', o', h1, h2, h3⟩ := C19_view_maintenance_partial L hn hnew hω hs hw hone hr
  exact holds_eqv (pipelineSpec_unique hdet (liveInputs_eqvL (fun _ _ _ _ => Iff.rfl) h1 hl) h2 hp) h3

/-- C19: no evaluation of a watch history fails if no evaluator fails and every document the pipeline computes along the history has
a valid name (and names are unique). -/
theorem C19_never_fails {O : ObjOps D} (L : O.Lawful) {sources : List GVK} {target : GVK} {cfg : List (PipeOp D J)}
    {p0 : Pipe D J} (hn : (sources.map GVK.kind).Nodup) (hnew : Pipe.new target sources cfg = .ok p0) (ht : ∀ q ∈ cfg, q.Total)
    {hist : List (EvalOrder D × Delta D)} (hω : ∀ e ∈ hist, e.1.Valid) (hs : ∀ e ∈ hist, O.gvk e.2.obj ∈ sources)
    (hw : WatchOk O (hist.map Prod.snd))
    (hone : ∀ pre, pre <+: hist.map Prod.snd → ∀ ins o, LiveInputs O pre sources ins → PipelineSpec cfg ins o →
      OnePerName O target o ∧ AllEnforced O target o) :
    ∃ wss : List (List (Delta D)),
      (runs (fun p (e : EvalOrder D × Delta D) => p.evaluate O e.1 e.2) p0 hist).2 = wss.map Except.ok := by
  have hinv := runInv_new (O := O) hn hnew
  obtain ⟨g, hg, rfl⟩ := pipe_new_ok hnew
  exact runs_ok L hn hinv (newPipeline_graphTotal hg hn ht) (enforced_empty O target).2 (enforced_empty O target).1 hω hs
    (by simpa using hw) (fun h' _ hp => by simpa using hone h' hp)

/-- Decidable check of `OnePerName` used in examples. -/
def onePerNameB (O : ObjOps D) (t : GVK) (z : ZSet D) : Bool :=
  z.all (fun p => p.2 = 1) && decide ((z.map (fun p => match O.enforce t p.1 with | .ok x => some (O.key x) | .error _ => none)).Nodup) &&
  z.all (fun p => (O.enforce t p.1).toOption.isSome)

theorem nodup_map_eq {A B : Type} {f : A → B} {l : List A} (h : (l.map f).Nodup) {a b : A} (ha : a ∈ l) (hb : b ∈ l) (e : f a = f b) :
    a = b := by
  induction l with
  | nil => simp at ha
  | cons x t ih =>
    simp only [List.map_cons, List.nodup_cons] at h
    rcases List.mem_cons.mp ha with rfl | ha' <;> rcases List.mem_cons.mp hb with rfl | hb'
    · rfl
    · exact absurd (List.mem_map.mpr ⟨b, hb', e.symm⟩) h.1
    · exact absurd (List.mem_map.mpr ⟨a, ha', e⟩) h.1
    · exact ih h.2 ha' hb'

theorem onePerName_of_check {O : ObjOps D} {t : GVK} {z : ZSet D} (hz : WF z) (h : onePerNameB O t z = true) :
    OnePerName O t z ∧ AllEnforced O t z := by
  simp only [onePerNameB, Bool.and_eq_true, List.all_eq_true, decide_eq_true_eq] at h
  obtain ⟨⟨h1, h2⟩, h3⟩ := h
  have hm : ∀ d, 0 < get z d → (d, get z d) ∈ z := fun d hd => (mem_iff_get hz _ _).mpr ⟨rfl, by omega⟩
  refine ⟨⟨fun d => ?_, ?_⟩, fun d hd => ?_⟩
  · by_cases h0 : get z d = 0
    · omega
    · have := h1 (d, get z d) ((mem_iff_get hz _ _).mpr ⟨rfl, h0⟩)
      simp only at this; omega
  · intro d d' a b hd hd' ha hb hab
    have := nodup_map_eq h2 (hm d hd) (hm d' hd') (by simp [ha, hb, hab])
    exact congrArg Prod.fst this
  · have := h3 _ (hm d hd)
    simp only at this
    cases he : O.enforce t d with
    | ok x => exact ⟨x, rfl⟩
    | error e => rw [he] at this; simp [Except.toOption] at this

/-- Runs the snapshot graph on the sources left by a history and checks the names of the result. -/
def oneNameB (O : ObjOps D) (target : GVK) (sources : List GVK) (s : Graph D J) (hist : List (Delta D)) : Bool :=
  match (s.process (fun _ z => z) (syncInputs O ω0 sources (runs (feed O) (fun _ => []) hist).1)).2 with
  | .ok req => decide (WF req) && onePerNameB O target req
  | .error _ => false

/-- Checks the name hypothesis of C19 and C20 for a concrete history by running the snapshot graph (used in examples). -/
theorem oneName_of_snapshot {O : ObjOps D} (L : O.Lawful) {sources : List GVK} {target : GVK} {cfg : List (PipeOp D J)} {g s : Graph D J}
    (hn : (sources.map GVK.kind).Nodup) (hnew : newPipeline (sources.map GVK.kind) cfg = .ok g) (hng : hasGather cfg = false)
    (hs : g.toSnapshot = .ok s) (hist : List (Delta D)) (hb : oneNameB O target sources s hist = true) {ins : List (ZSet D)} {o : ZSet D}
    (hl : LiveInputs O hist sources ins) (hp : PipelineSpec cfg ins o) :
    OnePerName O target o ∧ AllEnforced O target o := by
  have hin := (newPipeline_inputs hnew).2 hn
  unfold oneNameB at hb
  cases hr : s.process (fun _ z => z) (syncInputs O ω0 sources (runs (feed O) (fun _ => []) hist).1) with
  | mk s' res =>
  rw [hr] at hb
  cases res with
  | error e => simp at hb
  | ok req =>
  simp only [Bool.and_eq_true, decide_eq_true_eq] at hb
  obtain ⟨hw, hc⟩ := hb
  obtain ⟨_, _, k3⟩ := C14_snapshot_correct_partial (σ := fun _ z => z) hnew [] hs (fun _ _ => List.Perm.refl _) syncInputs_wf hr
  rw [hin, syncInputs_row hn] at k3
  have gen : ∀ (hist pre : List (Delta D)) (c : SrcCache D), SrcInv O c → Tracks O c pre →
      SrcInv O (runs (feed O) c hist).1 ∧ Tracks O (runs (feed O) c hist).1 (pre ++ hist) := by
    intro hist
    induction hist with
    | nil => intro pre c h1 h; exact ⟨h1, by simpa [runs] using h⟩
    | cons δ t ih =>
      intro pre c hi ht
      have hf : (feed O c δ).1 = srcAfter O c δ := by unfold feed srcAfter; split <;> (rename_i h; rw [h])
      simp only [runs, hf]
      simpa using ih (pre ++ [δ]) _ (srcAfter_inv L hi δ) (srcAfter_tracks hi ht δ)
  obtain ⟨g1, g2⟩ := gen hist [] _ (srcInv_empty O) (tracks_empty O)
  have hl' := liveInputs_stores L g1 (by simpa using g2) sources
  have he := pipelineSpec_unique (gatherDet_of_none hng) (liveInputs_eqvL (fun _ _ _ _ => Iff.rfl) hl' hl) k3 hp
  refine ⟨onePerName_eqv he (onePerName_of_check hw hc).1, fun d hd => (onePerName_of_check hw hc).2 d ?_⟩
  rw [he d]; exact hd

/-- Pods of the same group produce the same document. -/
def exGroup : List (PipeOp ExObj Nat) := [.project (fun x => .ok [{ kind := "", name := "g", val := x.val }])]

/-- C19 fails when two live objects produce the same document for a while: deleting one of them deletes the target object although the
other one still requires it. -/
theorem C19_duplicates_lost :
    ∃ wss : List (List (Delta ExObj)), (runs (fun p (e : EvalOrder ExObj × Delta ExObj) => p.evaluate exOps e.1 e.2) (newPipe [podK] exGroup)
        [(ω0, pod .added "a" 1), (ω0, pod .added "b" 1), (ω0, pod .deleted "a" 1)]).2 = wss.map Except.ok ∧
      Target.writes exOps (fun _ => none) wss.flatten ("default", "g") = none ∧
      LiveAs exOps [pod .added "a" 1, pod .added "b" 1, pod .deleted "a" 1] podK ("default", "b") ⟨"Pod", "b", false, 1⟩ :=
  ⟨[[view .upserted "g" 1], [view .upserted "g" 1], [view .deleted "g" 1]], rfl, rfl, by rw [liveAs_iff_src exOps_lawful]; rfl⟩

/-- A history over two joined sources. -/
def exHist19 : List (EvalOrder ExObj × Delta ExObj) :=
  [(ω0, pod .added "a" 2), (ω1, svc .added "a" 3), (ω0, pod .updated "a" 5), (ω1, svc .added "b" 1), (ω0, pod .added "b" 1), (ω0, svc .deleted "a" 3)]

/-- The writes emitted for it. -/
def exWrites19 : List (List (Delta ExObj)) :=
  [[], [view .upserted "a" 5], [view .upserted "a" 8], [], [view .upserted "b" 2], [view .deleted "a" 8]]

/-- The graph of the join pipeline and its snapshot form. -/
def exJoinGraph : Graph ExObj Nat := (newPipe [podK, svcK] exJoin).graph
def exJoinSnap : Graph ExObj Nat := match exJoinGraph.toSnapshot with | .ok s => s | .error _ => {}

theorem exHist19_valid : ∀ e ∈ exHist19, e.1.Valid := by
  intro e he
  simp only [exHist19, List.mem_cons, List.not_mem_nil, or_false] at he
  rcases he with rfl | rfl | rfl | rfl | rfl | rfl <;> first | exact ω0_valid | exact ω1_valid

theorem exHist19_names : ∀ pre, pre <+: exHist19.map Prod.snd → ∀ ins o, LiveInputs exOps pre [podK, svcK] ins → PipelineSpec exJoin ins o →
    OnePerName exOps viewK o ∧ AllEnforced exOps viewK o := by
  intro pre hp ins o hl hs
  obtain ⟨n, hn, rfl⟩ : ∃ n, n < 7 ∧ pre = (exHist19.map Prod.snd).take n :=
    ⟨pre.length, Nat.lt_succ_of_le hp.length_le, List.prefix_iff_eq_take.mp hp⟩
  refine oneName_of_snapshot exOps_lawful (by decide) (g := exJoinGraph) (s := exJoinSnap) rfl rfl rfl _ ?_ hl hs
  have : ∀ n < 7, oneNameB exOps viewK [podK, svcK] exJoinSnap ((exHist19.map Prod.snd).take n) = true := by decide
  exact this n hn

theorem exJoin_total : ∀ q ∈ exJoin, q.Total := by
  intro q hq
  simp only [exJoin, List.mem_cons, List.not_mem_nil, or_false] at hq
  subst hq
  intro ds
  match ds with
  | [] => exact ⟨_, rfl⟩
  | [_] => exact ⟨_, rfl⟩
  | [_, _] => exact ⟨_, rfl⟩
  | _ :: _ :: _ :: _ => exact ⟨_, rfl⟩

/-- All hypotheses of C19 hold for this history, and the target holds the joined objects. -/
example : ∃ ins o, LiveInputs exOps (exHist19.map Prod.snd) [podK, svcK] ins ∧ PipelineSpec exJoin ins o ∧
    Holds exOps viewK o (Target.writes exOps (fun _ => none) exWrites19.flatten) :=
  C19_view_maintenance_partial exOps_lawful (p0 := newPipe [podK, svcK] exJoin) (by decide) rfl exHist19_valid (by decide)
    (watchOk_of_check exOps_lawful rfl) (fun pre hp ins o hl hs => (exHist19_names pre hp ins o hl hs).1) rfl

example : ∃ wss : List (List (Delta ExObj)),
    (runs (fun p (e : EvalOrder ExObj × Delta ExObj) => p.evaluate exOps e.1 e.2) (newPipe [podK, svcK] exJoin) exHist19).2 = wss.map Except.ok :=
  C19_never_fails exOps_lawful (by decide) rfl exJoin_total exHist19_valid (by decide) (watchOk_of_check exOps_lawful rfl) exHist19_names

/-! ### C20 -/

/-- C20: whatever happened before (any events and syncs, successful or failed) and whatever the target record is (any record of objects
of the target kind, each under its own name), after a successful Sync the record holds exactly the objects the pipeline computes from the
live sources; objects may differ in the view UID, which Sync ignores, and do not differ at all if the record had no view UIDs. The
record is the effect of the emitted writes on the previous record. -/
theorem C20_sync {O : ObjOps D} (L : O.Lawful) {sources : List GVK} {target : GVK} {cfg : List (PipeOp D J)}
    {p0 p' : Pipe D J} (hn : (sources.map GVK.kind).Nodup) (hnew : Pipe.new target sources cfg = .ok p0)
    {hist : List (EvalOrder D × Option (Delta D))} (hω : ∀ e ∈ hist, e.1.Valid)
    (hone : ∀ ins o, LiveInputs O (hist.filterMap Prod.snd) sources ins → PipelineSpec cfg ins o → OnePerName O target o)
    {T : Store D} (hT : GoodRecord O target T) {ω : EvalOrder D} (hω' : ω.Valid) {ws : List (Delta D)}
    (hs : ({ (runs (Pipe.step O) p0 hist).1 with tgt := T } : Pipe D J).syncAll O ω = (p', .ok ws)) :
    (∃ ins o, LiveInputs O (hist.filterMap Prod.snd) sources ins ∧ PipelineSpec cfg ins o ∧
      HoldsUpTo O.removeUID O target o (fun k => p'.tgt.get k) ∧
      ((∀ k y, T.get k = some y → O.removeUID y = y) → Holds O target o (fun k => p'.tgt.get k))) ∧
    (∀ k, p'.tgt.get k = Target.writes O (fun k => T.get k) ws k) ∧ GoodRecord O target p'.tgt := by
  obtain ⟨g, hg, rfl⟩ := pipe_new_ok hnew
  have hinv := (pipeInv_new (O := O) hnew).runs L hg hist hω
  rw [List.nil_append] at hinv
  have hinv' : PipeInv O sources target g (hist.filterMap Prod.snd)
      ({ (runs (Pipe.step O) ({ sources := sources, target := target, graph := g } : Pipe D J) hist).1 with tgt := T } : Pipe D J) :=
    ⟨hinv.srcs, hinv.tgtk, hinv.inv, hinv.tracks, hinv.snapg, hinv.snap, hT⟩
  obtain ⟨ins, o, h1, h2, h3, h4, h5, _, h6⟩ := sync_spec L hn hg hinv' hone hω' hs
  have hgood : GoodRecord O target p'.tgt := by
    have h := (hinv'.step L hg (ω, none) hω').good
    have e : (Pipe.step O ({ (runs (Pipe.step O) ({ sources := sources, target := target, graph := g } : Pipe D J) hist).1 with tgt := T } : Pipe D J) (ω, none)).1 = p' := by
      show (Pipe.syncAll O ω _).1 = p'
      rw [hs]
    rw [e] at h
    exact h
  refine ⟨⟨ins, o, h1, h2, ?_, ?_⟩, ?_, hgood⟩
  · intro k
    have hkeep : ∀ d x, 0 < get o d → O.enforce target d = .ok x → O.key x = k →
        ∃ obj, p'.tgt.get k = some obj ∧ O.removeUID obj = O.removeUID x := by
      intro d x hd he hk
      have e := (h6 k).1 d x hd he hk
      simp only at e
      cases hy : T.get (O.key d) with
      | none => rw [hy] at e; exact ⟨x, e, rfl⟩
      | some y =>
        rw [hy] at e
        simp only at e
        by_cases hyd : O.removeUID y = d
        · rw [if_pos hyd] at e
          have hy2 := hT.2 _ _ hy
          have he2 := L.enforce_uid _ _ hy2.2
          rw [hyd, he] at he2
          simp only [Except.ok.injEq] at he2
          have hkd : O.key d = k := by rw [← hk, he2]
          rw [hkd] at hy
          rw [hy] at e
          exact ⟨y, e, by rw [hyd, he2, ← hyd, L.uid_idem]⟩
        · rw [if_neg hyd] at e; exact ⟨x, e, rfl⟩
    refine ⟨fun obj hobj => ?_, hkeep⟩
    by_cases hx : ∃ d x, 0 < get o d ∧ O.enforce target d = .ok x ∧ O.key x = k
    · obtain ⟨d, x, hd, he, hk⟩ := hx
      obtain ⟨obj', e1, e2⟩ := hkeep d x hd he hk
      simp only at hobj
      rw [e1] at hobj
      simp only [Option.some.injEq] at hobj
      subst hobj
      exact ⟨d, x, hd, he, hk, e2⟩
    · simp only at hobj
      rw [(h6 k).2 (fun d x a b c => hx ⟨d, x, a, b, c⟩)] at hobj
      simp at hobj
  · intro hnu k obj
    have hkeep : ∀ d x, 0 < get o d → O.enforce target d = .ok x → O.key x = k → p'.tgt.get k = some x := by
      intro d x hd he hk
      have e := (h6 k).1 d x hd he hk
      simp only at e
      cases hy : T.get (O.key d) with
      | none => rw [hy] at e; exact e
      | some y =>
        rw [hy] at e
        simp only at e
        by_cases hyd : O.removeUID y = d
        · rw [if_pos hyd] at e
          have hy2 := hT.2 _ _ hy
          rw [hnu _ _ hy] at hyd
          subst hyd
          rw [he] at hy2
          simp only [Except.ok.injEq] at hy2
          rw [hy2.2] at hk
          rw [hk] at hy
          rw [e, hy, hy2.2]
        · rw [if_neg hyd] at e; exact e
    constructor
    · intro hobj
      by_cases hx : ∃ d x, 0 < get o d ∧ O.enforce target d = .ok x ∧ O.key x = k
      · obtain ⟨d, x, hd, he, hk⟩ := hx
        simp only at hobj
        rw [hkeep d x hd he hk] at hobj
        simp only [Option.some.injEq] at hobj
        subst hobj
        exact ⟨d, hd, he, hk⟩
      · simp only at hobj
        rw [(h6 k).2 (fun d x a b c => hx ⟨d, x, a, b, c⟩)] at hobj
        simp at hobj
    · rintro ⟨d, hd, he, hk⟩; exact hkeep d obj hd he hk
  · intro k
    have := (syncAll_record (O := O) (ω := ω) (p := ({ (runs (Pipe.step O) ({ sources := sources, target := target, graph := g } : Pipe D J) hist).1 with tgt := T } : Pipe D J)) hω' hT.1).2
    rw [hs] at this
    exact congrFun this.1 k

/-- C20: every reachable target record is of the form `C20_sync` asks for. -/
theorem C20_record_good {O : ObjOps D} (L : O.Lawful) {sources : List GVK} {target : GVK} {cfg : List (PipeOp D J)}
    {p0 : Pipe D J} (hnew : Pipe.new target sources cfg = .ok p0)
    {hist : List (EvalOrder D × Option (Delta D))} (hω : ∀ e ∈ hist, e.1.Valid) :
    GoodRecord O target (runs (Pipe.step O) p0 hist).1.tgt := by
  obtain ⟨g, hg, rfl⟩ := pipe_new_ok hnew
  exact ((pipeInv_new (O := O) hnew).runs L hg hist hω).good

/-- C20: a Sync following a Sync leaves the target record unchanged; it may only repeat upserts of objects already there. -/
theorem C20_second_sync {O : ObjOps D} (L : O.Lawful) {sources : List GVK} {target : GVK} {cfg : List (PipeOp D J)}
    {p0 p' p'' : Pipe D J} (hn : (sources.map GVK.kind).Nodup) (hnew : Pipe.new target sources cfg = .ok p0)
    {hist : List (EvalOrder D × Option (Delta D))} (hω : ∀ e ∈ hist, e.1.Valid)
    (hone : ∀ ins o, LiveInputs O (hist.filterMap Prod.snd) sources ins → PipelineSpec cfg ins o → OnePerName O target o)
    {T : Store D} (hT : GoodRecord O target T)
    {ω ω' : EvalOrder D} (hω' : ω.Valid) (hω'' : ω'.Valid) {ws ws' : List (Delta D)}
    (hs : ({ (runs (Pipe.step O) p0 hist).1 with tgt := T } : Pipe D J).syncAll O ω = (p', .ok ws))
    (hs' : p'.syncAll O ω' = (p'', .ok ws')) :
    (∀ k, p''.tgt.get k = p'.tgt.get k) ∧ ∀ w ∈ ws', w.type = .upserted ∧ p'.tgt.get (O.key w.obj) = some w.obj := by
  obtain ⟨g, hg, rfl⟩ := pipe_new_ok hnew
  have hinv := (pipeInv_new (O := O) hnew).runs L hg hist hω
  rw [List.nil_append] at hinv
  have hinv1 : PipeInv O sources target g (hist.filterMap Prod.snd)
      ({ (runs (Pipe.step O) ({ sources := sources, target := target, graph := g } : Pipe D J) hist).1 with tgt := T } : Pipe D J) :=
    ⟨hinv.srcs, hinv.tgtk, hinv.inv, hinv.tracks, hinv.snapg, hinv.snap, hT⟩
  have hinv2 : PipeInv O sources target g (hist.filterMap Prod.snd) p' := by
    have h := hinv1.step L hg (ω, none) hω'
    have e : (Pipe.step O ({ (runs (Pipe.step O) ({ sources := sources, target := target, graph := g } : Pipe D J) hist).1 with tgt := T } : Pipe D J) (ω, none)).1 = p' := by
      show (Pipe.syncAll O ω _).1 = p'
      rw [hs]
    rw [e] at h
    simpa using h
  obtain ⟨ins, o, h1, h2, h3, h4, h5, hng, h6⟩ := sync_spec L hn hg hinv1 hone hω' hs
  obtain ⟨ins', o', i1, i2, i3, i4, i5, _, i6⟩ := sync_spec L hn hg hinv2 hone hω'' hs'
  have heq : Eqv o o' := pipelineSpec_unique (gatherDet_of_none hng) (liveInputs_eqvL (fun _ _ _ _ => Iff.rfl) h1 i1) h2 i2
  have hrec : ∀ k, p''.tgt.get k = p'.tgt.get k := by
    intro k
    by_cases hx : ∃ d x, 0 < get o d ∧ O.enforce target d = .ok x ∧ O.key x = k
    · obtain ⟨d, x, hd, he, hk⟩ := hx
      have e1 := (h6 k).1 d x hd he hk
      have e2 := (i6 k).1 d x (by rw [← heq d]; exact hd) he hk
      simp only at e1
      have hsame : ∀ y, p'.tgt.get k = some y → y = x ∨ O.removeUID y = d := by
        intro y hy
        rw [e1] at hy
        split at hy
        · rename_i y0 hy0
          split at hy
          · rename_i hyd
            right
            have he2 := L.enforce_uid _ _ (hT.2 _ _ hy0).2
            rw [hyd, he] at he2
            simp only [Except.ok.injEq] at he2
            rw [← hk, he2, hy0] at hy
            simp only [Option.some.injEq] at hy
            rw [← hy]; exact hyd
          · left; simpa using hy.symm
        · left; simpa using hy.symm
      have hsome : ∃ y, p'.tgt.get k = some y := by
        rw [e1]
        split
        · rename_i y0 hy0
          split
          · rename_i hyd
            have he2 := L.enforce_uid _ _ (hT.2 _ _ hy0).2
            rw [hyd, he] at he2
            simp only [Except.ok.injEq] at he2
            rw [← hk, he2, hy0]; exact ⟨_, rfl⟩
          · exact ⟨_, rfl⟩
        · exact ⟨_, rfl⟩
      obtain ⟨y, hy⟩ := hsome
      rcases hsame y hy with rfl | hyd
      · rw [e2, hy]
        split
        · split <;> rfl
        · rfl
      · have hky : O.key d = k := by rw [← hyd, L.key_uid]; exact (hinv2.good.2 _ _ hy).1
        rw [hky, hy] at e2
        simp only [hyd, if_true] at e2
        rw [e2, hy]
    · rw [(i6 k).2 (fun d x a b c => hx ⟨d, x, by rw [heq d]; exact a, b, c⟩), (h6 k).2 (fun d x a b c => hx ⟨d, x, a, b, c⟩)]
  refine ⟨hrec, fun w hw => ?_⟩
  have hrc := (syncAll_record (O := O) (ω := ω') (p := p') hω'' hinv2.good.1).2
  rw [hs'] at hrc
  obtain ⟨hrc1, ds, hd⟩ := hrc
  obtain ⟨r1, r2, _, _, r5⟩ := reconcile_spec hω''.recon hd
  have hwv := (Target.writes_get (fun k => p'.tgt.get k) r1 (O.key w.obj)).1 w hw rfl
  have hwv' : p''.tgt.get (O.key w.obj) = _ := (congrFun hrc1 (O.key w.obj)).trans hwv
  rw [hrec] at hwv'
  have htyp := writeOf_type ((r5 w).mp hw)
  rcases htyp with ht | ht
  · exfalso
    rw [if_pos ht] at hwv'
    have := (r5 w).mp hw
    rw [hwv'] at this
    unfold writeOf at this
    split at this
    · simp at this; rw [← this] at ht; simp at ht
    · simp at this
    · simp at this
    · simp at this
  · rw [if_neg (by rw [ht]; simp)] at hwv'
    exact ⟨ht, hwv'⟩

/-- Some events, one of them rejected, then a Sync from a wrong target record, then another one (iteration in different
orders). The second Sync repeats the upserts: required documents do not carry the target kind, recorded objects do. -/
def exHist20 : List (EvalOrder ExObj × Option (Delta ExObj)) :=
  [(ω0, some (pod .added "a" 2)), (ω1, some (pod .added "b" 3)), (ω0, some (pod .deleted "zz" 1))]

/-- The state before the Sync. -/
def exPipe20 : Pipe ExObj Nat :=
  { (runs (Pipe.step exOps) (newPipe [podK] exSel) exHist20).1 with tgt := [(("default", "x"), ⟨"View", "x", false, 1⟩), (("default", "a"), ⟨"View", "a", false, 1⟩)] }

example : GoodRecord exOps viewK exPipe20.tgt := by
  refine ⟨by simp [AMap.WF, exPipe20], ?_⟩
  intro k y h
  have := AMap.mem_of_get h
  simp [exPipe20] at this
  rcases this with ⟨rfl, rfl⟩ | ⟨rfl, rfl⟩ <;> exact ⟨rfl, rfl⟩

example : (exPipe20.syncAll exOps ω1).2 = .ok [view .deleted "x" 1, view .upserted "a" 20, view .upserted "b" 30] ∧
    ((exPipe20.syncAll exOps ω1).1.syncAll exOps ω0).2 = .ok [view .upserted "a" 20, view .upserted "b" 30] := ⟨rfl, rfl⟩

/-! ### C21 -/

/-- C21 (part): two successful watch histories that leave the same live objects leave the same target, whatever happened in between
and whatever the map iteration orders were (with gather stages: if they are deterministic). Same restrictions as
`C19_view_maintenance_partial`. -/
theorem C21_order_independent_partial {O : ObjOps D} (L : O.Lawful) {sources : List GVK} {target : GVK} {cfg : List (PipeOp D J)}
    {p0 : Pipe D J} (hn : (sources.map GVK.kind).Nodup) (hnew : Pipe.new target sources cfg = .ok p0) (hdet : GatherDet cfg)
    {hist hist' : List (EvalOrder D × Delta D)}
    (hω : ∀ e ∈ hist, e.1.Valid) (hs : ∀ e ∈ hist, O.gvk e.2.obj ∈ sources) (hw : WatchOk O (hist.map Prod.snd))
    (hone : ∀ pre, pre <+: hist.map Prod.snd → ∀ ins o, LiveInputs O pre sources ins → PipelineSpec cfg ins o → OnePerName O target o)
    (hω' : ∀ e ∈ hist', e.1.Valid) (hs' : ∀ e ∈ hist', O.gvk e.2.obj ∈ sources) (hw' : WatchOk O (hist'.map Prod.snd))
    (hone' : ∀ pre, pre <+: hist'.map Prod.snd → ∀ ins o, LiveInputs O pre sources ins → PipelineSpec cfg ins o → OnePerName O target o)
    {wss wss' : List (List (Delta D))}
    (hr : (runs (fun p (e : EvalOrder D × Delta D) => p.evaluate O e.1 e.2) p0 hist).2 = wss.map Except.ok)
    (hr' : (runs (fun p (e : EvalOrder D × Delta D) => p.evaluate O e.1 e.2) p0 hist').2 = wss'.map Except.ok)
    (hsame : ∀ g ∈ sources, ∀ k d, LiveAs O (hist.map Prod.snd) g k d ↔ LiveAs O (hist'.map Prod.snd) g k d) :
    Target.writes O (fun _ => none) wss.flatten = Target.writes O (fun _ => none) wss'.flatten := by
  obtain ⟨ins, o, h1, h2, h3⟩ := C19_view_maintenance_partial L hn hnew hω hs hw hone hr
  obtain ⟨ins', o', k1, k2, k3⟩ := C19_view_maintenance_partial L hn hnew hω' hs' hw' hone' hr'
  have he := pipelineSpec_unique hdet (liveInputs_eqvL hsame h1 k1) h2 k2
  exact holds_unique (holds_eqv he h3) k3

example : (runs (fun p (e : EvalOrder ExObj × Delta ExObj) => p.evaluate exOps e.1 e.2) (newPipe [podK, svcK] exJoin)
      [(ω1, svc .added "a" 3), (ω0, pod .added "c" 1), (ω0, pod .added "a" 5), (ω0, pod .deleted "c" 1)]).2 =
    [[], [], [view .upserted "a" 8], []].map Except.ok ∧
    (runs (fun p (e : EvalOrder ExObj × Delta ExObj) => p.evaluate exOps e.1 e.2) (newPipe [podK, svcK] exJoin) exHist17).2 =
      [[], [view .upserted "a" 5], [view .upserted "a" 8]].map Except.ok := ⟨rfl, rfl⟩

end Dctl
