import Verif.Props.Control
import Verif.Props.Quiet
import Verif.Props.EndToEnd
/-!
# C102: changes made by others to what a controller has written
-/
set_option autoImplicit false
set_option linter.unusedSectionVars false
namespace Dctl
variable {D J : Type} [DecidableEq D] [DecidableEq J]
open ZSet

/-- What a tick does to a target of any content. -/
theorem tick_effect {O : ObjOps D} (L : O.Lawful) {sources : List GVK} {target : GVK} {cfg : List (PipeOp D J)}
    {p0 : Pipe D J} (hn : (sources.map GVK.kind).Nodup) (hnew : Pipe.new target sources cfg = .ok p0)
    {hist : List (EvalOrder D × Option (Delta D))} (hω : ∀ e ∈ hist, e.1.Valid)
    (hone : ∀ ins o, LiveInputs O (hist.filterMap Prod.snd) sources ins → PipelineSpec cfg ins o → OnePerName O target o)
    {ω : EvalOrder D} (hω' : ω.Valid) {fails : Nat → Bool} {T : Target D} {c : Ctl D J} {r : RecRes D}
    (h : (⟨(runs (Pipe.step O) p0 hist).1, T⟩ : Ctl D J).stateOfTheWorld O ω fails = (c, r)) (hok : r.ok = true) :
    ∃ ins o, LiveInputs O (hist.filterMap Prod.snd) sources ins ∧ PipelineSpec cfg ins o ∧ ∀ k,
      (∀ d x, 0 < get o d → O.enforce target d = .ok x → O.key x = k →
          c.tgt k = match (runs (Pipe.step O) p0 hist).1.tgt.get (O.key d) with
            | some y => if O.removeUID y = d then T k else some x
            | none => some x) ∧
      ((∀ d x, 0 < get o d → O.enforce target d = .ok x → O.key x ≠ k) →
        c.tgt k = if ((runs (Pipe.step O) p0 hist).1.tgt.get k).isSome then none else T k) := by
  obtain ⟨g, hg, rfl⟩ := pipe_new_ok hnew
  have hinv := (pipeInv_new (O := O) hnew).runs L hg hist hω
  rw [List.nil_append] at hinv
  unfold Ctl.stateOfTheWorld at h
  cases hs : ((runs (Pipe.step O) ({ sources := sources, target := target, graph := g } : Pipe D J) hist).1.syncAll O ω) with
  | mk p' res =>
    rw [hs] at h
    cases res with
    | error e =>
      simp only [Prod.mk.injEq] at h
      rw [← h.2] at hok; cases hok
    | ok ws =>
      simp only [Prod.mk.injEq] at h
      obtain ⟨rfl, rfl⟩ := h
      obtain ⟨w1, w2, _⟩ := writeAll_eq O fails T ws
      simp only at hok
      rw [w2.mp hok, List.take_length] at w1
      obtain ⟨ins, o, a, b, _, _, _, _, e⟩ := sync_effect L hn hg hinv hone hω' hs
      refine ⟨ins, o, a, b, fun k => ?_⟩
      simp only
      rw [w1]
      exact e T k

/-- **C102** (partial): a tick of a periodic source all of whose writes succeed, from any state of the pipeline, with a target of any content `T` — whatever others have
done to it. Let `o` be what the pipeline computes from the live objects. An object made of a document that is not itself an object of the target is put right; an
object that the pipeline has recorded and that no document yields any more is removed; an object that the pipeline has not recorded and no document yields is left alone.
Missing: see `C102_left`. -/
theorem C102_repaired_partial {O : ObjOps D} (L : O.Lawful) {sources : List GVK} {target : GVK} {cfg : List (PipeOp D J)}
    {p0 : Pipe D J} (hn : (sources.map GVK.kind).Nodup) (hnew : Pipe.new target sources cfg = .ok p0)
    {hist : List (EvalOrder D × Option (Delta D))} (hω : ∀ e ∈ hist, e.1.Valid)
    (hone : ∀ ins o, LiveInputs O (hist.filterMap Prod.snd) sources ins → PipelineSpec cfg ins o → OnePerName O target o)
    {ω : EvalOrder D} (hω' : ω.Valid) {fails : Nat → Bool} {T : Target D} {c : Ctl D J} {r : RecRes D}
    (h : (⟨(runs (Pipe.step O) p0 hist).1, T⟩ : Ctl D J).stateOfTheWorld O ω fails = (c, r)) (hok : r.ok = true) :
    ∃ ins o, LiveInputs O (hist.filterMap Prod.snd) sources ins ∧ PipelineSpec cfg ins o ∧
      (∀ d x, 0 < get o d → O.enforce target d = .ok x → x ≠ d → c.tgt (O.key x) = some x) ∧
      (∀ k, (∀ d x, 0 < get o d → O.enforce target d = .ok x → O.key x ≠ k) →
        ((runs (Pipe.step O) p0 hist).1.tgt.get k ≠ none → c.tgt k = none) ∧ ((runs (Pipe.step O) p0 hist).1.tgt.get k = none → c.tgt k = T k)) := by
  have hgood := C20_record_good L hnew hω
  obtain ⟨ins, o, a, b, e⟩ := tick_effect L hn hnew hω hone hω' h hok
  refine ⟨ins, o, a, b, fun d x hd hx hne => ?_, fun k hk => ?_⟩
  · rw [(e (O.key x)).1 d x hd hx rfl]
    cases hy : (runs (Pipe.step O) p0 hist).1.tgt.get (O.key d) with
    | none => rfl
    | some y =>
      by_cases hu : O.removeUID y = d
      · refine absurd ?_ hne
        have h1 := L.enforce_uid target y (hgood.2 _ _ hy).2
        rw [hu, hx] at h1
        exact Except.ok.inj h1
      · simp [hu]
  · rw [(e k).2 hk]
    cases hy : (runs (Pipe.step O) p0 hist).1.tgt.get k <;> simp

/-- **C102** fails as stated: an object made of a document that is what the pipeline has recorded for it is not written, so what others have made of it stays. -/
theorem C102_left {O : ObjOps D} (L : O.Lawful) {sources : List GVK} {target : GVK} {cfg : List (PipeOp D J)}
    {p0 : Pipe D J} (hn : (sources.map GVK.kind).Nodup) (hnew : Pipe.new target sources cfg = .ok p0)
    {hist : List (EvalOrder D × Option (Delta D))} (hω : ∀ e ∈ hist, e.1.Valid)
    (hone : ∀ ins o, LiveInputs O (hist.filterMap Prod.snd) sources ins → PipelineSpec cfg ins o → OnePerName O target o)
    {ω : EvalOrder D} (hω' : ω.Valid) {fails : Nat → Bool} {T : Target D} {c : Ctl D J} {r : RecRes D}
    (h : (⟨(runs (Pipe.step O) p0 hist).1, T⟩ : Ctl D J).stateOfTheWorld O ω fails = (c, r)) (hok : r.ok = true) :
    ∃ ins o, LiveInputs O (hist.filterMap Prod.snd) sources ins ∧ PipelineSpec cfg ins o ∧
      ∀ d y, 0 < get o d → (runs (Pipe.step O) p0 hist).1.tgt.get (O.key d) = some y → O.removeUID y = d → c.tgt (O.key d) = T (O.key d) := by
  have hgood := C20_record_good L hnew hω
  obtain ⟨ins, o, a, b, e⟩ := tick_effect L hn hnew hω hone hω' h hok
  refine ⟨ins, o, a, b, fun d y hd hy hu => ?_⟩
  have h1 := L.enforce_uid target y (hgood.2 _ _ hy).2
  rw [hu] at h1
  rw [(e (O.key d)).1 d d hd h1 rfl, hy]
  simp [hu]

/-- **C102** for JSON objects: a document without a `kind`, or of another kind or version than the target's, is not itself an object of the target: the tick puts its
object right. -/
theorem C102_json_partial {sources : List GVK} {target : GVK} {cfg : List (PipeOp CDoc J)}
    {p0 : Pipe CDoc J} (hn : (sources.map GVK.kind).Nodup) (hnew : Pipe.new target sources cfg = .ok p0)
    {hist : List (EvalOrder CDoc × Option (Delta CDoc))} (hω : ∀ e ∈ hist, e.1.Valid)
    (hone : ∀ ins o, LiveInputs jsonOps (hist.filterMap Prod.snd) sources ins → PipelineSpec cfg ins o → OnePerName jsonOps target o)
    {ω : EvalOrder CDoc} (hω' : ω.Valid) {fails : Nat → Bool} {T : Target CDoc} {c : Ctl CDoc J} {r : RecRes CDoc}
    (h : (⟨(runs (Pipe.step jsonOps) p0 hist).1, T⟩ : Ctl CDoc J).stateOfTheWorld jsonOps ω fails = (c, r)) (hok : r.ok = true) :
    ∃ ins o, LiveInputs jsonOps (hist.filterMap Prod.snd) sources ins ∧ PipelineSpec cfg ins o ∧
      ∀ (d x : CDoc), 0 < get o d → enforceDoc target d.1 = .ok x.1 →
        (SMap.get d.1 "kind" ≠ some (.str target.kind) ∨ SMap.get d.1 "apiVersion" ≠ some (.str (gvString target))) → c.tgt (objKey x.1) = some x := by
  obtain ⟨ins, o, a, b, e, _⟩ := C102_repaired_partial jsonOps_lawful hn hnew hω hone hω' h hok
  refine ⟨ins, o, a, b, fun d x hd hx hne => e d x hd (jsonOps_enforce.mpr hx) ?_⟩
  rintro rfl
  obtain ⟨k1, k2, _⟩ := C74_object target x.1 x.1 x.2 hx
  rcases hne with h | h
  · exact h k1
  · exact h k2

theorem writes_skip {O : ObjOps D} (T : Target D) (k : ObjKey) : ∀ ws : List (Delta D), (∀ w ∈ ws, O.key w.obj ≠ k) → Target.writes O T ws k = T k
  | [], _ => rfl
  | w :: ws, h => by
    rw [show Target.writes O T (w :: ws) = Target.writes O (Target.write O T w) ws from rfl, writes_skip _ _ ws (fun x hx => h x (by simp [hx])),
      Target.write, if_neg (h w (by simp))]

/-- **C102** (events): an event whose evaluation yields the same documents for an object as before does not write the object: what others have made of it stays. -/
theorem C102_event_left {O : ObjOps D} (L : O.Lawful) {sources : List GVK} {target : GVK} {cfg : List (PipeOp D J)} {p0 p' : Pipe D J}
    (hn : (sources.map GVK.kind).Nodup) (hnew : Pipe.new target sources cfg = .ok p0) (hdet : GatherDet cfg)
    {hist : List (EvalOrder D × Delta D)} (hω : ∀ e ∈ hist, e.1.Valid) (hs : ∀ e ∈ hist, O.gvk e.2.obj ∈ sources)
    {ω : EvalOrder D} (hω' : ω.Valid) {δ : Delta D} (hs' : O.gvk δ.obj ∈ sources) (hw : WatchOk O (hist.map Prod.snd ++ [δ]))
    (hone : ∀ pre, pre <+: hist.map Prod.snd ++ [δ] → ∀ ins o, LiveInputs O pre sources ins → PipelineSpec cfg ins o → OnePerName O target o)
    {wss : List (List (Delta D))} {ws : List (Delta D)}
    (hr : (runs (fun p (e : EvalOrder D × Delta D) => p.evaluate O e.1 e.2) p0 hist).2 = wss.map Except.ok)
    (he : (runs (fun p (e : EvalOrder D × Delta D) => p.evaluate O e.1 e.2) p0 hist).1.evaluate O ω δ = (p', .ok ws))
    {ins ins' : List (ZSet D)} {o o' : ZSet D} (hl : LiveInputs O (hist.map Prod.snd) sources ins) (hp : PipelineSpec cfg ins o)
    (hl' : LiveInputs O (hist.map Prod.snd ++ [δ]) sources ins') (hp' : PipelineSpec cfg ins' o') (T : Target D) (k : ObjKey)
    (hsame : ∀ d x, O.enforce target d = .ok x → O.key x = k → (0 < get o d ↔ 0 < get o' d)) :
    Target.writes O T ws k = T k := by
  obtain ⟨i1, o1, i2, o2, a, b, c, d, e⟩ := C85_writes_exact_partial L hn hnew hω hs hω' hs' hw hone hr he
  have e1 := pipelineSpec_unique hdet (liveInputs_eqvL (fun _ _ _ _ => Iff.rfl) a hl) b hp
  have e2 := pipelineSpec_unique hdet (liveInputs_eqvL (fun _ _ _ _ => Iff.rfl) c hl') d hp'
  refine writes_skip T k ws fun w hw hk => ?_
  rcases (e w).mp hw with ⟨_, d, h1, h2, h3⟩ | ⟨_, ⟨d, h1, h2, h3⟩, _⟩
  · rw [e2 d] at h1; rw [e1 d] at h2
    exact h2 ((hsame d _ h3 hk).mpr h1)
  · rw [e1 d] at h1; rw [e2 d] at h2
    exact h2 ((hsame d _ h3 hk).mp h1)

/-! ### examples -/

/-- A pipeline whose documents are of the kind of the target. -/
def exSame : List (PipeOp ExObj Nat) := [.project (fun x => .ok [{ x with kind := "View", val := x.val * 10 }])]

/-- Somebody has changed the object of the pod "a", removed that of "b", and created "x". -/
def exDrift : Target ExObj := fun k =>
  if k = ("default", "a") then some ⟨"View", "a", false, 7⟩ else if k = ("default", "x") then some ⟨"View", "x", false, 1⟩ else none

/-- The events before that. -/
def exBefore : List (EvalOrder ExObj × Option (Delta ExObj)) := [(ω0, some (pod .added "a" 2)), (ω1, some (pod .added "b" 3))]

/-- The controllers with the two pipelines at that moment. -/
def exDrifted (cfg : List (PipeOp ExObj Nat)) : Ctl ExObj Nat := ⟨(runs (Pipe.step exOps) (newPipe [podK] cfg) exBefore).1, exDrift⟩

-- documents without the kind of the target: repaired
example : (((exDrifted exSel).stateOfTheWorld exOps ω0 (fun _ => false)).1.tgt ("default", "a") = some ⟨"View", "a", false, 20⟩) ∧
    (((exDrifted exSel).stateOfTheWorld exOps ω0 (fun _ => false)).1.tgt ("default", "b") = some ⟨"View", "b", false, 30⟩) ∧
    (((exDrifted exSel).stateOfTheWorld exOps ω0 (fun _ => false)).1.tgt ("default", "x") = some ⟨"View", "x", false, 1⟩) ∧
    ((exDrifted exSel).stateOfTheWorld exOps ω0 (fun _ => false)).2.ok = true := ⟨rfl, rfl, rfl, rfl⟩

/-- **C102** fails as stated, and for ever: documents of the kind of the target; no number of ticks puts the objects right, although every one of them succeeds. -/
theorem C102_never (n : Nat) :
    (runs (Ctl.step exOps id) (exDrifted exSame) (List.replicate n (ω0, fun _ => false, .tick))).1.tgt = exDrift ∧
      ∀ r ∈ (runs (Ctl.step exOps id) (exDrifted exSame) (List.replicate n (ω0, fun _ => false, .tick))).2, r.ok = true := by
  have h1 : Ctl.step exOps id (exDrifted exSame) (ω0, fun _ => false, .tick) =
      (⟨((exDrifted exSame).stateOfTheWorld exOps ω0 (fun _ => false)).1.pipe, exDrift⟩, { writes := [], done := 0, ok := true }) := rfl
  have h2 : Ctl.step exOps id ⟨((exDrifted exSame).stateOfTheWorld exOps ω0 (fun _ => false)).1.pipe, exDrift⟩ (ω0, fun _ => false, .tick) =
      (⟨((exDrifted exSame).stateOfTheWorld exOps ω0 (fun _ => false)).1.pipe, exDrift⟩, { writes := [], done := 0, ok := true }) := rfl
  have gen : ∀ n, (runs (Ctl.step exOps id) ⟨((exDrifted exSame).stateOfTheWorld exOps ω0 (fun _ => false)).1.pipe, exDrift⟩
        (List.replicate n (ω0, fun _ => false, .tick))).1.tgt = exDrift ∧
      ∀ r ∈ (runs (Ctl.step exOps id) ⟨((exDrifted exSame).stateOfTheWorld exOps ω0 (fun _ => false)).1.pipe, exDrift⟩
        (List.replicate n (ω0, fun _ => false, .tick))).2, r.ok = true := by
    intro n
    induction n with
    | zero => exact ⟨rfl, by simp [runs]⟩
    | succ n ih =>
      simp only [List.replicate_succ, runs, h2]
      refine ⟨ih.1, fun r hr => ?_⟩
      rcases List.mem_cons.mp hr with rfl | hr
      · rfl
      · exact ih.2 r hr
  cases n with
  | zero => exact ⟨rfl, by simp [runs]⟩
  | succ n =>
    simp only [List.replicate_succ, runs, h1]
    refine ⟨(gen n).1, fun r hr => ?_⟩
    rcases List.mem_cons.mp hr with rfl | hr
    · rfl
    · exact (gen n).2 r hr

/-- A write that failed (C23) is an instance: the update that is lost for the retries is made by the next tick, since its document is not itself an object of the target;
the delete that is lost is not. -/
example : ((exLost.stateOfTheWorld exOps ω0 (fun _ => false)).1.tgt ("default", "a") = some ⟨"View", "a", false, 30⟩) ∧
    ((exLostDel.stateOfTheWorld exOps ω0 (fun _ => false)).1.tgt ("default", "a") = some ⟨"View", "a", false, 20⟩) := ⟨rfl, rfl⟩

/-- The graphs of the two pipelines. -/
def exGraphOf (cfg : List (PipeOp ExObj Nat)) : Graph ExObj Nat := ((newPipeline ["Pod"] cfg).toOption).getD {}
def exSnapOf (cfg : List (PipeOp ExObj Nat)) : Graph ExObj Nat := ((exGraphOf cfg).toSnapshot.toOption).getD {}

theorem exBefore_valid : ∀ e ∈ exBefore, e.1.Valid := by
  intro e he
  simp only [exBefore, List.mem_cons, List.not_mem_nil, or_false] at he
  rcases he with rfl | rfl
  · exact ω0_valid
  · exact ω1_valid

-- the hypotheses of the theorems, for both pipelines
example := C102_repaired_partial exOps_lawful (sources := [podK]) (cfg := exSel) (p0 := newPipe [podK] exSel) (by decide) rfl exBefore_valid
  (fun _ _ hl hs => (oneName_of_snapshot exOps_lawful (by decide) (g := exGraphOf exSel) (s := exSnapOf exSel) rfl rfl rfl _ (by decide) hl hs).1) ω0_valid
  (fails := fun _ => false) (T := exDrift) (c := ((exDrifted exSel).stateOfTheWorld exOps ω0 (fun _ => false)).1) (r := ⟨[view .upserted "a" 20, view .upserted "b" 30], 2, true⟩)
  rfl rfl
example := C102_left exOps_lawful (sources := [podK]) (cfg := exSame) (p0 := newPipe [podK] exSame) (by decide) rfl exBefore_valid
  (fun _ _ hl hs => (oneName_of_snapshot exOps_lawful (by decide) (g := exGraphOf exSame) (s := exSnapOf exSame) rfl rfl rfl _ (by decide) hl hs).1) ω0_valid
  (fails := fun _ => false) (T := exDrift) (c := ((exDrifted exSame).stateOfTheWorld exOps ω0 (fun _ => false)).1) (r := ⟨[], 0, true⟩) rfl rfl

-- an event of another pod: "a" stays as it is
example (T : Target ExObj) {p' : Pipe ExObj Nat} {ws : List (Delta ExObj)}
    (he : (runs (fun p (e : EvalOrder ExObj × Delta ExObj) => p.evaluate exOps e.1 e.2) (newPipe [podK] exSel) [(ω0, pod .added "a" 2)]).1.evaluate exOps ω1
      (pod .added "b" 3) = (p', .ok ws)) : Target.writes exOps T ws ("default", "a") = T ("default", "a") := by
  obtain ⟨ins, h1, h2⟩ := spec_of_snapshot exOps_lawful (sources := [podK]) (cfg := exSel) (by decide) (g := exGraphOf exSel) (s := exSnapOf exSel) rfl rfl
    [pod .added "a" 2] (req := [(⟨"", "a", false, 20⟩, 1)]) rfl
  obtain ⟨ins', h3, h4⟩ := spec_of_snapshot exOps_lawful (sources := [podK]) (cfg := exSel) (by decide) (g := exGraphOf exSel) (s := exSnapOf exSel) rfl rfl
    [pod .added "a" 2, pod .added "b" 3] (req := [(⟨"", "a", false, 20⟩, 1), (⟨"", "b", false, 30⟩, 1)]) rfl
  refine C102_event_left exOps_lawful (sources := [podK]) (cfg := exSel) (by decide) rfl (gatherDet_of_none rfl) (hist := [(ω0, pod .added "a" 2)])
    (by simpa using ω0_valid) (by decide) ω1_valid (by decide) (watchOk_of_check exOps_lawful rfl) ?_ (wss := [[view .upserted "a" 20]]) rfl he h1 h2 h3 h4 T _ ?_
  · intro pre hp ins o hl hs
    obtain ⟨n, hn, rfl⟩ : ∃ n, n < 3 ∧ pre = ([pod .added "a" 2, pod .added "b" 3]).take n :=
      ⟨pre.length, Nat.lt_succ_of_le hp.length_le, List.prefix_iff_eq_take.mp hp⟩
    have : ∀ n < 3, oneNameB exOps viewK [podK] (exSnapOf exSel) (([pod .added "a" 2, pod .added "b" 3]).take n) = true := by decide
    exact (oneName_of_snapshot exOps_lawful (by decide) (g := exGraphOf exSel) (s := exSnapOf exSel) rfl rfl rfl _ (this n hn) hl hs).1
  · intro d x hx hk
    have hd : d.name = "a" := by
      simp only [exOps] at hx hk
      split at hx
      · cases hx
      · cases hx; simpa using hk
    simp only [ZSet.get]
    have : (⟨"", "b", false, 30⟩ : ExObj) ≠ d := by rintro rfl; simp at hd
    simp [this]

/-- The tick of the JSON example. -/
def exJsonTick : Ctl CDoc Nat × RecRes CDoc :=
  (⟨(runs (Pipe.step jsonOps) exJsonPipe (exJsonHist.map (fun e => (e.1, some e.2)))).1, fun _ => none⟩ : Ctl CDoc Nat).stateOfTheWorld jsonOps ω0 (fun _ => false)

-- JSON objects: others have removed all Views; the Pod documents are not Views, so the tick makes them again
example := C102_json_partial (sources := [podK]) (target := viewK) (cfg := exSelJson) (p0 := exJsonPipe) (by decide) rfl (hist := exJsonHist.map (fun e => (e.1, some e.2)))
  (by intro e he
      simp only [exJsonHist, List.map_cons, List.map_nil, List.mem_cons, List.not_mem_nil, or_false] at he
      rcases he with rfl | rfl | rfl | rfl | rfl <;> first | exact ω0_valid | exact ω1_valid)
  (fun _ _ hl hs => exJsonHist_names _ (by exact List.prefix_refl _) _ _ hl hs) ω0_valid (fails := fun _ => false) (T := fun _ => none) (c := exJsonTick.1) (r := exJsonTick.2) rfl
  (by decide +kernel)

end Dctl
