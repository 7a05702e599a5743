import Verif.Props.Pipeline
/-!
# C85: an evaluation writes exactly what changed
-/
set_option autoImplicit false
namespace Dctl
variable {D J : Type} [DecidableEq D] [DecidableEq J]
open ZSet

/-- The writes that lead from the objects of `o` to those of `o'`: every object of a new document is upserted, and every object of a document that is gone is
deleted unless there is another document of its name now. -/
def ExactWrites (O : ObjOps D) (t : GVK) (o o' : ZSet D) (ws : List (Delta D)) : Prop :=
  ∀ w, w ∈ ws ↔
    (w.type = .upserted ∧ ∃ d, 0 < ZSet.get o' d ∧ ¬ 0 < ZSet.get o d ∧ O.enforce t d = .ok w.obj) ∨
    (w.type = .deleted ∧ (∃ d, 0 < ZSet.get o d ∧ ¬ 0 < ZSet.get o' d ∧ O.enforce t d = .ok w.obj) ∧
      ∀ d x, 0 < ZSet.get o' d → O.enforce t d = .ok x → O.key x ≠ O.key w.obj)

theorem last_split {A : Type} [DecidableEq A] {a : A} : ∀ {l : List A}, a ∈ l → ∃ x y, l = x ++ a :: y ∧ a ∉ y
  | b :: l, h => by
    by_cases hl : a ∈ l
    · obtain ⟨x, y, e, hy⟩ := last_split hl
      exact ⟨b :: x, y, by rw [e]; rfl, hy⟩
    · rcases List.mem_cons.mp h with rfl | h
      · exact ⟨[], l, rfl, hl⟩
      · exact absurd h hl

theorem first_split {A : Type} [DecidableEq A] {a : A} : ∀ {l : List A}, a ∈ l → ∃ x y, l = x ++ a :: y ∧ a ∉ x
  | b :: l, h => by
    by_cases hb : a = b
    · subst hb; exact ⟨[], l, rfl, by simp⟩
    · obtain ⟨x, y, e, hx⟩ := first_split ((List.mem_cons.mp h).resolve_left hb)
      exact ⟨b :: x, y, by rw [e]; rfl, by simp [hb, hx]⟩

theorem reconcile_exact {O : ObjOps D} {t : GVK} {ρ : RecOrder D} (hρ : ρ.Valid) {tgt tgt' : Store D} {ws ds : List (Delta D)}
    {o o' z zl : ZSet D} (hz : WF z) (hzl : zl.Perm z) (ho : ∀ d, get o' d = get o d + get z d)
    (h1 : OnePerName O t o) (h2 : OnePerName O t o') (hH : Holds O t o (fun k => tgt.get k))
    (hc : convertZSet O t zl = .ok ds) (hr : reconcile O ρ tgt ds = .ok (tgt', ws)) : ExactWrites O t o o' ws := by
  obtain ⟨_, c2⟩ := convertZSet_spec hc
  have hmem : ∀ d m, (d, m) ∈ zl ↔ get z d = m ∧ m ≠ 0 := fun d m => by rw [hzl.mem_iff, mem_iff_get hz]
  have hadd : ∀ x, (⟨.added, x⟩ : Delta D) ∈ ds ↔ ∃ d, 0 < get o' d ∧ ¬ 0 < get o d ∧ O.enforce t d = .ok x := by
    intro x
    rw [c2]
    constructor
    · rintro ⟨⟨d, m⟩, hp, he, hm, ht⟩
      have hg : get z d = m := ((hmem d m).mp hp).1
      by_cases hm' : 0 < m
      · have a := ho d
        have b := (h2.1 d).2
        have c := (h1.1 d).1
        exact ⟨d, by omega, by omega, he⟩
      · simp [hm'] at ht
    · rintro ⟨d, hd, hd', he⟩
      have a := ho d
      have c := (h1.1 d).1
      have hg : 0 < get z d := by omega
      exact ⟨(d, get z d), (hmem d _).mpr ⟨rfl, by omega⟩, he, by simp only; omega, by simp only; rw [if_pos hg]⟩
  have hdel : ∀ x, (⟨.deleted, x⟩ : Delta D) ∈ ds ↔ ∃ d, 0 < get o d ∧ ¬ 0 < get o' d ∧ O.enforce t d = .ok x := by
    intro x
    rw [c2]
    constructor
    · rintro ⟨⟨d, m⟩, hp, he, hm, ht⟩
      have hg : get z d = m := ((hmem d m).mp hp).1
      by_cases hm' : 0 < m
      · simp [hm'] at ht
      · simp only at hm
        have a := ho d
        have b := (h1.1 d).2
        have c := (h2.1 d).1
        exact ⟨d, by omega, by omega, he⟩
    · rintro ⟨d, hd, hd', he⟩
      have a := ho d
      have c := (h2.1 d).1
      have hg : get z d < 0 := by omega
      exact ⟨(d, get z d), (hmem d _).mpr ⟨rfl, by omega⟩, he, by simp only; omega, by simp only; rw [if_neg (by omega)]⟩
  intro w
  rw [C18_decision hρ hr w]
  constructor
  · rintro (⟨ht, ⟨a, b, e, _⟩, _⟩ | ⟨ht, ⟨a, b, e, _⟩, h4, y, h5⟩)
    · exact .inl ⟨ht, (hadd _).mp (by rw [e]; simp)⟩
    · obtain ⟨d, hd, hd', he⟩ := (hdel w.obj).mp (by rw [e]; simp)
      refine .inr ⟨ht, ⟨d, hd, hd', he⟩, fun d' x hd1 hx hk => ?_⟩
      by_cases hold : 0 < get o d'
      · have := h1.2 d d' w.obj x hd hold he hx hk.symm
        subst this
        exact hd' hd1
      · exact h4 ⟨.added, x⟩ ((hadd x).mpr ⟨d', hd1, hold, hx⟩) rfl hk
  · rintro (⟨ht, d, hd, hd', he⟩ | ⟨ht, ⟨d, hd, hd', he⟩, hno⟩)
    · refine .inl ⟨ht, ?_, ?_⟩
      · have huniq : ∀ δ ∈ ds, δ.type = .added → O.key δ.obj = O.key w.obj → δ = ⟨.added, w.obj⟩ := by
          rintro ⟨ty, x⟩ hδ rfl hk
          obtain ⟨d1, e1, _, e3⟩ := (hadd x).mp hδ
          have := h2.2 d1 d x w.obj e1 hd e3 he hk
          subst this
          rw [e3] at he
          cases he; rfl
        obtain ⟨a, b, e, hb⟩ := last_split ((hadd w.obj).mpr ⟨d, hd, hd', he⟩)
        exact ⟨a, b, e, fun δ hδ hty hk => hb ((huniq δ (by rw [e]; simp [hδ]) hty hk) ▸ hδ)⟩
      · rintro ⟨⟨ty, x⟩, hδ, rfl, hk⟩
        obtain ⟨d1, e1, _, e3⟩ := (hdel x).mp hδ
        exact ⟨x, (hH _ _).mpr ⟨d1, e1, e3, hk⟩⟩
    · refine .inr ⟨ht, ?_, ?_, w.obj, (hH _ _).mpr ⟨d, hd, he, rfl⟩⟩
      · have huniq : ∀ δ ∈ ds, δ.type = .deleted → O.key δ.obj = O.key w.obj → δ = ⟨.deleted, w.obj⟩ := by
          rintro ⟨ty, x⟩ hδ rfl hk
          obtain ⟨d1, e1, _, e3⟩ := (hdel x).mp hδ
          have := h1.2 d1 d x w.obj e1 hd e3 he hk
          subst this
          rw [e3] at he
          cases he; rfl
        obtain ⟨a, b, e, ha⟩ := first_split ((hdel w.obj).mpr ⟨d, hd, hd', he⟩)
        exact ⟨a, b, e, fun δ hδ hty hk => ha ((huniq δ (by rw [e]; simp [hδ]) hty hk) ▸ hδ)⟩
      · rintro ⟨ty, x⟩ hδ rfl hk
        obtain ⟨d1, e1, _, e3⟩ := (hadd x).mp hδ
        exact hno d1 x e1 e3 hk

/-- **C85** (partial): after any watch history, the writes of one more event are exactly those that lead from the objects computed from the live sources before the
event to those computed after it. Missing: results that share a name (C19), and evaluations that fail. -/
theorem C85_writes_exact_partial {O : ObjOps D} (L : O.Lawful) {sources : List GVK} {target : GVK} {cfg : List (PipeOp D J)} {p0 p' : Pipe D J}
    (hn : (sources.map GVK.kind).Nodup) (hnew : Pipe.new target sources cfg = .ok p0)
    {hist : List (EvalOrder D × Delta D)} (hω : ∀ e ∈ hist, e.1.Valid) (hs : ∀ e ∈ hist, O.gvk e.2.obj ∈ sources)
    {ω : EvalOrder D} (hω' : ω.Valid) {δ : Delta D} (hs' : O.gvk δ.obj ∈ sources) (hw : WatchOk O (hist.map Prod.snd ++ [δ]))
    (hone : ∀ pre, pre <+: hist.map Prod.snd ++ [δ] → ∀ ins o, LiveInputs O pre sources ins → PipelineSpec cfg ins o → OnePerName O target o)
    {wss : List (List (Delta D))} {ws : List (Delta D)}
    (hr : (runs (fun p (e : EvalOrder D × Delta D) => p.evaluate O e.1 e.2) p0 hist).2 = wss.map Except.ok)
    (he : (runs (fun p (e : EvalOrder D × Delta D) => p.evaluate O e.1 e.2) p0 hist).1.evaluate O ω δ = (p', .ok ws)) :
    ∃ ins o ins' o', LiveInputs O (hist.map Prod.snd) sources ins ∧ PipelineSpec cfg ins o ∧ LiveInputs O (hist.map Prod.snd ++ [δ]) sources ins' ∧
      PipelineSpec cfg ins' o' ∧ ExactWrites O target o o' ws := by
  obtain ⟨hw1, hw2⟩ := watchOk_snoc hw
  obtain ⟨o, h1, h2, h3⟩ := runs_inv L hn (runInv_new (O := O) hn hnew) hω hs (by simpa using hw1) hr
  obtain ⟨g, _, rfl⟩ := pipe_new_ok hnew
  obtain ⟨hE, hO, hH⟩ := h2 (holds_empty O target) (enforced_empty O target).1 (enforced_empty O target).2
    (fun h' _ hp => by simpa using hone h' (hp.trans (List.prefix_append _ _)))
  rw [List.nil_append] at h1
  obtain ⟨r, ds, k1, k2, k3, k4⟩ := h1.step L hn hω' hs' (hw2 _ h1.tracks) he
  have l1 := liveInputs_stores L h1.inv h1.tracks sources
  have l2 := liveInputs_stores L k2.inv k2.tracks sources
  refine ⟨_, o, _, o.add r, l1, h1.spec L l1, l2, k2.spec L l2, ?_⟩
  exact reconcile_exact hω'.recon k1 (hω'.list r) (fun d => by rw [get_add h1.wf_out k1]) hO (hone _ (List.prefix_refl _) _ _ l2 (k2.spec L l2)) hH k3 k4

/-- The same documents give the same objects: no writes. -/
theorem exactWrites_same {O : ObjOps D} {t : GVK} {o o' : ZSet D} {ws : List (Delta D)} (h : ExactWrites O t o o' ws)
    (hsame : ∀ d, 0 < ZSet.get o d ↔ 0 < ZSet.get o' d) : ws = [] := by
  cases ws with
  | nil => rfl
  | cons w ws =>
    rcases (h w).mp (by simp) with ⟨_, d, h1, h2, _⟩ | ⟨_, ⟨d, h1, h2, _⟩, _⟩
    · exact absurd ((hsame d).mpr h1) h2
    · exact absurd ((hsame d).mp h1) h2

/-- **C85** (partial): an event that does not change what the pipeline computes from the live objects causes no write. In particular a controller that writes an
object it also watches is not woken up by its own write for ever, if the written fields are not among those the pipeline looks at. Missing: see
`C85_writes_exact_partial`; gathers that depend on the iteration order. -/
theorem C85_quiet_partial {O : ObjOps D} (L : O.Lawful) {sources : List GVK} {target : GVK} {cfg : List (PipeOp D J)} {p0 p' : Pipe D J}
    (hn : (sources.map GVK.kind).Nodup) (hnew : Pipe.new target sources cfg = .ok p0) (hdet : GatherDet cfg)
    {hist : List (EvalOrder D × Delta D)} (hω : ∀ e ∈ hist, e.1.Valid) (hs : ∀ e ∈ hist, O.gvk e.2.obj ∈ sources)
    {ω : EvalOrder D} (hω' : ω.Valid) {δ : Delta D} (hs' : O.gvk δ.obj ∈ sources) (hw : WatchOk O (hist.map Prod.snd ++ [δ]))
    (hone : ∀ pre, pre <+: hist.map Prod.snd ++ [δ] → ∀ ins o, LiveInputs O pre sources ins → PipelineSpec cfg ins o → OnePerName O target o)
    {wss : List (List (Delta D))} {ws : List (Delta D)}
    (hr : (runs (fun p (e : EvalOrder D × Delta D) => p.evaluate O e.1 e.2) p0 hist).2 = wss.map Except.ok)
    (he : (runs (fun p (e : EvalOrder D × Delta D) => p.evaluate O e.1 e.2) p0 hist).1.evaluate O ω δ = (p', .ok ws))
    {ins ins' : List (ZSet D)} {o o' : ZSet D} (hl : LiveInputs O (hist.map Prod.snd) sources ins) (hp : PipelineSpec cfg ins o)
    (hl' : LiveInputs O (hist.map Prod.snd ++ [δ]) sources ins') (hp' : PipelineSpec cfg ins' o') (hsame : ∀ d, 0 < ZSet.get o d ↔ 0 < ZSet.get o' d) :
    ws = [] := by
  obtain ⟨i1, o1, i2, o2, a, b, c, d, e⟩ := C85_writes_exact_partial L hn hnew hω hs hω' hs' hw hone hr he
  have e1 := pipelineSpec_unique hdet (liveInputs_eqvL (fun _ _ _ _ => Iff.rfl) a hl) b hp
  have e2 := pipelineSpec_unique hdet (liveInputs_eqvL (fun _ _ _ _ => Iff.rfl) c hl') d hp'
  exact exactWrites_same e (fun d => by rw [e1 d, e2 d]; exact hsame d)

/-- What the snapshot graph computes from the sources left by a history. -/
def snapResult (O : ObjOps D) (sources : List GVK) (s : Graph D J) (hist : List (Delta D)) : Option (ZSet D) :=
  (s.process (fun _ z => z) (syncInputs O ω0 sources (runs (feed O) (fun _ => []) hist).1)).2.toOption

theorem spec_of_snapshot {O : ObjOps D} (L : O.Lawful) {sources : List GVK} {cfg : List (PipeOp D J)} {g s : Graph D J}
    (hn : (sources.map GVK.kind).Nodup) (hnew : newPipeline (sources.map GVK.kind) cfg = .ok g)
    (hs : g.toSnapshot = .ok s) (hist : List (Delta D)) {req : ZSet D} (hb : snapResult O sources s hist = some req) :
    ∃ ins, LiveInputs O hist sources ins ∧ PipelineSpec cfg ins req := by
  have hin := (newPipeline_inputs hnew).2 hn
  unfold snapResult at hb
  cases hr : s.process (fun _ z => z) (syncInputs O ω0 sources (runs (feed O) (fun _ => []) hist).1) with
  | mk s' res =>
  rw [hr] at hb
  cases res with
  | error e => cases hb
  | ok r =>
  cases hb
  obtain ⟨_, _, k3⟩ := C14_snapshot_correct_partial (σ := fun _ z => z) hnew [] hs (fun _ _ => List.Perm.refl _) syncInputs_wf hr
  rw [hin, syncInputs_row hn] at k3
  have gen : ∀ (hist pre : List (Delta D)) (c : SrcCache D), SrcInv O c → Tracks O c pre →
      SrcInv O (runs (feed O) c hist).1 ∧ Tracks O (runs (feed O) c hist).1 (pre ++ hist) := by
    intro hist
    induction hist with
    | nil => intro pre c h1 h; exact ⟨h1, by simpa [runs] using h⟩
    | cons δ t ih =>
      intro pre c hi ht
      have hf : (feed O c δ).1 = srcAfter O c δ := by unfold feed srcAfter; split <;> (rename_i h; rw [h])
      simp only [runs, hf]
      simpa using ih (pre ++ [δ]) _ (srcAfter_inv L hi δ) (srcAfter_tracks hi ht δ)
  obtain ⟨g1, g2⟩ := gen hist [] _ (srcInv_empty O) (tracks_empty O)
  exact ⟨_, liveInputs_stores L g1 (by simpa using g2) sources, k3⟩

-- the last event of the history removes an object: the writes are those of C85
example : ∃ ins o ins' o', LiveInputs exOps ((exHist19.take 5).map Prod.snd) [podK, svcK] ins ∧ PipelineSpec exJoin ins o ∧
    LiveInputs exOps ((exHist19.take 5).map Prod.snd ++ [svc .deleted "a" 3]) [podK, svcK] ins' ∧ PipelineSpec exJoin ins' o' ∧
    ExactWrites exOps viewK o o' [view .deleted "a" 8] :=
  C85_writes_exact_partial exOps_lawful (p0 := newPipe [podK, svcK] exJoin) (by decide) rfl (fun e he => exHist19_valid e (List.mem_of_mem_take he)) (by decide)
    ω0_valid (by decide) (watchOk_of_check exOps_lawful rfl) (fun pre hp ins o hl hs => (exHist19_names pre (hp.trans (by decide)) ins o hl hs).1)
    (wss := exWrites19.take 5) rfl rfl

-- a service without pods is added: nothing changes, nothing is written
example {p' : Pipe ExObj Nat} {ws : List (Delta ExObj)}
    (he : (runs (fun p (e : EvalOrder ExObj × Delta ExObj) => p.evaluate exOps e.1 e.2) (newPipe [podK, svcK] exJoin) (exHist19.take 3)).1.evaluate exOps ω1
      (svc .added "b" 1) = (p', .ok ws)) : ws = [] := by
  obtain ⟨ins, h1, h2⟩ := spec_of_snapshot exOps_lawful (sources := [podK, svcK]) (cfg := exJoin) (by decide) (g := exJoinGraph) (s := exJoinSnap) rfl rfl
    ((exHist19.take 3).map Prod.snd) (req := [(⟨"", "a", false, 8⟩, 1)]) rfl
  obtain ⟨ins', h3, h4⟩ := spec_of_snapshot exOps_lawful (sources := [podK, svcK]) (cfg := exJoin) (by decide) (g := exJoinGraph) (s := exJoinSnap) rfl rfl
    ((exHist19.take 3).map Prod.snd ++ [svc .added "b" 1]) (req := [(⟨"", "a", false, 8⟩, 1)]) rfl
  exact C85_quiet_partial exOps_lawful (by decide) rfl (gatherDet_of_none rfl) (fun e he => exHist19_valid e (List.mem_of_mem_take he)) (by decide)
    ω1_valid (by decide) (watchOk_of_check exOps_lawful rfl)
    (fun pre hp ins o hl hs => (exHist19_names pre (hp.trans (by decide)) ins o hl hs).1) (wss := exWrites19.take 3) rfl he h1 h2 h3 h4 (fun _ => Iff.rfl)

end Dctl
