import Verif.Controller.Lemmas
import Verif.Props.Exec
/-! Helper lemmas about steps of a pipeline (events and syncs) and about Sync. -/
set_option autoImplicit false
set_option linter.unusedSectionVars false
namespace Dctl
variable {D J : Type} [DecidableEq D] [DecidableEq J]
open ZSet

/-- Invariant of every reachable pipeline state, failures included. -/
structure PipeInv (O : ObjOps D) (sources : List GVK) (target : GVK) (g0 : Graph D J) (hist : List (Delta D))
    (p : Pipe D J) : Prop where
  srcs : p.sources = sources
  tgtk : p.target = target
  inv : SrcInv O p.src
  tracks : Tracks O p.src hist
  snapg : p.graph.toSnapshot = g0.toSnapshot
  snap : ∀ s, p.snap = some s → g0.toSnapshot = .ok s
  good : GoodRecord O target p.tgt

theorem pipeInv_new {O : ObjOps D} {target : GVK} {sources : List GVK} {cfg : List (PipeOp D J)} {p : Pipe D J}
    (h : Pipe.new target sources cfg = .ok p) : PipeInv O sources target p.graph [] p := by
  obtain ⟨g, hg, rfl⟩ := pipe_new_ok h
  exact ⟨rfl, rfl, srcInv_empty O, tracks_empty O, rfl, by simp, by simp [GoodRecord, AMap.WF, AMap.get]⟩

theorem reconcile_good {O : ObjOps D} (L : O.Lawful) {t : GVK} {ρ : RecOrder D} (hρ : ρ.Valid) {tgt tgt' : Store D}
    {zl : ZSet D} {ds ws : List (Delta D)} (hg : GoodRecord O t tgt) (hc : convertZSet O t zl = .ok ds)
    (hr : reconcile O ρ tgt ds = .ok (tgt', ws)) : GoodRecord O t tgt' := by
  obtain ⟨c1, c2⟩ := convertZSet_spec hc
  obtain ⟨r1, r2, r3, r4, r5⟩ := reconcile_spec hρ hr
  obtain ⟨r6, r4⟩ := r4 hg.1
  refine ⟨r6, fun k y hy => ?_⟩
  have hTk : tgt'.get k = Target.writes O (fun k => tgt.get k) ws k := congrFun r4 k
  rw [hTk] at hy
  by_cases hw : ∃ w ∈ ws, O.key w.obj = k
  · obtain ⟨w, hw, hk⟩ := hw
    rw [(Target.writes_get _ r1 k).1 w hw hk] at hy
    split at hy
    · cases hy
    · rename_i hnd
      simp only [Option.some.injEq] at hy
      subst hy
      refine ⟨hk, ?_⟩
      rw [r5] at hw
      have hmem : w.obj ∈ objsOf O .added (O.key w.obj) ds := by
        unfold writeOf at hw
        split at hw
        · rename_i a ha _
          simp at hw; rw [← hw]; simp only
          rw [← hw] at ha; exact List.mem_of_getLast? ha
        · split at hw
          · simp at hw; rw [← hw] at hnd; simp at hnd
          · simp at hw
        · rename_i a d ha hd
          split at hw
          · simp at hw; rw [← hw]; simp only
            rw [← hw] at ha; exact List.mem_of_getLast? ha
          · simp at hw
        · simp at hw
      obtain ⟨hm, _⟩ := mem_objsOf.mp hmem
      obtain ⟨p, _, he, _, _⟩ := (c2 _).mp hm
      exact L.enforce_idem _ _ _ he
  · rw [(Target.writes_get _ r1 k).2 (fun w h1 h2 => hw ⟨w, h1, h2⟩)] at hy
    exact hg.2 k y hy

theorem evaluate_err_tgt {O : ObjOps D} {ω : EvalOrder D} {p p' : Pipe D J} {δ : Delta D} {e : Err}
    (h : p.evaluate O ω δ = (p', .error e)) : p'.tgt = p.tgt := by
  unfold Pipe.evaluate at h
  split at h
  · simp at h; rw [← h.1]
  · split at h
    · simp at h; rw [← h.1]
    · split at h
      · simp at h; rw [← h.1]
      · split at h
        · simp at h; rw [← h.1]
        · simp at h

theorem evaluate_snapg (O : ObjOps D) (ω : EvalOrder D) (p : Pipe D J) (δ : Delta D) :
    (p.evaluate O ω δ).1.graph.toSnapshot = p.graph.toSnapshot := by
  unfold Pipe.evaluate
  split
  · rfl
  · rename_i src' z hc
    have h := toSnapshot_process ω.exec p.graph (evalInputs p.sources (O.gvk δ.obj).kind z)
    split
    · rename_i hp; rw [hp] at h; exact h
    · rename_i hp
      rw [hp] at h
      split
      · exact h
      · split <;> exact h

theorem snapshot_stateless {cfg : List (PipeOp D J)} {kinds : List String} {g s : Graph D J}
    (hnew : newPipeline kinds cfg = .ok g) (hs : g.toSnapshot = .ok s) (σ : Order D) (i : List (String × ZSet D)) :
    (s.process σ i).1 = s := by
  obtain ⟨h1, h2⟩ := toSnapshot_spec hnew
  have hsp : (tailStages cfg).all PipeOp.isSelProj = true := by
    cases hh : (tailStages cfg).all PipeOp.isSelProj with
    | true => rfl
    | false => obtain ⟨e, he⟩ := h2 hh; rw [he] at hs; simp at hs
  obtain ⟨s1, hs1, hin, href, hjn⟩ := h1 hsp
  rw [hs] at hs1
  simp only [Except.ok.injEq] at hs1
  subst hs1
  refine process_stateless (s := s) (href.lin_of_selProj hsp) ?_ σ i
  intro j hj
  rw [hjn] at hj
  cases hl : leadJoin cfg with
  | none => rw [hl] at hj; simp at hj
  | some ev => rw [hl] at hj; simp at hj; exact ⟨ev, _, hj.symm⟩

theorem syncAll_fields (O : ObjOps D) (ω : EvalOrder D) (p : Pipe D J) :
    (p.syncAll O ω).1.sources = p.sources ∧ (p.syncAll O ω).1.target = p.target ∧ (p.syncAll O ω).1.graph = p.graph ∧
    ((p.syncAll O ω).1.snap = p.snap ∨ ∃ s, p.snapshot = .ok s ∧
      (p.syncAll O ω).1.snap = some (s.process ω.exec (syncInputs O ω p.sources p.src)).1) := by
  unfold Pipe.syncAll
  split
  · exact ⟨rfl, rfl, rfl, Or.inl rfl⟩
  · rename_i s hs
    split
    · rename_i hp; exact ⟨rfl, rfl, rfl, Or.inr ⟨s, hs, by rw [hp]⟩⟩
    · rename_i hp
      split
      · exact ⟨rfl, rfl, rfl, Or.inr ⟨s, hs, by rw [hp]⟩⟩
      · split <;> exact ⟨rfl, rfl, rfl, Or.inr ⟨s, hs, by rw [hp]⟩⟩

theorem syncAll_err_tgt {O : ObjOps D} {ω : EvalOrder D} {p p' : Pipe D J} {e : Err}
    (h : p.syncAll O ω = (p', .error e)) : p'.tgt = p.tgt := by
  unfold Pipe.syncAll at h
  split at h
  · simp at h; rw [← h.1]
  · split at h
    · simp at h; rw [← h.1]
    · split at h
      · simp at h; rw [← h.1]
      · split at h
        · simp at h; rw [← h.1]
        · simp at h

theorem PipeInv.snapshot {O : ObjOps D} {sources : List GVK} {target : GVK} {g0 : Graph D J} {hist : List (Delta D)}
    {p : Pipe D J} (h : PipeInv O sources target g0 hist p) : p.snapshot = g0.toSnapshot := by
  unfold Pipe.snapshot
  cases hs : p.snap with
  | none => exact h.snapg
  | some s => exact (h.snap s hs).symm

theorem PipeInv.step {O : ObjOps D} (L : O.Lawful) {sources : List GVK} {target : GVK} {cfg : List (PipeOp D J)} {g0 : Graph D J}
    (hnew : newPipeline (sources.map GVK.kind) cfg = .ok g0) {hist : List (Delta D)} {p : Pipe D J}
    (h : PipeInv O sources target g0 hist p) (e : EvalOrder D × Option (Delta D)) (hω : e.1.Valid) :
    PipeInv O sources target g0 (hist ++ e.2.toList) (p.step O e).1 := by
  obtain ⟨ω, ev⟩ := e
  unfold Pipe.step
  cases ev with
  | some δ =>
    simp only [Option.toList]
    obtain ⟨f1, f2, f3⟩ := evaluate_sources O ω p δ
    refine ⟨f1.trans h.srcs, f2.trans h.tgtk, ?_, ?_, ?_, ?_, ?_⟩
    · rw [evaluate_src]; exact srcAfter_inv L h.inv δ
    · rw [evaluate_src]; exact srcAfter_tracks h.inv h.tracks δ
    · rw [evaluate_snapg]; exact h.snapg
    · rw [f3]; exact h.snap
    · cases hev : p.evaluate O ω δ with
      | mk p' r =>
      cases r with
      | error e => simp only; rw [evaluate_err_tgt hev]; exact h.good
      | ok ws =>
        obtain ⟨src', z, g', r, ds, tgt', h1, h2, h3, h4, rfl⟩ := evaluate_ok hev
        rw [h.tgtk] at h3
        exact reconcile_good L hω.recon h.good h3 h4
  | none =>
    simp only [Option.toList, List.append_nil]
    obtain ⟨f1, f2, f3, f4⟩ := syncAll_fields O ω p
    refine ⟨f1.trans h.srcs, f2.trans h.tgtk, ?_, ?_, ?_, ?_, ?_⟩
    · rw [syncAll_src]; exact h.inv
    · rw [syncAll_src]; exact h.tracks
    · rw [f3]; exact h.snapg
    · intro s hs
      rcases f4 with f4 | ⟨s', hs', f4⟩
      · rw [f4] at hs; exact h.snap s hs
      · rw [h.snapshot] at hs'
        rw [f4, snapshot_stateless hnew hs'] at hs
        simp only [Option.some.injEq] at hs
        rw [← hs]; exact hs'
    · cases hev : p.syncAll O ω with
      | mk p' r =>
      cases r with
      | error e => simp only; rw [syncAll_err_tgt hev]; exact h.good
      | ok ws =>
        obtain ⟨s, s', req, ds, tgt', h1, h2, h3, h4, rfl⟩ := syncAll_ok hev
        rw [h.tgtk] at h3
        exact reconcile_good L hω.recon h.good h3 h4

theorem PipeInv.runs {O : ObjOps D} (L : O.Lawful) {sources : List GVK} {target : GVK} {cfg : List (PipeOp D J)} {g0 : Graph D J}
    (hnew : newPipeline (sources.map GVK.kind) cfg = .ok g0) {hist : List (Delta D)} {p : Pipe D J}
    (h : PipeInv O sources target g0 hist p) (es : List (EvalOrder D × Option (Delta D))) (hω : ∀ e ∈ es, e.1.Valid) :
    PipeInv O sources target g0 (hist ++ es.filterMap Prod.snd) (runs (Pipe.step O) p es).1 := by
  induction es generalizing hist p with
  | nil => simpa [Dctl.runs] using h
  | cons e t ih =>
    have h1 := h.step L hnew e (hω e (by simp))
    have h2 := ih h1 (fun x hx => hω x (List.mem_cons_of_mem _ hx))
    simp only [Dctl.runs]
    have : hist ++ (e :: t).filterMap Prod.snd = hist ++ e.2.toList ++ t.filterMap Prod.snd := by
      rw [List.filterMap_cons]
      cases e.2 <;> simp
    rw [this]; exact h2

/-! ### Sync -/

theorem storeInd_perm {O : ObjOps D} {s s' : Store D} (h : AMap.WF s) (hp : s'.Perm s) (d : D) :
    storeInd O s' d = storeInd O s d := by
  unfold storeInd
  rw [AMap.get_perm h hp.symm]

theorem syncInputs_row {O : ObjOps D} {ω : EvalOrder D} {sources : List GVK} (hn : (sources.map GVK.kind).Nodup) (src : SrcCache D) :
    inputRow (sources.map GVK.kind) (syncInputs O ω sources src) = sources.map (fun s => storeZSet O (ω.store (src s))) := by
  unfold inputRow syncInputs
  rw [List.map_map]
  refine List.map_congr_left ?_
  intro s hs
  simp only [Function.comp, lookup_eq_get]
  rw [foldl_set_fresh GVK.kind (fun s => storeZSet O (ω.store (src s))) _ _ (by simpa using hn)]
  rw [List.nil_append, get_map_pair GVK.kind (fun s => storeZSet O (ω.store (src s))) hn hs]; rfl

theorem syncInputs_wf {O : ObjOps D} {ω : EvalOrder D} {sources : List GVK} {src : SrcCache D} :
    ∀ p ∈ syncInputs O ω sources src, WF p.2 := by
  intro p hp
  rcases foldl_set_mem hp with h | ⟨a, _, rfl⟩
  · simp at h
  · exact storeZSet_wf O _

theorem liveSet_of_get {O : ObjOps D} {hist : List (Delta D)} {g : GVK} {z w : ZSet D} (hw : WF w) (h : LiveSet O hist g z)
    (he : ∀ d, get w d = get z d) : LiveSet O hist g w :=
  ⟨hw, fun d => by rw [he]; exact h.2 d⟩

/-- The Z-set of a good record. -/
theorem goodRecord_zset {O : ObjOps D} (L : O.Lawful) {t : GVK} {s s' : Store D} (hg : GoodRecord O t s) (hp : s'.Perm s) :
    (∀ d, get (storeZSet O s') d = storeInd O s d) ∧
    (∀ d, 0 < get (storeZSet O s') d ↔ ∃ y, s.get (O.key d) = some y ∧ O.removeUID y = d) ∧
    (∀ d, 0 < get (storeZSet O s') d → O.enforce t d = .ok d) ∧
    OnePerName O t (storeZSet O s') ∧ HoldsKeys O t (storeZSet O s') (fun k => s.get k) ∧ AllEnforced O t (storeZSet O s') := by
  have hk : Keyed O s := ⟨hg.1, fun k y hy => (hg.2 k y hy).1⟩
  have h0 : ∀ d, get (storeZSet O s') d = storeInd O s d := by
    intro d
    rw [storeZSet_get L (hk.perm hp), storeInd_perm hg.1 hp]
  have h1 : ∀ d, 0 < get (storeZSet O s') d ↔ ∃ y, s.get (O.key d) = some y ∧ O.removeUID y = d := by
    intro d
    rw [h0]
    unfold storeInd
    cases hs : s.get (O.key d) with
    | none => simp
    | some y =>
      by_cases hy : O.removeUID y = d <;> simp [hy]
  have h2 : ∀ d, 0 < get (storeZSet O s') d → O.enforce t d = .ok d := by
    intro d hd
    obtain ⟨y, hy, rfl⟩ := (h1 d).mp hd
    exact L.enforce_uid _ _ (hg.2 _ _ hy).2
  refine ⟨h0, h1, h2, ⟨?_, ?_⟩, ?_, fun d hd => ⟨d, h2 d hd⟩⟩
  · intro d
    rw [h0]
    unfold storeInd
    split
    · split <;> decide
    · decide
  · intro d d' a b hd hd' ha hb hab
    rw [h2 d hd] at ha
    rw [h2 d' hd'] at hb
    simp only [Except.ok.injEq] at ha hb
    subst ha hb
    obtain ⟨y, hy, e⟩ := (h1 d).mp hd
    obtain ⟨y', hy', e'⟩ := (h1 d').mp hd'
    rw [hab, hy'] at hy
    simp only [Option.some.injEq] at hy
    rw [← e, ← e', hy]
  · intro k
    constructor
    · rintro ⟨y, hy⟩
      obtain ⟨e1, e2⟩ := hg.2 k y hy
      have hkey : O.key (O.removeUID y) = k := by rw [L.key_uid, e1]
      have hpos : 0 < get (storeZSet O s') (O.removeUID y) := (h1 _).mpr ⟨y, by rw [hkey]; exact hy, rfl⟩
      exact ⟨O.removeUID y, O.removeUID y, hpos, h2 _ hpos, hkey⟩
    · rintro ⟨d, x, hd, he, hkx⟩
      rw [h2 d hd] at he
      simp only [Except.ok.injEq] at he
      subst he
      obtain ⟨y, hy, _⟩ := (h1 d).mp hd
      exact ⟨y, by rw [← hkx]; exact hy⟩

/-- What the writes of a successful Sync do to any target `T`, in a state with any good record. -/
theorem sync_effect {O : ObjOps D} (L : O.Lawful) {sources : List GVK} {target : GVK} {cfg : List (PipeOp D J)} {g0 : Graph D J}
    (hn : (sources.map GVK.kind).Nodup) (hnew : newPipeline (sources.map GVK.kind) cfg = .ok g0)
    {hist : List (Delta D)} {p p' : Pipe D J}
    (h : PipeInv O sources target g0 hist p)
    (hone : ∀ ins o, LiveInputs O hist sources ins → PipelineSpec cfg ins o → OnePerName O target o)
    {ω : EvalOrder D} (hω : ω.Valid) {ws : List (Delta D)} (hs : p.syncAll O ω = (p', .ok ws)) :
    ∃ ins o, LiveInputs O hist sources ins ∧ PipelineSpec cfg ins o ∧ WF o ∧ AllEnforced O target o ∧ OnePerName O target o ∧
      hasGather cfg = false ∧
      ∀ (T : Target D) k, (∀ d x, 0 < get o d → O.enforce target d = .ok x → O.key x = k →
          Target.writes O T ws k = match p.tgt.get (O.key d) with
            | some y => if O.removeUID y = d then T k else some x
            | none => some x) ∧
        ((∀ d x, 0 < get o d → O.enforce target d = .ok x → O.key x ≠ k) → Target.writes O T ws k = if (p.tgt.get k).isSome then none else T k) := by
  obtain ⟨s, s', req, ds, tgt', h1, h2, h3, h4, rfl⟩ := syncAll_ok hs
  rw [h.snapshot] at h1
  rw [h.srcs] at h2
  rw [h.tgtk] at h3
  have hin := (newPipeline_inputs hnew).2 hn
  have hng : hasGather cfg = false := by
    have := (C14_snapshot_exists_partial hnew []).mp ⟨s, h1⟩
    unfold hasGather
    rw [List.any_eq_false]
    intro q hq
    cases q <;> simp
    exact absurd hq (this.2 _)
  obtain ⟨_, _, k3⟩ := C14_snapshot_correct_partial (σ := ω.exec) hnew [] h1 hω.exec syncInputs_wf h2
  rw [hin, syncInputs_row hn] at k3
  have hli : LiveInputs O hist sources (sources.map (fun s => storeZSet O (ω.store (p.src s)))) := by
    refine ⟨by simp, fun i s hs => ⟨storeZSet O (ω.store (p.src s)), by simp [hs], ?_⟩⟩
    refine liveSet_of_get (storeZSet_wf O _) (liveSet_store L h.inv h.tracks s) ?_
    intro d
    rw [storeZSet_get L ((h.inv.keyed s).perm (hω.store _)), storeZSet_get L (h.inv.keyed s),
      storeInd_perm (h.inv s).1 (hω.store _)]
  have hreq : WF req := by
    have href : (s.process ω.exec (syncInputs O ω sources p.src)) = (s', .ok req) := h2
    obtain ⟨t1, t2⟩ := toSnapshot_spec hnew
    have hsp : (tailStages cfg).all PipeOp.isSelProj = true := by
      cases hh : (tailStages cfg).all PipeOp.isSelProj with
      | true => rfl
      | false => obtain ⟨e, he⟩ := t2 hh; rw [he] at h1; simp at h1
    obtain ⟨s1, hs1, hin1, href1, hjn⟩ := t1 hsp
    rw [h1] at hs1
    simp only [Except.ok.injEq] at hs1
    subst hs1
    obtain ⟨f1, f2, f3, f4, f5, f6⟩ := newPipeline_facts hnew
    exact (oneShot_means (cfg := cfg) hω.exec syncInputs_wf href1 (by
      cases hl : leadJoin cfg with
      | none =>
        rw [hl] at hjn f5
        exact ⟨hjn, by rw [hin1]; exact f5 rfl⟩
      | some ev =>
        rw [hl] at hjn
        exact ⟨_, f6, Or.inr hjn⟩) h2).1
  have h1pn := hone _ _ hli k3
  obtain ⟨z0, z1, z2, z3, z4, z5⟩ := goodRecord_zset L h.good (hω.store p.tgt)
  have hsub : ∀ d, get req d = get (storeZSet O (ω.store p.tgt)) d + get (ZSet.sub req (storeZSet O (ω.store p.tgt))) d := by
    intro d
    rw [get_sub hreq (storeZSet_wf O _)]; omega
  obtain ⟨c1, c2⟩ := reconcile_effect hω.recon h.good.1 (hreq.sub _) (hω.list _) hsub z3 h1pn z4 z5 h3 h4
  refine ⟨_, req, hli, k3, hreq, c1, h1pn, hng, fun T k => ⟨fun d x hd he hk => ?_, (c2 T k).2⟩⟩
  rw [(c2 T k).1 d x hd he hk, z0]
  unfold storeInd
  cases hy : p.tgt.get (O.key d) with
  | none => simp
  | some y =>
    by_cases hyd : O.removeUID y = d <;> simp [hyd]

/-- What a successful Sync does, in a state whose record was replaced by an arbitrary good one. -/
theorem sync_spec {O : ObjOps D} (L : O.Lawful) {sources : List GVK} {target : GVK} {cfg : List (PipeOp D J)} {g0 : Graph D J}
    (hn : (sources.map GVK.kind).Nodup) (hnew : newPipeline (sources.map GVK.kind) cfg = .ok g0)
    {hist : List (Delta D)} {p p' : Pipe D J}
    (h : PipeInv O sources target g0 hist p)
    (hone : ∀ ins o, LiveInputs O hist sources ins → PipelineSpec cfg ins o → OnePerName O target o)
    {ω : EvalOrder D} (hω : ω.Valid) {ws : List (Delta D)} (hs : p.syncAll O ω = (p', .ok ws)) :
    ∃ ins o, LiveInputs O hist sources ins ∧ PipelineSpec cfg ins o ∧ WF o ∧ AllEnforced O target o ∧ OnePerName O target o ∧
      hasGather cfg = false ∧
      ∀ k, (∀ d x, 0 < get o d → O.enforce target d = .ok x → O.key x = k →
          p'.tgt.get k = match p.tgt.get (O.key d) with
            | some y => if O.removeUID y = d then p.tgt.get k else some x
            | none => some x) ∧
        ((∀ d x, 0 < get o d → O.enforce target d = .ok x → O.key x ≠ k) → p'.tgt.get k = none) := by
  obtain ⟨ins, o, a, b, c, d, e, f, g⟩ := sync_effect L hn hnew h hone hω hs
  obtain ⟨s, s', req, ds, tgt', _, _, _, h4, rfl⟩ := syncAll_ok hs
  obtain ⟨_, _, _, r4, _⟩ := reconcile_spec hω.recon h4
  obtain ⟨_, r4⟩ := r4 h.good.1
  refine ⟨ins, o, a, b, c, d, e, f, fun k => ?_⟩
  obtain ⟨g1, g2⟩ := g (fun k => p.tgt.get k) k
  have hTk : tgt'.get k = Target.writes O (fun k => p.tgt.get k) ws k := congrFun r4 k
  show (∀ d x, 0 < get o d → O.enforce target d = .ok x → O.key x = k → tgt'.get k = _) ∧ (_ → tgt'.get k = none)
  rw [hTk]
  refine ⟨g1, fun hno => ?_⟩
  rw [g2 hno]
  cases hg : p.tgt.get k <;> simp

end Dctl
