import Verif.Operator.AnnotatorLemmas
set_option autoImplicit false
set_option linter.unusedSectionVars false
namespace Dctl
variable {base : Env} {R : RefSpec} {cond proj : Expr} {doc : CDoc → CDoc → CDoc}

/-- The writes of one evaluation are about different objects. -/
theorem evaluate_nodup {D J : Type} [DecidableEq D] [DecidableEq J] {O : ObjOps D} {p0 p' : Pipe D J} (h0 : p0.tgt = []) {hist : List (EvalOrder D × Delta D)}
    (hω : ∀ e ∈ hist, e.1.Valid) {ω : EvalOrder D} (hω' : ω.Valid) {δ : Delta D} {ws : List (Delta D)}
    (he : (runs (fun p (e : EvalOrder D × Delta D) => p.evaluate O e.1 e.2) p0 hist).1.evaluate O ω δ = (p', .ok ws)) : (ws.map (fun w => O.key w.obj)).Nodup := by
  have hwf : ∀ (h : List (EvalOrder D × Delta D)) (p : Pipe D J), AMap.WF p.tgt → (∀ e ∈ h, e.1.Valid) →
      AMap.WF (runs (fun p (e : EvalOrder D × Delta D) => p.evaluate O e.1 e.2) p h).1.tgt := by
    intro h
    induction h with
    | nil => intro p hp _; exact hp
    | cons e h ih =>
      intro p hp hv
      exact ih _ (evaluate_record (O := O) (hv e (by simp)) hp e.2).1 (fun x hx => hv x (List.mem_cons_of_mem _ hx))
  have := (evaluate_record (O := O) hω' (hwf hist p0 (by rw [h0]; simp [AMap.WF]) hω) δ).2
  rw [he] at this
  obtain ⟨_, ds, hd⟩ := this
  exact (reconcile_spec hω'.recon hd).1

/-- Two objects `A` and two versions `B` of one annotated object; `X` are the patches. -/
structure Swing (R : RefSpec) (doc : CDoc → CDoc → CDoc) (A B X : Bool → CDoc) : Prop where
  srcs : ∀ f, objGVK (A f).1 = R.src
  tgts : ∀ f, objGVK (B f).1 = R.tgt
  key : ∀ f g, objKey (B f).1 = objKey (B g).1
  okA : ∀ f, R.Ok (A f)
  okB : ∀ f, R.Ok (B f)
  uid : ∀ f, jsonOps.removeUID (B f) = B f
  refers : ∀ f g, R.Refers (A f) (B g) ↔ f = g
  enf : ∀ f, jsonOps.enforce R.tgt (doc (A f) (B f)) = .ok (X f)
  keyX : ∀ f, objKey (X f).1 = objKey (B f).1
  diff : X true ≠ X false
  diffB : B true ≠ B false
  patch : ∀ f, jsonPatching.upsert (B f) (X f) = B f

/-- The objects are alive. -/
structure SwingSeen (R : RefSpec) (A B : Bool → CDoc) (hist : List (EvalOrder CDoc × Delta CDoc)) (last : Bool) : Prop where
  orders : ∀ e ∈ hist, e.1.Valid
  kinds : ∀ e ∈ hist, objGVK e.2.obj.1 ∈ R.sources
  watch : WatchOk jsonOps (hist.map Prod.snd)
  ok : ∀ e ∈ hist, R.Ok e.2.obj
  src : ∀ d, LiveObj (hist.map Prod.snd) R.src d ↔ ∃ f, d = A f
  tgt : ∀ d, LiveObj (hist.map Prod.snd) R.tgt d ↔ d = B last

theorem watchOk_updated {hist : List (Delta CDoc)} (h : WatchOk jsonOps hist) (x : CDoc) : WatchOk jsonOps (hist ++ [⟨.updated, x⟩]) := by
  intro pre δ post e
  rcases snoc_split e with ⟨_, _, rfl⟩ | ⟨post', _, rfl⟩
  · exact ⟨fun h => by simp at h, fun h => by simp at h, by simp⟩
  · exact h pre δ post' rfl

variable {A B X : Bool → CDoc}

theorem SwingSeen.next (hR : R.src ≠ R.tgt) (w : Swing R doc A B X) {hist : List (EvalOrder CDoc × Delta CDoc)} {last : Bool} (h : SwingSeen R A B hist last) {ω : EvalOrder CDoc} (hω : ω.Valid)
    (f : Bool) : SwingSeen R A B (hist ++ [(ω, ⟨.updated, B f⟩)]) f where
  orders := by
    intro e he
    rcases List.mem_append.mp he with he | he
    · exact h.orders e he
    · rw [List.mem_singleton.mp he]; exact hω
  kinds := by
    intro e he
    rcases List.mem_append.mp he with he | he
    · exact h.kinds e he
    · rw [List.mem_singleton.mp he, w.tgts]; simp
  watch := by
    rw [List.map_append]
    exact watchOk_updated h.watch _
  ok := by
    intro e he
    rcases List.mem_append.mp he with he | he
    · exact h.ok e he
    · rw [List.mem_singleton.mp he]; exact w.okB f
  src := by
    intro d
    rw [List.map_append]
    exact (liveObj_snoc (fun h' => hR (h'.1.symm.trans (w.tgts f)))).trans (h.src d)
  tgt := by
    intro d
    rw [List.map_append]
    by_cases hk : objKey d.1 = objKey (B f).1
    · have hc : Concerns jsonOps R.tgt (objKey d.1) (⟨.updated, B f⟩ : Delta CDoc) := ⟨w.tgts f, hk.symm, by simp⟩
      constructor
      · intro hl
        exact (((liveAs_snoc_of hc).mp hl.2).2.symm).trans (w.uid f)
      · rintro rfl
        exact ⟨w.tgts f, (liveAs_snoc_of hc).mpr ⟨by simp, w.uid f⟩⟩
    · constructor
      · intro hl
        have := (h.tgt d).mp ((liveObj_snoc (fun h' => hk h'.2.symm)).mp hl)
        rw [this] at hk
        exact absurd (w.key _ _) hk
      · rintro rfl
        exact absurd rfl hk

theorem SwingSeen.now (w : Swing R doc A B X) {hist : List (EvalOrder CDoc × Delta CDoc)} {last : Bool} (h : SwingSeen R A B hist last) (d : CDoc) :
    (∃ a b, R.Now (hist.map Prod.snd) a b ∧ d = doc a b) ↔ d = doc (A last) (B last) := by
  constructor
  · rintro ⟨a, b, ⟨l1, l2, r⟩, rfl⟩
    obtain ⟨f, rfl⟩ := (h.src a).mp l1
    cases (h.tgt b).mp l2
    rw [(w.refers f last).mp r]
  · rintro rfl
    exact ⟨_, _, ⟨(h.src _).mpr ⟨last, rfl⟩, (h.tgt _).mpr rfl, (w.refers _ _).mpr rfl⟩, rfl⟩

theorem swing_diff (w : Swing R doc A B X) (f : Bool) : X f ≠ X (!f) := by
  cases f
  · exact fun h => w.diff h.symm
  · exact w.diff

/-- The controller sees the other version: it makes the other patch. -/
theorem RefPipe.swings (h : RefPipe base R cond proj doc) (H : (fieldEnv base).Canon) (srt : List Json → List Json) {p0 : Pipe CDoc AnyVal}
    (hnew : newSpecPipe (fieldEnv base) srt R.tgt R.sources [.join cond, .project proj] = .ok p0) (w : Swing R doc A B X) {hist : List (EvalOrder CDoc × Delta CDoc)} {f : Bool}
    (hs : SwingSeen R A B hist (!f)) {ω : EvalOrder CDoc} (hω : ω.Valid) :
    ∃ p', (runs (fun p (e : EvalOrder CDoc × Delta CDoc) => p.evaluate jsonOps e.1 e.2) p0 hist).1.evaluate jsonOps ω ⟨.updated, B f⟩ = (p', .ok [⟨.upserted, X f⟩]) := by
  have hs' := hs.next h.ne w hω f
  obtain ⟨wss, hr⟩ := h.neverFails H srt hnew hs.orders hs.kinds hs.watch (fun δ hδ => by obtain ⟨e, he, rfl⟩ := List.mem_map.mp hδ; exact hs.ok e he)
  have hok : ∀ δ ∈ (hist ++ [(ω, (⟨.updated, B f⟩ : Delta CDoc))]).map Prod.snd, R.Ok δ.obj := fun δ hδ => by obtain ⟨e, he, rfl⟩ := List.mem_map.mp hδ; exact hs'.ok e he
  obtain ⟨wss', hr'⟩ := h.neverFails H srt hnew hs'.orders hs'.kinds hs'.watch hok
  obtain ⟨_, ws, _, _, _, he, _⟩ := runs_at _ hr'
  obtain ⟨cfg, hcfg, hpipe⟩ := newSpecPipe_ok hnew
  obtain ⟨g, _, hp⟩ := pipe_new_ok hpipe
  have hmap : (hist ++ [(ω, (⟨.updated, B f⟩ : Delta CDoc))]).map Prod.snd = hist.map Prod.snd ++ [⟨.updated, B f⟩] := by simp
  have hev : (runs (fun p (e : EvalOrder CDoc × Delta CDoc) => p.evaluate jsonOps e.1 e.2) p0 hist).1.evaluate jsonOps ω ⟨.updated, B f⟩ =
      (((runs (fun p (e : EvalOrder CDoc × Delta CDoc) => p.evaluate jsonOps e.1 e.2) p0 hist).1.evaluate jsonOps ω ⟨.updated, B f⟩).1, .ok ws) := Prod.ext rfl he
  have hw := hs'.watch
  rw [hmap] at hw
  obtain ⟨ins, o, ins', o', a1, a2, a3, a4, a5⟩ := C85_writes_exact_partial jsonOps_lawful h.kinds hpipe hs.orders hs.kinds hω
    (δ := ⟨.updated, B f⟩) (show objGVK (B f).1 ∈ R.sources by rw [w.tgts]; simp) hw
    (fun pre hpre ins o hl hsp => h.one H hcfg (fun δ hδ => hok δ (by rw [hmap]; exact hpre.subset hδ)) hl hsp) hr hev
  have r1 := fun d => (h.results H hcfg (fun δ hδ => by obtain ⟨e, he, rfl⟩ := List.mem_map.mp hδ; exact hs.ok e he) a1 a2 d).trans (hs.now w d)
  have hnow := fun d => hs'.now w d
  rw [hmap] at hnow
  have r2 := fun d => (h.results H hcfg (fun δ hδ => hok δ (by rw [hmap]; exact hδ)) a3 a4 d).trans (hnow d)
  have hmem : ∀ v, v ∈ ws ↔ v = ⟨.upserted, X f⟩ := by
    intro v
    rw [a5 v]
    constructor
    · rintro (⟨ht, d, d1, _, d3⟩ | ⟨_, ⟨d, d1, _, d3⟩, d4⟩)
      · rw [(r2 d).mp d1, w.enf f] at d3
        obtain ⟨t, x⟩ := v
        cases ht
        cases d3
        rfl
      · rw [(r1 d).mp d1, w.enf (!f)] at d3
        have hx : X (!f) = v.obj := by simpa using d3
        refine absurd ?_ (d4 _ (X f) ((r2 _).mpr rfl) (w.enf f))
        show objKey (X f).1 = objKey v.obj.1
        rw [w.keyX, ← hx, w.keyX]
        exact w.key _ _
    · rintro rfl
      refine .inl ⟨rfl, _, (r2 _).mpr rfl, fun h => ?_, w.enf f⟩
      have := w.enf f
      rw [(r1 _).mp h, w.enf (!f)] at this
      simp only [Except.ok.injEq] at this
      exact swing_diff w f this.symm
  have hnd := evaluate_nodup (by rw [hp]) hs.orders hω hev
  have hws : ws = [⟨.upserted, X f⟩] := by
    match ws, hmem, hnd with
    | [], hmem, _ => have := (hmem ⟨.upserted, X f⟩).mpr rfl; simp at this
    | [v], hmem, _ => rw [(hmem v).mp (by simp)]
    | v :: v' :: l, hmem, hnd =>
      have e1 := (hmem v).mp (by simp)
      have e2 := (hmem v').mp (by simp)
      subst e1 e2
      simp at hnd
  rw [hws] at hev
  exact ⟨_, hev⟩

/-- The versions in the queue, in the snapshots of the writes to be sent, last seen, and in the store. -/
structure Swinging (R : RefSpec) (A B X : Bool → CDoc) (p0 : Pipe CDoc AnyVal) (W : PWorld CDoc AnyVal) (evs outs : List Bool) (last cur : Bool) (s : PStation CDoc AnyVal) : Prop where
  st : W.stations = [s]
  pipe : s.base.pipe = (runs (fun p (e : EvalOrder CDoc × Delta CDoc) => p.evaluate jsonOps e.1 e.2) p0 s.base.done).1
  srcs : s.base.pipe.sources = R.sources
  target : s.base.pipe.target = R.tgt
  seen : SwingSeen R A B s.base.done last
  idle : s.base.pending R.src = []
  ev : s.base.pending R.tgt = evs.map (fun f => ⟨.updated, B f⟩)
  out : s.base.out = outs.map (fun f => ⟨.upserted, X f⟩)
  snaps : s.snaps = outs.map B
  store : W.store R.tgt (objKey (B true).1) = some (B cur)

theorem swinging_work (h : RefPipe base R cond proj doc) (H : (fieldEnv base).Canon) (srt : List Json → List Json) {p0 : Pipe CDoc AnyVal}
    (hnew : newSpecPipe (fieldEnv base) srt R.tgt R.sources [.join cond, .project proj] = .ok p0) (w : Swing R doc A B X) {W : PWorld CDoc AnyVal} {evs outs : List Bool} {f cur : Bool}
    {s : PStation CDoc AnyVal} (hs : Swinging R A B X p0 W (f :: evs) outs (!f) cur s) {ω : EvalOrder CDoc} (hω : ω.Valid) :
    ∃ W' s', W.act jsonOps jsonPatching (.work 0 R.tgt ω) = some W' ∧ Swinging R A B X p0 W' evs (outs ++ [f]) f cur s' := by
  obtain ⟨p', he⟩ := h.swings H srt hnew w hs.seen hω
  have hsame := evaluate_same jsonOps ω s.base.pipe ⟨.updated, B f⟩
  have hev := he
  rw [← hs.pipe] at hev
  rw [hev] at hsame
  have hpen := hs.ev
  rw [List.map_cons] at hpen
  let b : Station CDoc AnyVal := { pipe := p', pending := fun g => if g = R.tgt then evs.map (fun f => ⟨.updated, B f⟩) else s.base.pending g,
                                   out := s.base.out ++ [⟨.upserted, X f⟩], done := s.base.done ++ [(ω, ⟨.updated, B f⟩)] }
  have hw : s.base.work jsonOps ω R.tgt = some b := by
    simp only [Station.work]
    rw [if_pos (by rw [hs.srcs]; simp), hpen]
    simp only [hev]
    rfl
  have hwork : s.work jsonOps ω R.tgt = some { base := b, snaps := s.snaps ++ [B f] } := by
    simp only [PStation.work, hpen, hw]
    simp [b]
  refine ⟨{ W with stations := [{ base := b, snaps := s.snaps ++ [B f] }] }, _, ?_, ⟨rfl, ?_, ?_, ?_, hs.seen.next h.ne w hω f, ?_, ?_, ?_, ?_, hs.store⟩⟩
  · simp only [PWorld.act, hs.st, List.getElem?_cons_zero, hwork, List.set_cons_zero]
  · simp only [b]
    rw [runs_snoc]
    simp only [he]
  · exact hsame.1.trans hs.srcs
  · exact hsame.2.trans hs.target
  · simp only [b]
    rw [if_neg h.ne]; exact hs.idle
  · simp [b]
  · simp [b, hs.out]
  · simp [hs.snaps]

theorem swinging_send (w : Swing R doc A B X) (hR : R.src ≠ R.tgt) {p0 : Pipe CDoc AnyVal} {W : PWorld CDoc AnyVal} {evs outs : List Bool} {f last : Bool}
    {s : PStation CDoc AnyVal} (h : Swinging R A B X p0 W evs (f :: outs) last (!f) s) :
    ∃ W' s', W.act jsonOps jsonPatching (.send 0 0) = some W' ∧ Swinging R A B X p0 W' (evs ++ [f]) outs last f s' := by
  have hout := h.out
  have hsnaps := h.snaps
  rw [List.map_cons] at hout hsnaps
  let s1 : PStation CDoc AnyVal := { base := { s.base with out := outs.map (fun f => ⟨.upserted, X f⟩) }, snaps := outs.map B }
  have hs : s.send jsonOps 0 = some (⟨.upserted, X f⟩, B f, s1) := by
    simp only [PStation.send, Station.send, hout, hsnaps, List.getElem?_cons_zero, List.take_zero, List.all_nil, if_true, List.eraseIdx_cons_zero, s1]
  have hkey : objKey (X f).1 = objKey (B true).1 := (w.keyX f).trans (w.key _ _)
  have hdiff : B f ≠ B (!f) := by
    cases f
    · exact fun h => w.diffB h.symm
    · exact w.diffB
  have hpw : patchWrite jsonOps jsonPatching W.store R.tgt ⟨.upserted, X f⟩ (B f) = some (storePut W.store R.tgt (objKey (B true).1) (some (B f)), some ⟨.updated, B f⟩) := by
    have hb : patchBase jsonOps W.store R.tgt ⟨.upserted, X f⟩ (B f) = some (B f) := by
      unfold patchBase
      rw [if_pos ⟨w.tgts f, (w.keyX f).symm⟩]
    unfold patchWrite
    simp only [hb, w.patch]
    unfold storeReplace
    rw [show jsonOps.key (X f) = objKey (B true).1 from hkey, h.store]
    simp only
    rw [if_neg hdiff]
  refine ⟨PWorld.notify jsonOps { W with stations := [s1] } (storePut W.store R.tgt (objKey (B true).1) (some (B f)), some ⟨.updated, B f⟩),
    { s1 with base := s1.base.notify jsonOps ⟨.updated, B f⟩ }, ?_, ?_⟩
  · simp only [PWorld.act, h.st, List.getElem?_cons_zero, hs, h.target, hpw, List.set_cons_zero]
  · have hm : jsonOps.gvk (B f) ∈ s1.base.pipe.sources := by
      show objGVK (B f).1 ∈ s.base.pipe.sources
      rw [h.srcs, w.tgts]; simp
    have hn : s1.base.notify jsonOps ⟨.updated, B f⟩ = { s1.base with pending := fun g => if g = R.tgt then s.base.pending g ++ [⟨.updated, B f⟩] else s.base.pending g } := by
      unfold Station.notify
      rw [if_pos hm, show jsonOps.gvk (B f) = R.tgt from w.tgts f]
    rw [hn]
    refine ⟨?_, h.pipe, h.srcs, h.target, h.seen, ?_, ?_, rfl, rfl, ?_⟩
    · simp only [PWorld.notify, List.map_cons, List.map_nil, hn]
    · simp only
      rw [if_neg hR]; exact h.idle
    · simp [h.ev]
    · show storePut W.store R.tgt _ (some (B f)) R.tgt _ = _
      rw [storePut, if_pos ⟨rfl, rfl⟩]

/-- The three states, with the roles of the versions as they are or swapped. -/
def SwingBusy (R : RefSpec) (A B X : Bool → CDoc) (p0 : Pipe CDoc AnyVal) (W : PWorld CDoc AnyVal) : Prop :=
  ∃ f s, Swinging R A B X p0 W [!f, f] [] f f s ∨ Swinging R A B X p0 W [f] [!f] (!f) f s ∨ Swinging R A B X p0 W [] [!f, f] f f s

theorem swingBusy_next (h : RefPipe base R cond proj doc) (H : (fieldEnv base).Canon) (srt : List Json → List Json) {p0 : Pipe CDoc AnyVal}
    (hnew : newSpecPipe (fieldEnv base) srt R.tgt R.sources [.join cond, .project proj] = .ok p0) (w : Swing R doc A B X) {W : PWorld CDoc AnyVal} (hb : SwingBusy R A B X p0 W)
    {ω : EvalOrder CDoc} (hω : ω.Valid) : ∃ W', PatchStep jsonOps jsonPatching W' W := by
  obtain ⟨f, s, hb | hb | hb⟩ := hb
  · obtain ⟨W', _, h1, _⟩ := swinging_work h H srt hnew w (f := !f) (by simpa using hb) hω
    exact ⟨W', _, show LoopAct.Own (.work 0 R.tgt ω) from hω, h1⟩
  · obtain ⟨W', _, h1, _⟩ := swinging_work h H srt hnew w hb hω
    exact ⟨W', _, show LoopAct.Own (.work 0 R.tgt ω) from hω, h1⟩
  · obtain ⟨W', _, h1, _⟩ := swinging_send w h.ne (f := !f) (by simpa using hb)
    exact ⟨W', _, show LoopAct.Own (.send 0 0) from trivial, h1⟩

theorem swinging_acts (w : Swing R doc A B X) {p0 : Pipe CDoc AnyVal} {W W' : PWorld CDoc AnyVal} {evs outs : List Bool} {last cur : Bool} {s : PStation CDoc AnyVal}
    (h : Swinging R A B X p0 W evs outs last cur s) {a : LoopAct CDoc} (ha : a.Own) (hact : W.act jsonOps jsonPatching a = some W') :
    (∃ ω, a = .work 0 R.tgt ω ∧ ω.Valid ∧ evs ≠ []) ∨ (a = .send 0 0 ∧ outs ≠ []) := by
  cases a with
  | user w => exact ha.elim
  | work i g ω =>
    left
    obtain ⟨t, t', ht, hwk, rfl⟩ := pact_work hact
    rw [h.st] at ht
    have hi : i = 0 := by
      cases i with
      | zero => rfl
      | succ i => simp at ht
    subst hi
    simp only [List.getElem?_cons_zero, Option.some.injEq] at ht
    subst ht
    obtain ⟨hg, δ, q, _, _, hpen, _⟩ := pwork_some hwk
    rw [h.srcs] at hg
    simp only [List.mem_cons, List.not_mem_nil, or_false] at hg
    rcases hg with rfl | rfl
    · rw [h.idle] at hpen; cases hpen
    · refine ⟨ω, rfl, ha, ?_⟩
      rintro rfl
      rw [h.ev] at hpen; cases hpen
  | send i n =>
    right
    obtain ⟨t, t', v, o, r, ht, hsd, hpw, rfl⟩ := pact_send hact
    rw [h.st] at ht
    have hi : i = 0 := by
      cases i with
      | zero => rfl
      | succ i => simp at ht
    subst hi
    simp only [List.getElem?_cons_zero, Option.some.injEq] at ht
    subst ht
    have hsend : ∃ b, s.base.send jsonOps n = some (v, b) := by
      unfold PStation.send at hsd
      split at hsd
      · rename_i w' b o' hb _
        cases hsd
        exact ⟨b, hb⟩
      · cases hsd
    obtain ⟨b, hb⟩ := hsend
    obtain ⟨d1, d2, _⟩ := send_some hb
    rw [h.out] at d1 d2
    cases outs with
    | nil => simp at d1
    | cons f outs =>
      refine ⟨?_, by simp⟩
      cases n with
      | zero => rfl
      | succ n =>
        exfalso
        obtain ⟨f', _, rfl⟩ := List.mem_map.mp (List.mem_of_getElem? d1)
        refine d2 ⟨.upserted, X f⟩ (by simp) ?_
        show objKey (X f).1 = objKey (X f').1
        rw [w.keyX, w.keyX]
        exact w.key _ _

theorem swingBusy_act (h : RefPipe base R cond proj doc) (H : (fieldEnv base).Canon) (srt : List Json → List Json) {p0 : Pipe CDoc AnyVal}
    (hnew : newSpecPipe (fieldEnv base) srt R.tgt R.sources [.join cond, .project proj] = .ok p0) (w : Swing R doc A B X) {W W' : PWorld CDoc AnyVal} (hb : SwingBusy R A B X p0 W)
    {a : LoopAct CDoc} (ha : a.Own) (hact : W.act jsonOps jsonPatching a = some W') : SwingBusy R A B X p0 W' := by
  obtain ⟨f, s, hb | hb | hb⟩ := hb
  · rcases swinging_acts w hb ha hact with ⟨ω, rfl, hω, _⟩ | ⟨_, hne⟩
    · obtain ⟨W1, s', h1, h2⟩ := swinging_work h H srt hnew w (f := !f) (by simpa using hb) hω
      rw [hact] at h1; cases h1
      exact ⟨f, s', .inr (.inl h2)⟩
    · exact absurd rfl hne
  · rcases swinging_acts w hb ha hact with ⟨ω, rfl, hω, _⟩ | ⟨rfl, _⟩
    · obtain ⟨W1, s', h1, h2⟩ := swinging_work h H srt hnew w hb hω
      rw [hact] at h1; cases h1
      exact ⟨f, s', .inr (.inr h2)⟩
    · obtain ⟨W1, s', h1, h2⟩ := swinging_send w h.ne (f := !f) (by simpa using hb)
      rw [hact] at h1; cases h1
      exact ⟨!f, s', .inl (by simpa using h2)⟩
  · rcases swinging_acts w hb ha hact with ⟨_, _, _, hne⟩ | ⟨rfl, _⟩
    · exact absurd rfl hne
    · obtain ⟨W1, s', h1, h2⟩ := swinging_send w h.ne (f := !f) (by simpa using hb)
      rw [hact] at h1; cases h1
      exact ⟨!f, s', .inr (.inl (by simpa using h2))⟩

/-- In whatever order, the controller never comes to rest. -/
theorem swingBusy_endless (h : RefPipe base R cond proj doc) (H : (fieldEnv base).Canon) (srt : List Json → List Json) {p0 : Pipe CDoc AnyVal}
    (hnew : newSpecPipe (fieldEnv base) srt R.tgt R.sources [.join cond, .project proj] = .ok p0) (w : Swing R doc A B X) {ω : EvalOrder CDoc} (hω : ω.Valid) :
    ∀ (bs : List (LoopAct CDoc)) (W W' : PWorld CDoc AnyVal), SwingBusy R A B X p0 W → (∀ b ∈ bs, b.Own) → W.acts jsonOps jsonPatching bs = some W' →
      SwingBusy R A B X p0 W' ∧ ∃ W'', PatchStep jsonOps jsonPatching W'' W'
  | [], W, W', hb, _, h' => by
    cases h'
    exact ⟨hb, swingBusy_next h H srt hnew w hb hω⟩
  | b :: bs, W, W', hb, hbs, h' => by
    simp only [PWorld.acts] at h'
    split at h'
    · cases h'
    · rename_i W1 hW1
      exact swingBusy_endless h H srt hnew w hω bs W1 W' (swingBusy_act h H srt hnew w hb (hbs b (by simp)) hW1) (fun c hc => hbs c (List.mem_cons_of_mem _ hc)) h'

/-- The history of a controller is what it has evaluated. -/
theorem pacts_done {p0 : Pipe CDoc AnyVal} : ∀ (as : List (LoopAct CDoc)) {W W' : PWorld CDoc AnyVal}, (∀ i g ω, LoopAct.work i g ω ∈ as → ω.Valid) →
    (∃ s, W.stations = [s] ∧ (∀ e ∈ s.base.done, e.1.Valid) ∧ s.base.pipe = (runs (fun p (e : EvalOrder CDoc × Delta CDoc) => p.evaluate jsonOps e.1 e.2) p0 s.base.done).1 ∧
      s.base.pipe.sources = p0.sources ∧ s.base.pipe.target = p0.target) →
    W.acts jsonOps jsonPatching as = some W' →
    ∃ s, W'.stations = [s] ∧ (∀ e ∈ s.base.done, e.1.Valid) ∧ s.base.pipe = (runs (fun p (e : EvalOrder CDoc × Delta CDoc) => p.evaluate jsonOps e.1 e.2) p0 s.base.done).1 ∧
      s.base.pipe.sources = p0.sources ∧ s.base.pipe.target = p0.target
  | [], W, W', _, hs, h => by cases h; exact hs
  | a :: as, W, W', hv, ⟨s, h1, h2, h3, h4, h5⟩, h => by
    simp only [PWorld.acts] at h
    split at h
    · cases h
    · rename_i W1 hW1
      refine pacts_done as (fun i g ω hw => hv i g ω (List.mem_cons_of_mem _ hw)) ?_ h
      have note : ∀ (W2 : PWorld CDoc AnyVal) (t : PStation CDoc AnyVal) r, W2.stations = [t] → t.base.done = s.base.done → t.base.pipe = s.base.pipe →
          ∃ u, (PWorld.notify jsonOps W2 r).stations = [u] ∧ u.base.done = s.base.done ∧ u.base.pipe = s.base.pipe := by
        intro W2 t r e1 e2 e3
        obtain ⟨S, δ⟩ := r
        cases δ with
        | none => exact ⟨t, e1, e2, e3⟩
        | some δ =>
          obtain ⟨n1, n2, _⟩ := notify_done jsonOps δ t.base
          exact ⟨_, by simp only [PWorld.notify, e1, List.map_cons, List.map_nil]; rfl, n1.trans e2, n2.trans e3⟩
      cases a with
      | user v =>
        simp only [PWorld.act, Option.some.injEq] at hW1
        subst hW1
        obtain ⟨u, u1, u2, u3⟩ := note W s _ h1 rfl rfl
        exact ⟨u, u1, by rw [u2]; exact h2, by rw [u2, u3]; exact h3, by rw [u3]; exact h4, by rw [u3]; exact h5⟩
      | work i g ω =>
        obtain ⟨t, t', ht, hwk, rfl⟩ := pact_work hW1
        rw [h1] at ht
        have hi : i = 0 := by
          cases i with
          | zero => rfl
          | succ i => simp at ht
        subst hi
        simp only [List.getElem?_cons_zero, Option.some.injEq] at ht
        subst ht
        obtain ⟨_, δ, q, p', ws, _, he, _, hb, _⟩ := pwork_some hwk
        have hsame := evaluate_same jsonOps ω s.base.pipe δ
        rw [he] at hsame
        refine ⟨t', by simp [h1], ?_, ?_, ?_, ?_⟩
        · rw [hb]
          intro e hm
          rcases List.mem_append.mp hm with hm | hm
          · exact h2 e hm
          · rw [List.mem_singleton.mp hm]; exact hv 0 g ω (by simp)
        · rw [hb]
          simp only
          rw [runs_snoc]
          simp only [← h3, he]
        · rw [hb]; exact hsame.1.trans h4
        · rw [hb]; exact hsame.2.trans h5
      | send i n =>
        obtain ⟨t, t', v, o, r, ht, hsd, _, rfl⟩ := pact_send hW1
        rw [h1] at ht
        have hi : i = 0 := by
          cases i with
          | zero => rfl
          | succ i => simp at ht
        subst hi
        simp only [List.getElem?_cons_zero, Option.some.injEq] at ht
        subst ht
        obtain ⟨_, _, hb⟩ := psend_some hsd
        obtain ⟨u, u1, u2, u3⟩ := note { W with stations := W.stations.set 0 t' } t' r (by simp [h1]) (by rw [hb]) (by rw [hb])
        exact ⟨u, u1, by rw [u2]; exact h2, by rw [u2, u3]; exact h3, by rw [u3]; exact h4, by rw [u3]; exact h5⟩

end Dctl
