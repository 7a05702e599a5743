import Verif.Operator.PodAnnotatorLemmas
import Verif.Operator.AnnotatorEndlessLemmas
set_option autoImplicit false
set_option linter.unusedSectionVars false
namespace Dctl
variable {base : Env} {R : OwnSpec} {proj : Expr} {doc : CDoc → CDoc}

/-- Two versions `B` of one object; `X` are the patches. -/
structure OwnSwing (R : OwnSpec) (doc : CDoc → CDoc) (B X : Bool → CDoc) : Prop where
  tgts : ∀ f, objGVK (B f).1 = R.kind
  key : ∀ f g, objKey (B f).1 = objKey (B g).1
  okB : ∀ f, R.Ok (B f)
  uid : ∀ f, jsonOps.removeUID (B f) = B f
  enf : ∀ f, jsonOps.enforce R.kind (doc (B f)) = .ok (X f)
  keyX : ∀ f, objKey (X f).1 = objKey (B f).1
  diff : X true ≠ X false
  diffB : B true ≠ B false
  patch : ∀ f, jsonPatching.upsert (B f) (X f) = B f

/-- One version of the object is alive. -/
structure OwnSeen (R : OwnSpec) (B : Bool → CDoc) (hist : List (EvalOrder CDoc × Delta CDoc)) (last : Bool) : Prop where
  orders : ∀ e ∈ hist, e.1.Valid
  kinds : ∀ e ∈ hist, objGVK e.2.obj.1 ∈ [R.kind]
  watch : WatchOk jsonOps (hist.map Prod.snd)
  ok : ∀ e ∈ hist, R.Ok e.2.obj
  tgt : ∀ d, LiveObj (hist.map Prod.snd) R.kind d ↔ d = B last

variable {B X : Bool → CDoc}

theorem OwnSeen.next (w : OwnSwing R doc B X) {hist : List (EvalOrder CDoc × Delta CDoc)} {last : Bool} (h : OwnSeen R B hist last) {ω : EvalOrder CDoc} (hω : ω.Valid)
    (f : Bool) : OwnSeen R B (hist ++ [(ω, ⟨.updated, B f⟩)]) f where
  orders := by
    intro e he
    rcases List.mem_append.mp he with he | he
    · exact h.orders e he
    · rw [List.mem_singleton.mp he]; exact hω
  kinds := by
    intro e he
    rcases List.mem_append.mp he with he | he
    · exact h.kinds e he
    · rw [List.mem_singleton.mp he, w.tgts]; simp
  watch := by
    rw [List.map_append]
    exact watchOk_updated h.watch _
  ok := by
    intro e he
    rcases List.mem_append.mp he with he | he
    · exact h.ok e he
    · rw [List.mem_singleton.mp he]; exact w.okB f
  tgt := by
    intro d
    rw [List.map_append]
    by_cases hk : objKey d.1 = objKey (B f).1
    · have hc : Concerns jsonOps R.kind (objKey d.1) (⟨.updated, B f⟩ : Delta CDoc) := ⟨w.tgts f, hk.symm, by simp⟩
      constructor
      · intro hl
        exact (((liveAs_snoc_of hc).mp hl.2).2.symm).trans (w.uid f)
      · rintro rfl
        exact ⟨w.tgts f, (liveAs_snoc_of hc).mpr ⟨by simp, w.uid f⟩⟩
    · constructor
      · intro hl
        have := (h.tgt d).mp ((liveObj_snoc (fun h' => hk h'.2.symm)).mp hl)
        rw [this] at hk
        exact absurd (w.key _ _) hk
      · rintro rfl
        exact absurd rfl hk

theorem OwnSeen.now {hist : List (EvalOrder CDoc × Delta CDoc)} {last : Bool} (h : OwnSeen R B hist last) (c : CDoc) :
    (∃ d, LiveObj (hist.map Prod.snd) R.kind d ∧ c = doc d) ↔ c = doc (B last) := by
  constructor
  · rintro ⟨d, l, rfl⟩
    cases (h.tgt d).mp l
    rfl
  · rintro rfl
    exact ⟨_, (h.tgt _).mpr rfl, rfl⟩

theorem ownSwing_diff (w : OwnSwing R doc B X) (f : Bool) : X f ≠ X (!f) := by
  cases f
  · exact fun h => w.diff h.symm
  · exact w.diff

/-- The controller sees the other version: it makes the other patch. -/
theorem OwnPipe.swings (h : OwnPipe base R proj doc) (H : (fieldEnv base).Canon) (srt : List Json → List Json) {p0 : Pipe CDoc AnyVal}
    (hnew : newSpecPipe (fieldEnv base) srt R.kind [R.kind] [.project proj] = .ok p0) (w : OwnSwing R doc B X) {hist : List (EvalOrder CDoc × Delta CDoc)} {f : Bool}
    (hs : OwnSeen R B hist (!f)) {ω : EvalOrder CDoc} (hω : ω.Valid) :
    ∃ p', (runs (fun p (e : EvalOrder CDoc × Delta CDoc) => p.evaluate jsonOps e.1 e.2) p0 hist).1.evaluate jsonOps ω ⟨.updated, B f⟩ = (p', .ok [⟨.upserted, X f⟩]) := by
  have hs' := hs.next w hω f
  obtain ⟨wss, hr⟩ := h.neverFails H srt hnew hs.orders hs.kinds hs.watch (fun δ hδ => by obtain ⟨e, he, rfl⟩ := List.mem_map.mp hδ; exact hs.ok e he)
  have hok : ∀ δ ∈ (hist ++ [(ω, (⟨.updated, B f⟩ : Delta CDoc))]).map Prod.snd, R.Ok δ.obj := fun δ hδ => by obtain ⟨e, he, rfl⟩ := List.mem_map.mp hδ; exact hs'.ok e he
  obtain ⟨wss', hr'⟩ := h.neverFails H srt hnew hs'.orders hs'.kinds hs'.watch hok
  obtain ⟨_, ws, _, _, _, he, _⟩ := runs_at _ hr'
  obtain ⟨cfg, hcfg, hpipe⟩ := newSpecPipe_ok hnew
  obtain ⟨g, _, hp⟩ := pipe_new_ok hpipe
  have hmap : (hist ++ [(ω, (⟨.updated, B f⟩ : Delta CDoc))]).map Prod.snd = hist.map Prod.snd ++ [⟨.updated, B f⟩] := by simp
  have hev : (runs (fun p (e : EvalOrder CDoc × Delta CDoc) => p.evaluate jsonOps e.1 e.2) p0 hist).1.evaluate jsonOps ω ⟨.updated, B f⟩ =
      (((runs (fun p (e : EvalOrder CDoc × Delta CDoc) => p.evaluate jsonOps e.1 e.2) p0 hist).1.evaluate jsonOps ω ⟨.updated, B f⟩).1, .ok ws) := Prod.ext rfl he
  have hw := hs'.watch
  rw [hmap] at hw
  obtain ⟨ins, o, ins', o', a1, a2, a3, a4, a5⟩ := C85_writes_exact_partial jsonOps_lawful (by simp) hpipe hs.orders hs.kinds hω
    (δ := ⟨.updated, B f⟩) (show objGVK (B f).1 ∈ [R.kind] by rw [w.tgts]; simp) hw
    (fun pre hpre ins o hl hsp => h.one H hcfg (fun δ hδ => hok δ (by rw [hmap]; exact hpre.subset hδ)) hl hsp) hr hev
  have r1 := fun d => (h.results H hcfg (fun δ hδ => by obtain ⟨e, he, rfl⟩ := List.mem_map.mp hδ; exact hs.ok e he) a1 a2 d).trans (hs.now (doc := doc) d)
  have hnow := fun d => hs'.now (doc := doc) d
  rw [hmap] at hnow
  have r2 := fun d => (h.results H hcfg (fun δ hδ => hok δ (by rw [hmap]; exact hδ)) a3 a4 d).trans (hnow d)
  have hmem : ∀ v, v ∈ ws ↔ v = ⟨.upserted, X f⟩ := by
    intro v
    rw [a5 v]
    constructor
    · rintro (⟨ht, d, d1, _, d3⟩ | ⟨_, ⟨d, d1, _, d3⟩, d4⟩)
      · rw [(r2 d).mp d1, w.enf f] at d3
        obtain ⟨t, x⟩ := v
        cases ht
        cases d3
        rfl
      · rw [(r1 d).mp d1, w.enf (!f)] at d3
        have hx : X (!f) = v.obj := by simpa using d3
        refine absurd ?_ (d4 _ (X f) ((r2 _).mpr rfl) (w.enf f))
        show objKey (X f).1 = objKey v.obj.1
        rw [w.keyX, ← hx, w.keyX]
        exact w.key _ _
    · rintro rfl
      refine .inl ⟨rfl, _, (r2 _).mpr rfl, fun h => ?_, w.enf f⟩
      have := w.enf f
      rw [(r1 _).mp h, w.enf (!f)] at this
      simp only [Except.ok.injEq] at this
      exact ownSwing_diff w f this.symm
  have hnd := evaluate_nodup (by rw [hp]) hs.orders hω hev
  have hws : ws = [⟨.upserted, X f⟩] := by
    match ws, hmem, hnd with
    | [], hmem, _ => have := (hmem ⟨.upserted, X f⟩).mpr rfl; simp at this
    | [v], hmem, _ => rw [(hmem v).mp (by simp)]
    | v :: v' :: l, hmem, hnd =>
      have e1 := (hmem v).mp (by simp)
      have e2 := (hmem v').mp (by simp)
      subst e1 e2
      simp at hnd
  rw [hws] at hev
  exact ⟨_, hev⟩

/-- The versions in the queue, in the snapshots of the writes to be sent, last seen, and in the store. -/
structure OwnSwinging (R : OwnSpec) (B X : Bool → CDoc) (p0 : Pipe CDoc AnyVal) (W : PWorld CDoc AnyVal) (evs outs : List Bool) (last cur : Bool) (s : PStation CDoc AnyVal) : Prop where
  st : W.stations = [s]
  pipe : s.base.pipe = (runs (fun p (e : EvalOrder CDoc × Delta CDoc) => p.evaluate jsonOps e.1 e.2) p0 s.base.done).1
  srcs : s.base.pipe.sources = [R.kind]
  target : s.base.pipe.target = R.kind
  seen : OwnSeen R B s.base.done last
  ev : s.base.pending R.kind = evs.map (fun f => ⟨.updated, B f⟩)
  out : s.base.out = outs.map (fun f => ⟨.upserted, X f⟩)
  snaps : s.snaps = outs.map B
  store : W.store R.kind (objKey (B true).1) = some (B cur)

theorem ownSwinging_work (h : OwnPipe base R proj doc) (H : (fieldEnv base).Canon) (srt : List Json → List Json) {p0 : Pipe CDoc AnyVal}
    (hnew : newSpecPipe (fieldEnv base) srt R.kind [R.kind] [.project proj] = .ok p0) (w : OwnSwing R doc B X) {W : PWorld CDoc AnyVal} {evs outs : List Bool} {f cur : Bool}
    {s : PStation CDoc AnyVal} (hs : OwnSwinging R B X p0 W (f :: evs) outs (!f) cur s) {ω : EvalOrder CDoc} (hω : ω.Valid) :
    ∃ W' s', W.act jsonOps jsonPatching (.work 0 R.kind ω) = some W' ∧ OwnSwinging R B X p0 W' evs (outs ++ [f]) f cur s' := by
  obtain ⟨p', he⟩ := h.swings H srt hnew w hs.seen hω
  have hsame := evaluate_same jsonOps ω s.base.pipe ⟨.updated, B f⟩
  have hev := he
  rw [← hs.pipe] at hev
  rw [hev] at hsame
  have hpen := hs.ev
  rw [List.map_cons] at hpen
  let b : Station CDoc AnyVal := { pipe := p', pending := fun g => if g = R.kind then evs.map (fun f => ⟨.updated, B f⟩) else s.base.pending g,
                                   out := s.base.out ++ [⟨.upserted, X f⟩], done := s.base.done ++ [(ω, ⟨.updated, B f⟩)] }
  have hw : s.base.work jsonOps ω R.kind = some b := by
    simp only [Station.work]
    rw [if_pos (by rw [hs.srcs]; simp), hpen]
    simp only [hev]
    rfl
  have hwork : s.work jsonOps ω R.kind = some { base := b, snaps := s.snaps ++ [B f] } := by
    simp only [PStation.work, hpen, hw]
    simp [b]
  refine ⟨{ W with stations := [{ base := b, snaps := s.snaps ++ [B f] }] }, _, ?_, ⟨rfl, ?_, ?_, ?_, hs.seen.next w hω f, ?_, ?_, ?_, hs.store⟩⟩
  · simp only [PWorld.act, hs.st, List.getElem?_cons_zero, hwork, List.set_cons_zero]
  · simp only [b]
    rw [runs_snoc]
    simp only [he]
  · exact hsame.1.trans hs.srcs
  · exact hsame.2.trans hs.target
  · simp [b]
  · simp [b, hs.out]
  · simp [hs.snaps]

theorem ownSwinging_send (w : OwnSwing R doc B X) {p0 : Pipe CDoc AnyVal} {W : PWorld CDoc AnyVal} {evs outs : List Bool} {f last : Bool}
    {s : PStation CDoc AnyVal} (h : OwnSwinging R B X p0 W evs (f :: outs) last (!f) s) :
    ∃ W' s', W.act jsonOps jsonPatching (.send 0 0) = some W' ∧ OwnSwinging R B X p0 W' (evs ++ [f]) outs last f s' := by
  have hout := h.out
  have hsnaps := h.snaps
  rw [List.map_cons] at hout hsnaps
  let s1 : PStation CDoc AnyVal := { base := { s.base with out := outs.map (fun f => ⟨.upserted, X f⟩) }, snaps := outs.map B }
  have hs : s.send jsonOps 0 = some (⟨.upserted, X f⟩, B f, s1) := by
    simp only [PStation.send, Station.send, hout, hsnaps, List.getElem?_cons_zero, List.take_zero, List.all_nil, if_true, List.eraseIdx_cons_zero, s1]
  have hkey : objKey (X f).1 = objKey (B true).1 := (w.keyX f).trans (w.key _ _)
  have hdiff : B f ≠ B (!f) := by
    cases f
    · exact fun h => w.diffB h.symm
    · exact w.diffB
  have hpw : patchWrite jsonOps jsonPatching W.store R.kind ⟨.upserted, X f⟩ (B f) = some (storePut W.store R.kind (objKey (B true).1) (some (B f)), some ⟨.updated, B f⟩) := by
    have hb : patchBase jsonOps W.store R.kind ⟨.upserted, X f⟩ (B f) = some (B f) := by
      unfold patchBase
      rw [if_pos ⟨w.tgts f, (w.keyX f).symm⟩]
    unfold patchWrite
    simp only [hb, w.patch]
    unfold storeReplace
    rw [show jsonOps.key (X f) = objKey (B true).1 from hkey, h.store]
    simp only
    rw [if_neg hdiff]
  refine ⟨PWorld.notify jsonOps { W with stations := [s1] } (storePut W.store R.kind (objKey (B true).1) (some (B f)), some ⟨.updated, B f⟩),
    { s1 with base := s1.base.notify jsonOps ⟨.updated, B f⟩ }, ?_, ?_⟩
  · simp only [PWorld.act, h.st, List.getElem?_cons_zero, hs, h.target, hpw, List.set_cons_zero]
  · have hm : jsonOps.gvk (B f) ∈ s1.base.pipe.sources := by
      show objGVK (B f).1 ∈ s.base.pipe.sources
      rw [h.srcs, w.tgts]; simp
    have hn : s1.base.notify jsonOps ⟨.updated, B f⟩ = { s1.base with pending := fun g => if g = R.kind then s.base.pending g ++ [⟨.updated, B f⟩] else s.base.pending g } := by
      unfold Station.notify
      rw [if_pos hm, show jsonOps.gvk (B f) = R.kind from w.tgts f]
    rw [hn]
    refine ⟨?_, h.pipe, h.srcs, h.target, h.seen, ?_, rfl, rfl, ?_⟩
    · simp only [PWorld.notify, List.map_cons, List.map_nil, hn]
    · simp [h.ev]
    · show storePut W.store R.kind _ (some (B f)) R.kind _ = _
      rw [storePut, if_pos ⟨rfl, rfl⟩]

/-- The three states, with the roles of the versions as they are or swapped. -/
def OwnBusy (R : OwnSpec) (B X : Bool → CDoc) (p0 : Pipe CDoc AnyVal) (W : PWorld CDoc AnyVal) : Prop :=
  ∃ f s, OwnSwinging R B X p0 W [!f, f] [] f f s ∨ OwnSwinging R B X p0 W [f] [!f] (!f) f s ∨ OwnSwinging R B X p0 W [] [!f, f] f f s

theorem ownBusy_next (h : OwnPipe base R proj doc) (H : (fieldEnv base).Canon) (srt : List Json → List Json) {p0 : Pipe CDoc AnyVal}
    (hnew : newSpecPipe (fieldEnv base) srt R.kind [R.kind] [.project proj] = .ok p0) (w : OwnSwing R doc B X) {W : PWorld CDoc AnyVal} (hb : OwnBusy R B X p0 W)
    {ω : EvalOrder CDoc} (hω : ω.Valid) : ∃ W', PatchStep jsonOps jsonPatching W' W := by
  obtain ⟨f, s, hb | hb | hb⟩ := hb
  · obtain ⟨W', _, h1, _⟩ := ownSwinging_work h H srt hnew w (f := !f) (by simpa using hb) hω
    exact ⟨W', _, show LoopAct.Own (.work 0 R.kind ω) from hω, h1⟩
  · obtain ⟨W', _, h1, _⟩ := ownSwinging_work h H srt hnew w hb hω
    exact ⟨W', _, show LoopAct.Own (.work 0 R.kind ω) from hω, h1⟩
  · obtain ⟨W', _, h1, _⟩ := ownSwinging_send w (f := !f) (by simpa using hb)
    exact ⟨W', _, show LoopAct.Own (.send 0 0) from trivial, h1⟩

theorem ownSwinging_acts (w : OwnSwing R doc B X) {p0 : Pipe CDoc AnyVal} {W W' : PWorld CDoc AnyVal} {evs outs : List Bool} {last cur : Bool} {s : PStation CDoc AnyVal}
    (h : OwnSwinging R B X p0 W evs outs last cur s) {a : LoopAct CDoc} (ha : a.Own) (hact : W.act jsonOps jsonPatching a = some W') :
    (∃ ω, a = .work 0 R.kind ω ∧ ω.Valid ∧ evs ≠ []) ∨ (a = .send 0 0 ∧ outs ≠ []) := by
  cases a with
  | user w => exact ha.elim
  | work i g ω =>
    left
    obtain ⟨t, t', ht, hwk, rfl⟩ := pact_work hact
    rw [h.st] at ht
    have hi : i = 0 := by
      cases i with
      | zero => rfl
      | succ i => simp at ht
    subst hi
    simp only [List.getElem?_cons_zero, Option.some.injEq] at ht
    subst ht
    obtain ⟨hg, δ, q, _, _, hpen, _⟩ := pwork_some hwk
    rw [h.srcs] at hg
    simp only [List.mem_cons, List.not_mem_nil, or_false] at hg
    subst hg
    refine ⟨ω, rfl, ha, ?_⟩
    rintro rfl
    rw [h.ev] at hpen; cases hpen
  | send i n =>
    right
    obtain ⟨t, t', v, o, r, ht, hsd, hpw, rfl⟩ := pact_send hact
    rw [h.st] at ht
    have hi : i = 0 := by
      cases i with
      | zero => rfl
      | succ i => simp at ht
    subst hi
    simp only [List.getElem?_cons_zero, Option.some.injEq] at ht
    subst ht
    have hsend : ∃ b, s.base.send jsonOps n = some (v, b) := by
      unfold PStation.send at hsd
      split at hsd
      · rename_i w' b o' hb _
        cases hsd
        exact ⟨b, hb⟩
      · cases hsd
    obtain ⟨b, hb⟩ := hsend
    obtain ⟨d1, d2, _⟩ := send_some hb
    rw [h.out] at d1 d2
    cases outs with
    | nil => simp at d1
    | cons f outs =>
      refine ⟨?_, by simp⟩
      cases n with
      | zero => rfl
      | succ n =>
        exfalso
        obtain ⟨f', _, rfl⟩ := List.mem_map.mp (List.mem_of_getElem? d1)
        refine d2 ⟨.upserted, X f⟩ (by simp) ?_
        show objKey (X f).1 = objKey (X f').1
        rw [w.keyX, w.keyX]
        exact w.key _ _

theorem ownBusy_act (h : OwnPipe base R proj doc) (H : (fieldEnv base).Canon) (srt : List Json → List Json) {p0 : Pipe CDoc AnyVal}
    (hnew : newSpecPipe (fieldEnv base) srt R.kind [R.kind] [.project proj] = .ok p0) (w : OwnSwing R doc B X) {W W' : PWorld CDoc AnyVal} (hb : OwnBusy R B X p0 W)
    {a : LoopAct CDoc} (ha : a.Own) (hact : W.act jsonOps jsonPatching a = some W') : OwnBusy R B X p0 W' := by
  obtain ⟨f, s, hb | hb | hb⟩ := hb
  · rcases ownSwinging_acts w hb ha hact with ⟨ω, rfl, hω, _⟩ | ⟨_, hne⟩
    · obtain ⟨W1, s', h1, h2⟩ := ownSwinging_work h H srt hnew w (f := !f) (by simpa using hb) hω
      rw [hact] at h1; cases h1
      exact ⟨f, s', .inr (.inl h2)⟩
    · exact absurd rfl hne
  · rcases ownSwinging_acts w hb ha hact with ⟨ω, rfl, hω, _⟩ | ⟨rfl, _⟩
    · obtain ⟨W1, s', h1, h2⟩ := ownSwinging_work h H srt hnew w hb hω
      rw [hact] at h1; cases h1
      exact ⟨f, s', .inr (.inr h2)⟩
    · obtain ⟨W1, s', h1, h2⟩ := ownSwinging_send w (f := !f) (by simpa using hb)
      rw [hact] at h1; cases h1
      exact ⟨!f, s', .inl (by simpa using h2)⟩
  · rcases ownSwinging_acts w hb ha hact with ⟨_, _, _, hne⟩ | ⟨rfl, _⟩
    · exact absurd rfl hne
    · obtain ⟨W1, s', h1, h2⟩ := ownSwinging_send w (f := !f) (by simpa using hb)
      rw [hact] at h1; cases h1
      exact ⟨!f, s', .inr (.inl (by simpa using h2))⟩

/-- In whatever order, the controller never comes to rest. -/
theorem ownBusy_endless (h : OwnPipe base R proj doc) (H : (fieldEnv base).Canon) (srt : List Json → List Json) {p0 : Pipe CDoc AnyVal}
    (hnew : newSpecPipe (fieldEnv base) srt R.kind [R.kind] [.project proj] = .ok p0) (w : OwnSwing R doc B X) {ω : EvalOrder CDoc} (hω : ω.Valid) :
    ∀ (bs : List (LoopAct CDoc)) (W W' : PWorld CDoc AnyVal), OwnBusy R B X p0 W → (∀ b ∈ bs, b.Own) → W.acts jsonOps jsonPatching bs = some W' →
      OwnBusy R B X p0 W' ∧ ∃ W'', PatchStep jsonOps jsonPatching W'' W'
  | [], W, W', hb, _, h' => by
    cases h'
    exact ⟨hb, ownBusy_next h H srt hnew w hb hω⟩
  | b :: bs, W, W', hb, hbs, h' => by
    simp only [PWorld.acts] at h'
    split at h'
    · cases h'
    · rename_i W1 hW1
      exact ownBusy_endless h H srt hnew w hω bs W1 W' (ownBusy_act h H srt hnew w hb (hbs b (by simp)) hW1) (fun c hc => hbs c (List.mem_cons_of_mem _ hc)) h'

end Dctl
