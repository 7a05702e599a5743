import Verif.Operator.AnnotatorLemmas
import Verif.Spec.PodAnnotator
set_option autoImplicit false
set_option linter.unusedSectionVars false
namespace Dctl

/-- What is needed of the pipeline of an operator as in `OwnSpec`: the projection makes `doc`, which sets the field. -/
structure OwnPipe (base : Env) (R : OwnSpec) (proj : Expr) (doc : CDoc → CDoc) : Prop where
  free : FreePath R.fld
  gv : parseGroupVersion (gvString R.kind) = some (R.kind.group, R.kind.version)
  uid : ∀ p ∈ R.reads, ¬ ["metadata", "uid"] <+: p ∧ ¬ p <+: ["metadata", "uid"]
  off : ∀ p ∈ R.reads, FreePath p ∧ Disjoint p R.fld
  reads : ∀ {d d' : CDoc}, (∀ p ∈ R.reads, nested d.1 p = nested d'.1 p) → R.val d = R.val d' ∧ (R.pre d → R.pre d')
  scalar : ∀ d, (R.val d).Scalar
  proj : ∀ {d : CDoc}, R.Ok d → ∀ c, Projects (fieldEnv base) proj d c ↔ c = doc d
  enf : ∀ {d : CDoc}, R.Ok d → ∃ x : CDoc, jsonOps.enforce R.kind (doc d) = .ok x ∧ objKey x.1 = objKey d.1 ∧
    nested x.1 R.fld = some (R.val d) ∧ ∀ p, FreePath p → Disjoint p R.fld → ¬ (Json.map x.1).Mentions p
  congr : ∀ {d d' : CDoc}, nested d.1 namePath = nested d'.1 namePath → nested d.1 nsPath = nested d'.1 nsPath → R.val d = R.val d' → doc d = doc d'

variable {base : Env} {R : OwnSpec} {proj : Expr} {doc : CDoc → CDoc}

theorem own_row (env : Env) (proj : Expr) : RowSpec env true [.project proj] := .inl trivial

theorem ok_transfer (h : OwnPipe base R proj doc) {d d' : CDoc} (hn : nested d.1 namePath = nested d'.1 namePath) (hns : nested d.1 nsPath = nested d'.1 nsPath)
    (hr : ∀ p ∈ R.reads, nested d.1 p = nested d'.1 p) (hd : R.Ok d) : R.Ok d' := by
  obtain ⟨a1, a2, a3, a4⟩ := hd
  refine ⟨?_, ?_, ?_, (h.reads hr).2 a4⟩
  · unfold ProperName at a1 ⊢
    rw [← hn, ← hns]; exact a1
  · unfold Namespaced at a2 ⊢
    rw [← hns]; exact a2
  · intro p hp v hv
    refine a3 p hp v ?_
    simp only [List.mem_cons, List.not_mem_nil, or_false] at hp
    rcases hp with rfl | rfl
    · rw [hn]; exact hv
    · rw [hns]; exact hv

theorem uid_name (d : CDoc) : nested (jsonOps.removeUID d).1 namePath = nested d.1 namePath := removeUID_off d.2 (by decide) (by decide)
theorem uid_ns (d : CDoc) : nested (jsonOps.removeUID d).1 nsPath = nested d.1 nsPath := removeUID_off d.2 (by decide) (by decide)

theorem OwnPipe.same (h : OwnPipe base R proj doc) (d : CDoc) : ∀ p ∈ R.reads, nested (jsonOps.removeUID d).1 p = nested d.1 p :=
  fun p hp => removeUID_off d.2 (h.uid p hp).1 (h.uid p hp).2

theorem OwnPipe.val_uid (h : OwnPipe base R proj doc) (d : CDoc) : R.val (jsonOps.removeUID d) = R.val d := (h.reads (h.same d)).1

theorem OwnPipe.ok_uid (h : OwnPipe base R proj doc) {d : CDoc} (hd : R.Ok d) : R.Ok (jsonOps.removeUID d) :=
  ok_transfer h (uid_name d).symm (uid_ns d).symm (fun p hp => (h.same d p hp).symm) hd

theorem OwnPipe.version (h : OwnPipe base R proj doc) {hist : List (Delta CDoc)} (hok : ∀ δ ∈ hist, R.Ok δ.obj) {g : GVK} {d : CDoc} (hv : Versions jsonOps hist g d) :
    R.Ok d := by
  obtain ⟨δ, hδ, _, rfl⟩ := hv
  exact h.ok_uid (hok δ hδ)

theorem own_named {d : CDoc} (h : R.Ok d) : Named d := let ⟨⟨n, h, _⟩, _⟩ := h.1; ⟨n, h⟩

theorem OwnPipe.result (h : OwnPipe base R proj doc) {d : CDoc} (hd : R.Ok d) (c : CDoc) : Results (fieldEnv base) [.project proj] d c ↔ c = doc d := by
  constructor
  · intro hr
    cases hr with
    | project hp hnil =>
      cases hnil
      exact (h.proj hd _).mp hp
  · rintro rfl
    exact .project ((h.proj hd _).mpr rfl) (.nil _)

theorem OwnPipe.results (h : OwnPipe base R proj doc) (H : (fieldEnv base).Canon) {srt : List Json → List Json} {cfg : List (PipeOp CDoc AnyVal)}
    (hcfg : compileOps (fieldEnv base) srt ([R.kind].map GVK.kind) [.project proj] = .ok cfg) {pre : List (Delta CDoc)} (hok : ∀ δ ∈ pre, R.Ok δ.obj)
    {ins : List (ZSet CDoc)} {o : ZSet CDoc} (hl : LiveInputs jsonOps pre [R.kind] ins) (hsp : PipelineSpec cfg ins o) (c : CDoc) :
    0 < ZSet.get o c ↔ ∃ d, LiveObj pre R.kind d ∧ c = doc d := by
  rw [C82_results base H srt R.kind _ cfg hcfg (own_row _ proj) pre (fun δ hδ => own_named (hok δ hδ)) ins o hl hsp c]
  constructor
  · rintro ⟨d, hd, hr⟩
    exact ⟨d, hd, (h.result (h.version hok (liveAs_version hd)) c).mp hr⟩
  · rintro ⟨d, hd, hr⟩
    exact ⟨d, hd, (h.result (h.version hok (liveAs_version hd)) c).mpr hr⟩

/-- Patches for the same name are for the same object. -/
theorem OwnPipe.apart (h : OwnPipe base R proj doc) {hist : List (Delta CDoc)} (hok : ∀ δ ∈ hist, R.Ok δ.obj) {d d' a b : CDoc} (l : LiveObj hist R.kind d) (l' : LiveObj hist R.kind d')
    (ha : jsonOps.enforce R.kind (doc d) = .ok a) (hb : jsonOps.enforce R.kind (doc d') = .ok b) (hk : objKey a.1 = objKey b.1) : d = d' := by
  obtain ⟨x, e1, e2, _⟩ := h.enf (h.version hok (liveAs_version l))
  obtain ⟨x', e1', e2', _⟩ := h.enf (h.version hok (liveAs_version l'))
  rw [e1] at ha; cases ha
  rw [e1'] at hb; cases hb
  have hk' : objKey d.1 = objKey d'.1 := by rw [← e2, ← e2']; exact hk
  exact liveAs_unique l.2 (hk' ▸ l'.2)

theorem OwnPipe.one (h : OwnPipe base R proj doc) (H : (fieldEnv base).Canon) {srt : List Json → List Json} {cfg : List (PipeOp CDoc AnyVal)}
    (hcfg : compileOps (fieldEnv base) srt ([R.kind].map GVK.kind) [.project proj] = .ok cfg) {pre : List (Delta CDoc)} (hok : ∀ δ ∈ pre, R.Ok δ.obj)
    {ins : List (ZSet CDoc)} {o : ZSet CDoc} (hl : LiveInputs jsonOps pre [R.kind] ins) (hsp : PipelineSpec cfg ins o) : OnePerName jsonOps R.kind o := by
  have hres := h.results H hcfg hok hl hsp
  obtain ⟨z, rfl, hst⟩ := pipelineSpec_row (own_row (fieldEnv base) proj) hcfg hsp
  have hz := live_one hl
  obtain ⟨f1, f2⟩ := liveSet_facts hz
  refine ⟨?_, ?_⟩
  · refine stages_once base H (ref_plain proj) hcfg hst hz.1 (nonNeg_pos hz.1 (fun d => (f2.1 d).1)) (fun d _ _ => (f2.1 d).2) ?_
    intro d d' c hd hd' hr hr'
    have l := (f1 d).mp hd
    have l' := (f1 d').mp hd'
    have e1 := (h.result (h.version hok (liveAs_version l)) c).mp hr
    have e2 := (h.result (h.version hok (liveAs_version l')) c).mp hr'
    obtain ⟨x, e, _⟩ := h.enf (h.version hok (liveAs_version l))
    exact h.apart hok l l' e (by rw [← e2, e1]; exact e) rfl
  · intro d d' a b hd hd' ha hb hk
    obtain ⟨c, l, rfl⟩ := (hres d).mp hd
    obtain ⟨c', l', rfl⟩ := (hres d').mp hd'
    rw [h.apart hok l l' ha hb hk]

theorem OwnPipe.neverFails (h : OwnPipe base R proj doc) (H : (fieldEnv base).Canon) (srt : List Json → List Json) {p0 : Pipe CDoc AnyVal}
    (hnew : newSpecPipe (fieldEnv base) srt R.kind [R.kind] [.project proj] = .ok p0) {hist : List (EvalOrder CDoc × Delta CDoc)}
    (hω : ∀ e ∈ hist, e.1.Valid) (hs : ∀ e ∈ hist, objGVK e.2.obj.1 ∈ [R.kind]) (hw : WatchOk jsonOps (hist.map Prod.snd)) (hok : ∀ δ ∈ hist.map Prod.snd, R.Ok δ.obj) :
    ∃ wss : List (List (Delta CDoc)), (runs (fun p (e : EvalOrder CDoc × Delta CDoc) => p.evaluate jsonOps e.1 e.2) p0 hist).2 = wss.map Except.ok := by
  obtain ⟨cfg, hcfg, hpipe⟩ := newSpecPipe_ok hnew
  have hst : DefinedStages cfg (Versions jsonOps (hist.map Prod.snd) R.kind) := by
    refine stages_defined base H (own_row (fieldEnv base) proj) hcfg (fun d hd => ?_) (fun _ d hd => own_named (h.version hok hd))
    exact ⟨_, (h.proj (h.version hok hd) _).mpr rfl, trivial⟩
  have hdef : DefinedPipeline cfg ([R.kind].map (Versions jsonOps (hist.map Prod.snd))) := by
    unfold DefinedPipeline
    split
    · rename_i ev rest
      exact absurd hst.1 (by simp [PipeOp.DefinedOn])
    · intro P hP
      simp only [List.map_cons, List.map_nil, List.cons.injEq, and_true] at hP
      exact hP ▸ hst
  refine C19_defined (sources := [R.kind]) jsonOps_lawful (by simp) hpipe hdef hω hs hw ?_
  intro pre hpre ins o hl hsp
  have hok' : ∀ δ ∈ pre, R.Ok δ.obj := fun δ hδ => hok δ (hpre.subset hδ)
  refine ⟨h.one H hcfg hok' hl hsp, fun c hc => ?_⟩
  obtain ⟨d, l, rfl⟩ := (h.results H hcfg hok' hl hsp c).mp hc
  obtain ⟨x, e, _⟩ := h.enf (h.version hok' (liveAs_version l))
  exact ⟨x, e⟩

theorem OwnPipe.live_good (h : OwnPipe base R proj doc) {U : ObjKey → Json} {hist : List (Delta CDoc)} (hg : ∀ δ ∈ hist, R.Good U δ.obj) {g : GVK} {d : CDoc}
    (hv : LiveObj hist g d) : R.Good U d := by
  obtain ⟨δ, hδ, _, rfl⟩ := liveAs_version hv
  obtain ⟨a1, a2⟩ := hg δ hδ
  refine ⟨h.ok_uid a1, ?_⟩
  rw [h.val_uid, a2]
  exact congrArg U (removeUID_key δ.obj.2).symm

theorem OwnPipe.good_sameBut (h : OwnPipe base R proj doc) {U : ObjKey → Json} {b y : CDoc} (hb : R.Good U b) (hs : SameBut R.fld b y) : R.Good U y := by
  obtain ⟨b1, b2⟩ := hb
  obtain ⟨_, h2, h3, h4⟩ := hs
  have same : ∀ p ∈ R.reads, nested b.1 p = nested y.1 p := fun p hp => (h4 _ (h.off _ hp).1 (h.off _ hp).2).symm
  refine ⟨ok_transfer h h2.symm h3.symm same b1, ?_⟩
  rw [← (h.reads same).1, b2, objKey_eq h2 h3]

theorem OwnPipe.sound (h : OwnPipe base R proj doc) (U : ObjKey → Json) :
    jsonPatching.Sound jsonOps [R.kind] (R.Good U) (PatchesField R.fld) (fieldAt R.fld) none :=
  jsonPatching_sound h.free (by simpa using h.gv) (fun _ _ hb _ => h.good_sameBut hb) (fun _ hg => hg.1.2.1)

theorem own_names {a b : CDoc} (ha : R.Ok a) (h : objKey a.1 = objKey b.1) :
    nested a.1 namePath = nested b.1 namePath ∧ nested a.1 nsPath = nested b.1 nsPath := by
  obtain ⟨⟨⟨n, n1, n2⟩, _⟩, ⟨ns, s1, s2⟩, _⟩ := ha
  constructor
  · rw [n1, name_of_key (n := n) ?_ n2]
    rw [← h]; exact objKey_str n1
  · rw [s2, ns_of_key (n := ns) ?_ s1]
    rw [← h]; exact objKey_ns s2

/-- The patches after a change of an object that keeps the value are the same. -/
theorem OwnPipe.unchanged (h : OwnPipe base R proj doc) {hist : List (Delta CDoc)} {δ : Delta CDoc} (hgvk : objGVK δ.obj.1 = R.kind) (ht : δ.type ≠ .deleted)
    (ht' : δ.type ≠ .sync) {y : CDoc} (hy : LiveObj hist R.kind y) (hn : nested δ.obj.1 namePath = nested y.1 namePath) (hns : nested δ.obj.1 nsPath = nested y.1 nsPath)
    (hv : R.val δ.obj = R.val y) (c : CDoc) :
    (∃ d, LiveObj hist R.kind d ∧ c = doc d) ↔ ∃ d, LiveObj (hist ++ [δ]) R.kind d ∧ c = doc d := by
  have hk : objKey δ.obj.1 = objKey y.1 := objKey_eq hn hns
  have hnew : ∀ d, objKey d.1 = objKey y.1 → (LiveObj (hist ++ [δ]) R.kind d ↔ d = jsonOps.removeUID δ.obj) := by
    intro d hd
    have hc : Concerns jsonOps R.kind (objKey d.1) δ := ⟨hgvk, hk.trans hd.symm, ht'⟩
    constructor
    · intro h
      exact ((liveAs_snoc_of hc).mp h.2).2.symm
    · rintro rfl
      exact ⟨(removeUID_gvk δ.obj.2).trans hgvk, (liveAs_snoc_of hc).mpr ⟨ht, rfl⟩⟩
  have e1 : nested (jsonOps.removeUID δ.obj).1 namePath = nested y.1 namePath := (uid_name _).trans hn
  have e2 : nested (jsonOps.removeUID δ.obj).1 nsPath = nested y.1 nsPath := (uid_ns _).trans hns
  have hkey : objKey (jsonOps.removeUID δ.obj).1 = objKey y.1 := objKey_eq e1 e2
  have hdoc : doc (jsonOps.removeUID δ.obj) = doc y := h.congr e1 e2 ((h.val_uid _).trans hv)
  constructor
  · rintro ⟨d, l, rfl⟩
    by_cases hd : objKey d.1 = objKey y.1
    · have : d = y := liveAs_unique l.2 (hd ▸ hy.2)
      subst this
      exact ⟨_, (hnew _ hkey).mpr rfl, hdoc.symm⟩
    · exact ⟨d, (liveObj_snoc (fun h' => hd (h'.2.symm.trans hk))).mpr l, rfl⟩
  · rintro ⟨d, l, rfl⟩
    by_cases hd : objKey d.1 = objKey y.1
    · have := (hnew d hd).mp l
      subst this
      exact ⟨y, hy, hdoc⟩
    · exact ⟨d, (liveObj_snoc (fun h' => hd (h'.2.symm.trans hk))).mp l, rfl⟩

theorem OwnPipe.settling (h : OwnPipe base R proj doc) (U : ObjKey → Json) (H : (fieldEnv base).Canon) (srt : List Json → List Json) {p0 : Pipe CDoc AnyVal}
    (hnew : newSpecPipe (fieldEnv base) srt R.kind [R.kind] [.project proj] = .ok p0) {cfg : List (PipeOp CDoc AnyVal)}
    (hcfg : compileOps (fieldEnv base) srt ([R.kind].map GVK.kind) [.project proj] = .ok cfg) :
    Settling jsonOps [R.kind] (R.Good U) (fun _ _ => True) (PatchesField R.fld) [R.kind] R.kind cfg p0 where
  ok := fun hist hh => h.neverFails H srt hnew hh.orders hh.kinds hh.watch (fun δ hδ => (fineHist_good hh δ hδ).1)
  one := fun hist hh ins o hl hsp => h.one H hcfg (fun δ hδ => (fineHist_good hh δ hδ).1) hl hsp
  result := by
    intro hist hh ins o hl hsp d x hd hx
    have hg := fineHist_good hh
    obtain ⟨b, l, rfl⟩ := (h.results H hcfg (fun δ hδ => (hg δ hδ).1) hl hsp d).mp hd
    obtain ⟨x', e1, hk, hv, hm⟩ := h.enf (h.live_good hg l).1
    rw [e1] at hx
    cases hx
    refine ⟨⟨⟨_, hv, h.scalar _⟩, hm⟩, b, ?_⟩
    have := l.2
    rw [← hk] at this
    exact this
  blind := by
    intro hist ω δ hh hts hty ⟨y, hy⟩ p' ws he
    have hgvk : objGVK δ.obj.1 = R.kind := List.mem_singleton.mp hts
    have hmap : (hist ++ [(ω, δ)]).map Prod.snd = hist.map Prod.snd ++ [δ] := by simp
    have hgood := fineHist_good hh
    have hw := hh.watch
    rw [hmap] at hgood hw
    have hg : ∀ δ ∈ hist.map Prod.snd, R.Good U δ.obj := fun δ hδ => hgood δ (by simp [hδ])
    obtain ⟨wss, hr⟩ := h.neverFails H srt hnew (hist := hist) (fun e he => hh.orders e (by simp [he])) (fun e he => hh.kinds e (by simp [he])) (watchOk_prefix hw)
      (fun δ hδ => (hg δ hδ).1)
    have hlive : LiveObj (hist.map Prod.snd) R.kind y ∧ objKey y.1 = objKey δ.obj.1 := by
      obtain ⟨pre, ε, post, e1, hc, e2, e3, e4⟩ := id hy
      have hk : objKey y.1 = objKey δ.obj.1 := by
        rw [← e3]
        exact (removeUID_key ε.obj.2).trans hc.2.1
      refine ⟨⟨?_, ?_⟩, hk⟩
      · rw [← e3]
        exact (removeUID_gvk ε.obj.2).trans (hc.1.trans hgvk)
      · rw [hk]
        rw [← hgvk]
        exact hy
    have hgδ : R.Good U δ.obj := hgood δ (by simp)
    obtain ⟨n1, n2⟩ := own_names hgδ.1 hlive.2.symm
    have n3 : R.val δ.obj = R.val y := by rw [hgδ.2, (h.live_good hg hlive.1).2, hlive.2]
    have hone : ∀ pre, pre <+: hist.map Prod.snd ++ [δ] → ∀ ins o, LiveInputs jsonOps pre [R.kind] ins → PipelineSpec cfg ins o → OnePerName jsonOps R.kind o :=
      fun pre hpre ins o hl hsp => h.one H hcfg (fun δ hδ => (hgood δ (hpre.subset hδ)).1) hl hsp
    obtain ⟨cfg', hcfg', hpipe⟩ := newSpecPipe_ok hnew
    rw [hcfg] at hcfg'
    cases hcfg'
    obtain ⟨ins, o, ins', o', a1, a2, a3, a4, a5⟩ := C85_writes_exact_partial jsonOps_lawful (by simp) hpipe (fun e h => hh.orders e (by simp [h]))
      (fun e h => hh.kinds e (by simp [h])) (hh.orders (ω, δ) (by simp)) (hh.kinds (ω, δ) (by simp)) hw hone hr he
    refine exactWrites_same a5 (fun d => ?_)
    rw [h.results H hcfg (fun δ hδ => (hg δ hδ).1) a1 a2 d, h.results H hcfg (fun δ hδ => (hgood δ hδ).1) a3 a4 d]
    exact h.unchanged hgvk (by rw [hty]; decide) (hw _ _ [] rfl).2.2 hlive.1 n1 n2 n3 d

theorem OwnPipe.selfPatching (h : OwnPipe base R proj doc) (U : ObjKey → Json) (H : (fieldEnv base).Canon) (srt : List Json → List Json) {p0 : Pipe CDoc AnyVal}
    (hnew : newSpecPipe (fieldEnv base) srt R.kind [R.kind] [.project proj] = .ok p0) :
    p0.target = R.kind ∧ p0.sources = [R.kind] ∧ SelfPatching jsonOps [R.kind] (R.Good U) (fun _ _ => True) (PatchesField R.fld) p0 := by
  obtain ⟨cfg, hcfg, hpipe⟩ := newSpecPipe_ok hnew
  obtain ⟨g, _, hp⟩ := pipe_new_ok hpipe
  have e1 : p0.target = R.kind := by rw [hp]
  have e2 : p0.sources = [R.kind] := by rw [hp]
  refine ⟨e1, e2, ⟨cfg, ?_, ?_, ?_, ?_⟩⟩
  · rw [e2]; simp
  · rw [e1, e2]; exact hpipe
  · rw [e1, e2]; simp
  · rw [e1, e2]; exact h.settling U H srt hnew hcfg

/-- Operators as in `OwnSpec` come to rest, and at rest the objects are annotated. -/
theorem OwnPipe.rests (h : OwnPipe base R proj doc) (U : ObjKey → Json) (H : (fieldEnv base).Canon) (srt : List Json → List Json) {p0 : Pipe CDoc AnyVal}
    (hnew : newSpecPipe (fieldEnv base) srt R.kind [R.kind] [.project proj] = .ok p0) {as : List (LoopAct CDoc)}
    (hpol : (PWorld.init [p0]).PoliteRun jsonOps jsonPatching [R.kind] (R.Good U) (fieldAt R.fld) none as) {W : PWorld CDoc AnyVal}
    (hrun : (PWorld.init [p0]).acts jsonOps jsonPatching as = some W) :
    Acc (PatchStep jsonOps jsonPatching) W ∧
    ∀ bs W', (∀ b ∈ bs, b.Own) → W.acts jsonOps jsonPatching bs = some W' → (¬ ∃ W'', PatchStep jsonOps jsonPatching W'' W') → R.Annotated W'.store := by
  obtain ⟨e1, e2, hself⟩ := h.selfPatching U H srt hnew
  have em : [p0].map Pipe.target = [R.kind] := by simp [e1]
  have hnd : ([p0].map Pipe.target).Nodup := by simp
  have hP : jsonPatching.Sound jsonOps ([p0].map Pipe.target) (R.Good U) (PatchesField R.fld) (fieldAt R.fld) none := by rw [em]; exact h.sound U
  have hsp : ∀ p ∈ [p0], SelfPatching jsonOps ([p0].map Pipe.target) (R.Good U) (fun _ _ => True) (PatchesField R.fld) p := by
    intro p hp
    rw [em, List.mem_singleton.mp hp]; exact hself
  have hts : ∀ p ∈ [p0], p.target ∈ [p0].map Pipe.target := fun p hp => List.mem_map.mpr ⟨p, hp, rfl⟩
  have hF : ∀ (g : GVK) (h : List (Delta CDoc)) (δ : Delta CDoc), (fun _ _ => True : GVK → List (Delta CDoc) → Prop) g (h ++ [δ]) → (fun _ _ => True : GVK → List (Delta CDoc) → Prop) g h :=
    fun _ _ _ _ => trivial
  have hfin : W.FineEvents jsonOps ([p0].map Pipe.target) (fun _ _ => True) := fun _ _ _ _ _ _ => trivial
  rw [← em] at hpol
  refine ⟨C118_terminates jsonOps_lawful hP hF hnd hsp hpol hrun hfin, ?_⟩
  intro bs W' hbs hW' hno k b hb
  have hinv := pinv_acts jsonOps_lawful hP hF hnd hts hsp as (pinv_init jsonOps (R.Good U) (PatchesField R.fld) (fieldAt R.fld) none [p0])
    (queuesOk_init jsonOps [p0]) hfin hpol hrun
  obtain ⟨k1, _, k3⟩ := own_run jsonOps_lawful hP hF hnd hts hsp bs W W' hbs hinv (queuesOk_acts as (queuesOk_init jsonOps [p0]) hrun) hfin hW'
  have hstop := patch_stopped hF hsp k1 k3 hno
  obtain ⟨s, hs⟩ : ∃ s, W'.stations[0]? = some s := by
    have := k1.len
    cases h : W'.stations with
    | nil => rw [h] at this; simp at this
    | cons s l => exact ⟨s, rfl⟩
  obtain ⟨cfg, hcfg, hpipe⟩ := newSpecPipe_ok hnew
  have hset := h.settling U H srt hnew hcfg
  obtain ⟨hfine, hlive, hgood, ins, o, h1, _, h3, h4, h5⟩ := patch_at_rest jsonOps_lawful hP hF hnd hsp (polite_append hbs hpol) (pacts_append hrun hW') k3 (i := 0)
    (p0 := p0) rfl (cfg := cfg) (by rw [e2]; simp) (by rw [e1, e2]; exact hpipe) (by rw [em, e1, e2]; exact hset) hs (hstop 0 s hs).1 (hstop 0 s hs).2
  rw [e1] at h4 h5
  rw [e2] at hlive h1
  have hok : ∀ δ ∈ s.base.done.map Prod.snd, R.Ok δ.obj := fun δ hδ => (fineHist_good hfine δ hδ).1
  have hbk : objKey b.1 = k := (hgood _ _ _ hb).2.1
  have l := (hlive R.kind (by simp) (jsonOps.removeUID b)).mpr ⟨k, b, hb, rfl⟩
  obtain ⟨x, x1, x2, x3, _⟩ := h.enf (h.version hok (liveAs_version l))
  obtain ⟨y, y1, y2⟩ := h4 _ x ((h.results H hcfg hok h1 h3 _).mpr ⟨_, l, rfl⟩) x1
  have hxk : objKey x.1 = k := x2.trans ((removeUID_key b.2).trans hbk)
  have : y = b := by
    rw [show jsonOps.key x = k from hxk, hb] at y1
    exact (Option.some.inj y1).symm
  subst this
  rw [y2]
  refine fieldAt_scalar ?_ (h.scalar _)
  rw [x3, h.val_uid]

end Dctl
