import Verif.Operator.PatchJsonLemmas
import Verif.Spec.Annotator
import Verif.Props.SvcHealth
import Verif.Props.PatchConfigDep
set_option autoImplicit false
set_option linter.unusedSectionVars false
namespace Dctl

/-- What is needed of the pipeline of an operator as in `RefSpec`: the join condition says `Refers`, and the projection makes `doc`, which sets the field. -/
structure RefPipe (base : Env) (R : RefSpec) (cond proj : Expr) (doc : CDoc → CDoc → CDoc) : Prop where
  kinds : (R.sources.map GVK.kind).Nodup
  ne : R.src ≠ R.tgt
  free : FreePath R.fld
  gv : parseGroupVersion (gvString R.tgt) = some (R.tgt.group, R.tgt.version)
  uid : ∀ p ∈ [namePath, nsPath, R.val, R.ref], ¬ ["metadata", "uid"] <+: p ∧ ¬ p <+: ["metadata", "uid"]
  off : ∀ p ∈ [R.val, R.ref], FreePath p ∧ Disjoint p R.fld
  cond : ∀ {a b j : CDoc}, R.Ok a → R.Ok b → Combines (R.sources.map GVK.kind) [a, b] j →
    (R.Refers a b → CondTrue (fieldEnv base) cond j) ∧ (¬ R.Refers a b → CondFalse (fieldEnv base) cond j)
  proj : ∀ {a b j : CDoc}, R.Ok a → R.Ok b → Combines (R.sources.map GVK.kind) [a, b] j → ∀ c, Projects (fieldEnv base) proj j c ↔ c = doc a b
  enf : ∀ {a b : CDoc}, R.Ok b → R.Refers a b → ∃ x : CDoc, jsonOps.enforce R.tgt (doc a b) = .ok x ∧ objKey x.1 = objKey b.1 ∧
    nested x.1 R.fld = some (valueAt a R.val) ∧ ∀ p, FreePath p → Disjoint p R.fld → ¬ (Json.map x.1).Mentions p
  congr : ∀ {a b b' : CDoc}, nested b.1 namePath = nested b'.1 namePath → nested b.1 nsPath = nested b'.1 nsPath → doc a b = doc a b'

variable {base : Env} {R : RefSpec} {cond proj : Expr} {doc : CDoc → CDoc → CDoc}

theorem RefPipe.same (h : RefPipe base R cond proj doc) (d : CDoc) : ∀ p ∈ [namePath, nsPath, R.val, R.ref], nested (jsonOps.removeUID d).1 p = nested d.1 p :=
  fun p hp => removeUID_off d.2 (h.uid p hp).1 (h.uid p hp).2

theorem RefPipe.joinResults (h : RefPipe base R cond proj doc) {a b : CDoc} (h1 : R.Ok a) (h2 : R.Ok b) (c : CDoc) :
    JoinResults (fieldEnv base) R.sources cond [.project proj] [a, b] c ↔ R.Refers a b ∧ c = doc a b := by
  constructor
  · rintro ⟨j, hj, ht, hr⟩
    obtain ⟨_, a2⟩ := h.cond h1 h2 hj
    cases hr with
    | project hp hnil =>
      cases hnil
      refine ⟨Classical.byContradiction fun hn => ?_, (h.proj h1 h2 hj _).mp hp⟩
      have := a2 hn
      unfold CondTrue at ht
      unfold CondFalse at this
      rw [ht] at this
      simp at this
  · rintro ⟨hl, rfl⟩
    have hj := joinedDoc_combines (names := R.sources.map GVK.kind) h.kinds [a, b]
    exact ⟨_, hj, (h.cond h1 h2 hj).1 hl, .project ((h.proj h1 h2 hj _).mpr rfl) (.nil _)⟩

theorem RefPipe.version (h : RefPipe base R cond proj doc) {hist : List (Delta CDoc)} (hok : ∀ δ ∈ hist, R.Ok δ.obj) {g : GVK} {d : CDoc} (hv : Versions jsonOps hist g d) :
    R.Ok d := by
  obtain ⟨δ, hδ, _, rfl⟩ := hv
  obtain ⟨⟨⟨n, a1, a2⟩, a3⟩, a4⟩ := hok δ hδ
  have off := h.same δ.obj
  refine ⟨⟨⟨n, (off _ (by simp)).trans a1, a2⟩, fun v hv => a3 v ((off _ (by simp)).symm.trans hv)⟩, fun p hp v hv => a4 p hp v ((off p hp).symm.trans hv)⟩

theorem RefPipe.live (h : RefPipe base R cond proj doc) {hist : List (Delta CDoc)} (hok : ∀ δ ∈ hist, R.Ok δ.obj) (c : CDoc) :
    (∃ ds, LiveTuple hist R.sources ds ∧ JoinResults (fieldEnv base) R.sources cond [.project proj] ds c) ↔ ∃ a b, R.Now hist a b ∧ c = doc a b := by
  constructor
  · rintro ⟨ds, hl, hr⟩
    obtain ⟨a, b, rfl, l1, l2⟩ := liveTuple_two.mp hl
    obtain ⟨r, e⟩ := (h.joinResults (h.version hok (liveAs_version l1)) (h.version hok (liveAs_version l2)) c).mp hr
    exact ⟨a, b, ⟨l1, l2, r⟩, e⟩
  · rintro ⟨a, b, ⟨l1, l2, r⟩, e⟩
    exact ⟨_, liveTuple_two.mpr ⟨a, b, rfl, l1, l2⟩, (h.joinResults (h.version hok (liveAs_version l1)) (h.version hok (liveAs_version l2)) c).mpr ⟨r, e⟩⟩

theorem refers_key {a a' b : CDoc} (r : R.Refers a b) (r' : R.Refers a' b) : objKey a.1 = objKey a'.1 := by
  obtain ⟨⟨v1, _, p1, q1⟩, v2, _, p2, q2⟩ := r
  obtain ⟨⟨w1, _, r1, s1⟩, w2, _, r2, s2⟩ := r'
  exact objKey_eq (by rw [p1, r1, ← q1, ← s1]) (by rw [p2, r2, ← q2, ← s2])

theorem RefPipe.apart (h : RefPipe base R cond proj doc) {hist : List (Delta CDoc)} (hok : ∀ δ ∈ hist, R.Ok δ.obj) :
    TuplesApart (fieldEnv base) R.tgt hist R.sources cond [.project proj] := by
  intro ds ds' c c' hl hl' hr hr' hsame
  obtain ⟨a, b, rfl, l1, l2⟩ := liveTuple_two.mp hl
  obtain ⟨a', b', rfl, l1', l2'⟩ := liveTuple_two.mp hl'
  obtain ⟨r, rfl⟩ := (h.joinResults (h.version hok (liveAs_version l1)) (h.version hok (liveAs_version l2)) c).mp hr
  obtain ⟨r', rfl⟩ := (h.joinResults (h.version hok (liveAs_version l1')) (h.version hok (liveAs_version l2')) c').mp hr'
  obtain ⟨x, e1, e2, _⟩ := h.enf (h.version hok (liveAs_version l2)) r
  obtain ⟨x', e1', e2', _⟩ := h.enf (h.version hok (liveAs_version l2')) r'
  have hk : objKey b.1 = objKey b'.1 := by
    rw [← e2, ← e2']
    rcases hsame with h | ⟨y, y', h1, h2, h3⟩
    · rw [h, e1'] at e1
      cases e1; rfl
    · rw [jsonOps_enforce.mp e1] at h1
      rw [jsonOps_enforce.mp e1'] at h2
      cases h1; cases h2
      exact h3
  have hd : b = b' := liveAs_unique l2.2 (hk ▸ l2'.2)
  subst hd
  have hm : a = a' := liveAs_unique l1.2 (refers_key r r' ▸ l1'.2)
  rw [hm]

theorem ref_plain (proj : Expr) : ∀ op ∈ [SpecOp.project proj], op.Plain := by
  intro op h; simp at h; subst h; trivial

theorem RefPipe.neverFails (h : RefPipe base R cond proj doc) (H : (fieldEnv base).Canon) (srt : List Json → List Json) {p0 : Pipe CDoc AnyVal}
    (hnew : newSpecPipe (fieldEnv base) srt R.tgt R.sources [.join cond, .project proj] = .ok p0) {hist : List (EvalOrder CDoc × Delta CDoc)}
    (hω : ∀ e ∈ hist, e.1.Valid) (hs : ∀ e ∈ hist, objGVK e.2.obj.1 ∈ R.sources) (hw : WatchOk jsonOps (hist.map Prod.snd)) (hok : ∀ δ ∈ hist.map Prod.snd, R.Ok δ.obj) :
    ∃ wss : List (List (Delta CDoc)), (runs (fun p (e : EvalOrder CDoc × Delta CDoc) => p.evaluate jsonOps e.1 e.2) p0 hist).2 = wss.map Except.ok := by
  obtain ⟨wss, hr, _⟩ := C83_never_fails_partial base H srt R.tgt R.sources h.kinds cond [.project proj] (ref_plain proj) p0 hnew
    hist hω hs hw (fun pre hpre => h.apart (fun δ hδ => hok δ (hpre.subset hδ)))
    (by
      intro ds j hds hj
      obtain ⟨a, b, rfl, v1, v2⟩ := tupleIn_two hds
      have o1 := h.version hok v1
      have o2 := h.version hok v2
      have hc := h.cond o1 o2 hj
      by_cases hl : R.Refers a b
      · exact .inl ⟨hc.1 hl, _, (h.proj o1 o2 hj _).mpr rfl, trivial⟩
      · exact .inr (hc.2 hl))
    (by
      intro ds c hds hr
      obtain ⟨a, b, rfl, v1, v2⟩ := tupleIn_two hds
      obtain ⟨r, rfl⟩ := (h.joinResults (h.version hok v1) (h.version hok v2) c).mp hr
      obtain ⟨x, hx, _⟩ := h.enf (h.version hok v2) r
      exact ⟨x.1, jsonOps_enforce.mp hx⟩)
    [] (by simp [AMap.WF]) (by intro k; rfl)
  exact ⟨wss, hr⟩

theorem RefPipe.results (h : RefPipe base R cond proj doc) (H : (fieldEnv base).Canon) {srt : List Json → List Json} {cfg : List (PipeOp CDoc AnyVal)}
    (hcfg : compileOps (fieldEnv base) srt (R.sources.map GVK.kind) [.join cond, .project proj] = .ok cfg) {pre : List (Delta CDoc)} (hok : ∀ δ ∈ pre, R.Ok δ.obj)
    {ins : List (ZSet CDoc)} {o : ZSet CDoc} (hl : LiveInputs jsonOps pre R.sources ins) (hsp : PipelineSpec cfg ins o) (d : CDoc) :
    0 < ZSet.get o d ↔ ∃ a b, R.Now pre a b ∧ d = doc a b :=
  (C83_results base H srt _ h.kinds _ _ cfg hcfg (rowSpec_plain (ref_plain proj) _) pre ins o hl hsp d).trans (h.live hok d)

theorem RefPipe.one (h : RefPipe base R cond proj doc) (H : (fieldEnv base).Canon) {srt : List Json → List Json} {cfg : List (PipeOp CDoc AnyVal)}
    (hcfg : compileOps (fieldEnv base) srt (R.sources.map GVK.kind) [.join cond, .project proj] = .ok cfg) {pre : List (Delta CDoc)} (hok : ∀ δ ∈ pre, R.Ok δ.obj)
    {ins : List (ZSet CDoc)} {o : ZSet CDoc} (hl : LiveInputs jsonOps pre R.sources ins) (hsp : PipelineSpec cfg ins o) : OnePerName jsonOps R.tgt o :=
  join_onePerName base H h.kinds (ref_plain proj) hcfg (h.apart hok) hl hsp

/-- The patches after a change of an annotated object that keeps the reference are the same. -/
theorem RefPipe.unchanged (h : RefPipe base R cond proj doc) {hist : List (Delta CDoc)} {δ : Delta CDoc} (hgvk : objGVK δ.obj.1 = R.tgt) (ht : δ.type ≠ .deleted)
    (ht' : δ.type ≠ .sync) {y : CDoc} (hy : LiveObj hist R.tgt y) (hn : nested δ.obj.1 namePath = nested y.1 namePath) (hns : nested δ.obj.1 nsPath = nested y.1 nsPath)
    (hr : nested δ.obj.1 R.ref = nested y.1 R.ref) (c : CDoc) :
    (∃ a b, R.Now hist a b ∧ c = doc a b) ↔ ∃ a b, R.Now (hist ++ [δ]) a b ∧ c = doc a b := by
  have hk : objKey δ.obj.1 = objKey y.1 := objKey_eq hn hns
  have other : ∀ d, (LiveObj (hist ++ [δ]) R.src d ↔ LiveObj hist R.src d) := fun d => liveObj_snoc (fun h' => h.ne (h'.1.symm.trans hgvk))
  have hnew : ∀ d, objKey d.1 = objKey y.1 → (LiveObj (hist ++ [δ]) R.tgt d ↔ d = jsonOps.removeUID δ.obj) := by
    intro d hd
    have hc : Concerns jsonOps R.tgt (objKey d.1) δ := ⟨hgvk, hk.trans hd.symm, ht'⟩
    constructor
    · intro h
      exact ((liveAs_snoc_of hc).mp h.2).2.symm
    · rintro rfl
      exact ⟨(removeUID_gvk δ.obj.2).trans hgvk, (liveAs_snoc_of hc).mpr ⟨ht, rfl⟩⟩
  have hold : ∀ d, objKey d.1 = objKey y.1 → LiveObj hist R.tgt d → d = y := fun d hd h => liveAs_unique h.2 (hd ▸ hy.2)
  have e1 : nested (jsonOps.removeUID δ.obj).1 namePath = nested y.1 namePath := (h.same _ _ (by simp)).trans hn
  have e2 : nested (jsonOps.removeUID δ.obj).1 nsPath = nested y.1 nsPath := (h.same _ _ (by simp)).trans hns
  have e3 : nested (jsonOps.removeUID δ.obj).1 R.ref = nested y.1 R.ref := (h.same _ _ (by simp)).trans hr
  have hkey : objKey (jsonOps.removeUID δ.obj).1 = objKey y.1 := objKey_eq e1 e2
  have hlink : ∀ a, R.Refers a (jsonOps.removeUID δ.obj) ↔ R.Refers a y := by
    intro a
    unfold RefSpec.Refers Agree
    rw [e2, e3]
  have hdoc : ∀ a, doc a (jsonOps.removeUID δ.obj) = doc a y := fun a => h.congr e1 e2
  constructor
  · rintro ⟨a, b, ⟨l1, l2, l3⟩, rfl⟩
    by_cases hb : objKey b.1 = objKey y.1
    · have := hold b hb l2
      subst this
      exact ⟨a, _, ⟨(other _).mpr l1, (hnew _ hkey).mpr rfl, (hlink _).mpr l3⟩, (hdoc a).symm⟩
    · exact ⟨a, b, ⟨(other _).mpr l1, (liveObj_snoc (fun h' => hb (h'.2.symm.trans hk))).mpr l2, l3⟩, rfl⟩
  · rintro ⟨a, b, ⟨l1, l2, l3⟩, rfl⟩
    by_cases hb : objKey b.1 = objKey y.1
    · have := (hnew b hb).mp l2
      subst this
      exact ⟨a, y, ⟨(other _).mp l1, hy, (hlink _).mp l3⟩, hdoc a⟩
    · exact ⟨a, b, ⟨(other _).mp l1, (liveObj_snoc (fun h' => hb (h'.2.symm.trans hk))).mp l2, l3⟩, rfl⟩

theorem RefPipe.good_sameBut (h : RefPipe base R cond proj doc) {U : ObjKey → Option Json} {b y : CDoc} (hb : R.Good U b) (hg : objGVK b.1 ∈ [R.tgt])
    (hs : SameBut R.fld b y) : R.Good U y := by
  obtain ⟨⟨⟨⟨n, n1, n2⟩, b2⟩, b3⟩, ⟨ns, s1, s2⟩, _, b5⟩ := hb
  obtain ⟨h1, h2, h3, h4⟩ := hs
  have hbg := List.mem_singleton.mp hg
  have same : ∀ p ∈ [namePath, nsPath, R.val, R.ref], nested y.1 p = nested b.1 p := by
    intro p hp
    simp only [List.mem_cons, List.not_mem_nil, or_false] at hp
    rcases hp with rfl | rfl | rfl | rfl
    · exact h2
    · exact h3
    · exact h4 _ (h.off _ (by simp)).1 (h.off _ (by simp)).2
    · exact h4 _ (h.off _ (by simp)).1 (h.off _ (by simp)).2
  refine ⟨⟨⟨⟨n, h2.trans n1, n2⟩, fun v hv => b2 v (h3.symm.trans hv)⟩, fun p hp v hv => b3 p hp v ((same p hp).symm.trans hv)⟩, ⟨ns, s1, h3.trans s2⟩, fun e => ?_, fun _ => ?_⟩
  · rw [h1, hbg] at e
    exact absurd e.symm h.ne
  · rw [same R.ref (by simp), objKey_eq h2 h3]
    exact b5 hbg

theorem RefPipe.sound (h : RefPipe base R cond proj doc) (U : ObjKey → Option Json) :
    jsonPatching.Sound jsonOps [R.tgt] (R.Good U) (PatchesField R.fld) (fieldAt R.fld) none :=
  jsonPatching_sound h.free (by simpa using h.gv) (fun _ _ => h.good_sameBut) (fun _ hg => hg.2.1)

theorem RefPipe.live_good (h : RefPipe base R cond proj doc) {U : ObjKey → Option Json} {hist : List (Delta CDoc)} (hg : ∀ δ ∈ hist, R.Good U δ.obj) {g : GVK} {d : CDoc}
    (hv : LiveObj hist g d) : R.Good U d := by
  have h1 := h.version (fun δ hδ => (hg δ hδ).1) (liveAs_version hv)
  obtain ⟨δ, hδ, _, rfl⟩ := liveAs_version hv
  obtain ⟨_, ⟨ns, s1, s2⟩, hr, hu⟩ := hg δ hδ
  have off := h.same δ.obj
  refine ⟨h1, ⟨ns, s1, (off _ (by simp)).trans s2⟩, fun e => ?_, fun e => ?_⟩
  · obtain ⟨v, v1, v2⟩ := hr ((removeUID_gvk δ.obj.2).symm.trans e)
    exact ⟨v, (off _ (by simp)).trans v1, v2⟩
  · rw [off _ (by simp), hu ((removeUID_gvk δ.obj.2).symm.trans e)]
    exact congrArg U (removeUID_key δ.obj.2).symm

theorem ref_names {U : ObjKey → Option Json} {a b : CDoc} (ha : R.Good U a) (h : objKey a.1 = objKey b.1) :
    nested a.1 namePath = nested b.1 namePath ∧ nested a.1 nsPath = nested b.1 nsPath := by
  obtain ⟨⟨⟨⟨n, n1, n2⟩, _⟩, _⟩, ⟨ns, s1, s2⟩, _⟩ := ha
  constructor
  · rw [n1, name_of_key (n := n) ?_ n2]
    rw [← h]; exact objKey_str n1
  · rw [s2, ns_of_key (n := ns) ?_ s1]
    rw [← h]; exact objKey_ns s2

theorem fineHist_good {ts : List GVK} {Good : CDoc → Prop} {Fine : GVK → List (Delta CDoc) → Prop} {sources : List GVK} {hist : List (EvalOrder CDoc × Delta CDoc)}
    (hh : FineHist jsonOps ts Good Fine sources hist) : ∀ δ ∈ hist.map Prod.snd, Good δ.obj := by
  intro δ hδ
  obtain ⟨e, he, rfl⟩ := List.mem_map.mp hδ
  exact hh.good e he

theorem RefPipe.settling (h : RefPipe base R cond proj doc) (U : ObjKey → Option Json) (H : (fieldEnv base).Canon) (srt : List Json → List Json) {p0 : Pipe CDoc AnyVal}
    (hnew : newSpecPipe (fieldEnv base) srt R.tgt R.sources [.join cond, .project proj] = .ok p0) {cfg : List (PipeOp CDoc AnyVal)}
    (hcfg : compileOps (fieldEnv base) srt (R.sources.map GVK.kind) [.join cond, .project proj] = .ok cfg) :
    Settling jsonOps [R.tgt] (R.Good U) (fun _ _ => True) (PatchesField R.fld) R.sources R.tgt cfg p0 where
  ok := fun hist hh => h.neverFails H srt hnew hh.orders hh.kinds hh.watch (fun δ hδ => (fineHist_good hh δ hδ).1)
  one := fun hist hh ins o hl hsp => h.one H hcfg (fun δ hδ => (fineHist_good hh δ hδ).1) hl hsp
  result := by
    intro hist hh ins o hl hsp d x hd hx
    have hg := fineHist_good hh
    obtain ⟨a, b, l, rfl⟩ := (h.results H hcfg (fun δ hδ => (hg δ hδ).1) hl hsp d).mp hd
    obtain ⟨x', e1, hk, hv, hm⟩ := h.enf (h.live_good hg l.2.1).1 l.2.2
    rw [e1] at hx
    cases hx
    refine ⟨⟨?_, hm⟩, b, ?_⟩
    · obtain ⟨v, v1, v2⟩ := (h.live_good hg l.1).2.2.1 l.1.1
      refine ⟨v, ?_, v2⟩
      rw [hv]
      unfold valueAt
      rw [v1]; rfl
    · have := l.2.1.2
      rw [← hk] at this
      exact this
  blind := by
    intro hist ω δ hh hts hty ⟨y, hy⟩ p' ws he
    have hgvk : objGVK δ.obj.1 = R.tgt := List.mem_singleton.mp hts
    have hmap : (hist ++ [(ω, δ)]).map Prod.snd = hist.map Prod.snd ++ [δ] := by simp
    have hgood := fineHist_good hh
    have hw := hh.watch
    rw [hmap] at hgood hw
    have hg : ∀ δ ∈ hist.map Prod.snd, R.Good U δ.obj := fun δ hδ => hgood δ (by simp [hδ])
    obtain ⟨wss, hr⟩ := h.neverFails H srt hnew (hist := hist) (fun e he => hh.orders e (by simp [he])) (fun e he => hh.kinds e (by simp [he])) (watchOk_prefix hw)
      (fun δ hδ => (hg δ hδ).1)
    have hlive : LiveObj (hist.map Prod.snd) R.tgt y ∧ objKey y.1 = objKey δ.obj.1 := by
      obtain ⟨pre, ε, post, e1, hc, e2, e3, e4⟩ := id hy
      have hk : objKey y.1 = objKey δ.obj.1 := by
        rw [← e3]
        exact (removeUID_key ε.obj.2).trans hc.2.1
      refine ⟨⟨?_, ?_⟩, hk⟩
      · rw [← e3]
        exact (removeUID_gvk ε.obj.2).trans (hc.1.trans hgvk)
      · rw [hk]
        rw [← hgvk]
        exact hy
    have hgδ : R.Good U δ.obj := hgood δ (by simp)
    obtain ⟨n1, n2⟩ := ref_names hgδ hlive.2.symm
    have n3 : nested δ.obj.1 R.ref = nested y.1 R.ref := by
      rw [hgδ.2.2.2 hgvk, (h.live_good hg hlive.1).2.2.2 hlive.1.1, hlive.2]
    have hone : ∀ pre, pre <+: hist.map Prod.snd ++ [δ] → ∀ ins o, LiveInputs jsonOps pre R.sources ins → PipelineSpec cfg ins o → OnePerName jsonOps R.tgt o :=
      fun pre hpre ins o hl hsp => h.one H hcfg (fun δ hδ => (hgood δ (hpre.subset hδ)).1) hl hsp
    obtain ⟨cfg', hcfg', hpipe⟩ := newSpecPipe_ok hnew
    rw [hcfg] at hcfg'
    cases hcfg'
    obtain ⟨ins, o, ins', o', a1, a2, a3, a4, a5⟩ := C85_writes_exact_partial jsonOps_lawful h.kinds hpipe (fun e h => hh.orders e (by simp [h]))
      (fun e h => hh.kinds e (by simp [h])) (hh.orders (ω, δ) (by simp)) (hh.kinds (ω, δ) (by simp)) hw hone hr he
    refine exactWrites_same a5 (fun d => ?_)
    rw [h.results H hcfg (fun δ hδ => (hg δ hδ).1) a1 a2 d, h.results H hcfg (fun δ hδ => (hgood δ hδ).1) a3 a4 d]
    exact h.unchanged hgvk (by rw [hty]; decide) (hw _ _ [] rfl).2.2 hlive.1 n1 n2 n3 d

theorem RefPipe.selfPatching (h : RefPipe base R cond proj doc) (U : ObjKey → Option Json) (H : (fieldEnv base).Canon) (srt : List Json → List Json) {p0 : Pipe CDoc AnyVal}
    (hnew : newSpecPipe (fieldEnv base) srt R.tgt R.sources [.join cond, .project proj] = .ok p0) :
    p0.target = R.tgt ∧ p0.sources = R.sources ∧ SelfPatching jsonOps [R.tgt] (R.Good U) (fun _ _ => True) (PatchesField R.fld) p0 := by
  obtain ⟨cfg, hcfg, hpipe⟩ := newSpecPipe_ok hnew
  obtain ⟨g, _, hp⟩ := pipe_new_ok hpipe
  have e1 : p0.target = R.tgt := by rw [hp]
  have e2 : p0.sources = R.sources := by rw [hp]
  refine ⟨e1, e2, ⟨cfg, ?_, ?_, ?_, ?_⟩⟩
  · rw [e2]; exact h.kinds
  · rw [e1, e2]; exact hpipe
  · rw [e1, e2]; simp
  · rw [e1, e2]; exact h.settling U H srt hnew hcfg

theorem RefPipe.refers_uid (h : RefPipe base R cond proj doc) (a b : CDoc) : R.Refers (jsonOps.removeUID a) (jsonOps.removeUID b) ↔ R.Refers a b := by
  unfold RefSpec.Refers Agree
  rw [h.same a namePath (by simp), h.same a nsPath (by simp), h.same b nsPath (by simp), h.same b R.ref (by simp)]

/-- Operators as in `RefSpec` come to rest, and at rest the objects are annotated. -/
theorem RefPipe.rests (h : RefPipe base R cond proj doc) (U : ObjKey → Option Json) (H : (fieldEnv base).Canon) (srt : List Json → List Json) {p0 : Pipe CDoc AnyVal}
    (hnew : newSpecPipe (fieldEnv base) srt R.tgt R.sources [.join cond, .project proj] = .ok p0) {as : List (LoopAct CDoc)}
    (hpol : (PWorld.init [p0]).PoliteRun jsonOps jsonPatching [R.tgt] (R.Good U) (fieldAt R.fld) none as) {W : PWorld CDoc AnyVal}
    (hrun : (PWorld.init [p0]).acts jsonOps jsonPatching as = some W) :
    Acc (PatchStep jsonOps jsonPatching) W ∧
    ∀ bs W', (∀ b ∈ bs, b.Own) → W.acts jsonOps jsonPatching bs = some W' → (¬ ∃ W'', PatchStep jsonOps jsonPatching W'' W') → R.Annotated W'.store := by
  obtain ⟨e1, e2, hself⟩ := h.selfPatching U H srt hnew
  have em : [p0].map Pipe.target = [R.tgt] := by simp [e1]
  have hnd : ([p0].map Pipe.target).Nodup := by simp
  have hP : jsonPatching.Sound jsonOps ([p0].map Pipe.target) (R.Good U) (PatchesField R.fld) (fieldAt R.fld) none := by rw [em]; exact h.sound U
  have hsp : ∀ p ∈ [p0], SelfPatching jsonOps ([p0].map Pipe.target) (R.Good U) (fun _ _ => True) (PatchesField R.fld) p := by
    intro p hp
    rw [em, List.mem_singleton.mp hp]; exact hself
  have hts : ∀ p ∈ [p0], p.target ∈ [p0].map Pipe.target := fun p hp => List.mem_map.mpr ⟨p, hp, rfl⟩
  have hF : ∀ (g : GVK) (h : List (Delta CDoc)) (δ : Delta CDoc), (fun _ _ => True : GVK → List (Delta CDoc) → Prop) g (h ++ [δ]) → (fun _ _ => True : GVK → List (Delta CDoc) → Prop) g h :=
    fun _ _ _ _ => trivial
  have hfin : W.FineEvents jsonOps ([p0].map Pipe.target) (fun _ _ => True) := fun _ _ _ _ _ _ => trivial
  rw [← em] at hpol
  refine ⟨C118_terminates jsonOps_lawful hP hF hnd hsp hpol hrun hfin, ?_⟩
  intro bs W' hbs hW' hno k b hb
  have hinv := pinv_acts jsonOps_lawful hP hF hnd hts hsp as (pinv_init jsonOps (R.Good U) (PatchesField R.fld) (fieldAt R.fld) none [p0])
    (queuesOk_init jsonOps [p0]) hfin hpol hrun
  obtain ⟨k1, _, k3⟩ := own_run jsonOps_lawful hP hF hnd hts hsp bs W W' hbs hinv (queuesOk_acts as (queuesOk_init jsonOps [p0]) hrun) hfin hW'
  have hstop := patch_stopped hF hsp k1 k3 hno
  obtain ⟨s, hs⟩ : ∃ s, W'.stations[0]? = some s := by
    have := k1.len
    cases h : W'.stations with
    | nil => rw [h] at this; simp at this
    | cons s l => exact ⟨s, rfl⟩
  obtain ⟨cfg, hcfg, hpipe⟩ := newSpecPipe_ok hnew
  have hset := h.settling U H srt hnew hcfg
  obtain ⟨hfine, hlive, hgood, ins, o, h1, _, h3, h4, h5⟩ := patch_at_rest jsonOps_lawful hP hF hnd hsp (polite_append hbs hpol) (pacts_append hrun hW') k3 (i := 0)
    (p0 := p0) rfl (cfg := cfg) (by rw [e2]; exact h.kinds) (by rw [e1, e2]; exact hpipe) (by rw [em, e1, e2]; exact hset) hs (hstop 0 s hs).1 (hstop 0 s hs).2
  rw [e1] at h4 h5
  rw [e2] at hlive h1
  have hok : ∀ δ ∈ s.base.done.map Prod.snd, R.Ok δ.obj := fun δ hδ => (fineHist_good hfine δ hδ).1
  have hres := h.results H hcfg hok h1 h3
  have hbk : objKey b.1 = k := (hgood _ _ _ hb).2.1
  constructor
  · intro kc a ha hl
    have l1 := (hlive R.src (by simp) (jsonOps.removeUID a)).mpr ⟨kc, a, ha, rfl⟩
    have l2 := (hlive R.tgt (by simp) (jsonOps.removeUID b)).mpr ⟨k, b, hb, rfl⟩
    have hl' := (h.refers_uid a b).mpr hl
    obtain ⟨x, x1, x2, x3, _⟩ := h.enf (h.version hok (liveAs_version l2)) hl'
    obtain ⟨y, y1, y2⟩ := h4 _ x ((hres _).mpr ⟨_, _, ⟨l1, l2, hl'⟩, rfl⟩) x1
    have hxk : objKey x.1 = k := x2.trans ((removeUID_key b.2).trans hbk)
    have : y = b := by
      rw [show jsonOps.key x = k from hxk, hb] at y1
      exact (Option.some.inj y1).symm
    subst this
    obtain ⟨v, v1, v2⟩ := (hgood _ _ _ ha).2.2.2.2.1 (hgood _ _ _ ha).1
    rw [y2, v1]
    refine fieldAt_scalar ?_ v2
    rw [x3]
    unfold valueAt
    rw [h.same a R.val (by simp), v1]
    rfl
  · intro hnone
    refine h5 k b hb (fun d x hd hx hk => hnone ?_)
    obtain ⟨a', b', ⟨l1, l2, l3⟩, rfl⟩ := (hres d).mp hd
    obtain ⟨x', x1, x2, _⟩ := h.enf (h.version hok (liveAs_version l2)) l3
    rw [x1] at hx
    cases hx
    obtain ⟨kc, a, ha, rfl⟩ := (hlive R.src (by simp) a').mp l1
    obtain ⟨ky, b2, hb2, rfl⟩ := (hlive R.tgt (by simp) b').mp l2
    have : b2 = b := by
      have q : objKey b2.1 = k := (removeUID_key b2.2).symm.trans (x2.symm.trans hk)
      rw [show ky = k from (hgood _ _ _ hb2).2.1.symm.trans q, hb] at hb2
      exact (Option.some.inj hb2).symm
    subst this
    exact ⟨kc, a, ha, (h.refers_uid a b2).mp l3⟩

end Dctl
