import Verif.Operator.PatchJsonLemmas
/-!
# C118: the configmap-deployment operator at work
-/
set_option autoImplicit false
set_option linter.unusedSectionVars false
namespace Dctl

theorem version_free : FreePath versionPath := by decide

theorem configDepGood_sameBut {b y : CDoc} (hb : ConfigDepGood b) (hg : objGVK b.1 ∈ [deploymentK]) (h : SameBut versionPath b y) : ConfigDepGood y := by
  obtain ⟨⟨⟨⟨n, n1, n2⟩, b2⟩, b3⟩, ⟨ns, s1, s2⟩, _⟩ := hb
  obtain ⟨h1, h2, h3, h4⟩ := h
  have same : ∀ p ∈ [namePath, nsPath, rvPath, refMapPath, refDepPath], nested y.1 p = nested b.1 p := by
    intro p hp
    simp only [List.mem_cons, List.not_mem_nil, or_false] at hp
    rcases hp with rfl | rfl | rfl | rfl | rfl
    · exact h2
    · exact h3
    all_goals exact h4 _ (by decide) ⟨by decide, by decide⟩
  refine ⟨⟨⟨⟨n, h2.trans n1, n2⟩, fun v hv => b2 v (h3.symm.trans hv)⟩, fun p hp v hv => b3 p hp v ((same p hp).symm.trans hv)⟩, ⟨ns, s1, h3.trans s2⟩, fun e => ?_⟩
  rw [h1, List.mem_singleton.mp hg] at e
  exact absurd e (by decide)

theorem configDep_sound : jsonPatching.Sound jsonOps [deploymentK] ConfigDepGood (PatchesField versionPath) (fieldAt versionPath) none :=
  jsonPatching_sound version_free (by decide +kernel) (fun _ _ => configDepGood_sameBut) (fun _ h => h.2.1)

theorem namedOnce_prefix (g : GVK) (h : List (Delta CDoc)) (δ : Delta CDoc) (hn : NamedOnce g (h ++ [δ])) : NamedOnce g h :=
  fun e pre hp => hn e pre (hp.trans (List.prefix_append _ _))

theorem configDep_hist {hist : List (EvalOrder CDoc × Delta CDoc)} (h : FineHist jsonOps [deploymentK] ConfigDepGood NamedOnce configDepSources hist) : ConfigDepHist hist where
  orders := h.orders
  kinds := h.kinds
  watch := h.watch
  ok := fun e he => (h.good e he).1
  once := by
    intro pre hpre cm dep cd cm' cd' l l'
    have hf := h.fine configDepK (by decide) (by decide) rfl (kindEvents jsonOps configDepK pre) (by
      obtain ⟨post, hpost⟩ := hpre
      rw [← hpost]
      unfold kindEvents
      rw [List.filter_append]
      exact List.prefix_append _ _)
    have lift : ∀ d, LiveObj pre configDepK d → LiveObj (kindEvents jsonOps configDepK pre) configDepK d := fun d hd =>
      ⟨hd.1, (liveAs_ofKind jsonOps configDepK _ d pre).mpr hd.2⟩
    obtain ⟨_, _, l3, _, ⟨v, v1, v2, v3⟩, ⟨u, u1, u2, u3⟩, w, w1, w2, w3⟩ := l
    obtain ⟨_, _, l3', _, ⟨v', v1', v2', v3'⟩, ⟨u', u1', u2', u3'⟩, w', w1', w2', w3'⟩ := l'
    refine hf cd cd' (lift cd l3) (lift cd' l3') ⟨v, v1, v3, ?_⟩ ⟨w, w1, w3, ?_⟩
    · rw [v3', ← v2', v2]
    · rw [w3', ← w2', u2', ← u3', u3, ← u2, w2]

theorem live_good {hist : List (Delta CDoc)} (h : ∀ δ ∈ hist, ConfigDepGood δ.obj) {g : GVK} {d : CDoc} (hv : LiveObj hist g d) : ConfigDepGood d := by
  have h1 := live_configDepOk (fun δ hδ => (h δ hδ).1) hv
  obtain ⟨δ, hδ, hg, rfl⟩ := liveAs_version hv
  obtain ⟨_, ⟨ns, s1, s2⟩, hr⟩ := h δ hδ
  refine ⟨h1, ⟨ns, s1, (removeUID_off δ.obj.2 (by decide) (by decide)).trans s2⟩, fun e => ?_⟩
  obtain ⟨v, v1, v2⟩ := hr ((removeUID_gvk δ.obj.2).symm.trans e)
  exact ⟨v, (removeUID_off δ.obj.2 (by decide) (by decide)).trans v1, v2⟩

theorem good_names {a b : CDoc} (ha : ConfigDepGood a) (h : objKey a.1 = objKey b.1) :
    nested a.1 namePath = nested b.1 namePath ∧ nested a.1 nsPath = nested b.1 nsPath := by
  obtain ⟨⟨⟨⟨n, n1, n2⟩, _⟩, _⟩, ⟨ns, s1, s2⟩, _⟩ := ha
  constructor
  · rw [n1, name_of_key (n := n) ?_ n2]
    rw [← h]; exact objKey_str n1
  · rw [s2, ns_of_key (n := ns) ?_ s1]
    rw [← h]; exact objKey_ns s2

theorem configDep_settling (base : Env) (H : (fieldEnv base).Canon) (srt : List Json → List Json) {p0 : Pipe CDoc AnyVal}
    (hnew : newSpecPipe (fieldEnv base) srt deploymentK configDepSources [.join configDepCond, .project configDepProj] = .ok p0) {cfg : List (PipeOp CDoc AnyVal)}
    (hcfg : compileOps (fieldEnv base) srt (configDepSources.map GVK.kind) [.join configDepCond, .project configDepProj] = .ok cfg) :
    Settling jsonOps [deploymentK] ConfigDepGood NamedOnce (PatchesField versionPath) configDepSources deploymentK cfg p0 where
  ok := fun hist hh => C89_never_fails_partial base H srt (C89_read _) hnew (configDep_hist hh)
  one := fun hist hh => configDep_one base H hcfg (configDep_hist hh) _ (List.prefix_refl _)
  result := by
    intro hist hh ins o hl hsp d x hd hx
    have hg : ∀ δ ∈ hist.map Prod.snd, ConfigDepGood δ.obj := by
      intro δ hδ
      obtain ⟨e, he, rfl⟩ := List.mem_map.mp hδ
      exact hh.good e he
    obtain ⟨cm, dep, cd, l, hk, hv, hm⟩ := configDep_resultAt base H hcfg (fun δ hδ => (hg δ hδ).1) (k := objKey x.1) ⟨ins, o, d, hl, hsp, hd, hx, rfl⟩
    refine ⟨⟨?_, hm⟩, dep, ?_⟩
    · obtain ⟨v, v1, v2⟩ := (live_good hg l.1).2.2 l.1.1
      refine ⟨v, ?_, v2⟩
      rw [hv]
      unfold valueAt
      rw [v1]; rfl
    · have := l.2.1.2
      rw [hk] at this
      exact this
  blind := by
    intro hist ω δ hh hts hty ⟨y, hy⟩ p' ws he
    have hgvk : objGVK δ.obj.1 = deploymentK := List.mem_singleton.mp hts
    have hch := configDep_hist hh
    obtain ⟨wss, hr⟩ := C89_never_fails_partial base H srt (C89_read _) hnew (ConfigDepHist.of_append hch)
    have hg : ∀ δ ∈ hist.map Prod.snd, ConfigDepGood δ.obj := by
      intro δ hδ
      obtain ⟨e, he, rfl⟩ := List.mem_map.mp hδ
      exact hh.good e (by simp [he])
    have hlive : LiveObj (hist.map Prod.snd) deploymentK y ∧ objKey y.1 = objKey δ.obj.1 := by
      obtain ⟨pre, ε, post, e1, hc, e2, e3, e4⟩ := id hy
      have hk : objKey y.1 = objKey δ.obj.1 := by
        rw [← e3]
        exact (removeUID_key ε.obj.2).trans hc.2.1
      refine ⟨⟨?_, ?_⟩, hk⟩
      · rw [← e3]
        exact (removeUID_gvk ε.obj.2).trans (hc.1.trans hgvk)
      · rw [hk]
        rw [← hgvk]
        exact hy
    obtain ⟨n1, n2⟩ := good_names (hh.good (ω, δ) (by simp)) hlive.2.symm
    exact C89_quiet_partial base H srt (C89_read _) hnew hch hr he hgvk (by rw [hty]; decide) hlive.1 n1 n2

/-- **C118** (the patches of the model are those of a Patcher target): a patch in `PWorld` does to the objects what the function `Write` does to a cluster, and fails when it
does. -/
theorem C118_write {t : GVK} (ht : parseGroupVersion (gvString t) = some (t.group, t.version)) {S : GVK → Target CDoc} (hS : ∀ k y, S t k = some y → objKey y.1 = k) {c : Cluster}
    (hc : ∀ k, c.get (t, k) = (S t k).map Subtype.val) {w : Delta CDoc} (hty : w.type = .upserted ∨ w.type = .deleted)
    (he : jsonOps.enforce t w.obj = .ok w.obj) (snap : CDoc) :
    (patchWrite jsonOps jsonPatching S t w snap = none ↔ targetWrite t true c c w.type w.obj.1 (some snap.1) = none) ∧
    ∀ S' ev c', patchWrite jsonOps jsonPatching S t w snap = some (S', ev) → targetWrite t true c c w.type w.obj.1 (some snap.1) = some c' →
      (∀ k, c'.get (t, k) = (S' t k).map Subtype.val) ∧ (ev = none → ∀ k, c'.get (t, k) = c.get (t, k)) := by
  obtain ⟨ty, x⟩ := w
  obtain ⟨c1, c2, c3, _⟩ := C74_object t x.1 x.1 x.2 (jsonOps_enforce.mp he)
  have hxg : objGVK x.1 = t := objGVK_of_get ht c1 c2
  have hset : setGVK x.1 t = x.1 := setGVK_fixed x.2 c1 c2
  obtain ⟨wm, hwm⟩ := metadata_of_name c3
  have hbase : (useOriginal (some snap.1) x.1).or (c.get (t, objKey x.1)) = (patchBase jsonOps S t ⟨ty, x⟩ snap).map Subtype.val := by
    unfold useOriginal patchBase
    rw [hxg]
    show Option.or (if objGVK snap.1 = t ∧ objKey snap.1 = objKey x.1 then some snap.1 else none) _ =
      Option.map Subtype.val (if objGVK snap.1 = t ∧ objKey snap.1 = objKey x.1 then some snap else S t (objKey x.1))
    by_cases e : objGVK snap.1 = t ∧ objKey snap.1 = objKey x.1
    · rw [if_pos e, if_pos e]; rfl
    · rw [if_neg e, if_neg e]
      exact hc _
  have hkey : ∀ b, patchBase jsonOps S t ⟨ty, x⟩ snap = some b → objKey b.1 = objKey x.1 := by
    intro b hb
    unfold patchBase at hb
    split at hb
    · rename_i e; cases hb; exact e.2
    · exact hS _ _ hb
  have hrep : ∀ y : CDoc, objKey y.1 = objKey x.1 → ∀ k,
      ((clientUpdate c t y.1).getD c).get (t, k) = ((storeReplace S t (objKey x.1) y).1 t k).map Subtype.val ∧
      ((storeReplace S t (objKey x.1) y).2 = none → ((clientUpdate c t y.1).getD c).get (t, k) = c.get (t, k)) := by
    intro y hy k
    unfold clientUpdate storeReplace
    rw [hy, hc]
    cases h0 : S t (objKey x.1) with
    | none => exact ⟨hc k, fun _ => rfl⟩
    | some y0 =>
      simp only [Option.map_some, Option.getD_some]
      rw [AMap.get_set]
      by_cases e : y = y0
      · subst e
        simp only [if_true]
        by_cases ek : objKey x.1 = k
        · subst ek
          simp [h0, hc]
        · simp [ek, hc]
      · rw [if_neg e]
        refine ⟨?_, fun h => by cases h⟩
        simp only [storePut]
        by_cases ek : objKey x.1 = k
        · subst ek; simp
        · simp [ek, Ne.symm ek, hc]
  unfold targetWrite patchWrite
  simp only [if_true, hset]
  rcases hty with h | h
  · simp only at h
    subst h
    simp only [patcherWrite, hbase]
    cases hb : patchBase jsonOps S t ⟨.upserted, x⟩ snap with
    | none => simp
    | some b =>
      obtain ⟨om, hom⟩ := metadata_of_name (m := b.1) (by rw [hkey b hb]; exact c3)
      have := hrep (jsonPatching.upsert b x) (patcherUpsert_key x.2 b.2 hwm hom)
      simp only [Option.map_some]
      refine ⟨by simp, ?_⟩
      intro S' ev c' h1 h2
      simp only [Option.some.injEq] at h1 h2
      subst h2
      have e1 : S' = (storeReplace S t (objKey x.1) (jsonPatching.upsert b x)).1 := by rw [show storeReplace S t (objKey x.1) _ = _ from h1]
      have e2 : ev = (storeReplace S t (objKey x.1) (jsonPatching.upsert b x)).2 := by rw [show storeReplace S t (objKey x.1) _ = _ from h1]
      rw [e1, e2]
      exact ⟨fun k => (this k).1, fun h k => (this k).2 h⟩
  · simp only at h
    subst h
    simp only [patcherWrite, hbase]
    cases hb : patchBase jsonOps S t ⟨.deleted, x⟩ snap with
    | none =>
      refine ⟨by simp, ?_⟩
      intro S' ev c' h1 h2
      simp only [Option.map_none, Option.some.injEq, Prod.mk.injEq] at h1 h2
      obtain ⟨rfl, rfl⟩ := h1
      subst h2
      exact ⟨hc, fun _ _ => rfl⟩
    | some b =>
      obtain ⟨om, hom⟩ := metadata_of_name (m := b.1) (by rw [hkey b hb]; exact c3)
      have := hrep (jsonPatching.remove b x) (C26_identity b.1 x.1 om b.2 x.2 ⟨wm, hwm⟩ hom).1
      simp only [Option.map_some]
      refine ⟨by simp, ?_⟩
      intro S' ev c' h1 h2
      simp only [Option.some.injEq] at h1 h2
      subst h2
      have e1 : S' = (storeReplace S t (objKey x.1) (jsonPatching.remove b x)).1 := by rw [show storeReplace S t (objKey x.1) _ = _ from h1]
      have e2 : ev = (storeReplace S t (objKey x.1) (jsonPatching.remove b x)).2 := by rw [show storeReplace S t (objKey x.1) _ = _ from h1]
      rw [e1, e2]
      exact ⟨fun k => (this k).1, fun h k => (this k).2 h⟩

theorem configDep_selfPatching (base : Env) (H : (fieldEnv base).Canon) (srt : List Json → List Json) {p0 : Pipe CDoc AnyVal}
    (hnew : newSpecPipe (fieldEnv base) srt deploymentK configDepSources [.join configDepCond, .project configDepProj] = .ok p0) :
    p0.target = deploymentK ∧ p0.sources = configDepSources ∧ SelfPatching jsonOps [deploymentK] ConfigDepGood NamedOnce (PatchesField versionPath) p0 := by
  obtain ⟨cfg, hcfg, hpipe⟩ := newSpecPipe_ok hnew
  obtain ⟨g, _, hp⟩ := pipe_new_ok hpipe
  have e1 : p0.target = deploymentK := by rw [hp]
  have e2 : p0.sources = configDepSources := by rw [hp]
  refine ⟨e1, e2, ⟨cfg, ?_, ?_, ?_, ?_⟩⟩
  · rw [e2]; decide
  · rw [e1, e2]; exact hpipe
  · rw [e1, e2]; decide
  · rw [e1, e2]; exact configDep_settling base H srt hnew hcfg

/-- **C118** (partial; the operator shipped as an example): users create, change and delete ConfigMaps, Deployments and ConfigDeployment objects while the
configmap-deployment operator is at work, also between its evaluations and its patches, and do not touch the annotation. Then the operator can do only finitely many steps until
users change something again, although it watches the Deployments that it patches; and when it can do no more, every Deployment in the store that is linked to a ConfigMap in
the store has the version of that ConfigMap in the annotation, and all other Deployments do not have the annotation. Missing: Deployments named by two ConfigDeployment
objects, fields that look like paths, changes by others to the annotation, patches of one object in the wrong order, and failing writes. -/
theorem C118_configdep_partial (base : Env) (H : (fieldEnv base).Canon) (srt : List Json → List Json) {spec : List SpecOp}
    (hspec : unmarshalPipeline (fieldEnv base) configDepJson = .ok spec) {p0 : Pipe CDoc AnyVal}
    (hnew : newSpecPipe (fieldEnv base) srt deploymentK configDepSources spec = .ok p0) {as : List (LoopAct CDoc)}
    (hpol : (PWorld.init [p0]).PoliteRun jsonOps jsonPatching [deploymentK] ConfigDepGood (fieldAt versionPath) none as) {W : PWorld CDoc AnyVal}
    (hrun : (PWorld.init [p0]).acts jsonOps jsonPatching as = some W) (hfin : W.FineEvents jsonOps [deploymentK] NamedOnce) :
    Acc (PatchStep jsonOps jsonPatching) W ∧
    ∀ bs W', (∀ b ∈ bs, b.Own) → W.acts jsonOps jsonPatching bs = some W' → (¬ ∃ W'', PatchStep jsonOps jsonPatching W'' W') →
      ∀ k dep, W'.store deploymentK k = some dep →
        (∀ cm cd, LinkedIn W'.store cm dep cd → fieldAt versionPath dep = nested cm.1 rvPath) ∧
        ((¬ ∃ cm cd, LinkedIn W'.store cm dep cd) → fieldAt versionPath dep = none) := by
  rw [C89_read] at hspec
  cases hspec
  obtain ⟨e1, e2, hself⟩ := configDep_selfPatching base H srt hnew
  have em : [p0].map Pipe.target = [deploymentK] := by simp [e1]
  have hnd : ([p0].map Pipe.target).Nodup := by simp
  have hP : jsonPatching.Sound jsonOps ([p0].map Pipe.target) ConfigDepGood (PatchesField versionPath) (fieldAt versionPath) none := by rw [em]; exact configDep_sound
  have hsp : ∀ p ∈ [p0], SelfPatching jsonOps ([p0].map Pipe.target) ConfigDepGood NamedOnce (PatchesField versionPath) p := by
    intro p hp
    rw [em, List.mem_singleton.mp hp]; exact hself
  have hts : ∀ p ∈ [p0], p.target ∈ [p0].map Pipe.target := fun p hp => List.mem_map.mpr ⟨p, hp, rfl⟩
  rw [← em] at hpol hfin
  refine ⟨C118_terminates jsonOps_lawful hP namedOnce_prefix hnd hsp hpol hrun hfin, ?_⟩
  intro bs W' hbs hW' hno k dep hdep
  have hinv := pinv_acts jsonOps_lawful hP namedOnce_prefix hnd hts hsp as (pinv_init jsonOps ConfigDepGood (PatchesField versionPath) (fieldAt versionPath) none [p0])
    (queuesOk_init jsonOps [p0]) hfin hpol hrun
  obtain ⟨k1, _, k3⟩ := own_run jsonOps_lawful hP namedOnce_prefix hnd hts hsp bs W W' hbs hinv (queuesOk_acts as (queuesOk_init jsonOps [p0]) hrun) hfin hW'
  have hstop := patch_stopped namedOnce_prefix hsp k1 k3 hno
  obtain ⟨s, hs⟩ : ∃ s, W'.stations[0]? = some s := by
    have := k1.len
    cases h : W'.stations with
    | nil => rw [h] at this; simp at this
    | cons s l => exact ⟨s, rfl⟩
  obtain ⟨cfg, hcfg, hpipe⟩ := newSpecPipe_ok hnew
  have hset := configDep_settling base H srt hnew hcfg
  obtain ⟨hfine, hlive, hgood, ins, o, h1, _, h3, h4, h5⟩ := patch_at_rest jsonOps_lawful hP namedOnce_prefix hnd hsp (polite_append hbs hpol) (pacts_append hrun hW') k3 (i := 0)
    (p0 := p0) rfl (cfg := cfg) (by rw [e2]; decide) (by rw [e1, e2]; exact hpipe) (by rw [em, e1, e2]; exact hset) hs (hstop 0 s hs).1 (hstop 0 s hs).2
  rw [e1] at h4 h5
  rw [e2] at hlive h1
  have hok : ∀ δ ∈ s.base.done.map Prod.snd, ConfigDepOk δ.obj := by
    intro δ hδ
    obtain ⟨e, he, rfl⟩ := List.mem_map.mp hδ
    exact (hfine.good e he).1
  have hres := fun d => (C83_results base H srt _ (by decide) _ _ cfg hcfg (rowSpec_plain configDep_plain _) _ ins o h1 h3 d).trans (configDep_live base hok d)
  have hlink : ∀ cm dep cd, Linked (jsonOps.removeUID cm) (jsonOps.removeUID dep) (jsonOps.removeUID cd) ↔ Linked cm dep cd := by
    have off : ∀ (d : CDoc), ∀ p ∈ [namePath, nsPath, refMapPath, refDepPath], nested (jsonOps.removeUID d).1 p = nested d.1 p := by
      intro d p hp
      simp only [List.mem_cons, List.not_mem_nil, or_false] at hp
      rcases hp with rfl | rfl | rfl | rfl <;> exact removeUID_off d.2 (by decide) (by decide)
    intro cm dep cd
    unfold Linked Agree
    rw [off cm namePath (by simp), off cm nsPath (by simp), off dep namePath (by simp), off dep nsPath (by simp), off cd refMapPath (by simp),
      off cd refDepPath (by simp), off cd nsPath (by simp)]
  have hdk : objKey dep.1 = k := (hgood _ _ _ hdep).2.1
  constructor
  · rintro cm cd ⟨⟨kc, hcm⟩, ⟨kd, hcd⟩, hl⟩
    have l1 := (hlive configMapK (by decide) (jsonOps.removeUID cm)).mpr ⟨kc, cm, hcm, rfl⟩
    have l2 := (hlive deploymentK (by decide) (jsonOps.removeUID dep)).mpr ⟨k, dep, hdep, rfl⟩
    have l3 := (hlive configDepK (by decide) (jsonOps.removeUID cd)).mpr ⟨kd, cd, hcd, rfl⟩
    have hl' := (hlink cm dep cd).mpr hl
    obtain ⟨x, x1, x2, x3, _⟩ := versionDoc_enforced (live_configDepOk hok l2) hl'
    obtain ⟨y, y1, y2⟩ := h4 _ x ((hres _).mpr ⟨_, _, _, ⟨l1, l2, l3, hl'⟩, rfl⟩) x1
    have hxk : objKey x.1 = k := x2.trans ((removeUID_key dep.2).trans hdk)
    have : y = dep := by
      rw [show jsonOps.key x = k from hxk, hdep] at y1
      exact (Option.some.inj y1).symm
    subst this
    obtain ⟨v, v1, v2⟩ := (hgood _ _ _ hcm).2.2.2.2 (hgood _ _ _ hcm).1
    rw [y2, v1]
    refine fieldAt_scalar ?_ v2
    rw [x3]
    unfold valueAt
    rw [show nested (jsonOps.removeUID cm).1 rvPath = nested cm.1 rvPath from removeUID_off cm.2 (by decide) (by decide), v1]
    rfl
  · intro hnone
    refine h5 k dep hdep (fun d x hd hx hk => hnone ?_)
    obtain ⟨cm', dep', cd', ⟨l1, l2, l3, l4⟩, rfl⟩ := (hres d).mp hd
    obtain ⟨x', x1, x2, _⟩ := versionDoc_enforced (live_configDepOk hok l2) l4
    rw [x1] at hx
    cases hx
    obtain ⟨kc, cm, hcm, rfl⟩ := (hlive configMapK (by decide) cm').mp l1
    obtain ⟨ky, dep2, hd2, rfl⟩ := (hlive deploymentK (by decide) dep').mp l2
    obtain ⟨kd, cd, hcd, rfl⟩ := (hlive configDepK (by decide) cd').mp l3
    have : dep2 = dep := by
      have a : objKey dep2.1 = k := (removeUID_key dep2.2).symm.trans (x2.symm.trans hk)
      rw [show ky = k from (hgood _ _ _ hd2).2.1.symm.trans a, hdep] at hd2
      exact (Option.some.inj hd2).symm
    subst this
    exact ⟨cm, cd, ⟨kc, hcm⟩, ⟨kd, hcd⟩, (hlink cm dep2 cd).mp l4⟩

/-! ### An example -/

/-- Users make three objects, the operator works on them; before it writes, a user changes the Deployment, and after that the ConfigMap. -/
def configDepActs : List (LoopAct CDoc) :=
  [.user ⟨.upserted, cmObj "cfg" "7"⟩, .user ⟨.upserted, depObj 1 none⟩, .user ⟨.upserted, cdObj "l" "cfg"⟩, .work 0 deploymentK ω0, .work 0 configMapK ω0,
   .work 0 configDepK ω1, .user ⟨.upserted, depObj 3 none⟩, .send 0 0, .user ⟨.upserted, cmObj "cfg" "9"⟩]

/-- What happens then. -/
def configDepW : PWorld CDoc AnyVal := ((PWorld.init [configDepPipe]).acts jsonOps jsonPatching configDepActs).getD (PWorld.init [])

theorem configDepW_run : (PWorld.init [configDepPipe]).acts jsonOps jsonPatching configDepActs = some configDepW := by
  have h : ((PWorld.init [configDepPipe]).acts jsonOps jsonPatching configDepActs).isSome = true := by decide +kernel
  obtain ⟨W, hW⟩ := Option.isSome_iff_exists.mp h
  rw [configDepW, hW]; rfl

theorem ordinary_check {m : SMap Json} (h : ∀ p ∈ [namePath, nsPath, rvPath, refMapPath, refDepPath], ((nested m p).elim true (fun v => match v with
    | .str s => s ≠ "@now" && s.toList.head? ≠ some '$' | _ => true)) = true) :
    ∀ p ∈ [namePath, nsPath, rvPath, refMapPath, refDepPath], ∀ v, nested m p = some v → v.Ordinary := by
  intro p hp v hv s hs
  have := h p hp
  rw [hv, hs] at this
  simpa using this

theorem configDepActs_polite : (PWorld.init [configDepPipe]).PoliteRun jsonOps jsonPatching [deploymentK] ConfigDepGood (fieldAt versionPath) none configDepActs := by
  refine politeRun_of_check (by decide +kernel) ?_ ?_
  · intro w hw
    simp only [configDepActs, List.mem_cons, List.not_mem_nil, or_false, LoopAct.user.injEq, reduceCtorEq, false_or] at hw
    rcases hw with rfl | rfl | rfl | rfl | rfl <;>
      refine ⟨⟨⟨⟨_, rfl, by decide⟩, by intro v hv; cases hv; exact ⟨_, rfl⟩⟩, ordinary_check (by decide +kernel)⟩, ⟨"d", by decide, rfl⟩, ?_⟩ <;>
      first | exact fun _ => ⟨_, rfl, trivial⟩ | exact fun e => absurd e (by decide +kernel)
  · intro i g ω hw
    simp only [configDepActs, List.mem_cons, List.not_mem_nil, or_false, LoopAct.work.injEq, reduceCtorEq, false_or] at hw
    rcases hw with ⟨_, _, rfl⟩ | ⟨_, _, rfl⟩ | ⟨_, _, rfl⟩ <;> first | exact ω0_valid | exact ω1_valid

theorem configDepW_fine : configDepW.FineEvents jsonOps [deploymentK] NamedOnce := by
  intro i s hs g hg hn e pre hpre cd cd' h h' _ _
  subst e
  have key : ∀ s ∈ configDepW.stations, ∀ δ ∈ kindEvents jsonOps configDepK (s.base.done.map Prod.snd) ++ s.base.pending configDepK, objKey δ.obj.1 = ("d", "l") := by
    decide +kernel
  have one : ∀ d, LiveObj pre configDepK d → objKey d.1 = ("d", "l") := by
    intro d hd
    obtain ⟨δ, hδ, _, h2⟩ := live_event hd
    rw [← h2]
    exact key s (List.mem_of_getElem? hs) δ (hpre.subset hδ)
  have e1 := h.2
  have e2 := h'.2
  rw [one _ h] at e1
  rw [one _ h'] at e2
  exact liveAs_unique e1 e2

-- all hypotheses hold for the example; there, the patch has kept the change of the user, and three events are queued
example := C118_configdep_partial _ plainEnv_canon id (C89_read _) (p0 := configDepPipe) rfl configDepActs_polite configDepW_run configDepW_fine
example : configDepW.store deploymentK ("d", "web") = some (depObj 3 (some "7")) ∧ (configDepW.stations.map (fun s => (s.base.out.length, configDepSources.map (fun g =>
    (s.base.pending g).length)))) = [(0, [1, 2, 0])] := by decide +kernel
-- and when the operator has done all it can
example : (configDepW.acts jsonOps jsonPatching [.work 0 deploymentK ω1, .work 0 configMapK ω0, .work 0 deploymentK ω0, .send 0 0, .work 0 deploymentK ω0]).map (fun W =>
    (W.store deploymentK ("d", "web"), (W.stations.map (fun s => (s.base.out.length, configDepSources.map (fun g => (s.base.pending g).length)))))) =
    some (some (depObj 3 (some "9")), [(0, [0, 0, 0])]) := by decide +kernel

-- the theorems on all controllers, for this one
theorem configDepPipe_self : ∀ p ∈ [configDepPipe], SelfPatching jsonOps ([configDepPipe].map Pipe.target) ConfigDepGood NamedOnce (PatchesField versionPath) p := by
  intro p hp
  rw [List.mem_singleton.mp hp]
  exact (configDep_selfPatching _ plainEnv_canon id (p0 := configDepPipe) rfl).2.2

example := C118_terminates jsonOps_lawful (ps := [configDepPipe]) configDep_sound namedOnce_prefix (by decide) configDepPipe_self configDepActs_polite configDepW_run configDepW_fine
example := C118_settles_partial jsonOps_lawful (ps := [configDepPipe]) configDep_sound namedOnce_prefix (by decide) configDepPipe_self configDepActs_polite configDepW_run
  configDepW_fine

/-- The operator before the users do anything else than making a Deployment. -/
def configDepIdle : List (LoopAct CDoc) := [.user ⟨.upserted, depObj 1 none⟩, .work 0 deploymentK ω0]

example (cfg : List (PipeOp CDoc AnyVal)) (hcfg : compileOps plainEnv id (configDepSources.map GVK.kind) [.join configDepCond, .project configDepProj] = .ok cfg)
    (hnew : Pipe.new deploymentK configDepSources cfg = .ok configDepPipe) (W : PWorld CDoc AnyVal) (hW : (PWorld.init [configDepPipe]).acts jsonOps jsonPatching configDepIdle = some W)
    (s : PStation CDoc AnyVal) (hs : W.stations[0]? = some s) (h1 : ∀ g ∈ s.base.pipe.sources, s.base.pending g = []) (h2 : s.base.out = [])
    (hf : W.FineEvents jsonOps [deploymentK] NamedOnce) :=
  C118_at_rest_partial jsonOps_lawful (ps := [configDepPipe]) configDep_sound namedOnce_prefix (by decide) configDepPipe_self (politeRun_of_check (by decide +kernel)
    (by
      intro w hw
      simp only [configDepIdle, List.mem_cons, List.not_mem_nil, or_false, LoopAct.user.injEq, reduceCtorEq] at hw
      subst hw
      exact ⟨⟨⟨⟨_, rfl, by decide⟩, by intro v hv; cases hv; exact ⟨_, rfl⟩⟩, ordinary_check (by decide +kernel)⟩, ⟨"d", by decide, rfl⟩, fun e => absurd e (by decide +kernel)⟩)
    (by
      intro i g ω hw
      simp only [configDepIdle, List.mem_cons, List.not_mem_nil, or_false, LoopAct.work.injEq, reduceCtorEq, false_or] at hw
      rw [hw.2.2]; exact ω0_valid)) hW hf (i := 0) rfl (by decide) hnew (configDep_settling _ plainEnv_canon id rfl hcfg) hs h1 (by rw [h2]; simp)
example : ((PWorld.init [configDepPipe]).acts jsonOps jsonPatching configDepIdle).map (fun W => W.stations.map (fun s => (s.base.out, configDepSources.map (fun g =>
    s.base.pending g)))) = some [([], [[], [], []])] := by decide +kernel

-- a patch with a snapshot that is no longer the object
example := C118_write (t := deploymentK) (by decide) (S := fun g k => if g = deploymentK ∧ k = ("d", "web") then some (depObj 3 none) else none)
  (by
    intro k y h
    split at h
    · rename_i e; cases h; rw [e.2]; rfl
    · cases h) (c := depCluster 3 [])
  (by
    intro k
    by_cases e : k = ("d", "web")
    · subst e; rfl
    · simp [depCluster, AMap.get, e, Ne.symm e]) (w := ⟨.upserted, verObj "7"⟩) (.inl rfl) (jsonOps_enforce.mpr (by rfl)) (depObj 1 none)

end Dctl
