import Verif.Props.PodHealth
/-!
# C92: the two controllers of the service health operator together
-/
set_option autoImplicit false
namespace Dctl

theorem readyText_pods {l : List Json} {xs : List CDoc} (h : l.Perm (xs.map podStatus)) : readyText l = podsText xs := by
  have h1 : readyCount l = xs.countP podReady := by
    unfold readyCount
    rw [h.countP_eq, List.countP_map]
    refine congrArg (fun p => xs.countP p) (funext fun d => ?_)
    have : (podStatus d).at ["ready"] = some (readyStatus d.1) := rfl
    simp only [Function.comp_apply, this, podReady, Option.some.injEq]
  unfold readyText podsText
  rw [h1, h.length_eq, List.length_map]

theorem livePods_perm {hist : List (Delta CDoc)} {app ns : String} {xs ys : List CDoc} (h : LivePods hist app ns xs) (h' : LivePods hist app ns ys) : xs.Perm ys :=
  (List.perm_ext_iff_of_nodup h.1 h'.1).mpr (fun d => (h.2 d).trans (h'.2 d).symm)

theorem podsText_perm {xs ys : List CDoc} (h : xs.Perm ys) : podsText xs = podsText ys := by
  unfold podsText
  rw [h.countP_eq, h.length_eq]

theorem objKey_paths {m : SMap Json} {k : ObjKey} (h : objKey m = k) : (k.2 ≠ "" → nested m namePath = some (.str k.2)) ∧ (k.1 ≠ "" → nested m nsPath = some (.str k.1)) := by
  subst h
  simp only [objKey]
  constructor
  · intro h
    unfold nestedString at h ⊢
    split at h
    · rename_i s hs; simp only [hs]
    · exact absurd rfl h
  · intro h
    unfold nestedString at h ⊢
    split at h
    · rename_i s hs; simp only [hs]
    · exact absurd rfl h

/-- **C92** (partial): both controllers of the operator. When the first has processed the pods, and the second the HealthViews it has written and the Services, then
the annotation of a Service is the number of the live ready pods of its name and namespace, a slash, and the number of all live pods of its name and namespace, if there
are any; otherwise there is no HealthView for the Service. Missing: see `C90_annotation_partial` and `C91_views_partial`. -/
theorem C92_annotation_partial (base : Env) (H : base.Canon) (hq : ReadsQueries base) (srt srt' : List Json → List Json) (hsrt : ∀ l, (srt l).Perm l)
    {spec spec' : List SpecOp} (hspec : unmarshalPipeline (fieldEnv base) podHealthJson = .ok spec)
    (hspec' : unmarshalPipeline (fieldEnv base) svcHealthJson = .ok spec') {p0 p0' : Pipe CDoc AnyVal}
    (hnew : newSpecPipe (fieldEnv base) srt healthK [monPodK] spec = .ok p0)
    (hnew' : newSpecPipe (fieldEnv base) srt' servicesK svcHealthSources spec' = .ok p0')
    {pods views : List (EvalOrder CDoc × Delta CDoc)} (hh : PodHealthHist pods) (hh' : SvcHealthHist views)
    {c0 : Cluster} (hc0 : AMap.WF c0) (h0 : ∀ k, c0.get (healthK, k) = none) :
    ∃ wss wss' : List (List (Delta CDoc)), (runs (fun p (e : EvalOrder CDoc × Delta CDoc) => p.evaluate jsonOps e.1 e.2) p0 pods).2 = wss.map Except.ok ∧
      (runs (fun p (e : EvalOrder CDoc × Delta CDoc) => p.evaluate jsonOps e.1 e.2) p0' views).2 = wss'.map Except.ok ∧
      (ViewsSeen (clusterAfter healthK c0 wss.flatten) (views.map Prod.snd) →
        ∀ (svc : CDoc) (k : ObjKey) (xs : List CDoc), LiveObj (views.map Prod.snd) servicesK svc → objKey svc.1 = k → k.1 ≠ "" →
          LivePods (pods.map Prod.snd) k.2 k.1 xs →
          (xs ≠ [] → ∀ (c1 c2 : Cluster) (y1 : SMap Json), ClusterOk servicesK c1 → c1.get (servicesK, k) = some y1 → Patched servicesK k readyPath c1 wss'.flatten c2 →
            ∃ y, c2.get (servicesK, k) = some y ∧ nested y readyPath = some (.str (podsText xs))) ∧
          (xs = [] → ∀ hv, ¬ SameServiceNow (views.map Prod.snd) hv svc)) := by
  obtain ⟨wss, hr, h1, h2, _⟩ := C91_views_partial base H hq srt hsrt (fieldEnv base) hspec hnew hh hc0 h0
  obtain ⟨wss', hr'⟩ := C90_never_fails_partial base (fieldEnv_canon H) srt' hspec' hnew' hh'
  refine ⟨wss, wss', hr, hr', fun hseen svc k xs hsvc hk hns hxs => ⟨fun hne c1 c2 y1 hc1 hy1 hP => ?_, fun he hv hsame => ?_⟩⟩
  · obtain ⟨d, hd⟩ := List.exists_mem_of_ne_nil xs hne
    have hsome := (h1 k).mpr ⟨d, (hxs.2 d).mp hd⟩
    obtain ⟨obj, hobj⟩ := Option.isSome_iff_exists.mp hsome
    obtain ⟨hkey, xs', l, hxs', hl, hperm⟩ := h2 k obj hobj
    obtain ⟨hv, hlive, hoff⟩ := hseen.1 k obj hobj
    have hsok := version_svcHealthOk hh'.okEvents (liveAs_version hsvc)
    have hkn : k.2 ≠ "" := by
      obtain ⟨n, hn, hne⟩ := hsok.1.1
      rw [← hk, objKey_str hn]
      exact hne
    obtain ⟨l', hp⟩ := version_pods hh'.okEvents (liveAs_version hlive)
    have hll : l' = l := by
      have := hp.1
      rw [hoff podsPath ⟨by decide, by decide⟩, hl] at this
      simpa using this.symm
    subst hll
    obtain ⟨y, hy, i1, _⟩ := C90_annotation_partial base (fieldEnv_canon H) srt' hspec' hnew' hh' hr' hc1 hy1 hP
    refine ⟨y, hy, ?_⟩
    have hsame : SameServiceNow (views.map Prod.snd) hv svc := by
      refine ⟨hlive, hsvc, ?_, ?_⟩
      · exact ⟨_, by simp, (hoff namePath ⟨by decide, by decide⟩).trans ((objKey_paths hkey).1 hkn), (objKey_paths hk).1 hkn⟩
      · exact ⟨_, by simp, (hoff nsPath ⟨by decide, by decide⟩).trans ((objKey_paths hkey).2 hns), (objKey_paths hk).2 hns⟩
    rw [i1 hv svc l' hsame hk hp, readyText_pods hperm, podsText_perm (livePods_perm hxs' hxs)]
  · subst he
    have hkey : objKey hv.1 = k := by rw [← hk]; exact sameService_key hsame.2.2
    have := hseen.2 hv hsame.1
    rw [hkey] at this
    obtain ⟨d, hd⟩ := (h1 k).mp this
    exact absurd ((hxs.2 d).mpr hd) (by simp)

/-! ## An example -/

/-- The HealthView of the example of C91 at its end. -/
abbrev webView : CDoc := podView "web" "d" [("q", "True"), ("p", "True")]

/-- What the second controller sees: the Service and the HealthView. -/
def viewsEx : List (EvalOrder CDoc × Delta CDoc) := [(ω0, ⟨.added, svcObj 80 none⟩), (ω1, ⟨.added, webView⟩)]

theorem viewsEx_hist : SvcHealthHist viewsEx where
  orders := by
    intro e he
    simp only [viewsEx, List.mem_cons, List.not_mem_nil, or_false] at he
    rcases he with rfl | rfl <;> first | exact ω0_valid | exact ω1_valid
  kinds := by decide +kernel
  watch := watchOk_of_check jsonOps_lawful (by decide +kernel)
  ok := by
    intro e he
    simp only [viewsEx, List.mem_cons, List.not_mem_nil, or_false] at he
    have key : ∀ (m : SMap Json), nested m namePath = some (.str "web") → nested m nsPath = some (.str "d") →
        ∀ p ∈ [namePath, nsPath], ∀ v, nested m p = some v → v.Ordinary := by
      intro m h1 h2 p hp v hv s hs
      simp only [List.mem_cons, List.not_mem_nil, or_false] at hp
      rcases hp with rfl | rfl
      · rw [h1, hs] at hv; cases hv; decide
      · rw [h2, hs] at hv; cases hv; decide
    rcases he with rfl | rfl <;> refine ⟨⟨⟨_, rfl, by decide⟩, by intro v hv; cases hv; exact ⟨_, rfl⟩⟩, key _ rfl rfl, ?_⟩
    · exact fun h => absurd h (by decide)
    · refine fun _ => ⟨_, rfl, fun x hx => ?_⟩
      simp only [List.map_cons, List.map_nil, List.mem_cons, List.not_mem_nil, or_false] at hx
      rcases hx with rfl | rfl <;> exact ⟨by simp, fun v hv => by cases hv; exact ⟨by intro s h; cases h; decide, by intro l; simp⟩⟩

-- all hypotheses of C92 hold for the example
example := C92_annotation_partial healthBase healthBase_canon healthBase_reads id id (fun _ => .refl _) (C91_read _) (C90_read _)
  (p0 := podHealthPipe) (p0' := match newSpecPipe (fieldEnv healthBase) id servicesK svcHealthSources [.join svcHealthCond, .project svcHealthProj] with
    | .ok p => p
    | .error _ => { sources := [], target := servicesK, graph := {} }) rfl rfl podHealthEx_hist viewsEx_hist (c0 := svcCluster 80 []) (by simp [AMap.WF, svcCluster])
  (by intro k; simp [AMap.get, svcCluster, servicesK, healthK])

-- also those inside its conclusion: the second controller has seen what the first has written
example : ViewsSeen (clusterAfter healthK (svcCluster 80 []) ((runs (fun p (e : EvalOrder CDoc × Delta CDoc) => p.evaluate jsonOps e.1 e.2) podHealthPipe podHealthEx).2.map
    (fun r => r.toOption.getD [])).flatten) (viewsEx.map Prod.snd) := by
  have e : (clusterAfter healthK (svcCluster 80 []) ((runs (fun p (e : EvalOrder CDoc × Delta CDoc) => p.evaluate jsonOps e.1 e.2) podHealthPipe podHealthEx).2.map
    (fun r => r.toOption.getD [])).flatten) = svcCluster 80 [] ++ [((healthK, ("d", "web")), webView.1)] := by decide +kernel
  rw [e]
  refine ⟨fun k obj hobj => ?_, fun hv hl => ?_⟩
  · simp only [svcCluster, List.cons_append, List.nil_append, AMap.get] at hobj
    split at hobj
    · rename_i h; exact absurd (show servicesK = healthK from congrArg Prod.fst h) (by decide)
    · split at hobj
      · cases hobj
        exact ⟨webView, ⟨by decide, [_], _, [], rfl, ⟨by decide, by decide, by decide⟩, by decide, by decide, by simp⟩, fun p _ => rfl⟩
      · cases hobj
  · obtain ⟨δ, hδ, hg, rfl⟩ := liveAs_version hl
    simp only [viewsEx, List.map_cons, List.map_nil, List.mem_cons, List.not_mem_nil, or_false] at hδ
    rcases hδ with rfl | rfl
    · exact absurd hg (by decide)
    · decide +kernel
-- and these are the live pods of the application
example : LivePods (podHealthEx.map Prod.snd) "web" "d" [monPod "web" "d" "p" "True", monPod "web" "d" "q" "True"] := by
  have l1 : LiveObj (podHealthEx.map Prod.snd) monPodK (monPod "web" "d" "p" "True") :=
    ⟨by decide, [_, _, _], _, [_], rfl, ⟨by decide, by decide, by decide⟩, by decide, by decide, by unfold Concerns; decide +kernel⟩
  have l2 : LiveObj (podHealthEx.map Prod.snd) monPodK (monPod "web" "d" "q" "True") :=
    ⟨by decide, [_], _, [_, _, _], rfl, ⟨by decide, by decide, by decide⟩, by decide, by decide, by unfold Concerns; decide +kernel⟩
  refine ⟨by decide, fun d => ⟨fun hd => ?_, fun ⟨hl, hp⟩ => ?_⟩⟩
  · simp only [List.mem_cons, List.not_mem_nil, or_false] at hd
    rcases hd with rfl | rfl
    · exact ⟨l1, by decide⟩
    · exact ⟨l2, by decide⟩
  · have hk : objKey d.1 = ("d", "p") → d = monPod "web" "d" "p" "True" := fun h => liveAs_unique (k := ("d", "p")) (h ▸ hl.2) l1.2
    obtain ⟨δ, hδ, hg, rfl⟩ := liveAs_version hl
    simp only [podHealthEx, List.map_cons, List.map_nil, List.mem_cons, List.not_mem_nil, or_false] at hδ
    rcases hδ with rfl | rfl | rfl | rfl | rfl
    · rw [hk (by decide)]; simp
    · exact .tail _ (.head _)
    · exact absurd hp (by decide)
    · rw [hk (by decide)]; simp
    · exact absurd hp (by decide)
example : podsText [monPod "web" "d" "p" "True", monPod "web" "d" "q" "False"] = "1/2" := by decide +kernel

end Dctl
