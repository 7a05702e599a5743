import Verif.Props.EpView
import Verif.Props.ServiceHealth
import Verif.Spec.EpOperator
/-!
# C98: the two controllers of the endpoint slice operator together
-/
set_option autoImplicit false
namespace Dctl

theorem nested_below {m : SMap Json} {p : List String} {v : Json} (h : nested m p = some v) (q : List String) : nested m (p ++ q) = v.at q := by
  unfold nested at h ⊢
  rw [at_append, h]
  rfl

/-- A ServiceView that holds a port of a Service gives the same EndpointViews as the port. -/
theorem epSpec_pair {n ns : String} {svc sv : CDoc} {port addr : Json} (hn : SvcNamed n ns svc) (h : DescribesPort svc port sv.1) : epSpec sv addr = pairSpec n svc port addr := by
  obtain ⟨h1, h2, h3⟩ := h
  have h4 := nested_below h1 ["port"]
  have h5 := nested_below h1 ["protocol"]
  have h6 := nested_below h1 ["targetPort"]
  simp only [List.cons_append, List.nil_append] at h4 h5 h6
  unfold epSpec pairSpec
  rw [h2, hn.1, h3, h4, h5, h6]
  rfl

/-- **C98** (partial): both controllers of the operator. When the first has processed the Services, and the second the ServiceViews the first has written and the
EndpointSlices, then no evaluation has failed and there is an EndpointView for each port of a live Service with the annotation and each ready address in the live
EndpointSlices of the Service, and no other EndpointView; its name is that of the Service with the hash of its specification, which is made of the fields of the port, the
address, and the name and the type of the Service. Missing: see `C93_views_partial` and `C94_views_partial`. -/
theorem C98_endpoints_partial (base : Env) (H : base.Canon) (hq : ReadsEnabled base) (hq' : ReadsOfService base) (srt srt' : List Json → List Json)
    (hcan : ∀ l : List Json, (∀ x ∈ l, x.Canon) → ∀ x ∈ srt l, x.Canon) (hcan' : ∀ l : List Json, (∀ x ∈ l, x.Canon) → ∀ x ∈ srt' l, x.Canon)
    {env : Env} {spec spec' : List SpecOp} (hspec : unmarshalPipeline env svcViewJson = .ok spec) (hspec' : unmarshalPipeline env epViewJson = .ok spec')
    {p0 p0' : Pipe CDoc AnyVal} (hnew : newSpecPipe (fieldEnv base) srt svcViewK [servicesK] spec = .ok p0)
    (hnew' : newSpecPipe (fieldEnv base) srt' epViewK epSources spec' = .ok p0') {svcs eps : List (EvalOrder CDoc × Delta CDoc)} (hh : SvcViewHist svcs) (hh' : EpHist eps)
    (hdup : ∀ pre, pre <+: eps.map Prod.snd → NoDuplicates pre) (hhash : ∀ pre, pre <+: eps.map Prod.snd → HashTells base pre)
    {c0 c1 : Cluster} (hc0 : AMap.WF c0) (h0 : ∀ k, c0.get (svcViewK, k) = none) (hc1 : AMap.WF c1) (h1 : ∀ k, c1.get (epViewK, k) = none) :
    ∃ wss wss' : List (List (Delta CDoc)), (runs (fun p (e : EvalOrder CDoc × Delta CDoc) => p.evaluate jsonOps e.1 e.2) p0 svcs).2 = wss.map Except.ok ∧
      (runs (fun p (e : EvalOrder CDoc × Delta CDoc) => p.evaluate jsonOps e.1 e.2) p0' eps).2 = wss'.map Except.ok ∧
      (SeenAll svcViewK (clusterAfter svcViewK c0 wss.flatten) (eps.map Prod.snd) →
        (∀ n ns svc port addr, LivePair (svcs.map Prod.snd) (eps.map Prod.snd) n ns svc port addr →
          ∃ obj, (clusterAfter epViewK c1 wss'.flatten).get (epViewK, (ns, pairName base n svc port addr)) = some obj ∧
            nested obj ["spec"] = some (.map (pairSpec n svc port addr))) ∧
        (∀ key obj, (clusterAfter epViewK c1 wss'.flatten).get (epViewK, key) = some obj →
          ∃ n ns svc port addr, LivePair (svcs.map Prod.snd) (eps.map Prod.snd) n ns svc port addr ∧ key = (ns, pairName base n svc port addr) ∧ objKey obj = key ∧
            nested obj ["spec"] = some (.map (pairSpec n svc port addr)))) := by
  obtain ⟨wss, hr, a1, a2, _⟩ := C93_views_partial base H hq srt hcan hspec hnew hh hc0 h0
  obtain ⟨wss', hr', b1, b2, _⟩ := C94_views_partial base H hq' srt' hcan' hspec' hnew' hh' hdup hhash hc1 h1
  have hviews : ∀ δ ∈ eps.map Prod.snd, objGVK δ.obj.1 = svcViewK → PortViewOk δ.obj := by
    intro δ hδ
    obtain ⟨e, he, rfl⟩ := List.mem_map.mp hδ
    exact hh'.views e he
  -- a ServiceView that was seen, and the object in the cluster
  have link : ∀ {sv : CDoc} {obj : SMap Json} {svc : CDoc} {port : Json} {n ns nm : String}, LiveObj (eps.map Prod.snd) svcViewK sv →
      (∀ p, Disjoint p ["metadata", "uid"] → nested sv.1 p = nested obj p) → objKey obj = (ns, nm) → SvcNamed n ns svc → DescribesPort svc port obj →
      nested sv.1 nsPath = some (.str ns) ∧ nested sv.1 svcNamePath = some (.str n) ∧ ∀ a, epSpec sv a = pairSpec n svc port a := by
    intro sv obj svc port n ns nm hl hoff hk hn hd
    obtain ⟨n', ns', _, ⟨_, hns'⟩, _⟩ := (version_portView hviews (liveAs_version hl)).1
    have e : ns' = ns := by
      have h2 := hoff nsPath ⟨by decide, by decide⟩
      rw [hns'] at h2
      have h3 := congrArg Prod.fst hk
      simp only [objKey, nestedString, ← h2] at h3
      exact h3
    subst e
    have hd' : DescribesPort svc port sv.1 := by
      unfold DescribesPort at hd ⊢
      rw [hoff portsPath ⟨by decide, by decide⟩, hoff svcNamePath ⟨by decide, by decide⟩, hoff typePath ⟨by decide, by decide⟩]
      exact hd
    exact ⟨hns', hd'.2.1.trans hn.1, fun a => epSpec_pair hn hd'⟩
  refine ⟨wss, wss', hr, hr', fun hseen => ⟨fun n ns svc port addr hp => ?_, fun key obj hobj => ?_⟩⟩
  · obtain ⟨hn, ⟨i, hport⟩, es, j, k, hes, ⟨ho1, ho2⟩, ep, he1, he2, he3⟩ := hp
    obtain ⟨x, hx, hxd⟩ := a1 svc i port n ns hport hn
    obtain ⟨_, _, _, _, _, _, _, _, hxk, _⟩ := a2 _ x hx
    obtain ⟨sv, hsv, hoff⟩ := hseen.1 _ x hx
    obtain ⟨l1, l2, l3⟩ := link hsv hoff hxk hn hxd
    obtain ⟨obj, hobj, hspec⟩ := b1 sv es j k addr ns n ⟨hsv, hes, ⟨⟨_, by simp, l2, ho1⟩, ⟨_, by simp, l1, ho2⟩⟩, ep, he1, he2, he3⟩ l1 l2
    rw [l3] at hspec
    unfold epName at hobj
    rw [l3] at hobj
    exact ⟨obj, hobj, hspec⟩
  · obtain ⟨sv, es, j, k, addr, ns, sn, ⟨hsv, hes, ⟨⟨v, _, s1, s2⟩, ⟨w, _, s3, s4⟩⟩, hready⟩, hns, hsn, hkey, hok, hspec⟩ := b2 key obj hobj
    obtain ⟨x, hx⟩ := Option.isSome_iff_exists.mp (hseen.2 sv hsv)
    obtain ⟨svc, i, port, n, ns', hport, hn, hk, hxk, hxd⟩ := a2 _ x hx
    obtain ⟨sv', hsv', hoff⟩ := hseen.1 _ x hx
    have : sv' = sv := by
      have hk' : objKey sv'.1 = objKey sv.1 := by
        rw [← hxk]
        simp only [objKey, nestedString, hoff namePath ⟨by decide, by decide⟩, hoff nsPath ⟨by decide, by decide⟩]
      exact liveAs_unique (k := objKey sv.1) (hk' ▸ hsv'.2) hsv.2
    subst this
    obtain ⟨l1, l2, l3⟩ := link hsv hoff (hxk.trans hk) hn hxd
    rw [l1] at hns
    rw [l2] at hsn
    cases hns
    cases hsn
    rw [l2] at s1
    rw [l1] at s3
    cases s1
    cases s3
    unfold epName at hkey
    rw [l3] at hspec hkey
    exact ⟨_, _, svc, port, addr, ⟨hn, ⟨i, hport⟩, es, j, k, hes, ⟨s2, s4⟩, hready⟩, hkey, hok, hspec⟩

/-! ## An example -/

/-- An environment that reads both queries. -/
def epOpBase : Env := { sliceBase with
  jget := fun q j => match j with
    | .map m => if q = enabledQuery then .ok ((nested m enabledPath).getD .null)
      else if q = ofServiceQuery then .ok ((nested m ("EndpointSlice" :: ofServicePath)).getD .null) else .error .err
    | _ => .error .err }

theorem epOpBase_canon : epOpBase.Canon := by
  refine ⟨fun q j v hj h => ?_, fun _ _ _ _ _ _ h => by cases h⟩
  cases j with
  | map m =>
    simp only [epOpBase] at h
    split at h
    · cases h; exact valueAt_canon ⟨m, hj⟩ enabledPath
    · split at h
      · cases h; exact valueAt_canon ⟨m, hj⟩ ("EndpointSlice" :: ofServicePath)
      · cases h
  | _ => cases h

theorem epOpBase_reads : ReadsEnabled epOpBase ∧ ReadsOfService epOpBase := by
  refine ⟨fun _ => rfl, fun m => ?_⟩
  simp only [epOpBase]
  rw [if_neg (by decide), if_pos trivial]

/-- What the first controller sees: a Service with the annotation and one without. -/
def epOpSvcs : List (EvalOrder CDoc × Delta CDoc) := [(ω0, ⟨.added, onSvc "web" [80, 443]⟩), (ω1, ⟨.added, offSvc "db" [5432]⟩)]

theorem epOpSvcs_hist : SvcViewHist epOpSvcs := by
  refine ⟨?_, by decide +kernel, watchOk_of_check jsonOps_lawful (by decide +kernel), ?_⟩
  · intro e he
    simp only [epOpSvcs, List.mem_cons, List.not_mem_nil, or_false] at he
    rcases he with rfl | rfl <;> first | exact ω0_valid | exact ω1_valid
  · intro e he
    simp only [epOpSvcs, List.mem_cons, List.not_mem_nil, or_false] at he
    rcases he with rfl | rfl <;>
      exact portSvc_ok (h := by simp [SMap.Sorted, Json.Canon, Json.CanonM]) (by decide) (by intro s h; cases h; decide) (by intro v hv; first | (cases hv; intro s hs; cases hs; decide) | cases hv)

/-- The pipelines of the two controllers. -/
def epOpPipe1 : Pipe CDoc AnyVal :=
  match newSpecPipe (fieldEnv epOpBase) id svcViewK [servicesK] svcViewSpec with
  | .ok p => p
  | .error _ => { sources := [], target := svcViewK, graph := {} }

-- all hypotheses hold for the example
example := C98_endpoints_partial epOpBase epOpBase_canon epOpBase_reads.1 epOpBase_reads.2 id id (fun _ h => h) (fun _ h => h) (C93_read epOpBase) (C94_read epOpBase)
  (p0 := epOpPipe1) (p0' := match newSpecPipe (fieldEnv epOpBase) id epViewK epSources epSpecOps with
    | .ok p => p
    | .error _ => { sources := [], target := epViewK, graph := {} }) rfl rfl epOpSvcs_hist epViewEx_hist epViewEx_dups epViewEx_hash
  (c0 := []) (c1 := []) (by simp [AMap.WF]) (by intro k; simp [AMap.get]) (by simp [AMap.WF]) (by intro k; simp [AMap.get])

-- also the one in its conclusion: the second controller has seen what the first has written
example : SeenAll svcViewK (clusterAfter svcViewK [] ((runs (fun p (e : EvalOrder CDoc × Delta CDoc) => p.evaluate jsonOps e.1 e.2) epOpPipe1 epOpSvcs).2.map
    (fun r => r.toOption.getD [])).flatten) (epViewEx.map Prod.snd) := by
  have e : (clusterAfter svcViewK [] ((runs (fun p (e : EvalOrder CDoc × Delta CDoc) => p.evaluate jsonOps e.1 e.2) epOpPipe1 epOpSvcs).2.map
    (fun r => r.toOption.getD [])).flatten) = [((svcViewK, ("d", elemName "web" 0)), svcView "web" 0 80), ((svcViewK, ("d", elemName "web" 1)), svcView "web" 1 443)] := by
    decide +kernel
  rw [e]
  refine ⟨fun k obj hobj => ?_, fun v hl => ?_⟩
  · simp only [AMap.get] at hobj
    split at hobj
    · cases hobj
      exact ⟨portView "web" 0 80, ⟨by decide +kernel, [], _, [_, _, _], rfl, (by unfold Concerns; decide +kernel), by decide, by decide +kernel,
        (by unfold Concerns; decide +kernel)⟩, fun p _ => rfl⟩
    · split at hobj
      · cases hobj
        exact ⟨portView "web" 1 443, ⟨by decide +kernel, [_, _], _, [_], rfl, (by unfold Concerns; decide +kernel), by decide, by decide +kernel,
          (by unfold Concerns; decide +kernel)⟩, fun p _ => rfl⟩
      · cases hobj
  · obtain ⟨δ, hδ, hg, rfl⟩ := liveAs_version hl
    simp only [epViewEx, List.map_cons, List.map_nil, List.mem_cons, List.not_mem_nil, or_false] at hδ
    rcases hδ with rfl | rfl | rfl | rfl
    · decide +kernel
    · exact absurd hg (by decide)
    · decide +kernel
    · exact absurd hg (by decide)
-- a port and an address of the example
example : LivePair (epOpSvcs.map Prod.snd) (epViewEx.map Prod.snd) "web" "d" (onSvc "web" [80, 443]) (svcPort 443) (.str "10.0.0.2") where
  named := ⟨rfl, rfl⟩
  port := ⟨1, ⟨by decide, [], _, [_], rfl, ⟨by decide, by decide, by decide⟩, by decide, by decide, (by unfold Concerns; decide +kernel)⟩, by unfold Enabled; decide, rfl⟩
  addr := ⟨epEx2, 1, 0, ⟨by decide +kernel, [_, _, _], _, [], rfl, (by unfold Concerns; decide +kernel), by decide, by decide +kernel, (by unfold Concerns; decide +kernel)⟩,
    ⟨rfl, rfl⟩, sliceEp "10.0.0.2" true, rfl, rfl, rfl⟩

end Dctl
