import Verif.Props.EpGather
/-!
# C112: the service controller of the endpoint slice operator with gather, and both controllers together
-/
set_option autoImplicit false
namespace Dctl

/-! ## Names of ports -/

theorem dash_split : ∀ (a a' b b' : List Char), '-' ∉ b → '-' ∉ b' → a ++ '-' :: b = a' ++ '-' :: b' → a = a' ∧ b = b'
  | [], [], b, b', _, _, h => by simpa using h
  | [], x :: a', b, b', hb, _, h => by
    simp only [List.nil_append, List.cons_append, List.cons.injEq] at h
    exact absurd (by rw [h.2]; simp) hb
  | x :: a, [], b, b', _, hb', h => by
    simp only [List.nil_append, List.cons_append, List.cons.injEq] at h
    exact absurd (by rw [← h.2]; simp) hb'
  | x :: a, y :: a', b, b', hb, hb', h => by
    simp only [List.cons_append, List.cons.injEq] at h
    obtain ⟨e1, e2⟩ := dash_split a a' b b' hb hb' h.2
    exact ⟨by rw [h.1, e1], e2⟩

/-- The name tells the Service, the protocol and the number. -/
theorem portName_inj {sn sn' proto proto' : String} {num num' : Int} (h1 : 0 ≤ num) (h2 : 0 ≤ num') (h3 : '-' ∉ proto.toList) (h4 : '-' ∉ proto'.toList)
    (h : portName sn proto num = portName sn' proto' num') : sn = sn' ∧ proto = proto' ∧ num = num' := by
  obtain ⟨n, rfl⟩ := Int.eq_ofNat_of_zero_le h1
  obtain ⟨n', rfl⟩ := Int.eq_ofNat_of_zero_le h2
  obtain ⟨e1, rfl⟩ := elemName_inj (n := sn ++ "-" ++ proto) (n' := sn' ++ "-" ++ proto') (i := n) (i' := n') h
  have hl : sn.toList ++ '-' :: proto.toList = sn'.toList ++ '-' :: proto'.toList := by
    have := congrArg String.toList e1
    simpa [String.toList_append] using this
  obtain ⟨a, b⟩ := dash_split _ _ _ _ h3 h4 hl
  exact ⟨String.ext a, String.ext b, rfl⟩

/-! ## The first controller -/

theorem svc_unwinds {svc c : CDoc} {i : Nat} {n ns : String} (hn : SvcNamed n ns svc) (h : UnwindsTo portsPath i (svcViewDoc svc) c) :
    ∃ port, (svcPorts svc)[i]? = some port ∧ SvcNamed (elemName n i) ns c ∧ DescribesPort svc port c.1 := by
  obtain ⟨l, v, n', u1, u2, u3, u4, u5, u6⟩ := h
  have hn1 := svcViewDoc_named hn
  rw [hn1.1] at u3
  cases u3
  refine ⟨v, by unfold svcPorts; rw [svcPorts_doc.mp u1]; exact u2, ⟨u5, (u6 _ ⟨by decide, by decide⟩ ⟨by decide, by decide⟩).trans hn1.2⟩, u4, ?_, ?_⟩
  · rw [u6 _ ⟨by decide, by decide⟩ ⟨by decide, by decide⟩, (svcViewDoc_at svc).2.2.2.1, hn.1]
    unfold valueAt
    rw [hn.1]
    rfl
  · rw [u6 _ ⟨by decide, by decide⟩ ⟨by decide, by decide⟩, (svcViewDoc_at svc).2.2.2.2]
    rfl

/-- The name the second projection gives to a document. -/
def viewName (c : CDoc) : String :=
  match valueAt c svcNamePath, valueAt c protocolPath, valueAt c portPath with
  | .str sn, .str proto, .int num => portName sn proto num
  | _, _, _ => ""

theorem gatherSvcDoc_canon (c : CDoc) : (Json.map [("metadata", .map [("name", .str (viewName c)), ("namespace", valueAt c nsPath)]), ("spec", valueAt c ["spec"])]).Canon := by
  have h1 := valueAt_canon c nsPath
  have h2 := valueAt_canon c ["spec"]
  simp [SMap.Sorted, Json.Canon, Json.CanonM, h1, h2]

/-- What the second projection makes of a document. -/
def gatherSvcDoc (c : CDoc) : CDoc := ⟨_, gatherSvcDoc_canon c⟩

/-- A document for the port of a Service: what there is between the unwind and the second projection. -/
structure PortRow (n ns proto : String) (num : Int) (svc : CDoc) (port : Json) (c : CDoc) : Prop where
  inNs : nested c.1 nsPath = some (.str ns)
  describes : DescribesPort svc port c.1
  service : nested svc.1 namePath = some (.str n)
  port : IsPort proto num port
  ordinary : (Json.str n).Ordinary ∧ (Json.str ns).Ordinary ∧ (Json.str proto).Ordinary

theorem PortRow.at {n ns proto : String} {num : Int} {svc : CDoc} {port : Json} {c : CDoc} (h : PortRow n ns proto num svc port c) :
    nested c.1 svcNamePath = some (.str n) ∧ nested c.1 protocolPath = some (.str proto) ∧ nested c.1 portPath = some (.int num) ∧ viewName c = portName n proto num := by
  have h1 : nested c.1 svcNamePath = some (.str n) := h.describes.2.1.trans h.service
  have h2 : nested c.1 protocolPath = some (.str proto) := (nested_below h.describes.1 ["protocol"]).trans h.port.1
  have h3 : nested c.1 portPath = some (.int num) := (nested_below h.describes.1 ["port"]).trans h.port.2
  refine ⟨h1, h2, h3, ?_⟩
  unfold viewName valueAt
  rw [h1, h2, h3]
  rfl

theorem PortRow.spec {n ns proto : String} {num : Int} {svc : CDoc} {port : Json} {c : CDoc} (h : PortRow n ns proto num svc port c) :
    ∃ m, nested c.1 ["spec"] = some (.map m) := by
  have hsn := h.at.1
  rw [nested_cons] at hsn
  rw [nested_one]
  cases hg : SMap.get c.1 "spec" with
  | none => rw [hg] at hsn; cases hsn
  | some v =>
    rw [hg] at hsn
    cases v with
    | map m => exact ⟨m, rfl⟩
    | _ => exact absurd hsn (by rw [Option.bind_some, at_not_map (by intro x; simp)]; simp)

theorem gatherSvc_projects (base : Env) {n ns proto : String} {num : Int} {svc : CDoc} {port : Json} {d : CDoc} (h : PortRow n ns proto num svc port d) (c : CDoc) :
    Projects (fieldEnv base) gatherSvcProj d c ↔ c = gatherSvcDoc d := by
  obtain ⟨h1, h2, h3, h4⟩ := h.at
  obtain ⟨m, hm⟩ := h.spec
  obtain ⟨o1, o2, o3⟩ := h.ordinary
  have ons : ∀ v, nested d.1 nsPath = some v → v.Ordinary := by rw [h.inNs]; intro v hv; cases hv; exact o2
  have osp : ∀ v, nested d.1 ["spec"] = some v → v.Ordinary := by rw [hm]; intro v hv; cases hv; exact ordinary_map _
  have b1 := eval_ordinary base (k := "spec") (p := ["serviceName"]) (by unfold Words; decide) (m := d.1) (by rw [h1]; intro v hv; cases hv; exact o1)
  have b2 := eval_ordinary base (k := "spec") (p := ["ports", "protocol"]) (by unfold Words; decide) (m := d.1) (by rw [h2]; intro v hv; cases hv; exact o3)
  have b3 := eval_ordinary base (k := "spec") (p := ["ports", "port"]) (by unfold Words; decide) (m := d.1) (by rw [h3]; intro v hv; cases hv; intro s hs; cases hs)
  rw [h1] at b1
  rw [h2] at b2
  rw [h3] at b3
  have a0 := eval_portName b1 b2 b3
  have a1 := eval_ordinary base (k := "metadata") (p := ["namespace"]) (by unfold Words; decide) (m := d.1) ons
  have a2 := eval_ordinary base (k := "spec") (p := []) (by unfold Words; decide) (m := d.1) osp
  have d1 := eval_dict_ok [("name", _, _), ("namespace", _, _)] (by
    simp only [List.mem_cons, List.not_mem_nil, or_false, forall_eq_or_imp, forall_eq]
    exact ⟨⟨⟨by decide, by decide⟩, a0, ordinary_portName o1⟩, ⟨by decide, by decide⟩, a1, ordinary_getD ons⟩)
  have d2 := eval_dict_ok [("metadata", _, _), ("spec", _, _)] (by
    simp only [List.mem_cons, List.not_mem_nil, or_false, forall_eq_or_imp, forall_eq]
    exact ⟨⟨⟨by decide, by decide⟩, d1, ordinary_map _⟩, ⟨by decide, by decide⟩, a2, ordinary_getD osp⟩)
  have key : eval (fieldEnv base) gatherSvcProj ⟨.map d.1, .null⟩ = .ok (.map (gatherSvcDoc d).1) := by
    refine d2.trans ?_
    simp only [List.foldl_cons, List.foldl_nil, SMap.set, gatherSvcDoc, valueAt, h4, String.reduceEq, String.reduceLT, if_false]
  rw [projects_eval key]
  exact ⟨Subtype.ext, fun h => h ▸ rfl⟩

theorem gatherSvcDoc_at {n ns proto : String} {num : Int} {svc : CDoc} {port : Json} {c : CDoc} (h : PortRow n ns proto num svc port c) :
    SvcNamed (portName n proto num) ns (gatherSvcDoc c) ∧ DescribesPort svc port (gatherSvcDoc c).1 := by
  obtain ⟨m, hm⟩ := h.spec
  have key : ∀ q, nested (gatherSvcDoc c).1 ("spec" :: q) = nested c.1 ("spec" :: q) := by
    intro q
    have hg : SMap.get (gatherSvcDoc c).1 "spec" = some (valueAt c ["spec"]) := rfl
    rw [nested_cons, nested_cons, hg]
    rw [nested_one] at hm
    unfold valueAt
    rw [nested_one, hm]
    rfl
  refine ⟨⟨?_, ?_⟩, ?_⟩
  · show some (Json.str (viewName c)) = _
    rw [h.at.2.2.2]
  · show some (valueAt c nsPath) = _
    unfold valueAt
    rw [h.inNs]
    rfl
  · have := h.describes
    unfold DescribesPort at this ⊢
    rw [key, key, key]
    exact this

theorem version_ports {hist : List (Delta CDoc)} (h : ∀ δ ∈ hist, PortsOk δ.obj) {g : GVK} {d : CDoc} (hv : Versions jsonOps hist g d) : PortsOk d := by
  obtain ⟨δ, hδ, _, rfl⟩ := hv
  have off : nested (jsonOps.removeUID δ.obj).1 portsPath = nested δ.obj.1 portsPath := removeUID_off δ.obj.2 (by decide) (by decide)
  have : svcPorts (jsonOps.removeUID δ.obj) = svcPorts δ.obj := by unfold svcPorts; rw [off]
  unfold PortsOk
  rw [this]
  exact h δ hδ

/-- A port of a Service, with its document. -/
theorem portRow {svc c : CDoc} {i : Nat} {n n' ns : String} {port : Json} (hok : SvcViewOk svc) (hp : PortsOk svc) (hn : SvcNamed n ns svc) (hi : (svcPorts svc)[i]? = some port)
    (hc : SvcNamed n' ns c) (hd : DescribesPort svc port c.1) : ∃ proto num, PortRow n ns proto num svc port c ∧ 0 ≤ num ∧ '-' ∉ proto.toList := by
  obtain ⟨proto, num, h1, h2, h3, h4⟩ := hp.1 port (List.mem_of_getElem? hi)
  obtain ⟨⟨m, ns', hm, _, o1, o2⟩, _⟩ := hok
  obtain ⟨rfl, rfl⟩ : m = n ∧ ns' = ns := by
    have a := hm.1.symm.trans hn.1
    have b := hm.2.symm.trans hn.2
    simp only [Option.some.injEq, Json.str.injEq] at a b
    exact ⟨a, b⟩
  exact ⟨proto, num, ⟨hc.2, hd, hn.1, h1, o1, o2, h4⟩, h2, h3⟩

theorem isPort_unique {proto proto' : String} {num num' : Int} {port : Json} (h : IsPort proto num port) (h' : IsPort proto' num' port) : proto = proto' ∧ num = num' := by
  have a := h.1.symm.trans h'.1
  have b := h.2.symm.trans h'.2
  simp only [Option.some.injEq, Json.str.injEq, Json.int.injEq] at a b
  exact ⟨a, b⟩

/-- What the first controller computes. -/
theorem gatherSvc_computes (base : Env) (hq : ReadsEnabled base) {srt : List Json → List Json} {hist : List (Delta CDoc)} (hok : ∀ δ ∈ hist, SvcViewOk δ.obj)
    (hpo : ∀ δ ∈ hist, PortsOk δ.obj) {r : List CDoc} (h : Computes (fieldEnv base) srt hist [servicesK] gatherSvcOps r) :
    (∀ c ∈ r, ∃ svc i port n ns proto num, LivePort hist svc i port ∧ SvcNamed n ns svc ∧ IsPort proto num port ∧ SvcNamed (portName n proto num) ns c ∧ DescribesPort svc port c.1) ∧
    (∀ svc i port n ns proto num, LivePort hist svc i port → SvcNamed n ns svc → IsPort proto num port →
      ∃ c ∈ r, SvcNamed (portName n proto num) ns c ∧ DescribesPort svc port c.1) ∧ KeysApart r := by
  obtain ⟨xs, ops, ⟨hnd, rfl, hx⟩, ss, h1, ms, h2, gs, h3, rs, h4, rfl⟩ := h
  obtain ⟨a1, a2, a3⟩ := svcView_computes base hq (srt := srt) hok (r := gs) ⟨xs, _, ⟨hnd, rfl, hx⟩, ss, h1, ms, h2, gs, h3, rfl⟩
  have row : ∀ c ∈ gs, ∃ svc i port n ns proto num, LivePort hist svc i port ∧ SvcNamed n ns svc ∧ SvcNamed (elemName n i) ns c ∧ PortRow n ns proto num svc port c ∧ 0 ≤ num ∧
      '-' ∉ proto.toList := by
    intro c hc
    obtain ⟨svc, i, port, n, ns, hl, hn, hcn, hd⟩ := a1 c hc
    have hv := liveAs_version hl.1
    obtain ⟨proto, num, hr, h5, h6⟩ := portRow (version_svcViewOk hok hv) (version_ports hpo hv) hn hl.2.2 hcn hd
    exact ⟨svc, i, port, n, ns, proto, num, hl, hn, hcn, hr, h5, h6⟩
  have hrs : r = gs.map gatherSvcDoc := concat_map (fun x hxm l hl => by
    obtain ⟨c, hc, rfl⟩ := hl
    obtain ⟨_, _, _, _, _, _, _, _, _, _, hr, _⟩ := row x hxm
    rw [(gatherSvc_projects base hr c).mp hc]) h4
  subst hrs
  refine ⟨fun c hc => ?_, fun svc i port n ns proto num hl hn hp => ?_, ?_⟩
  · obtain ⟨d, hd, rfl⟩ := List.mem_map.mp hc
    obtain ⟨svc, i, port, n, ns, proto, num, hl, hn, _, hr, _⟩ := row d hd
    exact ⟨svc, i, port, n, ns, proto, num, hl, hn, hr.port, gatherSvcDoc_at hr⟩
  · obtain ⟨c, hc, hcn, hd⟩ := a2 svc i port n ns hl hn
    have hv := liveAs_version hl.1
    obtain ⟨proto', num', hr, _⟩ := portRow (version_svcViewOk hok hv) (version_ports hpo hv) hn hl.2.2 hcn hd
    obtain ⟨rfl, rfl⟩ := isPort_unique hp hr.port
    exact ⟨_, List.mem_map.mpr ⟨c, hc, rfl⟩, gatherSvcDoc_at hr⟩
  · refine List.pairwise_map.mpr (List.Pairwise.imp_of_mem (fun {x y} hx hy hne hk => hne ?_) a3)
    obtain ⟨svc, i, port, n, ns, proto, num, hl, hn, hcn, hr, p1, p2⟩ := row x hx
    obtain ⟨svc', i', port', n', ns', proto', num', hl', hn', hcn', hr', p1', p2'⟩ := row y hy
    rw [svcNamed_key (gatherSvcDoc_at hr).1, svcNamed_key (gatherSvcDoc_at hr').1] at hk
    simp only [Prod.mk.injEq] at hk
    obtain ⟨rfl, hk⟩ := hk
    obtain ⟨rfl, rfl, rfl⟩ := portName_inj p1 p1' p2 p2' hk
    have hsk : objKey svc.1 = objKey svc'.1 := by rw [svcNamed_key hn, svcNamed_key hn']
    have : svc = svc' := liveAs_unique (k := objKey svc'.1) (hsk ▸ hl.1.2) hl'.1.2
    subst this
    have : i = i' := (version_ports hpo (liveAs_version hl.1)).2 i i' port port' proto num hl.2.2 hl'.2.2 hr.port hr'.port
    subst this
    rw [svcNamed_key hcn, svcNamed_key hcn']

/-- **C112** (the first controller, partial): after any history of the watch, starting from a cluster without ServiceViews, no evaluation has failed and there is a
ServiceView for each port of each live Service with the annotation, and no other; it has the namespace of the Service, its name is made of that of the Service and the
protocol and the number of the port, and it holds the port, the name of the Service and its type; and nothing but ServiceViews has changed. Missing: fields that look like
paths, ports that are no list or without protocol or number, and failing or reordered writes. -/
theorem C112_services_partial (base : Env) (H : base.Canon) (hq : ReadsEnabled base) (srt : List Json → List Json) (hcan : ∀ l : List Json, (∀ x ∈ l, x.Canon) → ∀ x ∈ srt l, x.Canon)
    {env : Env} {spec : List SpecOp} (hspec : unmarshalPipeline env gatherSvcJson = .ok spec) {p0 : Pipe CDoc AnyVal}
    (hnew : newSpecPipe (fieldEnv base) srt svcViewK [servicesK] spec = .ok p0) {hist : List (EvalOrder CDoc × Delta CDoc)} (hh : GatherSvcHist hist)
    {c0 : Cluster} (hc0 : AMap.WF c0) (h0 : ∀ k, c0.get (svcViewK, k) = none) :
    ∃ wss : List (List (Delta CDoc)), (runs (fun p (e : EvalOrder CDoc × Delta CDoc) => p.evaluate jsonOps e.1 e.2) p0 hist).2 = wss.map Except.ok ∧
      (∀ svc i port n ns proto num, LivePort (hist.map Prod.snd) svc i port → SvcNamed n ns svc → IsPort proto num port →
        ∃ obj, (clusterAfter svcViewK c0 wss.flatten).get (svcViewK, (ns, portName n proto num)) = some obj ∧ DescribesPort svc port obj) ∧
      (∀ k obj, (clusterAfter svcViewK c0 wss.flatten).get (svcViewK, k) = some obj →
        ∃ svc i port n ns proto num, LivePort (hist.map Prod.snd) svc i port ∧ SvcNamed n ns svc ∧ IsPort proto num port ∧ k = (ns, portName n proto num) ∧ objKey obj = k ∧
          DescribesPort svc port obj) ∧
      ∀ k, k.1 ≠ svcViewK → (clusterAfter svcViewK c0 wss.flatten).get k = c0.get k := by
  rw [(C112_read env).1] at hspec
  cases hspec
  have hok : ∀ δ ∈ hist.map Prod.snd, SvcViewOk δ.obj := by
    intro δ hδ
    obtain ⟨e, he, rfl⟩ := List.mem_map.mp hδ
    exact hh.ok e he
  have hpo : ∀ δ ∈ hist.map Prod.snd, PortsOk δ.obj := by
    intro δ hδ
    obtain ⟨e, he, rfl⟩ := List.mem_map.mp hδ
    exact hh.ports e he
  have proper : ∀ {c : CDoc} {n ns proto : String} {num : Int}, SvcNamed (portName n proto num) ns c → ProperName c := fun h =>
    ⟨⟨_, h.1, portName_ne _ _ _⟩, fun v hv => ⟨_, by rw [h.2] at hv; cases hv; rfl⟩⟩
  have hw : Words portsPath := by unfold Words; decide
  obtain ⟨wss, hr, r, hres, b1, b2, b3⟩ := C84_never_fails_versions_partial base H srt hcan svcViewK [servicesK] (by simp) gatherSvcOps
    p0 hnew hist hh.orders (fun e he => by simp [hh.kinds e he]) hh.watch
    ⟨⟨"spec", ["ports"], rfl, hw, ⟨by decide, by decide⟩⟩, fun c ⟨d, ⟨⟨src, _, hd⟩, _⟩, hc⟩ => by
        have hd' := version_svcViewOk hok hd
        rw [svcView_projects base hd'] at hc
        subst hc
        obtain ⟨n, ns, hn, _⟩ := hd'.1
        exact ⟨n, (svcViewDoc_named hn).1⟩, trivial⟩ trivial
    ⟨fun d ⟨src, _, hd⟩ => by
        have hd' := version_svcViewOk hok hd
        by_cases he : Enabled d
        · exact .inl ((C93_condition base hq hd').1 he)
        · exact .inr ((C93_condition base hq hd').2 he),
      fun d ⟨⟨src, _, hd⟩, _⟩ => ⟨_, (svcView_projects base (version_svcViewOk hok hd) _).mpr rfl⟩,
      portsPath, rfl, hw, fun c ⟨d, ⟨⟨src, _, hd⟩, _⟩, hc⟩ => by
        have hd' := version_svcViewOk hok hd
        rw [svcView_projects base hd'] at hc
        subst hc
        rw [(svcViewDoc_at d).2.2.1]
        rcases hd'.2.1 with h | ⟨l, h⟩
        · exact .inl h
        · exact .inr ⟨l, by unfold valueAt; rw [h]; rfl⟩,
      fun c ⟨m, i, ⟨d, ⟨⟨src, _, hd⟩, _⟩, hm⟩, hu⟩ => by
        have hd' := version_svcViewOk hok hd
        rw [svcView_projects base hd'] at hm
        subst hm
        obtain ⟨n, ns, hn, _⟩ := id hd'.1
        obtain ⟨port, p1, p2, p3⟩ := svc_unwinds hn hu
        obtain ⟨proto, num, hr, _⟩ := portRow hd' (version_ports hpo hd) hn p1 p2 p3
        exact ⟨_, (gatherSvc_projects base hr _).mpr rfl⟩, trivial⟩
    (fun pre hpre r hres => by
      obtain ⟨a, _, b⟩ := gatherSvc_computes base hq (fun δ hδ => hok δ (hpre.subset hδ)) (fun δ hδ => hpo δ (hpre.subset hδ)) hres
      refine ⟨keysApart_names b, fun c hc => ?_⟩
      obtain ⟨svc, i, port, n, ns, proto, num, _, _, _, hn, _⟩ := a c hc
      exact properName_enforced svcViewK (proper hn)) c0 hc0 h0
  obtain ⟨a1, a2, _⟩ := gatherSvc_computes base hq hok hpo hres
  have key : ∀ {c : CDoc} {x : SMap Json} {n ns : String}, enforceDoc svcViewK c.1 = .ok x → SvcNamed n ns c → objKey x = (ns, n) := by
    intro c x n ns hx hn
    obtain ⟨_, _, _, h, _⟩ := C74_object svcViewK c.1 x c.2 hx
    rw [h]
    simp only [nestedString, hn.1, hn.2]
  refine ⟨wss, hr, fun svc i port n ns proto num hlive hn hp => ?_, fun k obj hobj => ?_, b3⟩
  · obtain ⟨c, hc, hcn, hcd⟩ := a2 svc i port n ns proto num hlive hn hp
    obtain ⟨x, hx⟩ := properName_enforced svcViewK (proper hcn)
    obtain ⟨obj, hobj, him⟩ := b2 c x hc hx
    rw [key hx hcn] at hobj
    exact ⟨obj, hobj, describesPort_image c.2 hx him hcd⟩
  · obtain ⟨c, x, hc, hx, hkey, him⟩ := b1 k obj hobj
    obtain ⟨svc, i, port, n, ns, proto, num, hlive, hn, hp, hcn, hcd⟩ := a1 c hc
    exact ⟨svc, i, port, n, ns, proto, num, hlive, hn, hp, by rw [← hkey, key hx hcn], him.2.1.trans hkey, describesPort_image c.2 hx him hcd⟩

/-! ## Both controllers -/

/-- A ServiceView that holds a port of a Service gives the same spec as the port. -/
theorem gatherSpec_port {n ns : String} {svc sv : CDoc} {port : Json} {addrs : List Json} (hn : SvcNamed n ns svc) (h : DescribesPort svc port sv.1) :
    gatherSpec sv addrs = portSpec n svc port addrs := by
  obtain ⟨h1, h2, h3⟩ := h
  have h4 := nested_below h1 ["port"]
  have h5 := nested_below h1 ["protocol"]
  have h6 := nested_below h1 ["targetPort"]
  simp only [List.cons_append, List.nil_append] at h4 h5 h6
  unfold gatherSpec portSpec
  rw [h2, hn.1, h3, h4, h5, h6]
  rfl

/-- The ready addresses of a ServiceView are those of its Service. -/
theorem liveEndpoint_service {hist : List (Delta CDoc)} {sv es : CDoc} {i k : Nat} {a : Json} {n ns : String} (hl : LiveObj hist svcViewK sv)
    (h1 : nested sv.1 svcNamePath = some (.str n)) (h2 : nested sv.1 nsPath = some (.str ns)) :
    LiveEndpoint hist sv es i k a ↔ LiveObj hist sliceK es ∧ OfService n ns es ∧ ReadyAddress es i k a := by
  constructor
  · rintro ⟨_, l2, ⟨⟨v, _, s1, s2⟩, ⟨w, _, s3, s4⟩⟩, l4⟩
    rw [h1] at s1
    rw [h2] at s3
    cases s1
    cases s3
    exact ⟨l2, ⟨s2, s4⟩, l4⟩
  · rintro ⟨l2, ⟨s1, s2⟩, l4⟩
    exact ⟨hl, l2, ⟨⟨_, by simp, h1, s1⟩, ⟨_, by simp, h2, s2⟩⟩, l4⟩

/-- **C112** (partial): both controllers of the operator. When the first has processed the Services, and the second the ServiceViews the first has written and the
EndpointSlices, then no evaluation has failed and there is one EndpointView for each port of a live Service with the annotation that has a ready address in its live
EndpointSlices, and no other EndpointView; its name is made of the name of the Service and the protocol and the number of the port, and its spec of the fields of the port,
the name and the type of the Service, and the list of all ready addresses in all live EndpointSlices of the Service, each as often as it is there. Missing: see
`C112_services_partial` and `C112_views_partial`. -/
theorem C112_endpoints_partial (base : Env) (H : base.Canon) (hq : ReadsEnabled base) (hq' : ReadsOfService base) (srt srt' : List Json → List Json)
    (hcan : ∀ l : List Json, (∀ x ∈ l, x.Canon) → ∀ x ∈ srt l, x.Canon) (hsrt' : ∀ l, (srt' l).Perm l)
    {env : Env} {spec spec' : List SpecOp} (hspec : unmarshalPipeline env gatherSvcJson = .ok spec) (hspec' : unmarshalPipeline env gatherEpJson = .ok spec')
    {p0 p0' : Pipe CDoc AnyVal} (hnew : newSpecPipe (fieldEnv base) srt svcViewK [servicesK] spec = .ok p0)
    (hnew' : newSpecPipe (fieldEnv base) srt' epViewK epSources spec' = .ok p0') {svcs eps : List (EvalOrder CDoc × Delta CDoc)} (hh : GatherSvcHist svcs) (hh' : GatherHist eps)
    {c0 c1 : Cluster} (hc0 : AMap.WF c0) (h0 : ∀ k, c0.get (svcViewK, k) = none) (hc1 : AMap.WF c1) (h1 : ∀ k, c1.get (epViewK, k) = none) :
    ∃ wss wss' : List (List (Delta CDoc)), (runs (fun p (e : EvalOrder CDoc × Delta CDoc) => p.evaluate jsonOps e.1 e.2) p0 svcs).2 = wss.map Except.ok ∧
      (runs (fun p (e : EvalOrder CDoc × Delta CDoc) => p.evaluate jsonOps e.1 e.2) p0' eps).2 = wss'.map Except.ok ∧
      (SeenAll svcViewK (clusterAfter svcViewK c0 wss.flatten) (eps.map Prod.snd) →
        (∀ svc i port n ns proto num addr, LivePort (svcs.map Prod.snd) svc i port → IsPort proto num port → LivePair (svcs.map Prod.snd) (eps.map Prod.snd) n ns svc port addr →
          ∃ obj, (clusterAfter epViewK c1 wss'.flatten).get (epViewK, (ns, portName n proto num)) = some obj) ∧
        (∀ key obj, (clusterAfter epViewK c1 wss'.flatten).get (epViewK, key) = some obj →
          ∃ n ns svc port proto num addrs, (∃ addr, LivePair (svcs.map Prod.snd) (eps.map Prod.snd) n ns svc port addr) ∧ IsPort proto num port ∧
            key = (ns, portName n proto num) ∧ objKey obj = key ∧ nested obj ["spec"] = some (.map (portSpec n svc port addrs)) ∧
            ServiceAddresses (eps.map Prod.snd) n ns addrs)) := by
  obtain ⟨wss, hr, a1, a2, _⟩ := C112_services_partial base H hq srt hcan hspec hnew hh hc0 h0
  obtain ⟨wss', hr', b1, b2, _⟩ := C112_views_partial base H hq' srt' hsrt' hspec' hnew' hh' hc1 h1
  -- a ServiceView that was seen, and the object in the cluster
  have link : ∀ {sv : CDoc} {obj : SMap Json} {svc : CDoc} {port : Json} {n ns nm : String}, LiveObj (eps.map Prod.snd) svcViewK sv →
      (∀ p, Disjoint p ["metadata", "uid"] → nested sv.1 p = nested obj p) → objKey obj = (ns, nm) → SvcNamed n ns svc → DescribesPort svc port obj →
      nested sv.1 nsPath = some (.str ns) ∧ nested sv.1 svcNamePath = some (.str n) ∧ DescribesPort svc port sv.1 := by
    intro sv obj svc port n ns nm hl hoff hk hn hd
    obtain ⟨n', ns', _, ⟨_, hns'⟩, _⟩ := (version_portView hh'.okAll.views (liveAs_version hl)).1
    have e : ns' = ns := by
      have h2 := hoff nsPath ⟨by decide, by decide⟩
      rw [hns'] at h2
      have h3 := congrArg Prod.fst hk
      simp only [objKey, nestedString, ← h2] at h3
      exact h3
    subst e
    have hd' : DescribesPort svc port sv.1 := by
      unfold DescribesPort at hd ⊢
      rw [hoff portsPath ⟨by decide, by decide⟩, hoff svcNamePath ⟨by decide, by decide⟩, hoff typePath ⟨by decide, by decide⟩]
      exact hd
    exact ⟨hns', hd'.2.1.trans hn.1, hd'⟩
  refine ⟨wss, wss', hr, hr', fun hseen => ⟨fun svc i port n ns proto num addr hport hip hp => ?_, fun key obj hobj => ?_⟩⟩
  · obtain ⟨hn, _, es, j, k, hes, hof, hra⟩ := hp
    obtain ⟨x, hx, hxd⟩ := a1 svc i port n ns proto num hport hn hip
    obtain ⟨_, _, _, _, _, _, _, _, _, _, _, hxk, _⟩ := a2 _ x hx
    obtain ⟨sv, hsv, hoff⟩ := hseen.1 _ x hx
    obtain ⟨l1, l2, l3⟩ := link hsv hoff hxk hn hxd
    have hkey : objKey sv.1 = (ns, portName n proto num) := by
      rw [← hxk]
      simp only [objKey, nestedString, hoff namePath ⟨by decide, by decide⟩, hoff nsPath ⟨by decide, by decide⟩]
    obtain ⟨sn, ns', proto', num', q⟩ := hh'.okAll.port (liveAs_version hsv)
    obtain ⟨obj, hobj⟩ := b1 sv es j k addr sn ns' proto' num' ((liveEndpoint_service hsv l2 l1).mpr ⟨hes, hof, hra⟩) q
    rw [← svcNamed_key q.named, hkey] at hobj
    exact ⟨obj, hobj⟩
  · obtain ⟨sv, sn, ns, proto, num, addrs, ⟨es, j, k, addr, hle⟩, hp, hkey, hok, hspec, hra⟩ := b2 key obj hobj
    obtain ⟨x, hx⟩ := Option.isSome_iff_exists.mp (hseen.2 sv hle.1)
    obtain ⟨svc, i, port, n, ns', proto', num', hport, hn, hip, hk, hxk, hxd⟩ := a2 _ x hx
    obtain ⟨sv', hsv', hoff⟩ := hseen.1 _ x hx
    have : sv' = sv := by
      have hk' : objKey sv'.1 = objKey sv.1 := by
        rw [← hxk]
        simp only [objKey, nestedString, hoff namePath ⟨by decide, by decide⟩, hoff nsPath ⟨by decide, by decide⟩]
      exact liveAs_unique (k := objKey sv.1) (hk' ▸ hsv'.2) hle.1.2
    subst this
    obtain ⟨l1, l2, l3⟩ := link hle.1 hoff (hxk.trans hk) hn hxd
    obtain ⟨m1, m2, m3⟩ := (liveEndpoint_service hle.1 l2 l1).mp hle
    refine ⟨n, ns', svc, port, proto', num', addrs, ⟨addr, hn, ⟨i, hport⟩, es, j, k, m1, m2, m3⟩, hip, ?_, hok, by rw [hspec, gatherSpec_port hn l3], ?_⟩
    · rw [hkey, ← svcNamed_key hp.named]
      exact hk
    · obtain ⟨ls, c1, c2, c3⟩ := hra
      refine ⟨ls, c1, fun es i k => (c2 es i k).trans ⟨?_, ?_⟩, c3⟩
      · rintro ⟨a, ha⟩
        obtain ⟨d1, d2, d3⟩ := (liveEndpoint_service hle.1 l2 l1).mp ha
        exact ⟨d1, d2, a, d3⟩
      · rintro ⟨d1, d2, a, d3⟩
        exact ⟨a, (liveEndpoint_service hle.1 l2 l1).mpr ⟨d1, d2, d3⟩⟩

/-! ## An example -/

/-- The view the first controller writes for a port of a Service. -/
def gatherView (n : String) (p : Int) : CDoc :=
  ⟨[("apiVersion", .str "ep-operator.view.dcontroller.io/v1alpha1"), ("kind", .str "ServiceView"),
    ("metadata", .map [("name", .str (portName n "TCP" p)), ("namespace", .str "d")]),
    ("spec", .map [("ports", svcPort p), ("serviceName", .str n), ("type", .str "ClusterIP")])], by simp [svcPort, SMap.Sorted, Json.Canon, Json.CanonM]⟩

theorem gatherView_ok {n : String} {p : Int} (h : (Json.str n).Ordinary) : PortViewOk (gatherView n p) :=
  ⟨⟨_, "d", n, ⟨rfl, rfl⟩, rfl, ordinary_portName h, by intro s h; cases h; decide, h⟩, by
    intro q hq v hv
    simp only [List.mem_cons, List.not_mem_nil, or_false] at hq
    rcases hq with rfl | rfl | rfl | rfl
    · cases hv; intro s hs; cases hs; decide
    · cases hv; intro s hs; cases hs
    · cases hv; intro s hs; cases hs; decide
    · cases hv⟩

/-- The EndpointSlices of the example: the second has an address the first has too. -/
abbrev gatherSlices : List CDoc := [slice "a" "web" [("10.0.0.1", true)], slice "b" "web" [("10.0.0.1", true), ("10.0.0.2", true), ("10.0.0.3", false)], slice "a" "web" []]

/-- Two ports of a Service and two EndpointSlices with the same address, as when an endpoint moves from one to the other. -/
def gatherBoth : List (EvalOrder CDoc × Delta CDoc) :=
  [(ω0, ⟨.added, gatherView "web" 80⟩), (ω1, ⟨.added, slice "a" "web" [("10.0.0.1", true)]⟩), (ω0, ⟨.added, gatherView "web" 443⟩),
   (ω1, ⟨.added, slice "b" "web" [("10.0.0.1", true), ("10.0.0.2", true), ("10.0.0.3", false)]⟩)]

/-- Then it is deleted from the first, as in `C94_duplicate`. -/
def gatherEx : List (EvalOrder CDoc × Delta CDoc) := gatherBoth ++ [(ω0, ⟨.updated, slice "a" "web" []⟩)]

theorem gatherEx_hist : GatherHist gatherEx := by
  have cases5 : ∀ {P : EvalOrder CDoc × Delta CDoc → Prop}, (∀ p ∈ ([80, 443] : List Int), P (ω0, ⟨.added, gatherView "web" p⟩)) → (∀ ω t, ω.Valid → ∀ c ∈ gatherSlices, P (ω, ⟨t, c⟩)) → ∀ e ∈ gatherEx, P e := by
    intro P h1 h2 e he
    simp only [gatherEx, gatherBoth, List.cons_append, List.nil_append, List.mem_cons, List.not_mem_nil, or_false] at he
    rcases he with rfl | rfl | rfl | rfl | rfl
    · exact h1 80 (by simp)
    · exact h2 _ _ ω1_valid _ (by simp)
    · exact h1 443 (by simp)
    · exact h2 _ _ ω1_valid _ (by simp)
    · exact h2 _ _ ω0_valid _ (by simp)
  have kind : ∀ c ∈ gatherSlices, objGVK c.1 = sliceK := by decide +kernel
  have viewKind : ∀ p ∈ ([80, 443] : List Int), objGVK (gatherView "web" p).1 = svcViewK := by decide +kernel
  have sliceOk : ∀ c ∈ gatherSlices, SliceOk c := by
    intro c hc
    have ok : ∀ (n : String) (eps : List (String × Bool)), (∀ e ∈ eps, e.1 ∈ ["10.0.0.1", "10.0.0.2", "10.0.0.3"]) → SliceOk (slice n "web" eps) := fun n eps h =>
      slice_ok (by intro s h; cases h; decide) (fun e he => by
        have := h e he
        simp only [List.mem_cons, List.not_mem_nil, or_false] at this
        intro s hs
        cases hs
        rcases this with h | h | h <;> rw [h] <;> decide)
    simp only [List.mem_cons, List.not_mem_nil, or_false] at hc
    rcases hc with rfl | rfl | rfl
    · exact ok _ _ (by decide)
    · exact ok _ _ (by decide)
    · exact ok _ _ (by decide)
  have addrs : ∀ c ∈ gatherSlices, ∀ ep ∈ sliceEndpoints c, ∀ a ∈ endpointAddresses ep, ∃ s, a = .str s := by
    intro c hc ep hep a ha
    have key : ∀ (n : String) (eps : List (String × Bool)), c = slice n "web" eps → ∃ s, a = .str s := by
      rintro n eps rfl
      obtain ⟨e, _, rfl⟩ := List.mem_map.mp (show ep ∈ eps.map (fun e => sliceEp e.1 e.2) from hep)
      exact ⟨e.1, List.mem_singleton.mp ha⟩
    simp only [List.mem_cons, List.not_mem_nil, or_false] at hc
    rcases hc with h | h | h <;> exact key _ _ h
  exact {
    orders := cases5 (fun _ _ => ω0_valid) (fun _ _ h _ _ => h)
    kinds := cases5 (fun p hp => by rw [viewKind p hp]; decide) (fun _ _ _ c hc => by rw [kind c hc]; decide)
    watch := watchOk_of_check jsonOps_lawful (by decide +kernel)
    views := cases5 (fun p _ _ => gatherView_ok (by intro s h; cases h; decide)) (fun _ _ _ c hc h => by rw [kind c hc] at h; exact absurd h (by decide))
    slices := cases5 (fun p hp h => by rw [viewKind p hp] at h; exact absurd h (by decide)) (fun _ _ _ c hc _ => sliceOk c hc)
    ports := cases5 (fun p _ _ => ⟨"web", "d", "TCP", p, ⟨rfl, rfl⟩, rfl, rfl, rfl⟩) (fun _ _ _ c hc h => by rw [kind c hc] at h; exact absurd h (by decide))
    addrs := cases5 (fun p hp h => by rw [viewKind p hp] at h; exact absurd h (by decide)) (fun _ _ _ c hc _ => addrs c hc) }

theorem epOpSvcs_ports : GatherSvcHist epOpSvcs := by
  refine ⟨epOpSvcs_hist, fun e he => ?_⟩
  have ports : ∀ (d : CDoc) (l : List Int), svcPorts d = l.map svcPort → l.Nodup → (∀ p ∈ l, 0 ≤ p) → PortsOk d := by
    intro d l hd hn hl
    unfold PortsOk
    rw [hd]
    refine ⟨fun port hport => ?_, fun i j p q proto num hi hj hp hq => ?_⟩
    · obtain ⟨p, hp, rfl⟩ := List.mem_map.mp hport
      exact ⟨"TCP", p, ⟨rfl, rfl⟩, hl p hp, by decide, by intro s h; cases h; decide⟩
    · rw [List.getElem?_map] at hi hj
      obtain ⟨x, hx, rfl⟩ := Option.map_eq_some_iff.mp hi
      obtain ⟨y, hy, rfl⟩ := Option.map_eq_some_iff.mp hj
      have a : some (Json.int x) = some (.int num) := hp.2
      have b : some (Json.int y) = some (.int num) := hq.2
      cases a
      cases b
      exact (List.getElem?_inj (List.getElem?_eq_some_iff.mp hx).1 hn).mp (hx.trans hy.symm)
  simp only [epOpSvcs, List.mem_cons, List.not_mem_nil, or_false] at he
  rcases he with rfl | rfl
  · exact ports _ [80, 443] rfl (by decide) (by decide)
  · exact ports _ [5432] rfl (by decide) (by decide)

/-- The pipelines of the two controllers. -/
def gatherPipe1 : Pipe CDoc AnyVal :=
  match newSpecPipe (fieldEnv epOpBase) id svcViewK [servicesK] gatherSvcOps with
  | .ok p => p
  | .error _ => { sources := [], target := svcViewK, graph := {} }
/-- The second. -/
def gatherPipe2 : Pipe CDoc AnyVal :=
  match newSpecPipe (fieldEnv epOpBase) id epViewK epSources gatherEpOps with
  | .ok p => p
  | .error _ => { sources := [], target := epViewK, graph := {} }

-- the hypotheses hold for the example, those of each controller and those of both
example := C112_services_partial epOpBase epOpBase_canon epOpBase_reads.1 id (fun _ h => h) (C112_read epOpBase).1 (p0 := gatherPipe1) rfl epOpSvcs_ports
  (c0 := []) (by simp [AMap.WF]) (by intro k; simp [AMap.get])
example := C112_views_partial epOpBase epOpBase_canon epOpBase_reads.2 id (fun l => .refl l) (C112_read epOpBase).2 (p0 := gatherPipe2) rfl gatherEx_hist
  (c0 := []) (by simp [AMap.WF]) (by intro k; simp [AMap.get])
example := C112_endpoints_partial epOpBase epOpBase_canon epOpBase_reads.1 epOpBase_reads.2 id id (fun _ h => h) (fun l => .refl l) (C112_read epOpBase).1 (C112_read epOpBase).2
  (p0 := gatherPipe1) (p0' := gatherPipe2) rfl rfl epOpSvcs_ports gatherEx_hist
  (c0 := []) (c1 := []) (by simp [AMap.WF]) (by intro k; simp [AMap.get]) (by simp [AMap.WF]) (by intro k; simp [AMap.get])
-- also the one in its conclusion: the second controller has seen what the first has written
example : SeenAll svcViewK (clusterAfter svcViewK [] ((runs (fun p (e : EvalOrder CDoc × Delta CDoc) => p.evaluate jsonOps e.1 e.2) gatherPipe1 epOpSvcs).2.map
    (fun r => r.toOption.getD [])).flatten) (gatherEx.map Prod.snd) := by
  have e : (clusterAfter svcViewK [] ((runs (fun p (e : EvalOrder CDoc × Delta CDoc) => p.evaluate jsonOps e.1 e.2) gatherPipe1 epOpSvcs).2.map
    (fun r => r.toOption.getD [])).flatten) = [((svcViewK, ("d", "web-TCP-80")), (gatherView "web" 80).1), ((svcViewK, ("d", "web-TCP-443")), (gatherView "web" 443).1)] := by
    decide +kernel
  rw [e]
  refine ⟨fun k obj hobj => ?_, fun v hl => ?_⟩
  · simp only [AMap.get] at hobj
    split at hobj
    · cases hobj
      exact ⟨gatherView "web" 80, ⟨by decide +kernel, [], _, [_, _, _, _], rfl, (by unfold Concerns; decide +kernel), by decide, by decide +kernel,
        (by unfold Concerns; decide +kernel)⟩, fun p _ => rfl⟩
    · split at hobj
      · cases hobj
        exact ⟨gatherView "web" 443, ⟨by decide +kernel, [_, _], _, [_, _], rfl, (by unfold Concerns; decide +kernel), by decide, by decide +kernel,
          (by unfold Concerns; decide +kernel)⟩, fun p _ => rfl⟩
      · cases hobj
  · obtain ⟨δ, hδ, hg, rfl⟩ := liveAs_version hl
    simp only [gatherEx, gatherBoth, List.cons_append, List.nil_append, List.map_cons, List.map_nil, List.mem_cons, List.not_mem_nil, or_false] at hδ
    rcases hδ with rfl | rfl | rfl | rfl | rfl
    · decide +kernel
    · exact absurd hg (by decide)
    · decide +kernel
    · exact absurd hg (by decide)
    · exact absurd hg (by decide)
-- a port of the example
example : LivePair (epOpSvcs.map Prod.snd) (gatherEx.map Prod.snd) "web" "d" (onSvc "web" [80, 443]) (svcPort 443) (.str "10.0.0.1") ∧ IsPort "TCP" 443 (svcPort 443) where
  left := {
    named := ⟨rfl, rfl⟩
    port := ⟨1, ⟨by decide, [], _, [_], rfl, ⟨by decide, by decide, by decide⟩, by decide, by decide, (by unfold Concerns; decide +kernel)⟩, by unfold Enabled; decide, rfl⟩
    addr := ⟨slice "b" "web" [("10.0.0.1", true), ("10.0.0.2", true), ("10.0.0.3", false)], 0, 0,
      ⟨by decide +kernel, [_, _, _], _, [_], rfl, (by unfold Concerns; decide +kernel), by decide, by decide +kernel, (by unfold Concerns; decide +kernel)⟩,
      ⟨rfl, rfl⟩, sliceEp "10.0.0.1" true, rfl, rfl, rfl⟩ }
  right := ⟨rfl, rfl⟩

/-- The cluster after a history of the second controller. -/
def gatherAfter (hist : List (EvalOrder CDoc × Delta CDoc)) : Cluster :=
  clusterAfter epViewK [] ((runs (fun p (e : EvalOrder CDoc × Delta CDoc) => p.evaluate jsonOps e.1 e.2) gatherPipe2 hist).2.map (fun r => r.toOption.getD [])).flatten

-- what it computes: an address of both EndpointSlices is in the list twice, and still once when it is deleted from one (the operator without gather deletes its view then)
example : ((gatherAfter gatherBoth).get (epViewK, ("d", "web-TCP-80"))).bind (fun obj => nested obj ["spec", "addresses"]) =
    some (.list [.str "10.0.0.2", .str "10.0.0.1", .str "10.0.0.1"]) := by decide +kernel
example : ((gatherAfter gatherEx).get (epViewK, ("d", "web-TCP-80"))).bind (fun obj => nested obj ["spec", "addresses"]) =
    some (.list [.str "10.0.0.1", .str "10.0.0.2"]) := by decide +kernel
example : (gatherAfter gatherEx).map (fun x => x.1.2) = [("d", "web-TCP-80"), ("d", "web-TCP-443")] := by decide +kernel

end Dctl
