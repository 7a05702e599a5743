import Verif.Props.EpOperator
import Verif.Spec.EpGather
import Verif.Pipeline.GatherFamilyLemmas
/-!
# C112: the endpoint slice operator with gather
-/
set_option autoImplicit false
namespace Dctl

/-! ## The file -/

/-- The name of a ServiceView. -/
def gatherNameE : Expr := opList "@concat" [strE (pathString svcNamePath), strE "-", strE (pathString protocolPath), strE "-", strE (pathString portPath)]

/-- The second projection of the first controller. -/
def gatherSvcProj : Expr := .dict "@dict" [("metadata", .dict "@dict" [("name", gatherNameE), ("namespace", strE (pathString nsPath))]), ("spec", strE (pathString ["spec"]))]

/-- The operations of the first controller. -/
abbrev gatherSvcOps : List SpecOp := svcViewSpec ++ [.project gatherSvcProj]

/-- Where the id is. -/
abbrev idPath : List String := ["id"]

/-- The first projection of the second controller. -/
def gatherProj : Expr := .dict "@dict" [("endpoints", strE (pathString ["EndpointSlice", "endpoints"])),
  ("id", .dict "@dict" [("name", strE (pathString ["ServiceView", "spec", "serviceName"])), ("namespace", strE (pathString ["ServiceView", "metadata", "namespace"])),
    ("port", strE (pathString ["ServiceView", "spec", "ports", "port"])), ("protocol", strE (pathString ["ServiceView", "spec", "ports", "protocol"])),
    ("type", strE (pathString ["ServiceView", "spec", "type"]))]),
  ("metadata", .dict "@dict" [("name", strE (pathString ["ServiceView", "metadata", "name"])), ("namespace", strE (pathString ["ServiceView", "metadata", "namespace"]))]),
  ("spec", strE (pathString ["ServiceView", "spec"]))]

/-- The name of an EndpointView. -/
def gatherIdNameE : Expr := opList "@concat" [strE (pathString ["id", "name"]), strE "-", strE (pathString ["id", "protocol"]), strE "-", strE (pathString ["id", "port"])]

/-- The last projection of the second controller. -/
def gatherProj2 : Expr := .dict "@dict" [("metadata", .dict "@dict" [("name", gatherIdNameE), ("namespace", strE (pathString nsPath))]),
  ("spec", .dict "@dict" [("addresses", strE (pathString addressesPath)), ("port", strE (pathString portPath)), ("protocol", strE (pathString protocolPath)),
    ("serviceName", strE (pathString svcNamePath)), ("targetPort", strE (pathString targetPortPath)), ("type", strE (pathString typePath))])]

/-- The operations of the second controller. -/
abbrev gatherEpOps : List SpecOp := [.join epCond, .project gatherProj, .unwind (strE (pathString endpointsPath)), .select epReadyE, .unwind (strE (pathString addressesPath)),
  .gather (.exprs "@list" [strE (pathString idPath), strE (pathString addressesPath)]), .project gatherProj2]

/-- **C112** (the file): the pipelines in the file are read as these operations. -/
theorem C112_read (env : Env) : unmarshalPipeline env gatherSvcJson = .ok gatherSvcOps ∧ unmarshalPipeline env gatherEpJson = .ok gatherEpOps := ⟨rfl, rfl⟩

/-! ## The documents -/

/-- The id of the port of a ServiceView. -/
def svId (sv : CDoc) : SMap Json := [("name", valueAt sv svcNamePath), ("namespace", valueAt sv nsPath), ("port", valueAt sv portPath), ("protocol", valueAt sv protocolPath),
  ("type", valueAt sv typePath)]

theorem gatherDoc_canon (sv es : CDoc) : (Json.map [("endpoints", valueAt es endpointsPath), ("id", .map (svId sv)),
    ("metadata", .map [("name", valueAt sv namePath), ("namespace", valueAt sv nsPath)]), ("spec", valueAt sv ["spec"])]).Canon := by
  have h1 := valueAt_canon es endpointsPath
  have h2 := valueAt_canon sv namePath
  have h3 := valueAt_canon sv nsPath
  have h4 := valueAt_canon sv ["spec"]
  have h5 := valueAt_canon sv svcNamePath
  have h6 := valueAt_canon sv portPath
  have h7 := valueAt_canon sv protocolPath
  have h8 := valueAt_canon sv typePath
  simp [svId, SMap.Sorted, Json.Canon, Json.CanonM, h1, h2, h3, h4, h5, h6, h7, h8]

/-- What the first projection makes of a ServiceView and an EndpointSlice. -/
def gatherDoc (sv es : CDoc) : CDoc := ⟨_, gatherDoc_canon sv es⟩

theorem gather_projects (base : Env) {sv es j : CDoc} (h1 : PortViewOk sv) (h2 : SliceOk es) (hj : Combines (epSources.map GVK.kind) [sv, es] j) (c : CDoc) :
    Projects (fieldEnv base) gatherProj j c ↔ c = gatherDoc sv es := by
  obtain ⟨g1, g2⟩ := ep_get hj
  obtain ⟨m, hm⟩ := portView_spec h1
  obtain ⟨⟨n, ns, sn, ⟨hn, hns⟩, hsn, o1, o2, o3⟩, ho⟩ := h1
  have onm : ∀ v, nested sv.1 namePath = some v → v.Ordinary := by rw [hn]; intro v hv; cases hv; exact o1
  have ons : ∀ v, nested sv.1 nsPath = some v → v.Ordinary := by rw [hns]; intro v hv; cases hv; exact o2
  have osn : ∀ v, nested sv.1 svcNamePath = some v → v.Ordinary := by rw [hsn]; intro v hv; cases hv; exact o3
  have osp : ∀ v, nested sv.1 ["spec"] = some v → v.Ordinary := by rw [hm]; intro v hv; cases hv; exact ordinary_map _
  have opo := ho portPath (by simp)
  have opr := ho protocolPath (by simp)
  have oty := ho typePath (by simp)
  have oep := ordinary_list_or_null h2.2.1
  have a1 := eval_ordinary base (k := "ServiceView") (p := ["metadata", "name"]) (by unfold Words; decide) (m := j.1) (by rw [nested_under g1]; exact onm)
  have a2 := eval_ordinary base (k := "ServiceView") (p := ["metadata", "namespace"]) (by unfold Words; decide) (m := j.1) (by rw [nested_under g1]; exact ons)
  have a3 := eval_ordinary base (k := "ServiceView") (p := ["spec"]) (by unfold Words; decide) (m := j.1) (by rw [nested_under g1]; exact osp)
  have a4 := eval_ordinary base (k := "EndpointSlice") (p := ["endpoints"]) (by unfold Words; decide) (m := j.1) (by rw [nested_under g2]; exact oep)
  have a5 := eval_ordinary base (k := "ServiceView") (p := ["spec", "serviceName"]) (by unfold Words; decide) (m := j.1) (by rw [nested_under g1]; exact osn)
  have a6 := eval_ordinary base (k := "ServiceView") (p := ["spec", "ports", "port"]) (by unfold Words; decide) (m := j.1) (by rw [nested_under g1]; exact opo)
  have a7 := eval_ordinary base (k := "ServiceView") (p := ["spec", "ports", "protocol"]) (by unfold Words; decide) (m := j.1) (by rw [nested_under g1]; exact opr)
  have a8 := eval_ordinary base (k := "ServiceView") (p := ["spec", "type"]) (by unfold Words; decide) (m := j.1) (by rw [nested_under g1]; exact oty)
  rw [nested_under g1] at a1 a2 a3 a5 a6 a7 a8
  rw [nested_under g2] at a4
  have d0 := eval_dict_ok [("name", _, _), ("namespace", _, _), ("port", _, _), ("protocol", _, _), ("type", _, _)] (by
    simp only [List.mem_cons, List.not_mem_nil, or_false, forall_eq_or_imp, forall_eq]
    exact ⟨⟨⟨by decide, by decide⟩, a5, ordinary_getD osn⟩, ⟨⟨by decide, by decide⟩, a2, ordinary_getD ons⟩, ⟨⟨by decide, by decide⟩, a6, ordinary_getD opo⟩,
      ⟨⟨by decide, by decide⟩, a7, ordinary_getD opr⟩, ⟨by decide, by decide⟩, a8, ordinary_getD oty⟩)
  have d1 := eval_dict_ok [("name", _, _), ("namespace", _, _)] (by
    simp only [List.mem_cons, List.not_mem_nil, or_false, forall_eq_or_imp, forall_eq]
    exact ⟨⟨⟨by decide, by decide⟩, a1, ordinary_getD onm⟩, ⟨by decide, by decide⟩, a2, ordinary_getD ons⟩)
  have d2 := eval_dict_ok [("endpoints", _, _), ("id", _, _), ("metadata", _, _), ("spec", _, _)] (by
    simp only [List.mem_cons, List.not_mem_nil, or_false, forall_eq_or_imp, forall_eq]
    exact ⟨⟨⟨by decide, by decide⟩, a4, ordinary_getD oep⟩, ⟨⟨by decide, by decide⟩, d0, ordinary_map _⟩, ⟨⟨by decide, by decide⟩, d1, ordinary_map _⟩,
      ⟨by decide, by decide⟩, a3, ordinary_getD osp⟩)
  have key : eval (fieldEnv base) gatherProj ⟨.map j.1, .null⟩ = .ok (.map (gatherDoc sv es).1) := by
    refine d2.trans ?_
    simp only [List.foldl_cons, List.foldl_nil, SMap.set, gatherDoc, svId, valueAt, String.reduceEq, String.reduceLT, if_false]
  rw [projects_eval key]
  exact ⟨Subtype.ext, fun h => h ▸ rfl⟩

/-- A document in the pipeline that still has the ServiceView and its id in it. -/
structure GatherRow (sv : CDoc) (c : CDoc) : Prop extends EpRow sv c where
  id : nested c.1 idPath = some (.map (svId sv))

theorem gatherDoc_row {sv es : CDoc} (h : PortViewOk sv) : GatherRow sv (gatherDoc sv es) := by
  obtain ⟨m, hm⟩ := portView_spec h
  obtain ⟨⟨n, ns, sn, ⟨hn, hns⟩, _⟩, _⟩ := h
  have hg : SMap.get (gatherDoc sv es).1 "spec" = some (valueAt sv ["spec"]) := rfl
  refine ⟨⟨⟨n, ?_⟩, ?_, fun q => ?_⟩, rfl⟩
  · show some (valueAt sv namePath) = _
    unfold valueAt; rw [hn]; rfl
  · show some (valueAt sv nsPath) = _
    unfold valueAt; rw [hns]; rfl
  · rw [nested_cons, nested_cons, hg]
    rw [nested_one] at hm
    unfold valueAt
    rw [nested_one, hm]
    rfl

theorem disjoint_heads {k k' : String} (hk : k ≠ k') (p q : List String) : Disjoint (k :: p) (k' :: q) := by
  constructor <;> intro h <;> obtain ⟨r, h⟩ := h <;> simp at h
  · exact hk h.1
  · exact hk h.1.symm

theorem gatherRow_unwinds {sv d c : CDoc} {p : List String} {i : Nat} (hd : GatherRow sv d) (h : UnwindsTo ("endpoints" :: p) i d c) : GatherRow sv c := by
  refine ⟨row_unwinds hd.toEpRow (by decide) (by decide) h, ?_⟩
  obtain ⟨l, v, n, u1, u2, u3, u4, u5, u6⟩ := h
  exact (u6 _ (disjoint_heads (by decide) _ _) (disjoint_heads (by decide) _ _)).trans hd.id

theorem gatherDoc_endpoints {sv es : CDoc} {l : List Json} : nested (gatherDoc sv es).1 endpointsPath = some (.list l) ↔ nested es.1 endpointsPath = some (.list l) := by
  rw [show nested (gatherDoc sv es).1 endpointsPath = some (valueAt es endpointsPath) from rfl]
  unfold valueAt
  cases nested es.1 endpointsPath with
  | none => simp
  | some v => simp

theorem gather_unwinds {sv es c : CDoc} {i : Nat} (h : PortViewOk sv) (hu : UnwindsTo endpointsPath i (gatherDoc sv es) c) :
    ∃ ep, (sliceEndpoints es)[i]? = some ep ∧ GatherRow sv c ∧ nested c.1 endpointsPath = some ep := by
  have hr := gatherRow_unwinds (gatherDoc_row h) hu
  obtain ⟨l, v, n, u1, u2, u3, u4, u5, u6⟩ := hu
  exact ⟨v, by unfold sliceEndpoints; rw [gatherDoc_endpoints.mp u1]; exact u2, hr, u4⟩

theorem gather_unwinds_exists (base : Env) {sv es : CDoc} {i : Nat} {ep : Json} (h : PortViewOk sv) (he : (sliceEndpoints es)[i]? = some ep) :
    ∃ c, UnwindsTo endpointsPath i (gatherDoc sv es) c := by
  obtain ⟨l, hl, hi⟩ := endpoints_list he
  exact unwinds_exists base (by unfold Words; decide) ⟨by decide, by decide⟩ (gatherDoc_endpoints.mpr hl) (gatherDoc_row h).named (List.getElem?_eq_some_iff.mp hi).1

theorem gather_addr_unwinds {sv c c' : CDoc} {ep : Json} {k : Nat} (h : GatherRow sv c) (he : nested c.1 endpointsPath = some ep) (hu : UnwindsTo addressesPath k c c') :
    ∃ a, (endpointAddresses ep)[k]? = some a ∧ GatherRow sv c' ∧ nested c'.1 addressesPath = some a := by
  obtain ⟨a, h1, _, h2⟩ := addr_unwinds h.toEpRow he hu
  exact ⟨a, h1, gatherRow_unwinds h hu, h2⟩

/-- The key of a document is the id of the port. -/
theorem gather_key (base : Env) {sv c : CDoc} (h : GatherRow sv c) : eval (fieldEnv base) (strE (pathString idPath)) ⟨.map c.1, .null⟩ = .ok (.map (svId sv)) := by
  have := eval_ordinary base (k := "id") (p := []) (by unfold Words; decide) (m := c.1) (by rw [h.id]; intro v hv; cases hv; exact ordinary_map _)
  rw [h.id] at this
  exact this

/-- The value is the address. -/
theorem gather_value (base : Env) {c : CDoc} {a : Json} (ha : a.Ordinary) (h : nested c.1 addressesPath = some a) :
    eval (fieldEnv base) (strE (pathString addressesPath)) ⟨.map c.1, .null⟩ = .ok a := by
  have := eval_ordinary base (k := "endpoints") (p := ["addresses"]) (by unfold Words; decide) (m := c.1) (by rw [h]; intro v hv; cases hv; exact ha)
  rw [h] at this
  exact this

theorem gatherRow_set {sv d c : CDoc} {v : Json} (hd : GatherRow sv d) (h : SetAt addressesPath v d.1 c.1) : GatherRow sv c := by
  obtain ⟨_, h⟩ := h
  obtain ⟨n, hn⟩ := hd.named
  exact ⟨⟨⟨n, (h _ (disjoint_heads (by decide) _ _)).trans hn⟩, (h _ (disjoint_heads (by decide) _ _)).trans hd.ns,
    fun q => (h _ (disjoint_heads (by decide) _ _)).trans (hd.spec q)⟩, (h _ (disjoint_heads (by decide) _ _)).trans hd.id⟩

/-! ## The last projection -/

theorem ordinary_portName {sn proto : String} {num : Int} (h : (Json.str sn).Ordinary) : (Json.str (portName sn proto num)).Ordinary := by
  have e : portName sn proto num = sn ++ "-" ++ (proto ++ "-" ++ toString num) := by
    unfold portName
    simp only [String.append_assoc]
  rw [e]
  exact ordinary_dash h

theorem portName_ne (sn proto : String) (num : Int) : portName sn proto num ≠ "" := by
  intro h
  have : '-' ∈ (portName sn proto num).toList := by unfold portName; simp only [String.toList_append]; simp
  rw [h] at this
  exact absurd this (by decide)

theorem seqAll_five {env : Env} {ctx : Ctx} {a b c d e : Expr} {va vb vc vd ve : Json} (ha : eval env a ctx = .ok va) (hb : eval env b ctx = .ok vb)
    (hc : eval env c ctx = .ok vc) (hd : eval env d ctx = .ok vd) (he : eval env e ctx = .ok ve) : seqAll ctx ([a, b, c, d, e].map (Expr.den env)) = .ok [va, vb, vc, vd, ve] := by
  simp only [eval] at ha hb hc hd he
  simp [seqAll, ha, hb, hc, hd, he]

/-- The texts of name, protocol and number, with dashes in between. -/
theorem eval_portName {env : Env} {ctx : Ctx} {a b c : Expr} {sn proto : String} {num : Int} (ha : eval env a ctx = .ok (.str sn)) (hb : eval env b ctx = .ok (.str proto))
    (hc : eval env c ctx = .ok (.int num)) : eval env (opList "@concat" [a, strE "-", b, strE "-", c]) ctx = .ok (.str (portName sn proto num)) := by
  have e2 := eval_text (env := env) (ctx := ctx) (s := "-") (by intro s h; cases h; decide)
  have hl := eval_list_ok (seqAll_five ha e2 hb e2 hc)
  unfold opList
  rw [eval_strict hl (by decide) (by decide) (by decide) (by decide) (by decide) (by decide)]
  simp [strictOp, unpackList, listOf, asList, mapAll, asString, Except.map, portName]

/-- What the last projection makes. -/
def gatherMap (n : String) (sv : CDoc) (addrs : List Json) : SMap Json :=
  [("metadata", .map [("name", .str n), ("namespace", valueAt sv nsPath)]), ("spec", .map (gatherSpec sv addrs))]

theorem gatherMap_canon (n : String) (sv : CDoc) {addrs : List Json} (ha : (Json.list addrs).Canon) : (Json.map (gatherMap n sv addrs)).Canon := by
  have h1 := valueAt_canon sv portPath
  have h2 := valueAt_canon sv protocolPath
  have h3 := valueAt_canon sv svcNamePath
  have h4 := valueAt_canon sv targetPortPath
  have h5 := valueAt_canon sv typePath
  have h6 := valueAt_canon sv nsPath
  unfold valueAt at h1 h2 h3 h4 h5 h6
  simp only [Json.Canon] at ha
  simp [gatherMap, gatherSpec, valueAt, SMap.Sorted, Json.Canon, Json.CanonM, h1, h2, h3, h4, h5, h6, ha]

theorem gather_projects2 (base : Env) {sv c' : CDoc} {addrs : List Json} {sn ns proto : String} {num : Int} (hok : PortViewOk sv) (hp : PortOf sn ns proto num sv)
    (h : GatherRow sv c') (h' : nested c'.1 addressesPath = some (.list addrs)) (c : CDoc) :
    Projects (fieldEnv base) gatherProj2 c' c ↔ c.1 = gatherMap (portName sn proto num) sv addrs := by
  obtain ⟨⟨n, ns', sn', ⟨hn, hns⟩, hsn, o1, o2, o3⟩, ho⟩ := hok
  obtain ⟨_, p1, p2, p3⟩ := hp
  have ons : ∀ v, nested sv.1 nsPath = some v → v.Ordinary := by rw [hns]; intro v hv; cases hv; exact o2
  have osn : ∀ v, nested sv.1 svcNamePath = some v → v.Ordinary := by rw [hsn]; intro v hv; cases hv; exact o3
  rw [p1] at hsn
  cases hsn
  have oad : ∀ v, nested c'.1 addressesPath = some v → v.Ordinary := by rw [h']; intro v hv; cases hv; intro s hs; cases hs
  have hid : ∀ q, nested c'.1 ("id" :: q) = (Json.map (svId sv)).at q := by
    intro q
    have := h.id
    rw [nested_one] at this
    rw [nested_cons, this]
    rfl
  have i1 : nested c'.1 ["id", "name"] = some (.str sn) := by rw [hid]; show some (valueAt sv svcNamePath) = _; unfold valueAt; rw [p1]; rfl
  have i2 : nested c'.1 ["id", "protocol"] = some (.str proto) := by rw [hid]; show some (valueAt sv protocolPath) = _; unfold valueAt; rw [p2]; rfl
  have i3 : nested c'.1 ["id", "port"] = some (.int num) := by rw [hid]; show some (valueAt sv portPath) = _; unfold valueAt; rw [p3]; rfl
  have b1 := eval_ordinary base (k := "id") (p := ["name"]) (by unfold Words; decide) (m := c'.1) (by rw [i1]; intro v hv; cases hv; exact o3)
  have b2 := eval_ordinary base (k := "id") (p := ["protocol"]) (by unfold Words; decide) (m := c'.1) (by rw [i2]; intro v hv; cases hv; exact ho protocolPath (by simp) _ p2)
  have b3 := eval_ordinary base (k := "id") (p := ["port"]) (by unfold Words; decide) (m := c'.1) (by rw [i3]; intro v hv; cases hv; intro s hs; cases hs)
  rw [i1] at b1
  rw [i2] at b2
  rw [i3] at b3
  have a0 := eval_portName b1 b2 b3
  have a1 := eval_ordinary base (k := "metadata") (p := ["namespace"]) (by unfold Words; decide) (m := c'.1) (by rw [h.ns]; exact ons)
  have a2 := eval_ordinary base (k := "endpoints") (p := ["addresses"]) (by unfold Words; decide) (m := c'.1) oad
  have a3 := eval_ordinary base (k := "spec") (p := ["ports", "port"]) (by unfold Words; decide) (m := c'.1) (by rw [h.spec]; exact ho portPath (by simp))
  have a4 := eval_ordinary base (k := "spec") (p := ["ports", "protocol"]) (by unfold Words; decide) (m := c'.1) (by rw [h.spec]; exact ho protocolPath (by simp))
  have a5 := eval_ordinary base (k := "spec") (p := ["serviceName"]) (by unfold Words; decide) (m := c'.1) (by rw [h.spec]; exact osn)
  have a6 := eval_ordinary base (k := "spec") (p := ["ports", "targetPort"]) (by unfold Words; decide) (m := c'.1) (by rw [h.spec]; exact ho targetPortPath (by simp))
  have a7 := eval_ordinary base (k := "spec") (p := ["type"]) (by unfold Words; decide) (m := c'.1) (by rw [h.spec]; exact ho typePath (by simp))
  rw [h.ns] at a1
  rw [h'] at a2
  rw [h.spec] at a3 a4 a5 a6 a7
  have d1 := eval_dict_ok [("name", _, _), ("namespace", _, _)] (by
    simp only [List.mem_cons, List.not_mem_nil, or_false, forall_eq_or_imp, forall_eq]
    exact ⟨⟨⟨by decide, by decide⟩, a0, ordinary_portName o3⟩, ⟨by decide, by decide⟩, a1, ordinary_getD ons⟩)
  have d2 := eval_dict_ok [("addresses", _, _), ("port", _, _), ("protocol", _, _), ("serviceName", _, _), ("targetPort", _, _), ("type", _, _)] (by
    simp only [List.mem_cons, List.not_mem_nil, or_false, forall_eq_or_imp, forall_eq]
    exact ⟨⟨⟨by decide, by decide⟩, a2, oad _ h'⟩, ⟨⟨by decide, by decide⟩, a3, ordinary_getD (ho portPath (by simp))⟩,
      ⟨⟨by decide, by decide⟩, a4, ordinary_getD (ho protocolPath (by simp))⟩, ⟨⟨by decide, by decide⟩, a5, ordinary_getD osn⟩,
      ⟨⟨by decide, by decide⟩, a6, ordinary_getD (ho targetPortPath (by simp))⟩, ⟨by decide, by decide⟩, a7, ordinary_getD (ho typePath (by simp))⟩)
  have d3 := eval_dict_ok [("metadata", _, _), ("spec", _, _)] (by
    simp only [List.mem_cons, List.not_mem_nil, or_false, forall_eq_or_imp, forall_eq]
    exact ⟨⟨⟨by decide, by decide⟩, d1, ordinary_map _⟩, ⟨by decide, by decide⟩, d2, ordinary_map _⟩)
  have key : eval (fieldEnv base) gatherProj2 ⟨.map c'.1, .null⟩ = .ok (.map (gatherMap (portName sn proto num) sv addrs)) := by
    refine d3.trans ?_
    simp only [List.foldl_cons, List.foldl_nil, SMap.set, gatherMap, gatherSpec, valueAt, String.reduceEq, String.reduceLT, if_false, Option.getD_some]
  exact projects_eval key c

/-! ## The pipeline of the second controller -/

/-- What is needed of the events. -/
structure GatherOk (hist : List (Delta CDoc)) : Prop where
  views : ∀ δ ∈ hist, objGVK δ.obj.1 = svcViewK → PortViewOk δ.obj
  slices : ∀ δ ∈ hist, objGVK δ.obj.1 = sliceK → SliceOk δ.obj
  ports : ∀ δ ∈ hist, objGVK δ.obj.1 = svcViewK → ∃ sn ns proto num, PortOf sn ns proto num δ.obj
  addrs : ∀ δ ∈ hist, objGVK δ.obj.1 = sliceK → ∀ ep ∈ sliceEndpoints δ.obj, ∀ a ∈ endpointAddresses ep, ∃ s, a = .str s

theorem GatherHist.okAll {hist : List (EvalOrder CDoc × Delta CDoc)} (h : GatherHist hist) : GatherOk (hist.map Prod.snd) := by
  constructor <;> intro δ hδ <;> obtain ⟨e, he, rfl⟩ := List.mem_map.mp hδ
  · exact h.views e he
  · exact h.slices e he
  · exact h.ports e he
  · exact h.addrs e he

theorem GatherOk.prefix {hist pre : List (Delta CDoc)} (h : GatherOk hist) (hp : pre <+: hist) : GatherOk pre :=
  ⟨fun δ hδ => h.views δ (hp.subset hδ), fun δ hδ => h.slices δ (hp.subset hδ), fun δ hδ => h.ports δ (hp.subset hδ), fun δ hδ => h.addrs δ (hp.subset hδ)⟩

theorem GatherOk.port {hist : List (Delta CDoc)} (h : GatherOk hist) {d : CDoc} (hv : Versions jsonOps hist svcViewK d) : ∃ sn ns proto num, PortOf sn ns proto num d := by
  obtain ⟨δ, hδ, hg, rfl⟩ := hv
  obtain ⟨sn, ns, proto, num, ⟨a1, a2⟩, a3, a4, a5⟩ := h.ports δ hδ hg
  have off : ∀ p ∈ [namePath, nsPath, svcNamePath, protocolPath, portPath], nested (jsonOps.removeUID δ.obj).1 p = nested δ.obj.1 p := by
    intro p hp
    simp only [List.mem_cons, List.not_mem_nil, or_false] at hp
    rcases hp with rfl | rfl | rfl | rfl | rfl <;> exact removeUID_off δ.obj.2 (by decide) (by decide)
  exact ⟨sn, ns, proto, num, ⟨(off _ (by simp)).trans a1, (off _ (by simp)).trans a2⟩, (off _ (by simp)).trans a3, (off _ (by simp)).trans a4, (off _ (by simp)).trans a5⟩

theorem GatherOk.addr {hist : List (Delta CDoc)} (h : GatherOk hist) {d : CDoc} (hv : Versions jsonOps hist sliceK d) {ep a : Json} (h1 : ep ∈ sliceEndpoints d)
    (h2 : a ∈ endpointAddresses ep) : a ≠ .null := by
  obtain ⟨δ, hδ, hg, rfl⟩ := hv
  have off : nested (jsonOps.removeUID δ.obj).1 endpointsPath = nested δ.obj.1 endpointsPath := removeUID_off δ.obj.2 (by decide) (by decide)
  unfold sliceEndpoints at h1
  rw [off] at h1
  obtain ⟨s, rfl⟩ := h.addrs δ hδ hg ep h1 a h2
  simp

theorem addressAt_live {hist : List (Delta CDoc)} {sv es : CDoc} {i k : Nat} {a : Json} (h : LiveEndpoint hist sv es i k a) : addressAt (es, i, k) = a := by
  obtain ⟨_, _, _, ep, h1, _, h2⟩ := h
  unfold addressAt
  simp only [h1, h2, Option.getD_some]

/-- Two live ServiceViews with the same id are the same. -/
theorem svId_inj {hist : List (Delta CDoc)} (hok : GatherOk hist) {sv sv' : CDoc} (h : LiveObj hist svcViewK sv) (h' : LiveObj hist svcViewK sv')
    (e : svId sv = svId sv') : sv = sv' := by
  obtain ⟨sn, ns, proto, num, a1, a2, a3, a4⟩ := hok.port (liveAs_version h)
  obtain ⟨sn', ns', proto', num', b1, b2, b3, b4⟩ := hok.port (liveAs_version h')
  simp only [svId, List.cons.injEq, Prod.mk.injEq, true_and, and_true, valueAt, a1.2, a2, a3, a4, b1.2, b2, b3, b4, Option.getD_some, Json.str.injEq, Json.int.injEq] at e
  obtain ⟨rfl, rfl, rfl, rfl, _⟩ := e
  have hk : objKey sv.1 = objKey sv'.1 := by rw [svcNamed_key a1, svcNamed_key b1]
  exact liveAs_unique (k := objKey sv'.1) (hk ▸ h.2) h'.2

/-- The ServiceView of a label. -/
def labelView (l : (List CDoc × Nat) × Nat) : Option CDoc := l.1.1[0]?
/-- The address of a label. -/
def labelAddr (l : (List CDoc × Nat) × Nat) : CDoc × Nat × Nat := (l.1.1[1]?.getD ⟨[], by simp [SMap.Sorted, Json.Canon, Json.CanonM]⟩, l.1.2, l.2)
/-- The key of a ServiceView. -/
def viewKey : Option CDoc → Json
  | some sv => .map (svId sv)
  | none => .null

/-- What the controller computes: one document for each ServiceView with ready addresses. -/
theorem gather_computes (base : Env) (hq : ReadsOfService base) {srt : List Json → List Json} (hsrt : ∀ l, (srt l).Perm l) {hist : List (Delta CDoc)} (hok : GatherOk hist)
    {r : List CDoc} (h : Computes (fieldEnv base) srt hist epSources gatherEpOps r) :
    Family (fun m : Option CDoc => ∃ sv es i k a, m = some sv ∧ LiveEndpoint hist sv es i k a)
      (fun m c => ∃ sv sn ns proto num addrs, m = some sv ∧ LiveObj hist svcViewK sv ∧ PortOf sn ns proto num sv ∧ c.1 = gatherMap (portName sn proto num) sv addrs ∧
        ReadyAddresses hist sv addrs) r := by
  have h1 := hok.views
  have h2 := hok.slices
  obtain ⟨xs, ops, hstart, hrows⟩ := h
  obtain ⟨rfl, f0⟩ := family_join (by decide) hstart (V := fun ds => ∃ sv es, ds = [sv, es] ∧ LiveObj hist svcViewK sv ∧ LiveObj hist sliceK es ∧ Serves es sv) (fun ds => by
    rw [liveTuple_two]
    constructor
    · rintro ⟨sv, es, rfl, l1, l2, hs⟩
      have hj := joinedDoc_combines (names := epSources.map GVK.kind) (by decide) [sv, es]
      exact ⟨⟨sv, es, rfl, l1, l2⟩, _, hj, (C94_condition base hq (version_portView h1 (liveAs_version l1)) (version_slice h2 (liveAs_version l2)) hj).1 hs⟩
    · rintro ⟨⟨sv, es, rfl, l1, l2⟩, j, hj, hc⟩
      refine ⟨sv, es, rfl, l1, l2, Classical.byContradiction fun hs => ?_⟩
      have hf := (C94_condition base hq (version_portView h1 (liveAs_version l1)) (version_slice h2 (liveAs_version l2)) hj).2 hs
      unfold CondTrue at hc
      unfold CondFalse at hf
      rw [hc] at hf
      simp at hf)
  obtain ⟨m1, s1, m2, s2, m3, s3, m4, s4, m5, s5, m6, s6, rfl⟩ := hrows
  have f1 := family_project (R' := fun ds c => ∃ sv es, ds = [sv, es] ∧ c = gatherDoc sv es) f0 s1 (by
    rintro ds j c ⟨sv, es, rfl, l1, l2, hs⟩ hj hc
    exact ⟨sv, es, rfl, (gather_projects base (version_portView h1 (liveAs_version l1)) (version_slice h2 (liveAs_version l2)) hj c).mp hc⟩)
  have f2 := family_unwind (path := endpointsPath) (by unfold Words; decide)
    (V' := fun l => ∃ sv es, l.1 = [sv, es] ∧ (LiveObj hist svcViewK sv ∧ LiveObj hist sliceK es ∧ Serves es sv) ∧ ∃ ep, (sliceEndpoints es)[l.2]? = some ep)
    (R' := fun l c => ∃ sv es ep, l.1 = [sv, es] ∧ (sliceEndpoints es)[l.2]? = some ep ∧ GatherRow sv c ∧ nested c.1 endpointsPath = some ep) f1 s2
    (by rintro l i ⟨sv, es, e, hl, _⟩; exact ⟨sv, es, e, hl⟩)
    (by
      rintro l x i c ⟨sv, es, rfl, hl⟩ ⟨sv', es', e, rfl⟩ hu
      cases e
      obtain ⟨ep, a1, a2, a3⟩ := gather_unwinds (version_portView h1 (liveAs_version hl.1)) hu
      exact ⟨⟨sv, es, rfl, hl, ep, a1⟩, sv, es, ep, rfl, a1, a2, a3⟩)
    (by
      rintro l x i ⟨sv, es, rfl, hl⟩ ⟨sv', es', e, rfl⟩ ⟨sv'', es'', e', _, ep, hep⟩
      cases e
      cases e'
      exact gather_unwinds_exists base (version_portView h1 (liveAs_version hl.1)) hep)
  have f3 := family_select (fun l : List CDoc × Nat => ∃ sv es ep, l.1 = [sv, es] ∧ (sliceEndpoints es)[l.2]? = some ep ∧ EndpointReady ep) f2 s3
    (by
      rintro l x ⟨sv, es, e, hl, _⟩ ⟨sv', es', ep, e', hep, hr, hx⟩ ⟨sv'', es'', ep', e'', hep', hrd⟩
      rw [e] at e' e''
      cases e'
      cases e''
      rw [hep] at hep'
      cases hep'
      exact (C94_ready base hx ((version_slice h2 (liveAs_version hl.2.1)).2.2 ep (List.mem_of_getElem? hep))).1 hrd)
    (by
      rintro l x ⟨sv, es, e, hl, _⟩ ⟨sv', es', ep, e', hep, hr, hx⟩ hn
      rw [e] at e'
      cases e'
      exact (C94_ready base hx ((version_slice h2 (liveAs_version hl.2.1)).2.2 ep (List.mem_of_getElem? hep))).2 (fun hrd => hn ⟨sv, es, ep, e, hep, hrd⟩))
  have f4 := family_unwind (path := addressesPath) (by unfold Words; decide)
    (V' := fun l : (List CDoc × Nat) × Nat => ∃ sv es a, l.1.1 = [sv, es] ∧ LiveEndpoint hist sv es l.1.2 l.2 a)
    (R' := fun l c => ∃ sv es a, l.1.1 = [sv, es] ∧ LiveEndpoint hist sv es l.1.2 l.2 a ∧ GatherRow sv c ∧ nested c.1 addressesPath = some a) f3 s4
    (by
      rintro l k ⟨sv, es, a, e, l1, l2, l3, ep, l4, l5, l6⟩
      exact ⟨⟨sv, es, e, ⟨l1, l2, l3⟩, ep, l4⟩, sv, es, ep, e, l4, l5⟩)
    (by
      rintro l x k c ⟨⟨sv, es, e, hl, _⟩, sv', es', ep, e', hep, hrd⟩ ⟨sv'', es'', ep', e'', hep', hr, hx⟩ hu
      rw [e] at e' e''
      cases e'
      cases e''
      rw [hep] at hep'
      cases hep'
      obtain ⟨a, a1, a2, a3⟩ := gather_addr_unwinds hr hx hu
      have hlive : LiveEndpoint hist sv es l.2 k a := ⟨hl.1, hl.2.1, hl.2.2, ep, hep, hrd, a1⟩
      exact ⟨⟨sv, es, a, e, hlive⟩, sv, es, a, e, hlive, a2, a3⟩)
    (by
      rintro l x k ⟨⟨sv, es, e, hl, _⟩, _⟩ ⟨sv', es', ep, e', hep, hr, hx⟩ ⟨sv'', es'', a, e'', _, _, _, ep', hep', _, ha⟩
      rw [e] at e'
      cases e'
      simp only [e] at e''
      cases e''
      rw [hep] at hep'
      cases hep'
      exact addr_unwinds_exists base hr.toEpRow hx ha)
  have hlab : ∀ {l : (List CDoc × Nat) × Nat} {sv es : CDoc}, l.1.1 = [sv, es] → labelView l = some sv ∧ labelAddr l = (es, l.1.2, l.2) := by
    intro l sv es e
    unfold labelView labelAddr
    rw [e]
    exact ⟨rfl, rfl⟩
  have hord : ∀ {sv es : CDoc} {i k : Nat} {a : Json}, LiveEndpoint hist sv es i k a → a.Ordinary ∧ a ≠ .null := by
    rintro sv es i k a ⟨l1, l2, l3, ep, l4, l5, l6⟩
    exact ⟨((version_slice h2 (liveAs_version l2)).2.2 ep (List.mem_of_getElem? l4)).2.2 a (List.mem_of_getElem? l6),
      hok.addr (liveAs_version l2) (List.mem_of_getElem? l4) (List.mem_of_getElem? l6)⟩
  have f5 := family_gather (M := Option CDoc) (path := addressesPath) (by unfold Words; decide) labelView viewKey (fun l => addressAt (labelAddr l)) f4 s5
    (by
      rintro l x _ ⟨sv, es, a, e, _, hr, _⟩
      rw [(hlab e).1]
      exact gather_key base hr)
    (by
      rintro l x _ ⟨sv, es, a, e, hl, hr, hx⟩
      show _ = Except.ok (addressAt (labelAddr l))
      rw [(hlab e).2, addressAt_live hl]
      exact gather_value base (hord hl).1 hx)
    (by
      rintro l ⟨sv, es, a, e, _⟩
      rw [(hlab e).1]
      simp [viewKey])
    (by
      rintro l ⟨sv, es, a, e, hl⟩
      show addressAt (labelAddr l) ≠ _
      rw [(hlab e).2, addressAt_live hl]
      exact (hord hl).2)
    (by
      rintro l l' ⟨sv, es, a, e, hl⟩ ⟨sv', es', a', e', hl'⟩ hk
      rw [(hlab e).1, (hlab e').1] at hk ⊢
      simp only [viewKey, Json.map.injEq] at hk
      rw [svId_inj hok hl.1 hl'.1 hk])
  refine (family_project f5 s6 (R' := fun m c => ∃ sv sn ns proto num addrs, m = some sv ∧ LiveObj hist svcViewK sv ∧ PortOf sn ns proto num sv ∧
      c.1 = gatherMap (portName sn proto num) sv addrs ∧ ReadyAddresses hist sv addrs) ?_).congr ?_ (fun _ _ _ h => h)
  · rintro m x c _ ⟨l, rep, _, hm, ⟨sv, es, a, e, hl, hr, _⟩, labels, hnd, hmem, vals, hperm, hset⟩ hc
    rw [(hlab e).1] at hm
    subst hm
    have lv := liveAs_version hl.1
    obtain ⟨sn, ns, proto, num, hp⟩ := hok.port lv
    have hc' := (gather_projects2 base (version_portView h1 lv) hp (gatherRow_set hr hset) hset.1 c).mp hc
    refine ⟨sv, sn, ns, proto, num, srt vals, rfl, hl.1, hp, hc', labels.map labelAddr, ?_, fun es' i k => ?_, ?_⟩
    · refine List.pairwise_map.mpr (List.Pairwise.imp_of_mem (fun {x y} hx hy hne he => hne ?_) hnd)
      obtain ⟨⟨sx, ex, ax, e1, _⟩, v1⟩ := (hmem x).mp hx
      obtain ⟨⟨sy, ey, ay, e2, _⟩, v2⟩ := (hmem y).mp hy
      rw [(hlab e1).1] at v1
      rw [(hlab e2).1] at v2
      rw [(hlab e1).2, (hlab e2).2] at he
      simp only [Option.some.injEq, Prod.mk.injEq] at v1 v2 he
      obtain ⟨rfl, he2, he3⟩ := he
      subst v1 v2
      exact Prod.ext (Prod.ext (e1.trans e2.symm) he2) he3
    · rw [List.mem_map]
      constructor
      · rintro ⟨x, hx, he⟩
        obtain ⟨⟨sx, ex, ax, e1, lx⟩, v1⟩ := (hmem x).mp hx
        rw [(hlab e1).1] at v1
        rw [(hlab e1).2] at he
        cases v1
        simp only [Prod.mk.injEq] at he
        obtain ⟨rfl, rfl, rfl⟩ := he
        exact ⟨ax, lx⟩
      · rintro ⟨a', ha'⟩
        refine ⟨(([sv, es'], i), k), (hmem _).mpr ⟨⟨sv, es', a', rfl, ha'⟩, rfl⟩, rfl⟩
    · rw [List.map_map]
      exact (hsrt vals).trans hperm
  · intro m
    constructor
    · rintro ⟨l, ⟨sv, es, a, e, hl⟩, rfl⟩
      exact ⟨sv, es, _, _, a, (hlab e).1, hl⟩
    · rintro ⟨sv, es, i, k, a, rfl, hl⟩
      exact ⟨(([sv, es], i), k), ⟨sv, es, a, rfl, hl⟩, rfl⟩

theorem gather_fields {hist : List (Delta CDoc)} (base : Env) {srt : List Json → List Json}
    (hok : GatherOk hist) :
    FieldSpecOn (fieldEnv base) srt (afterJoin gatherEpOps) (StartVersions (fieldEnv base) hist epSources gatherEpOps) ∧
    EvaluatesOn (fieldEnv base) srt (afterJoin gatherEpOps) (StartVersions (fieldEnv base) hist epSources gatherEpOps) := by
  -- the documents between the operations
  let P1 : CDoc → Prop := fun c => ∃ sv es, Versions jsonOps hist svcViewK sv ∧ Versions jsonOps hist sliceK es ∧ c = gatherDoc sv es
  let P2 : CDoc → Prop := fun c => ∃ sv ep, Versions jsonOps hist svcViewK sv ∧ EndpointOk ep ∧ GatherRow sv c ∧ nested c.1 endpointsPath = some ep
  let P4 : CDoc → Prop := fun c => ∃ sv a m, Versions jsonOps hist svcViewK sv ∧ a.Ordinary ∧ GatherRow sv c ∧ nested c.1 addressesPath = some a ∧ nested c.1 endpointsPath = some (.map m)
  let P5 : CDoc → Prop := fun c => ∃ sv addrs, Versions jsonOps hist svcViewK sv ∧ GatherRow sv c ∧ nested c.1 addressesPath = some (.list addrs)
  have hv : ∀ {sv}, Versions jsonOps hist svcViewK sv → PortViewOk sv := fun h => version_portView hok.views h
  have hs : ∀ {es}, Versions jsonOps hist sliceK es → SliceOk es := fun h => version_slice hok.slices h
  have s0 : ∀ j, StartVersions (fieldEnv base) hist epSources gatherEpOps j → ∃ sv es, Versions jsonOps hist svcViewK sv ∧ Versions jsonOps hist sliceK es ∧
      Combines (epSources.map GVK.kind) [sv, es] j := by
    rintro j ⟨ds, hds, hj, _⟩
    obtain ⟨sv, es, rfl, hs, he⟩ := tupleIn_two hds
    exact ⟨sv, es, hs, he, hj⟩
  have s1 : ∀ c, (∃ d, StartVersions (fieldEnv base) hist epSources gatherEpOps d ∧ Projects (fieldEnv base) gatherProj d c) → P1 c := by
    rintro c ⟨j, hj, hc⟩
    obtain ⟨sv, es, o1, o2, hj⟩ := s0 j hj
    exact ⟨sv, es, o1, o2, (gather_projects base (hv o1) (hs o2) hj c).mp hc⟩
  have s2 : ∀ d i c, P1 d → UnwindsTo endpointsPath i d c → P2 c := by
    rintro d i c ⟨sv, es, o1, o2, rfl⟩ hu
    obtain ⟨ep, e1, e2, e3⟩ := gather_unwinds (hv o1) hu
    exact ⟨sv, ep, o1, (hs o2).2.2 ep (List.mem_of_getElem? e1), e2, e3⟩
  have s4 : ∀ d k c, P2 d → UnwindsTo addressesPath k d c → P4 c := by
    rintro d k c ⟨sv, ep, o1, o2, hr, hx⟩ hu
    obtain ⟨a, e1, e2, e3⟩ := gather_addr_unwinds hr hx hu
    have hm : ∃ m, nested c.1 endpointsPath = some (.map m) := by
      have e4 := e3
      rw [nested_cons] at e4
      rw [nested_one]
      cases hg : SMap.get c.1 "endpoints" with
      | none => rw [hg] at e4; cases e4
      | some v =>
        rw [hg] at e4
        cases v with
        | map m => exact ⟨m, rfl⟩
        | _ => exact absurd e4 (by rw [Option.bind_some, at_not_map (by intro x; simp)]; simp)
    obtain ⟨m, hm⟩ := hm
    exact ⟨sv, a, m, o1, o2.2.2 a (List.mem_of_getElem? e1), e2, e3, hm⟩
  have w1 : Words endpointsPath := by unfold Words; decide
  have w2 : Words addressesPath := by unfold Words; decide
  constructor
  · refine fieldSpecOn_mono (ops := [.unwind (strE (pathString endpointsPath)), .select epReadyE, .unwind (strE (pathString addressesPath)),
      .gather (.exprs "@list" [strE (pathString idPath), strE (pathString addressesPath)]), .project gatherProj2]) (P := P1) s1
      ⟨⟨"endpoints", [], rfl, w1, ⟨by decide, by decide⟩⟩, ?_, ?_⟩
    · rintro d ⟨sv, es, o1, o2, rfl⟩
      exact (gatherDoc_row (hv o1)).named
    · refine fieldSpecOn_mono (ops := [.unwind (strE (pathString addressesPath)), .gather (.exprs "@list" [strE (pathString idPath), strE (pathString addressesPath)]),
        .project gatherProj2]) (P := Named) ?_ ⟨⟨"endpoints", ["addresses"], rfl, w2, ⟨by decide, by decide⟩⟩, fun _ h => h, addressesPath, ⟨_, rfl, by simp, w2⟩, trivial⟩
      rintro c ⟨⟨_, _, _, _, _, _, _, _, _, _, _, _, h, _⟩, _⟩
      exact ⟨_, h⟩
  · refine ⟨fun j hj => ?_, evaluatesOn_mono (ops := [.unwind (strE (pathString endpointsPath)), .select epReadyE, .unwind (strE (pathString addressesPath)),
      .gather (.exprs "@list" [strE (pathString idPath), strE (pathString addressesPath)]), .project gatherProj2]) (P := P1) s1 ⟨endpointsPath, rfl, w1, ?_,
      evaluatesOn_mono (ops := [.select epReadyE, .unwind (strE (pathString addressesPath)), .gather (.exprs "@list" [strE (pathString idPath), strE (pathString addressesPath)]),
      .project gatherProj2]) (P := P2) (fun c ⟨d, i, hd, hu⟩ => s2 d i c hd hu) ⟨?_, evaluatesOn_mono (ops := [.unwind (strE (pathString addressesPath)),
      .gather (.exprs "@list" [strE (pathString idPath), strE (pathString addressesPath)]), .project gatherProj2]) (P := P2) (fun c hc => hc.1) ⟨addressesPath, rfl, w2, ?_,
      evaluatesOn_mono (ops := [.gather (.exprs "@list" [strE (pathString idPath), strE (pathString addressesPath)]), .project gatherProj2]) (P := P4)
      (fun c ⟨d, i, hd, hu⟩ => s4 d i c hd hu) ⟨strE (pathString idPath), addressesPath, rfl, w2, ?_, evaluatesOn_mono (ops := [.project gatherProj2]) (P := P5) ?_ ⟨?_, trivial⟩⟩⟩⟩⟩⟩
    · obtain ⟨sv, es, o1, o2, hj⟩ := s0 j hj
      exact ⟨_, (gather_projects base (hv o1) (hs o2) hj _).mpr rfl⟩
    · rintro d ⟨sv, es, o1, o2, rfl⟩
      rcases (hs o2).2.1 with h | ⟨l, h⟩
      · exact .inl h
      · exact .inr ⟨l, gatherDoc_endpoints.mpr h⟩
    · rintro d ⟨sv, ep, o1, o2, hr, hx⟩
      by_cases h : EndpointReady ep
      · exact .inl ((C94_ready base hx o2).1 h)
      · exact .inr ((C94_ready base hx o2).2 h)
    · rintro d ⟨sv, ep, o1, o2, hr, hx⟩
      rw [nested_endpoint hx]
      exact o2.2.1
    · rintro d ⟨sv, a, m, o1, o2, hr, hx, hm⟩
      refine ⟨⟨_, gather_key base hr⟩, fun q x q1 q2 q3 q4 => ?_⟩
      obtain ⟨t, ht⟩ := q2
      match q, t, q1, q3, q4, ht with
      | [k], _, _, _, q4, ht =>
        simp only [List.cons_append, List.nil_append, List.cons.injEq] at ht
        rw [ht.1, hm] at q4
        exact ⟨m, by simpa using q4.symm⟩
      | [k, k'], [], _, q3, _, ht => exact absurd (by simpa using ht) q3
      | k :: k' :: k'' :: q, t, _, _, _, ht => simp at ht
      | [k, k'], _ :: _, _, _, _, ht => simp at ht
      | [], _, q1, _, _, _ => exact absurd rfl q1
    · rintro c ⟨d, key, vals, ⟨sv, a, m, o1, o2, hr, hx, hm⟩, _, _, hset⟩
      exact ⟨sv, srt vals, o1, gatherRow_set hr hset, hset.1⟩
    · rintro d ⟨sv, addrs, o1, hr, hx⟩
      obtain ⟨sn, ns, proto, num, hp⟩ := hok.port o1
      exact ⟨⟨_, gatherMap_canon _ sv (at_canon (j := .map d.1) d.2 hx)⟩, (gather_projects2 base (hv o1) hp hr hx _).mpr rfl⟩

theorem gather_keys {n ns : String} {sv : CDoc} {addrs : List Json} {c : CDoc} (hns : nested sv.1 nsPath = some (.str ns)) (hc : c.1 = gatherMap n sv addrs) :
    nested c.1 namePath = some (.str n) ∧ nested c.1 nsPath = some (.str ns) ∧ objKey c.1 = (ns, n) := by
  have e1 : nested c.1 namePath = some (.str n) := by rw [hc]; rfl
  have e2 : nested c.1 nsPath = some (.str ns) := by
    rw [hc]
    show some (valueAt sv nsPath) = _
    unfold valueAt; rw [hns]; rfl
  exact ⟨e1, e2, by simp only [objKey, nestedString, e1, e2]⟩

/-- **C112** (the second controller, partial): after any history of the watches, starting from a cluster without EndpointViews, no evaluation has failed, and there is an
EndpointView for each live ServiceView whose Service has a ready address in its live EndpointSlices, and no other; it is in the namespace of the ServiceView and has its
name, and its spec has the fields of the port and the ready addresses of all EndpointSlices of the Service, each as often as it is there; and nothing but EndpointViews has
changed. Missing: ServiceViews that do not have the name the first controller gives them, fields that look like paths, and failing or reordered writes. -/
theorem C112_views_partial (base : Env) (H : base.Canon) (hq : ReadsOfService base) (srt : List Json → List Json) (hsrt : ∀ l, (srt l).Perm l)
    {env : Env} {spec : List SpecOp} (hspec : unmarshalPipeline env gatherEpJson = .ok spec) {p0 : Pipe CDoc AnyVal}
    (hnew : newSpecPipe (fieldEnv base) srt epViewK epSources spec = .ok p0) {hist : List (EvalOrder CDoc × Delta CDoc)} (hh : GatherHist hist)
    {c0 : Cluster} (hc0 : AMap.WF c0) (h0 : ∀ k, c0.get (epViewK, k) = none) :
    ∃ wss : List (List (Delta CDoc)), (runs (fun p (e : EvalOrder CDoc × Delta CDoc) => p.evaluate jsonOps e.1 e.2) p0 hist).2 = wss.map Except.ok ∧
      (∀ sv es i k a sn ns proto num, LiveEndpoint (hist.map Prod.snd) sv es i k a → PortOf sn ns proto num sv →
        ∃ obj, (clusterAfter epViewK c0 wss.flatten).get (epViewK, (ns, portName sn proto num)) = some obj) ∧
      (∀ key obj, (clusterAfter epViewK c0 wss.flatten).get (epViewK, key) = some obj →
        ∃ sv sn ns proto num addrs, (∃ es i k a, LiveEndpoint (hist.map Prod.snd) sv es i k a) ∧ PortOf sn ns proto num sv ∧ key = (ns, portName sn proto num) ∧
          objKey obj = key ∧ nested obj ["spec"] = some (.map (gatherSpec sv addrs)) ∧ ReadyAddresses (hist.map Prod.snd) sv addrs) ∧
      ∀ k, k.1 ≠ epViewK → (clusterAfter epViewK c0 wss.flatten).get k = c0.get k := by
  rw [(C112_read env).2] at hspec
  cases hspec
  have hok := hh.okAll
  have hcan : ∀ l : List Json, (∀ x ∈ l, x.Canon) → ∀ x ∈ srt l, x.Canon := fun l h x hx => h x ((hsrt l).mem_iff.mp hx)
  obtain ⟨hfs, hev⟩ := gather_fields base (srt := srt) hok
  obtain ⟨wss, hr, r, hres, b1, b2, b3⟩ := C84_never_fails_versions_partial base H srt hcan epViewK epSources (by decide) gatherEpOps p0 hnew hist hh.orders hh.kinds hh.watch
    hfs (fun ds j hds hj => by
      obtain ⟨sv, es, rfl, hs, he⟩ := tupleIn_two hds
      have hc := C94_condition base hq (version_portView hok.views hs) (version_slice hok.slices he) hj
      by_cases h : Serves es sv
      · exact .inl (hc.1 h)
      · exact .inr (hc.2 h)) hev
    (fun pre hpre r hres => by
      have hf := gather_computes base hq hsrt (hok.prefix hpre) hres
      refine ⟨keysApart_names (hf.pairwise ?_), fun c hc => ?_⟩
      · rintro m m' c c' _ _ hne ⟨sv, sn, ns, proto, num, addrs, rfl, hl, hp, hc, _⟩ ⟨sv', sn', ns', proto', num', addrs', rfl, hl', hp', hc', _⟩ hk
        rw [(gather_keys hp.named.2 hc).2.2, (gather_keys hp'.named.2 hc').2.2] at hk
        have hk' : objKey sv.1 = objKey sv'.1 := by rw [svcNamed_key hp.named, svcNamed_key hp'.named, hk]
        exact hne (congrArg some (liveAs_unique (k := objKey sv'.1) (hk' ▸ hl.2) hl'.2))
      · obtain ⟨m, _, sv, sn, ns, proto, num, addrs, rfl, hl, hp, hc, _⟩ := hf.mem hc
        obtain ⟨k1, k2, _⟩ := gather_keys hp.named.2 hc
        exact properName_enforced epViewK ⟨⟨_, k1, portName_ne _ _ _⟩, fun v hv => ⟨ns, by rw [k2] at hv; cases hv; rfl⟩⟩) c0 hc0 h0
  have hf := gather_computes base hq hsrt hok hres
  have obj_ok : ∀ {sv : CDoc} {addrs : List Json} {c : CDoc} {x obj : SMap Json} {n ns : String}, nested sv.1 nsPath = some (.str ns) → c.1 = gatherMap n sv addrs →
      enforceDoc epViewK c.1 = .ok x → IsImage x obj → objKey x = (ns, n) ∧ nested obj ["spec"] = some (.map (gatherSpec sv addrs)) := by
    intro sv a c x obj n ns hns hc hx him
    obtain ⟨_, _, _, q4, q5, _⟩ := C74_object epViewK c.1 x c.2 hx
    obtain ⟨k1, k2, _⟩ := gather_keys hns hc
    refine ⟨by rw [q4]; simp only [nestedString, k1, k2], ?_⟩
    rw [nested_one, him.1 _ (by decide), q5 _ (by decide) (by decide) (by decide), hc]
    rfl
  refine ⟨wss, hr, fun sv es i k a sn ns proto num hl hp => ?_, fun key obj hobj => ?_, b3⟩
  · obtain ⟨c, hc, sv', sn', ns', proto', num', addrs, e, hl', hp', hcm, _⟩ := hf.mem_of (l := some sv) ⟨sv, es, i, k, a, rfl, hl⟩
    cases e
    obtain ⟨k1, k2, _⟩ := gather_keys hp'.named.2 hcm
    obtain ⟨x, hx⟩ := properName_enforced epViewK (d := c) ⟨⟨_, k1, portName_ne _ _ _⟩, fun v hv => ⟨ns', by rw [k2] at hv; cases hv; rfl⟩⟩
    obtain ⟨obj, hobj, him⟩ := b2 c x hc hx
    obtain ⟨q1, _⟩ := obj_ok hp'.named.2 hcm hx him
    rw [q1, ← svcNamed_key hp'.named, svcNamed_key hp.named] at hobj
    exact ⟨obj, hobj⟩
  · obtain ⟨c, x, hc, hx, hkey, him⟩ := b1 key obj hobj
    obtain ⟨m, ⟨_, es, i, k, a, e1, hle⟩, sv, sn, ns, proto, num, addrs, e2, hl, hp, hcm, hra⟩ := hf.mem hc
    rw [e1] at e2
    cases e2
    obtain ⟨q1, q2⟩ := obj_ok hp.named.2 hcm hx him
    exact ⟨_, sn, ns, proto, num, addrs, ⟨es, i, k, a, hle⟩, hp, by rw [← hkey, q1], him.2.1.trans hkey, q2, hra⟩

end Dctl
