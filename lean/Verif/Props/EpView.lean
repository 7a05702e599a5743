import Verif.Props.SvcView
import Verif.Spec.EpView
import Verif.Pipeline.FamilyLemmas
/-!
# C94: the endpoint slice controller of the endpoint slice operator
-/
set_option autoImplicit false
namespace Dctl

/-- The condition of the join. -/
def epCond : Expr := opList "@and" [opList "@eq" [strE (pathString ["ServiceView", "spec", "serviceName"]), strE ofServiceQuery],
  eqE ["ServiceView", "metadata", "namespace"] ["EndpointSlice", "metadata", "namespace"]]

/-- The first projection. -/
def epProj : Expr := .dict "@dict" [("endpoints", strE (pathString ["EndpointSlice", "endpoints"])),
  ("metadata", .dict "@dict" [("name", strE (pathString ["ServiceView", "metadata", "name"])), ("namespace", strE (pathString ["ServiceView", "metadata", "namespace"]))]),
  ("spec", strE (pathString ["ServiceView", "spec"]))]

/-- The condition on endpoints. -/
def epReadyE : Expr := opList "@eq" [strE (pathString epReadyPath), .lit "@bool" (.bool true)]

/-- The second projection. -/
def epProj2 : Expr := .dict "@dict" [("metadata", .dict "@dict" [("namespace", strE (pathString nsPath))]),
  ("spec", .dict "@dict" [("address", strE (pathString addressesPath)), ("port", strE (pathString portPath)), ("protocol", strE (pathString protocolPath)),
    ("serviceName", strE (pathString svcNamePath)), ("targetPort", strE (pathString targetPortPath)), ("type", strE (pathString typePath))])]

/-- The name. -/
def epNameE : Expr := opList "@concat" [strE (pathString svcNamePath), strE "-", .app "@hash" (strE (pathString ["spec"]))]

/-- The third projection. -/
def epProj3 : Expr := .exprs "@list" [.dict "@dict" [("$.", strE "$.")], .dict "@dict" [("metadata", .dict "@dict" [("name", epNameE)])]]

/-- The operations of the controller. -/
abbrev epSpecOps : List SpecOp := [.join epCond, .project epProj, .unwind (strE (pathString endpointsPath)), .select epReadyE, .unwind (strE (pathString addressesPath)),
  .project epProj2, .project epProj3]

/-- **C94** (the file): the pipeline in the file is read as these operations. -/
theorem C94_read (env : Env) : unmarshalPipeline env epViewJson = .ok epSpecOps := by
  rfl

theorem ep_get {sv es j : CDoc} (hj : Combines (epSources.map GVK.kind) [sv, es] j) :
    SMap.get j.1 "ServiceView" = some (.map sv.1) ∧ SMap.get j.1 "EndpointSlice" = some (.map es.1) :=
  ⟨(hj _ _).mpr ⟨0, sv, rfl, rfl, rfl⟩, (hj _ _).mpr ⟨1, es, rfl, rfl, rfl⟩⟩

/-- **C94** (the join): the condition is true of a ServiceView and an EndpointSlice of the same Service, and false of all others. -/
theorem C94_condition (base : Env) (hq : ReadsOfService base) {sv es j : CDoc} (h1 : PortViewOk sv) (h2 : SliceOk es)
    (hj : Combines (epSources.map GVK.kind) [sv, es] j) :
    (Serves es sv → CondTrue (fieldEnv base) epCond j) ∧ (¬ Serves es sv → CondFalse (fieldEnv base) epCond j) := by
  obtain ⟨g1, g2⟩ := ep_get hj
  obtain ⟨⟨n, ns, sn, ⟨hn, hns⟩, hsn, o1, o2, o3⟩, _⟩ := h1
  have e1 := eval_ordinary base (k := "ServiceView") (p := ["spec", "serviceName"]) (by unfold Words; decide) (m := j.1) (by
    rw [nested_under g1, hsn]; intro v hv; cases hv; exact o3)
  rw [nested_under g1, hsn] at e1
  have ol := ordinary_getD (h2.1 ofServicePath (by simp))
  have e2 := eval_query base (q := ofServiceQuery) ⟨'[', _, rfl, by decide, by simp⟩ (by decide) (hq j.1) (by rw [nested_under g2]; exact ol)
  rw [nested_under g2] at e2
  have a2 := eval_agree base g1 g2 (p := nsPath) (q := nsPath) (by unfold Words; decide) (by unfold Words; decide)
    (by rw [hns]; intro v hv; cases hv; exact ⟨o2, by intro l h; cases h⟩) (fun v hv => h2.1 nsPath (by simp) v hv)
  have a1 := C32_eq _ _ _ _ _ _ e1 e2 (by intro l h; cases h)
  have a1t : Agree sv svcNamePath es ofServicePath → eval (fieldEnv base) (opList "@eq" [strE (pathString ["ServiceView", "spec", "serviceName"]), strE ofServiceQuery])
      ⟨.map j.1, .null⟩ = .ok (.bool true) := by
    rintro ⟨v, _, h1, h2⟩
    rw [hsn] at h1
    cases h1
    rw [a1, h2]
    simp
  have a1f : ¬ Agree sv svcNamePath es ofServicePath → eval (fieldEnv base) (opList "@eq" [strE (pathString ["ServiceView", "spec", "serviceName"]), strE ofServiceQuery])
      ⟨.map j.1, .null⟩ = .ok (.bool false) := by
    intro h
    rw [a1]
    cases hv : nested es.1 ofServicePath with
    | none => simp
    | some v =>
      by_cases e : Json.str sn = v
      · subst e; exact absurd ⟨.str sn, by simp, hsn, hv⟩ h
      · simp [e]
  unfold CondTrue CondFalse epCond
  rw [eval_and]
  constructor
  · rintro ⟨l1, l2⟩
    have : andLoop ⟨.map j.1, .null⟩ ([_, _].map (Expr.den (fieldEnv base))) = .ok true := (andLoop_true _).mpr (by
      simp only [List.mem_cons, List.not_mem_nil, or_false, forall_eq_or_imp, forall_eq]
      exact ⟨a1t l1, a2.1 l2⟩)
    rw [this]; rfl
  · intro h
    have key : andLoop ⟨.map j.1, .null⟩ ([_, _].map (Expr.den (fieldEnv base))) = .ok false := (andLoop_false _).mpr (by
      by_cases l1 : Agree sv svcNamePath es ofServicePath
      · exact ⟨[_], _, [], rfl, by
          simp only [List.mem_cons, List.not_mem_nil, or_false, forall_eq]
          exact a1t l1, a2.2 (fun l2 => h ⟨l1, l2⟩)⟩
      · exact ⟨[], _, [_], rfl, by simp, a1f l1⟩)
    rw [key]; rfl

/-! ## The first projection -/

theorem epDoc_canon (sv es : CDoc) : (Json.map [("endpoints", valueAt es endpointsPath), ("metadata", .map [("name", valueAt sv namePath), ("namespace", valueAt sv nsPath)]),
    ("spec", valueAt sv ["spec"])]).Canon := by
  have h1 := valueAt_canon es endpointsPath
  have h2 := valueAt_canon sv namePath
  have h3 := valueAt_canon sv nsPath
  have h4 := valueAt_canon sv ["spec"]
  simp [SMap.Sorted, Json.Canon, Json.CanonM, h1, h2, h3, h4]

/-- What the first projection makes of a ServiceView and an EndpointSlice. -/
def epDoc (sv es : CDoc) : CDoc := ⟨_, epDoc_canon sv es⟩

theorem projects_eval {env : Env} {e : Expr} {d : CDoc} {m : SMap Json} (h : eval env e ⟨.map d.1, .null⟩ = .ok (.map m)) (c : CDoc) : Projects env e d c ↔ c.1 = m := by
  unfold Projects
  rw [h]
  constructor
  · rintro (h | ⟨us, h, _⟩)
    · simp only [Except.ok.injEq, Json.map.injEq] at h
      exact h.symm
    · simp at h
  · rintro rfl
    exact .inl rfl

theorem ordinary_list_or_null {o : Option Json} (h : o.getD .null = .null ∨ ∃ l, o = some (.list l)) : ∀ v, o = some v → v.Ordinary := by
  rcases h with h | ⟨l, h⟩
  · intro v hv s hs; rw [hv] at h; simp only [Option.getD_some] at h; rw [h] at hs; cases hs
  · rw [h]; intro v hv s hs; cases hv; cases hs

theorem portView_spec {sv : CDoc} (h : PortViewOk sv) : ∃ m, nested sv.1 ["spec"] = some (.map m) := by
  obtain ⟨⟨n, ns, sn, _, hsn, _⟩, _⟩ := h
  rw [nested_cons] at hsn
  rw [nested_one]
  cases hg : SMap.get sv.1 "spec" with
  | none => rw [hg] at hsn; cases hsn
  | some v =>
    rw [hg] at hsn
    cases v with
    | map m => exact ⟨m, rfl⟩
    | _ => exact absurd hsn (by rw [Option.bind_some, at_not_map (by intro x; simp)]; simp)

theorem ep_projects (base : Env) {sv es j : CDoc} (h1 : PortViewOk sv) (h2 : SliceOk es) (hj : Combines (epSources.map GVK.kind) [sv, es] j) (c : CDoc) :
    Projects (fieldEnv base) epProj j c ↔ c = epDoc sv es := by
  obtain ⟨g1, g2⟩ := ep_get hj
  obtain ⟨m, hm⟩ := portView_spec h1
  obtain ⟨⟨n, ns, sn, ⟨hn, hns⟩, hsn, o1, o2, o3⟩, _⟩ := h1
  have onm : ∀ v, nested sv.1 namePath = some v → v.Ordinary := by rw [hn]; intro v hv; cases hv; exact o1
  have ons : ∀ v, nested sv.1 nsPath = some v → v.Ordinary := by rw [hns]; intro v hv; cases hv; exact o2
  have osp : ∀ v, nested sv.1 ["spec"] = some v → v.Ordinary := by rw [hm]; intro v hv; cases hv; exact ordinary_map _
  have oep := ordinary_list_or_null h2.2.1
  have a1 := eval_ordinary base (k := "ServiceView") (p := ["metadata", "name"]) (by unfold Words; decide) (m := j.1) (by rw [nested_under g1]; exact onm)
  have a2 := eval_ordinary base (k := "ServiceView") (p := ["metadata", "namespace"]) (by unfold Words; decide) (m := j.1) (by rw [nested_under g1]; exact ons)
  have a3 := eval_ordinary base (k := "ServiceView") (p := ["spec"]) (by unfold Words; decide) (m := j.1) (by rw [nested_under g1]; exact osp)
  have a4 := eval_ordinary base (k := "EndpointSlice") (p := ["endpoints"]) (by unfold Words; decide) (m := j.1) (by rw [nested_under g2]; exact oep)
  rw [nested_under g1] at a1 a2 a3
  rw [nested_under g2] at a4
  have d1 := eval_dict_ok [("name", _, _), ("namespace", _, _)] (by
    simp only [List.mem_cons, List.not_mem_nil, or_false, forall_eq_or_imp, forall_eq]
    exact ⟨⟨⟨by decide, by decide⟩, a1, ordinary_getD onm⟩, ⟨by decide, by decide⟩, a2, ordinary_getD ons⟩)
  have d2 := eval_dict_ok [("endpoints", _, _), ("metadata", _, _), ("spec", _, _)] (by
    simp only [List.mem_cons, List.not_mem_nil, or_false, forall_eq_or_imp, forall_eq]
    exact ⟨⟨⟨by decide, by decide⟩, a4, ordinary_getD oep⟩, ⟨⟨by decide, by decide⟩, d1, ordinary_map _⟩, ⟨by decide, by decide⟩, a3, ordinary_getD osp⟩)
  have key : eval (fieldEnv base) epProj ⟨.map j.1, .null⟩ = .ok (.map (epDoc sv es).1) := by
    refine d2.trans ?_
    simp only [List.foldl_cons, List.foldl_nil, SMap.set, epDoc, valueAt, String.reduceEq, String.reduceLT, if_false]
  rw [projects_eval key]
  exact ⟨Subtype.ext, fun h => h ▸ rfl⟩

/-- A document in the pipeline that still has the ServiceView in it. -/
structure EpRow (sv : CDoc) (c : CDoc) : Prop where
  named : Named c
  ns : nested c.1 nsPath = nested sv.1 nsPath
  spec : ∀ q, nested c.1 ("spec" :: q) = nested sv.1 ("spec" :: q)

theorem epDoc_row {sv es : CDoc} (h : PortViewOk sv) : EpRow sv (epDoc sv es) := by
  obtain ⟨m, hm⟩ := portView_spec h
  obtain ⟨⟨n, ns, sn, ⟨hn, hns⟩, _⟩, _⟩ := h
  have hg : SMap.get (epDoc sv es).1 "spec" = some (valueAt sv ["spec"]) := rfl
  refine ⟨⟨n, ?_⟩, ?_, fun q => ?_⟩
  · show some (valueAt sv namePath) = _
    unfold valueAt; rw [hn]; rfl
  · show some (valueAt sv nsPath) = _
    unfold valueAt; rw [hns]; rfl
  · rw [nested_cons, nested_cons, hg]
    rw [nested_one] at hm
    unfold valueAt
    rw [nested_one, hm]
    rfl

theorem epDoc_endpoints {sv es : CDoc} {l : List Json} : nested (epDoc sv es).1 endpointsPath = some (.list l) ↔ nested es.1 endpointsPath = some (.list l) := by
  rw [show nested (epDoc sv es).1 endpointsPath = some (valueAt es endpointsPath) from rfl]
  unfold valueAt
  cases nested es.1 endpointsPath with
  | none => simp
  | some v => simp

theorem row_unwinds {sv d c : CDoc} {k : String} {p : List String} {i : Nat} (hd : EpRow sv d) (h1 : k ≠ "metadata") (h2 : k ≠ "spec") (h : UnwindsTo (k :: p) i d c) : EpRow sv c := by
  obtain ⟨l, v, n, u1, u2, u3, u4, u5, u6⟩ := h
  have dis : ∀ (k' : String) (q : List String), k ≠ k' → Disjoint (k :: p) (k' :: q) := by
    intro k' q hk
    constructor <;> intro h <;> obtain ⟨r, h⟩ := h <;> simp at h
    · exact hk h.1
    · exact hk h.1.symm
  refine ⟨⟨_, u5⟩, (u6 _ (dis _ _ h1) ⟨by decide, by decide⟩).trans hd.ns, fun q => (u6 _ (dis _ _ h2) ?_).trans (hd.spec q)⟩
  constructor <;> intro h <;> obtain ⟨r, h⟩ := h <;> simp at h

theorem unwinds_exists (base : Env) {k : String} {p : List String} (hp : Words (k :: p)) (hd : Disjoint (k :: p) namePath) {d : CDoc} {l : List Json}
    (hl : nested d.1 (k :: p) = some (.list l)) (hn : Named d) {i : Nat} (hi : i < l.length) : ∃ c, UnwindsTo (k :: p) i d c := by
  obtain ⟨n, hn⟩ := hn
  obtain ⟨_, _, _, hex⟩ := C79_list base k p hp hd _ _ rfl d l n hl hn
  obtain ⟨c, _, hu⟩ := hex i hi
  exact ⟨c, hu⟩

/-! ## The endpoints -/

theorem endpoints_list {es : CDoc} {i : Nat} {ep : Json} (h : (sliceEndpoints es)[i]? = some ep) : ∃ l, nested es.1 endpointsPath = some (.list l) ∧ l[i]? = some ep := by
  unfold sliceEndpoints at h
  split at h
  · rename_i l hl; exact ⟨l, hl, h⟩
  · simp at h

theorem addresses_list {ep : Json} {k : Nat} {a : Json} (h : (endpointAddresses ep)[k]? = some a) : ∃ l, ep.at ["addresses"] = some (.list l) ∧ l[k]? = some a := by
  unfold endpointAddresses at h
  split at h
  · rename_i l hl; exact ⟨l, hl, h⟩
  · simp at h

theorem ep_unwinds {sv es c : CDoc} {i : Nat} (h : PortViewOk sv) (hu : UnwindsTo endpointsPath i (epDoc sv es) c) :
    ∃ ep, (sliceEndpoints es)[i]? = some ep ∧ EpRow sv c ∧ nested c.1 endpointsPath = some ep := by
  have hr := row_unwinds (epDoc_row h) (by decide) (by decide) hu
  obtain ⟨l, v, n, u1, u2, u3, u4, u5, u6⟩ := hu
  exact ⟨v, by unfold sliceEndpoints; rw [epDoc_endpoints.mp u1]; exact u2, hr, u4⟩

theorem ep_unwinds_exists (base : Env) {sv es : CDoc} {i : Nat} {ep : Json} (h : PortViewOk sv) (he : (sliceEndpoints es)[i]? = some ep) :
    ∃ c, UnwindsTo endpointsPath i (epDoc sv es) c := by
  obtain ⟨l, hl, hi⟩ := endpoints_list he
  exact unwinds_exists base (by unfold Words; decide) ⟨by decide, by decide⟩ (epDoc_endpoints.mpr hl) (epDoc_row h).named (List.getElem?_eq_some_iff.mp hi).1

theorem nested_endpoint {c : CDoc} {ep : Json} (h : nested c.1 endpointsPath = some ep) (p : List String) : nested c.1 ("endpoints" :: p) = ep.at p := by
  rw [nested_one] at h
  rw [nested_cons, h]
  rfl

/-- **C94** (the selection): the condition is true of the endpoints that are ready and false of the others. -/
theorem C94_ready (base : Env) {c : CDoc} {ep : Json} (h : nested c.1 endpointsPath = some ep) (hok : EndpointOk ep) :
    (EndpointReady ep → CondTrue (fieldEnv base) epReadyE c) ∧ (¬ EndpointReady ep → CondFalse (fieldEnv base) epReadyE c) := by
  have hv : ∀ v, nested c.1 epReadyPath = some v → v = .null ∨ ∃ b, v = .bool b := by
    rw [nested_endpoint h]; exact hok.1
  have e1 := eval_ordinary base (k := "endpoints") (p := ["conditions", "ready"]) (by unfold Words; decide) (m := c.1) (by
    intro v h; rcases hv v h with rfl | ⟨b, rfl⟩ <;> intro s hs <;> cases hs)
  have a := C32_eq _ _ _ _ _ _ e1 (show eval (fieldEnv base) (.lit "@bool" (.bool true)) _ = .ok (.bool true) from rfl) (by
    intro l hl
    cases hn : nested c.1 epReadyPath with
    | none => rw [hn] at hl; cases hl
    | some v =>
      rw [hn] at hl
      rcases hv v hn with rfl | ⟨b, rfl⟩ <;> cases hl)
  unfold CondTrue CondFalse epReadyE EndpointReady
  rw [a, nested_endpoint h]
  constructor
  · intro hr; rw [hr]; simp
  · intro hr
    cases hn : ep.at ["conditions", "ready"] with
    | none => simp
    | some v =>
      have : v ≠ .bool true := fun e => hr (by rw [hn, e])
      simp [this]

theorem addr_unwinds {sv c c' : CDoc} {ep : Json} {k : Nat} (h : EpRow sv c) (he : nested c.1 endpointsPath = some ep) (hu : UnwindsTo addressesPath k c c') :
    ∃ a, (endpointAddresses ep)[k]? = some a ∧ EpRow sv c' ∧ nested c'.1 addressesPath = some a := by
  have hr := row_unwinds h (by decide) (by decide) hu
  obtain ⟨l, v, n, u1, u2, u3, u4, u5, u6⟩ := hu
  refine ⟨v, ?_, hr, u4⟩
  rw [nested_endpoint he] at u1
  unfold endpointAddresses
  rw [u1]
  exact u2

theorem addr_unwinds_exists (base : Env) {sv c : CDoc} {ep a : Json} {k : Nat} (h : EpRow sv c) (he : nested c.1 endpointsPath = some ep)
    (ha : (endpointAddresses ep)[k]? = some a) : ∃ c', UnwindsTo addressesPath k c c' := by
  obtain ⟨l, hl, hi⟩ := addresses_list ha
  exact unwinds_exists base (by unfold Words; decide) ⟨by decide, by decide⟩ ((nested_endpoint he _).trans hl) h.named (List.getElem?_eq_some_iff.mp hi).1

/-! ## The other projections -/

/-- What the second projection makes. -/
def epMap2 (sv : CDoc) (a : Json) : SMap Json := [("metadata", .map [("namespace", valueAt sv nsPath)]), ("spec", .map (epSpec sv a))]

/-- What the third projection makes, when the name is `n`. -/
def epMap3 (n : String) (sv : CDoc) (a : Json) : SMap Json := [("metadata", .map [("name", .str n), ("namespace", valueAt sv nsPath)]), ("spec", .map (epSpec sv a))]

theorem epSpec_canon (sv : CDoc) {a : Json} (ha : a.Canon) : (Json.map (epSpec sv a)).Canon := by
  have h1 := valueAt_canon sv portPath
  have h2 := valueAt_canon sv protocolPath
  have h3 := valueAt_canon sv svcNamePath
  have h4 := valueAt_canon sv targetPortPath
  have h5 := valueAt_canon sv typePath
  unfold valueAt at h1 h2 h3 h4 h5
  simp [epSpec, SMap.Sorted, Json.Canon, Json.CanonM, h1, h2, h3, h4, h5, ha]

theorem epMap2_canon (sv : CDoc) {a : Json} (ha : a.Canon) : (Json.map (epMap2 sv a)).Canon := by
  have h1 := epSpec_canon sv ha
  have h2 := valueAt_canon sv nsPath
  simp only [Json.Canon] at h1
  simp [epMap2, SMap.Sorted, Json.Canon, Json.CanonM, h1, h2]
  exact h1.1

theorem epMap3_canon (n : String) (sv : CDoc) {a : Json} (ha : a.Canon) : (Json.map (epMap3 n sv a)).Canon := by
  have h1 := epSpec_canon sv ha
  have h2 := valueAt_canon sv nsPath
  simp only [Json.Canon] at h1
  simp [epMap3, SMap.Sorted, Json.Canon, Json.CanonM, h1, h2]
  exact h1.1

theorem ep_projects2 (base : Env) {sv c' : CDoc} {a : Json} (hok : PortViewOk sv) (ha : a.Ordinary) (h : EpRow sv c') (h' : nested c'.1 addressesPath = some a) (c : CDoc) :
    Projects (fieldEnv base) epProj2 c' c ↔ c.1 = epMap2 sv a := by
  obtain ⟨⟨n, ns, sn, ⟨hn, hns⟩, hsn, o1, o2, o3⟩, ho⟩ := hok
  have ons : ∀ v, nested sv.1 nsPath = some v → v.Ordinary := by rw [hns]; intro v hv; cases hv; exact o2
  have osn : ∀ v, nested sv.1 svcNamePath = some v → v.Ordinary := by rw [hsn]; intro v hv; cases hv; exact o3
  have oad : ∀ v, nested c'.1 addressesPath = some v → v.Ordinary := by rw [h']; intro v hv; cases hv; exact ha
  have a1 := eval_ordinary base (k := "metadata") (p := ["namespace"]) (by unfold Words; decide) (m := c'.1) (by rw [h.ns]; exact ons)
  have a2 := eval_ordinary base (k := "endpoints") (p := ["addresses"]) (by unfold Words; decide) (m := c'.1) oad
  have a3 := eval_ordinary base (k := "spec") (p := ["ports", "port"]) (by unfold Words; decide) (m := c'.1) (by rw [h.spec]; exact ho portPath (by simp))
  have a4 := eval_ordinary base (k := "spec") (p := ["ports", "protocol"]) (by unfold Words; decide) (m := c'.1) (by rw [h.spec]; exact ho protocolPath (by simp))
  have a5 := eval_ordinary base (k := "spec") (p := ["serviceName"]) (by unfold Words; decide) (m := c'.1) (by rw [h.spec]; exact osn)
  have a6 := eval_ordinary base (k := "spec") (p := ["ports", "targetPort"]) (by unfold Words; decide) (m := c'.1) (by rw [h.spec]; exact ho targetPortPath (by simp))
  have a7 := eval_ordinary base (k := "spec") (p := ["type"]) (by unfold Words; decide) (m := c'.1) (by rw [h.spec]; exact ho typePath (by simp))
  rw [h.ns] at a1
  rw [h'] at a2
  rw [h.spec] at a3 a4 a5 a6 a7
  have d1 := eval_dict_ok [("namespace", _, _)] (by
    simp only [List.mem_cons, List.not_mem_nil, or_false, forall_eq]
    exact ⟨⟨by decide, by decide⟩, a1, ordinary_getD ons⟩)
  have d2 := eval_dict_ok [("address", _, _), ("port", _, _), ("protocol", _, _), ("serviceName", _, _), ("targetPort", _, _), ("type", _, _)] (by
    simp only [List.mem_cons, List.not_mem_nil, or_false, forall_eq_or_imp, forall_eq]
    exact ⟨⟨⟨by decide, by decide⟩, a2, ha⟩, ⟨⟨by decide, by decide⟩, a3, ordinary_getD (ho portPath (by simp))⟩,
      ⟨⟨by decide, by decide⟩, a4, ordinary_getD (ho protocolPath (by simp))⟩, ⟨⟨by decide, by decide⟩, a5, ordinary_getD osn⟩,
      ⟨⟨by decide, by decide⟩, a6, ordinary_getD (ho targetPortPath (by simp))⟩, ⟨by decide, by decide⟩, a7, ordinary_getD (ho typePath (by simp))⟩)
  have d3 := eval_dict_ok [("metadata", _, _), ("spec", _, _)] (by
    simp only [List.mem_cons, List.not_mem_nil, or_false, forall_eq_or_imp, forall_eq]
    exact ⟨⟨⟨by decide, by decide⟩, d1, ordinary_map _⟩, ⟨by decide, by decide⟩, d2, ordinary_map _⟩)
  have key : eval (fieldEnv base) epProj2 ⟨.map c'.1, .null⟩ = .ok (.map (epMap2 sv a)) := by
    refine d3.trans ?_
    simp only [List.foldl_cons, List.foldl_nil, SMap.set, epMap2, epSpec, valueAt, String.reduceEq, String.reduceLT, if_false, Option.getD_some]
  exact projects_eval key c

theorem ordinary_dash {s t : String} (h : (Json.str s).Ordinary) : (Json.str (s ++ "-" ++ t)).Ordinary := by
  obtain ⟨h1, h2⟩ := h s rfl
  rintro u e
  cases e
  have hl : (s ++ "-" ++ t).toList = s.toList ++ '-' :: t.toList := by
    rw [String.toList_append, String.toList_append, List.append_assoc]; rfl
  constructor
  · intro e
    have : '-' ∈ (s ++ "-" ++ t).toList := by rw [hl]; simp
    rw [e] at this
    exact absurd this (by decide)
  · rw [hl]
    cases hs : s.toList with
    | nil => simp
    | cons c r => rw [hs] at h2; simpa using h2

theorem epName_eval (base : Env) {sv : CDoc} {a : Json} {sn : String} {c : CDoc} (hsn : nested sv.1 svcNamePath = some (.str sn)) (ho : (Json.str sn).Ordinary)
    (hc : c.1 = epMap2 sv a) : eval (fieldEnv base) epNameE ⟨.map c.1, .null⟩ = .ok (.str (epName base sn sv a)) := by
  have n1 : nested c.1 svcNamePath = some (.str sn) := by
    rw [hc]
    show some (valueAt sv svcNamePath) = _
    unfold valueAt; rw [hsn]; rfl
  have n2 : nested c.1 ["spec"] = some (.map (epSpec sv a)) := by rw [hc]; rfl
  have e1 := eval_ordinary base (k := "spec") (p := ["serviceName"]) (by unfold Words; decide) (m := c.1) (by rw [n1]; intro v hv; cases hv; exact ho)
  have e3 := eval_ordinary base (k := "spec") (p := []) (by unfold Words; decide) (m := c.1) (by rw [n2]; intro v hv; cases hv; exact ordinary_map _)
  rw [n1] at e1
  rw [n2] at e3
  have e2 := eval_text (env := fieldEnv base) (ctx := ⟨.map c.1, .null⟩) (s := "-") (by intro s h; cases h; decide)
  have e4 : eval (fieldEnv base) (.app "@hash" (strE (pathString ["spec"]))) ⟨.map c.1, .null⟩ = .ok (.str (base.hash (.map (epSpec sv a)))) := by
    rw [eval_strict e3 (by decide) (by decide) (by decide) (by decide) (by decide) (by decide)]
    simp [strictOp, fieldEnv]
    rfl
  have hl3 := eval_list_ok (seqAll_three e1 e2 e4)
  unfold epNameE opList
  rw [eval_strict hl3 (by decide) (by decide) (by decide) (by decide) (by decide) (by decide)]
  simp [strictOp, unpackList, listOf, asList, mapAll, asString, Except.map, epName]

theorem ep_projects3 (base : Env) {sv : CDoc} {a : Json} {sn : String} {c : CDoc} (hsn : nested sv.1 svcNamePath = some (.str sn)) (ho : (Json.str sn).Ordinary)
    (hc : c.1 = epMap2 sv a) (c' : CDoc) : Projects (fieldEnv base) epProj3 c c' ↔ c'.1 = epMap3 (epName base sn sv a) sv a := by
  have e1 := epName_eval base hsn ho hc
  have d1 := eval_dict_ok [("name", _, _)] (by
    simp only [List.mem_cons, List.not_mem_nil, or_false, forall_eq]
    exact ⟨⟨by decide, by decide⟩, e1, ordinary_dash ho⟩)
  have d2 := eval_dict_ok [("metadata", _, _)] (by
    simp only [List.mem_cons, List.not_mem_nil, or_false, forall_eq]
    exact ⟨⟨by decide, by decide⟩, d1, ordinary_map _⟩)
  have d0 : eval (fieldEnv base) (.dict "@dict" [("$.", strE "$.")]) ⟨.map c.1, .null⟩ = .ok (.map (epMap2 sv a)) := by
    rw [hc]
    rfl
  have key := eval_list_ok (seqAll_two d0 d2)
  simp only [List.foldl_cons, List.foldl_nil, SMap.set, unpackList] at key
  unfold Projects
  rw [show eval (fieldEnv base) epProj3 ⟨.map c.1, .null⟩ = _ from key]
  have hm : mergeAll .null [.map (epMap2 sv a), .map [("metadata", .map [("name", .str (epName base sn sv a))])]] = some (.map (epMap3 (epName base sn sv a) sv a)) := rfl
  constructor
  · rintro (h | ⟨us, h, h'⟩)
    · simp at h
    · simp only [Except.ok.injEq, Json.list.injEq] at h
      rw [← h] at h'
      have := hm.symm.trans h'
      simp only [Option.some.injEq, Json.map.injEq] at this
      exact this.symm
  · intro h
    exact .inr ⟨[epMap2 sv a, [("metadata", .map [("name", .str (epName base sn sv a))])]], rfl, by rw [h]; exact hm⟩

/-! ## The pipeline -/

theorem version_portView {hist : List (Delta CDoc)} (h : ∀ δ ∈ hist, objGVK δ.obj.1 = svcViewK → PortViewOk δ.obj) {d : CDoc} (hv : Versions jsonOps hist svcViewK d) :
    PortViewOk d := by
  obtain ⟨δ, hδ, hg, rfl⟩ := hv
  obtain ⟨⟨n, ns, sn, ⟨a1, a2⟩, a3, a4⟩, b⟩ := h δ hδ hg
  have off : ∀ p ∈ [namePath, nsPath, svcNamePath, typePath, portPath, protocolPath, targetPortPath], nested (jsonOps.removeUID δ.obj).1 p = nested δ.obj.1 p := by
    intro p hp
    simp only [List.mem_cons, List.not_mem_nil, or_false] at hp
    rcases hp with rfl | rfl | rfl | rfl | rfl | rfl | rfl <;> exact removeUID_off δ.obj.2 (by decide) (by decide)
  refine ⟨⟨n, ns, sn, ⟨(off _ (by simp)).trans a1, (off _ (by simp)).trans a2⟩, (off _ (by simp)).trans a3, a4⟩, fun p hp v hv => b p hp v ((off p ?_).symm.trans hv)⟩
  simp only [List.mem_cons, List.not_mem_nil, or_false] at hp ⊢
  rcases hp with rfl | rfl | rfl | rfl <;> simp

theorem version_slice {hist : List (Delta CDoc)} (h : ∀ δ ∈ hist, objGVK δ.obj.1 = sliceK → SliceOk δ.obj) {d : CDoc} (hv : Versions jsonOps hist sliceK d) : SliceOk d := by
  obtain ⟨δ, hδ, hg, rfl⟩ := hv
  obtain ⟨a, b, c⟩ := h δ hδ hg
  have off : ∀ p ∈ [nsPath, ofServicePath, endpointsPath], nested (jsonOps.removeUID δ.obj).1 p = nested δ.obj.1 p := by
    intro p hp
    simp only [List.mem_cons, List.not_mem_nil, or_false] at hp
    rcases hp with rfl | rfl | rfl <;> exact removeUID_off δ.obj.2 (by decide) (by decide)
  refine ⟨fun p hp v hv => a p hp v ((off p ?_).symm.trans hv), by rw [off _ (by simp)]; exact b, fun ep hep => c ep ?_⟩
  · simp only [List.mem_cons, List.not_mem_nil, or_false] at hp ⊢
    rcases hp with rfl | rfl <;> simp
  · unfold sliceEndpoints at hep ⊢
    rw [off _ (by simp)] at hep
    exact hep

/-- What the controller computes: one document for each combination of a port and a ready address. -/
theorem ep_computes (base : Env) (hq : ReadsOfService base) {srt : List Json → List Json} {hist : List (Delta CDoc)}
    (h1 : ∀ δ ∈ hist, objGVK δ.obj.1 = svcViewK → PortViewOk δ.obj) (h2 : ∀ δ ∈ hist, objGVK δ.obj.1 = sliceK → SliceOk δ.obj)
    {r : List CDoc} (h : Computes (fieldEnv base) srt hist epSources epSpecOps r) :
    Family (fun l : (List CDoc × Nat) × Nat => ∃ sv es a, l.1.1 = [sv, es] ∧ LiveEndpoint hist sv es l.1.2 l.2 a)
      (fun l c => ∃ sv es a sn, l.1.1 = [sv, es] ∧ LiveEndpoint hist sv es l.1.2 l.2 a ∧ nested sv.1 svcNamePath = some (.str sn) ∧
        c.1 = epMap3 (epName base sn sv a) sv a) r := by
  obtain ⟨xs, ops, hstart, hrows⟩ := h
  obtain ⟨rfl, f0⟩ := family_join (by decide) hstart (V := fun ds => ∃ sv es, ds = [sv, es] ∧ LiveObj hist svcViewK sv ∧ LiveObj hist sliceK es ∧ Serves es sv) (fun ds => by
    rw [liveTuple_two]
    constructor
    · rintro ⟨sv, es, rfl, l1, l2, hs⟩
      have hj := joinedDoc_combines (names := epSources.map GVK.kind) (by decide) [sv, es]
      exact ⟨⟨sv, es, rfl, l1, l2⟩, _, hj, (C94_condition base hq (version_portView h1 (liveAs_version l1)) (version_slice h2 (liveAs_version l2)) hj).1 hs⟩
    · rintro ⟨⟨sv, es, rfl, l1, l2⟩, j, hj, hc⟩
      refine ⟨sv, es, rfl, l1, l2, Classical.byContradiction fun hs => ?_⟩
      have hf := (C94_condition base hq (version_portView h1 (liveAs_version l1)) (version_slice h2 (liveAs_version l2)) hj).2 hs
      unfold CondTrue at hc
      unfold CondFalse at hf
      rw [hc] at hf
      simp at hf)
  obtain ⟨m1, s1, m2, s2, m3, s3, m4, s4, m5, s5, m6, s6, rfl⟩ := hrows
  have f1 := family_project (R' := fun ds c => ∃ sv es, ds = [sv, es] ∧ c = epDoc sv es) f0 s1 (by
    rintro ds j c ⟨sv, es, rfl, l1, l2, hs⟩ hj hc
    exact ⟨sv, es, rfl, (ep_projects base (version_portView h1 (liveAs_version l1)) (version_slice h2 (liveAs_version l2)) hj c).mp hc⟩)
  have f2 := family_unwind (path := endpointsPath) (by unfold Words; decide)
    (V' := fun l => ∃ sv es, l.1 = [sv, es] ∧ (LiveObj hist svcViewK sv ∧ LiveObj hist sliceK es ∧ Serves es sv) ∧ ∃ ep, (sliceEndpoints es)[l.2]? = some ep)
    (R' := fun l c => ∃ sv es ep, l.1 = [sv, es] ∧ (sliceEndpoints es)[l.2]? = some ep ∧ EpRow sv c ∧ nested c.1 endpointsPath = some ep) f1 s2
    (by rintro l i ⟨sv, es, e, hl, _⟩; exact ⟨sv, es, e, hl⟩)
    (by
      rintro l x i c ⟨sv, es, rfl, hl⟩ ⟨sv', es', e, rfl⟩ hu
      cases e
      obtain ⟨ep, a1, a2, a3⟩ := ep_unwinds (version_portView h1 (liveAs_version hl.1)) hu
      exact ⟨⟨sv, es, rfl, hl, ep, a1⟩, sv, es, ep, rfl, a1, a2, a3⟩)
    (by
      rintro l x i ⟨sv, es, rfl, hl⟩ ⟨sv', es', e, rfl⟩ ⟨sv'', es'', e', _, ep, hep⟩
      cases e
      cases e'
      exact ep_unwinds_exists base (version_portView h1 (liveAs_version hl.1)) hep)
  have f3 := family_select (fun l : List CDoc × Nat => ∃ sv es ep, l.1 = [sv, es] ∧ (sliceEndpoints es)[l.2]? = some ep ∧ EndpointReady ep) f2 s3
    (by
      rintro l x ⟨sv, es, e, hl, _⟩ ⟨sv', es', ep, e', hep, hr, hx⟩ ⟨sv'', es'', ep', e'', hep', hrd⟩
      rw [e] at e' e''
      cases e'
      cases e''
      rw [hep] at hep'
      cases hep'
      exact (C94_ready base hx ((version_slice h2 (liveAs_version hl.2.1)).2.2 ep (List.mem_of_getElem? hep))).1 hrd)
    (by
      rintro l x ⟨sv, es, e, hl, _⟩ ⟨sv', es', ep, e', hep, hr, hx⟩ hn
      rw [e] at e'
      cases e'
      exact (C94_ready base hx ((version_slice h2 (liveAs_version hl.2.1)).2.2 ep (List.mem_of_getElem? hep))).2 (fun hrd => hn ⟨sv, es, ep, e, hep, hrd⟩))
  have f4 := family_unwind (path := addressesPath) (by unfold Words; decide)
    (V' := fun l : (List CDoc × Nat) × Nat => ∃ sv es a, l.1.1 = [sv, es] ∧ LiveEndpoint hist sv es l.1.2 l.2 a)
    (R' := fun l c => ∃ sv es a, l.1.1 = [sv, es] ∧ LiveEndpoint hist sv es l.1.2 l.2 a ∧ EpRow sv c ∧ nested c.1 addressesPath = some a) f3 s4
    (by
      rintro l k ⟨sv, es, a, e, l1, l2, l3, ep, l4, l5, l6⟩
      exact ⟨⟨sv, es, e, ⟨l1, l2, l3⟩, ep, l4⟩, sv, es, ep, e, l4, l5⟩)
    (by
      rintro l x k c ⟨⟨sv, es, e, hl, _⟩, sv', es', ep, e', hep, hrd⟩ ⟨sv'', es'', ep', e'', hep', hr, hx⟩ hu
      rw [e] at e' e''
      cases e'
      cases e''
      rw [hep] at hep'
      cases hep'
      obtain ⟨a, a1, a2, a3⟩ := addr_unwinds hr hx hu
      have hlive : LiveEndpoint hist sv es l.2 k a := ⟨hl.1, hl.2.1, hl.2.2, ep, hep, hrd, a1⟩
      exact ⟨⟨sv, es, a, e, hlive⟩, sv, es, a, e, hlive, a2, a3⟩)
    (by
      rintro l x k ⟨⟨sv, es, e, hl, _⟩, _⟩ ⟨sv', es', ep, e', hep, hr, hx⟩ ⟨sv'', es'', a, e'', _, _, _, ep', hep', _, ha⟩
      rw [e] at e'
      cases e'
      simp only [e] at e''
      cases e''
      rw [hep] at hep'
      cases hep'
      exact addr_unwinds_exists base hr hx ha)
  have f5 := family_project (R' := fun (l : (List CDoc × Nat) × Nat) c => ∃ sv es a, l.1.1 = [sv, es] ∧ LiveEndpoint hist sv es l.1.2 l.2 a ∧ c.1 = epMap2 sv a) f4 s5 (by
    rintro l x c _ ⟨sv, es, a, e, hl, hr, hx⟩ hc
    have hes := version_slice h2 (liveAs_version hl.2.1)
    obtain ⟨_, _, _, ep, hep, _, ha⟩ := id hl
    exact ⟨sv, es, a, e, hl, (ep_projects2 base (version_portView h1 (liveAs_version hl.1)) ((hes.2.2 ep (List.mem_of_getElem? hep)).2.2 a (List.mem_of_getElem? ha)) hr hx c).mp hc⟩)
  exact family_project f5 s6 (by
    rintro l x c _ ⟨sv, es, a, e, hl, hx⟩ hc
    obtain ⟨⟨n, ns, sn, _, hsn, _, _, ho⟩, _⟩ := version_portView h1 (liveAs_version hl.1)
    exact ⟨sv, es, a, sn, e, hl, hsn, (ep_projects3 base hsn ho hx c).mp hc⟩)

theorem ep_key {n : String} {sv : CDoc} {a : Json} {c : CDoc} {ns : String} (hns : nested sv.1 nsPath = some (.str ns)) (hc : c.1 = epMap3 n sv a) :
    nested c.1 namePath = some (.str n) ∧ nested c.1 nsPath = some (.str ns) ∧ objKey c.1 = (ns, n) := by
  have e1 : nested c.1 namePath = some (.str n) := by rw [hc]; rfl
  have e2 : nested c.1 nsPath = some (.str ns) := by
    rw [hc]
    show some (valueAt sv nsPath) = _
    unfold valueAt; rw [hns]; rfl
  exact ⟨e1, e2, by simp only [objKey, nestedString, e1, e2]⟩

theorem ep_fields {hist : List (Delta CDoc)} (base : Env) {srt : List Json → List Json}
    (h1 : ∀ δ ∈ hist, objGVK δ.obj.1 = svcViewK → PortViewOk δ.obj) (h2 : ∀ δ ∈ hist, objGVK δ.obj.1 = sliceK → SliceOk δ.obj) :
    FieldSpecOn (fieldEnv base) srt (afterJoin epSpecOps) (StartVersions (fieldEnv base) hist epSources epSpecOps) ∧
    EvaluatesOn (fieldEnv base) srt (afterJoin epSpecOps) (StartVersions (fieldEnv base) hist epSources epSpecOps) := by
  -- the documents between the operations
  let P1 : CDoc → Prop := fun c => ∃ sv es, PortViewOk sv ∧ SliceOk es ∧ c = epDoc sv es
  let P2 : CDoc → Prop := fun c => ∃ sv ep, PortViewOk sv ∧ EndpointOk ep ∧ EpRow sv c ∧ nested c.1 endpointsPath = some ep
  let P4 : CDoc → Prop := fun c => ∃ sv a, PortViewOk sv ∧ a.Ordinary ∧ EpRow sv c ∧ nested c.1 addressesPath = some a
  let P5 : CDoc → Prop := fun c => ∃ sv a, PortViewOk sv ∧ a.Canon ∧ c.1 = epMap2 sv a
  have s0 : ∀ j, StartVersions (fieldEnv base) hist epSources epSpecOps j → ∃ sv es, PortViewOk sv ∧ SliceOk es ∧ Combines (epSources.map GVK.kind) [sv, es] j := by
    rintro j ⟨ds, hds, hj, _⟩
    obtain ⟨sv, es, rfl, hs, he⟩ := tupleIn_two hds
    exact ⟨sv, es, version_portView h1 hs, version_slice h2 he, hj⟩
  have s1 : ∀ c, (∃ d, StartVersions (fieldEnv base) hist epSources epSpecOps d ∧ Projects (fieldEnv base) epProj d c) → P1 c := by
    rintro c ⟨j, hj, hc⟩
    obtain ⟨sv, es, o1, o2, hj⟩ := s0 j hj
    exact ⟨sv, es, o1, o2, (ep_projects base o1 o2 hj c).mp hc⟩
  have s2 : ∀ d i c, P1 d → UnwindsTo endpointsPath i d c → P2 c := by
    rintro d i c ⟨sv, es, o1, o2, rfl⟩ hu
    obtain ⟨ep, e1, e2, e3⟩ := ep_unwinds o1 hu
    exact ⟨sv, ep, o1, o2.2.2 ep (List.mem_of_getElem? e1), e2, e3⟩
  have s4 : ∀ d k c, P2 d → UnwindsTo addressesPath k d c → P4 c := by
    rintro d k c ⟨sv, ep, o1, o2, hr, hx⟩ hu
    obtain ⟨a, e1, e2, e3⟩ := addr_unwinds hr hx hu
    exact ⟨sv, a, o1, o2.2.2 a (List.mem_of_getElem? e1), e2, e3⟩
  have s5 : ∀ d c, P4 d → Projects (fieldEnv base) epProj2 d c → P5 c := by
    rintro d c ⟨sv, a, o1, o2, hr, hx⟩ hc
    exact ⟨sv, a, o1, at_canon (j := .map d.1) d.2 hx, (ep_projects2 base o1 o2 hr hx c).mp hc⟩
  have w1 : Words endpointsPath := by unfold Words; decide
  have w2 : Words addressesPath := by unfold Words; decide
  constructor
  · refine fieldSpecOn_mono (ops := [.unwind (strE (pathString endpointsPath)), .select epReadyE, .unwind (strE (pathString addressesPath)), .project epProj2,
      .project epProj3]) (P := P1) s1 ⟨⟨"endpoints", [], rfl, w1, ⟨by decide, by decide⟩⟩, ?_, ?_⟩
    · rintro d ⟨sv, es, o1, o2, rfl⟩
      exact (epDoc_row o1).named
    · refine fieldSpecOn_mono (ops := [.unwind (strE (pathString addressesPath)), .project epProj2, .project epProj3]) (P := Named) ?_
        ⟨⟨"endpoints", ["addresses"], rfl, w2, ⟨by decide, by decide⟩⟩, fun _ h => h, trivial⟩
      rintro c ⟨⟨_, _, _, _, _, _, _, _, _, _, _, _, h, _⟩, _⟩
      exact ⟨_, h⟩
  · refine ⟨fun j hj => ?_, evaluatesOn_mono (ops := [.unwind (strE (pathString endpointsPath)), .select epReadyE, .unwind (strE (pathString addressesPath)), .project epProj2,
      .project epProj3]) (P := P1) s1 ⟨endpointsPath, rfl, w1, ?_, evaluatesOn_mono (ops := [.select epReadyE, .unwind (strE (pathString addressesPath)), .project epProj2,
      .project epProj3]) (P := P2) (fun c ⟨d, i, hd, hu⟩ => s2 d i c hd hu) ⟨?_, evaluatesOn_mono (ops := [.unwind (strE (pathString addressesPath)), .project epProj2,
      .project epProj3]) (P := P2) (fun c hc => hc.1) ⟨addressesPath, rfl, w2, ?_, evaluatesOn_mono (ops := [.project epProj2, .project epProj3]) (P := P4)
      (fun c ⟨d, i, hd, hu⟩ => s4 d i c hd hu) ⟨?_, evaluatesOn_mono (ops := [.project epProj3]) (P := P5) (fun c ⟨d, hd, hc⟩ => s5 d c hd hc) ⟨?_, trivial⟩⟩⟩⟩⟩⟩
    · obtain ⟨sv, es, o1, o2, hj⟩ := s0 j hj
      exact ⟨_, (ep_projects base o1 o2 hj _).mpr rfl⟩
    · rintro d ⟨sv, es, o1, o2, rfl⟩
      rcases o2.2.1 with h | ⟨l, h⟩
      · exact .inl h
      · exact .inr ⟨l, epDoc_endpoints.mpr h⟩
    · rintro d ⟨sv, ep, o1, o2, hr, hx⟩
      by_cases h : EndpointReady ep
      · exact .inl ((C94_ready base hx o2).1 h)
      · exact .inr ((C94_ready base hx o2).2 h)
    · rintro d ⟨sv, ep, o1, o2, hr, hx⟩
      rw [nested_endpoint hx]
      exact o2.2.1
    · rintro d ⟨sv, a, o1, o2, hr, hx⟩
      exact ⟨⟨_, epMap2_canon sv (at_canon (j := .map d.1) d.2 hx)⟩, (ep_projects2 base o1 o2 hr hx _).mpr rfl⟩
    · rintro d ⟨sv, a, o1, ha, hd⟩
      obtain ⟨⟨n, ns, sn, _, hsn, _, _, ho⟩, _⟩ := o1
      exact ⟨⟨_, epMap3_canon _ sv ha⟩, (ep_projects3 base hsn ho hd _).mpr rfl⟩

/-- **C94** (partial): after any history of the watches, starting from a cluster without EndpointViews, no evaluation has failed, and there is an EndpointView for each
combination of a live ServiceView and a ready address in the live EndpointSlices of its Service, and no other; it is in the namespace of the ServiceView and its name
is made of the name of the Service and the hash of the combination, which is its spec; and nothing but EndpointViews has changed. Missing: addresses that are there twice
(see `C94_duplicate`), combinations with the same hash, fields that look like paths, and failing or reordered writes. -/
theorem C94_views_partial (base : Env) (H : base.Canon) (hq : ReadsOfService base) (srt : List Json → List Json) (hcan : ∀ l : List Json, (∀ x ∈ l, x.Canon) → ∀ x ∈ srt l, x.Canon)
    {env : Env} {spec : List SpecOp} (hspec : unmarshalPipeline env epViewJson = .ok spec) {p0 : Pipe CDoc AnyVal}
    (hnew : newSpecPipe (fieldEnv base) srt epViewK epSources spec = .ok p0) {hist : List (EvalOrder CDoc × Delta CDoc)} (hh : EpHist hist)
    (hdup : ∀ pre, pre <+: hist.map Prod.snd → NoDuplicates pre) (hhash : ∀ pre, pre <+: hist.map Prod.snd → HashTells base pre)
    {c0 : Cluster} (hc0 : AMap.WF c0) (h0 : ∀ k, c0.get (epViewK, k) = none) :
    ∃ wss : List (List (Delta CDoc)), (runs (fun p (e : EvalOrder CDoc × Delta CDoc) => p.evaluate jsonOps e.1 e.2) p0 hist).2 = wss.map Except.ok ∧
      (∀ sv es i k a ns sn, LiveEndpoint (hist.map Prod.snd) sv es i k a → nested sv.1 nsPath = some (.str ns) → nested sv.1 svcNamePath = some (.str sn) →
        ∃ obj, (clusterAfter epViewK c0 wss.flatten).get (epViewK, (ns, epName base sn sv a)) = some obj ∧ nested obj ["spec"] = some (.map (epSpec sv a))) ∧
      (∀ key obj, (clusterAfter epViewK c0 wss.flatten).get (epViewK, key) = some obj →
        ∃ sv es i k a ns sn, LiveEndpoint (hist.map Prod.snd) sv es i k a ∧ nested sv.1 nsPath = some (.str ns) ∧ nested sv.1 svcNamePath = some (.str sn) ∧
          key = (ns, epName base sn sv a) ∧ objKey obj = key ∧ nested obj ["spec"] = some (.map (epSpec sv a))) ∧
      ∀ k, k.1 ≠ epViewK → (clusterAfter epViewK c0 wss.flatten).get k = c0.get k := by
  rw [C94_read] at hspec
  cases hspec
  have h1 : ∀ δ ∈ hist.map Prod.snd, objGVK δ.obj.1 = svcViewK → PortViewOk δ.obj := by
    intro δ hδ
    obtain ⟨e, he, rfl⟩ := List.mem_map.mp hδ
    exact hh.views e he
  have h2 : ∀ δ ∈ hist.map Prod.snd, objGVK δ.obj.1 = sliceK → SliceOk δ.obj := by
    intro δ hδ
    obtain ⟨e, he, rfl⟩ := List.mem_map.mp hδ
    exact hh.slices e he
  obtain ⟨hfs, hev⟩ := ep_fields base (srt := srt) h1 h2
  have hname : ∀ {sn : String} {sv : CDoc} {a : Json}, epName base sn sv a ≠ "" := by
    intro sn sv a h
    have : '-' ∈ (epName base sn sv a).toList := by unfold epName; rw [String.toList_append, String.toList_append]; simp
    rw [h] at this
    exact absurd this (by decide)
  obtain ⟨wss, hr, r, hres, b1, b2, b3⟩ := C84_never_fails_versions_partial base H srt hcan epViewK epSources (by decide) epSpecOps p0 hnew hist hh.orders hh.kinds hh.watch
    hfs (fun ds j hds hj => by
      obtain ⟨sv, es, rfl, hs, he⟩ := tupleIn_two hds
      have hc := C94_condition base hq (version_portView h1 hs) (version_slice h2 he) hj
      by_cases h : Serves es sv
      · exact .inl (hc.1 h)
      · exact .inr (hc.2 h)) hev
    (fun pre hpre r hres => by
      have g1 := fun δ hδ => h1 δ (hpre.subset hδ)
      have g2 := fun δ hδ => h2 δ (hpre.subset hδ)
      have hf := ep_computes base hq g1 g2 hres
      refine ⟨keysApart_names (hf.pairwise ?_), fun c hc => ?_⟩
      · rintro l l' c c' _ _ hne ⟨sv, es, a, sn, e, hl, hsn, hc⟩ ⟨sv', es', a', sn', e', hl', hsn', hc'⟩ hk
        obtain ⟨⟨_, ns, _, ⟨_, hns⟩, _⟩, _⟩ := version_portView g1 (liveAs_version hl.1)
        obtain ⟨⟨_, ns', _, ⟨_, hns'⟩, _⟩, _⟩ := version_portView g1 (liveAs_version hl'.1)
        rw [(ep_key hns hc).2.2, (ep_key hns' hc').2.2] at hk
        simp only [Prod.mk.injEq] at hk
        have hsp := hhash pre hpre _ _ _ _ _ _ _ _ _ _ _ _ hl hl' hsn hsn' hk.2
        obtain ⟨r1, r2, r3, r4⟩ := hdup pre hpre _ _ _ _ _ _ _ _ _ _ hl hl' (by rw [hns, hns', hk.1]) hsp
        subst r1 r2
        refine hne (Prod.ext (Prod.ext (e.trans e'.symm) r3) r4)
      · obtain ⟨l, _, sv, es, a, sn, e, hl, hsn, hc⟩ := hf.mem hc
        obtain ⟨⟨_, ns, _, ⟨_, hns⟩, _⟩, _⟩ := version_portView g1 (liveAs_version hl.1)
        obtain ⟨k1, k2, _⟩ := ep_key hns hc
        exact properName_enforced epViewK ⟨⟨_, k1, hname⟩, fun v hv => ⟨ns, by rw [k2] at hv; cases hv; rfl⟩⟩) c0 hc0 h0
  have hf := ep_computes base hq h1 h2 hres
  have obj_ok : ∀ {sv : CDoc} {a : Json} {c : CDoc} {x obj : SMap Json} {n ns : String}, nested sv.1 nsPath = some (.str ns) → c.1 = epMap3 n sv a →
      enforceDoc epViewK c.1 = .ok x → IsImage x obj → objKey x = (ns, n) ∧ nested obj ["spec"] = some (.map (epSpec sv a)) := by
    intro sv a c x obj n ns hns hc hx him
    obtain ⟨_, _, _, q4, q5, _⟩ := C74_object epViewK c.1 x c.2 hx
    obtain ⟨k1, k2, _⟩ := ep_key hns hc
    refine ⟨by rw [q4]; simp only [nestedString, k1, k2], ?_⟩
    rw [nested_one, him.1 _ (by decide), q5 _ (by decide) (by decide) (by decide), hc]
    rfl
  refine ⟨wss, hr, fun sv es i k a ns sn hl hns hsn => ?_, fun key obj hobj => ?_, b3⟩
  · obtain ⟨c, hc, sv', es', a', sn', e, hl', hsn', hcm⟩ := hf.mem_of (l := (([sv, es], i), k)) ⟨sv, es, a, rfl, hl⟩
    cases e
    have : a' = a := by
      obtain ⟨_, _, _, ep, p1, _, p2⟩ := hl
      obtain ⟨_, _, _, ep', p1', _, p2'⟩ := hl'
      rw [p1] at p1'
      cases p1'
      rw [p2] at p2'
      cases p2'
      rfl
    subst this
    rw [hsn] at hsn'
    cases hsn'
    obtain ⟨k1, k2, _⟩ := ep_key hns hcm
    obtain ⟨x, hx⟩ := properName_enforced epViewK (d := c) ⟨⟨_, k1, hname⟩, fun v hv => ⟨ns, by rw [k2] at hv; cases hv; rfl⟩⟩
    obtain ⟨obj, hobj, him⟩ := b2 c x hc hx
    obtain ⟨q1, q2⟩ := obj_ok hns hcm hx him
    rw [q1] at hobj
    exact ⟨obj, hobj, q2⟩
  · obtain ⟨c, x, hc, hx, hkey, him⟩ := b1 key obj hobj
    obtain ⟨l, _, sv, es, a, sn, e, hl, hsn, hcm⟩ := hf.mem hc
    obtain ⟨⟨_, ns, _, ⟨_, hns⟩, _⟩, _⟩ := version_portView h1 (liveAs_version hl.1)
    obtain ⟨q1, q2⟩ := obj_ok hns hcm hx him
    exact ⟨sv, es, _, _, a, ns, sn, hl, hns, hsn, by rw [← hkey, q1], him.2.1.trans hkey, q2⟩

/-! ### Examples -/

/-- An implementation of the query, and a hash that tells addresses and the ports 80 and 443 apart. -/
def sliceBase : Env := { healthBase with
  jget := fun q j => match j with
    | .map m => if q = ofServiceQuery then .ok ((nested m ("EndpointSlice" :: ofServicePath)).getD .null) else .error .err
    | _ => .error .err
  md5 := fun j => match j.at ["address"], j.at ["port"] with
    | some (.str a), some (.int p) => String.ofList (a.toList.drop 7) ++ (if p = 80 then "p80" else "p443") ++ "abcdef"
    | _, _ => "" }

theorem sliceBase_canon : sliceBase.Canon := by
  refine ⟨fun q j v hj h => ?_, fun _ _ _ _ _ _ h => by cases h⟩
  cases j with
  | map m =>
    simp only [sliceBase] at h
    split at h
    · cases h; exact valueAt_canon ⟨m, hj⟩ ("EndpointSlice" :: ofServicePath)
    · cases h
  | _ => cases h

theorem sliceBase_reads : ReadsOfService sliceBase := fun _ => rfl

/-- The view of a port of a Service. -/
def portView (n : String) (i : Nat) (p : Int) : CDoc := ⟨svcView n i p, by simp [svcView, svcPort, SMap.Sorted, Json.Canon, Json.CanonM]⟩

/-- An endpoint with one address. -/
def sliceEp (a : String) (r : Bool) : Json := .map [("addresses", .list [.str a]), ("conditions", .map [("ready", .bool r)])]

/-- An EndpointSlice of a Service. -/
def slice (n sn : String) (eps : List (String × Bool)) : CDoc :=
  ⟨[("apiVersion", .str "discovery.k8s.io/v1"), ("endpoints", .list (eps.map (fun e => sliceEp e.1 e.2))), ("kind", .str "EndpointSlice"),
    ("metadata", .map [("labels", .map [("kubernetes.io/service-name", .str sn)]), ("name", .str n), ("namespace", .str "d")])], by
    have : Json.CanonL (eps.map (fun e => sliceEp e.1 e.2)) := by
      induction eps with
      | nil => trivial
      | cons q l ih => exact ⟨by simp [sliceEp, SMap.Sorted, Json.Canon, Json.CanonM, Json.CanonL], ih⟩
    simp [SMap.Sorted, Json.Canon, Json.CanonM, this]⟩

theorem portView_ok {n : String} {i : Nat} {p : Int} (h1 : (Json.str (elemName n i)).Ordinary) (h2 : (Json.str n).Ordinary) : PortViewOk (portView n i p) :=
  ⟨⟨_, "d", n, ⟨rfl, rfl⟩, rfl, h1, by intro s h; cases h; decide, h2⟩, by
    intro q hq v hv
    simp only [List.mem_cons, List.not_mem_nil, or_false] at hq
    rcases hq with rfl | rfl | rfl | rfl
    · cases hv; intro s hs; cases hs; decide
    · cases hv; intro s hs; cases hs
    · cases hv; intro s hs; cases hs; decide
    · cases hv⟩

theorem slice_ok {n sn : String} {eps : List (String × Bool)} (h1 : (Json.str sn).Ordinary) (h2 : ∀ e ∈ eps, (Json.str e.1).Ordinary) : SliceOk (slice n sn eps) :=
  ⟨by
    intro q hq v hv
    simp only [List.mem_cons, List.not_mem_nil, or_false] at hq
    rcases hq with rfl | rfl
    · cases hv; intro s hs; cases hs; decide
    · cases hv; exact h1, .inr ⟨_, rfl⟩, by
    intro ep hep
    obtain ⟨e, he, rfl⟩ := List.mem_map.mp hep
    refine ⟨fun v hv => .inr ⟨e.2, ?_⟩, .inr ⟨_, rfl⟩, fun a ha => ?_⟩
    · cases hv; rfl
    · cases List.mem_singleton.mp ha
      exact h2 e he⟩

/-- The pipeline of the controller. -/
def epViewPipe : Pipe CDoc AnyVal :=
  match newSpecPipe (fieldEnv sliceBase) id epViewK epSources epSpecOps with
  | .ok p => p
  | .error _ => { sources := [], target := epViewK, graph := {} }

/-- The endpoints of the example. -/
abbrev epEx1 : CDoc := slice "a" "web" [("10.0.0.1", true), ("10.0.0.2", false)]
/-- Later, the other one is ready. -/
abbrev epEx2 : CDoc := slice "a" "web" [("10.0.0.1", false), ("10.0.0.2", true)]

/-- Two ports of a Service and an EndpointSlice with two endpoints; first the one and then the other is ready. -/
def epViewEx : List (EvalOrder CDoc × Delta CDoc) :=
  [(ω0, ⟨.added, portView "web" 0 80⟩), (ω1, ⟨.added, epEx1⟩), (ω0, ⟨.added, portView "web" 1 443⟩), (ω1, ⟨.updated, epEx2⟩)]

theorem epViewEx_hist : EpHist epViewEx := by
  refine ⟨?_, by decide +kernel, watchOk_of_check jsonOps_lawful (by decide +kernel), ?_, ?_⟩
  · intro e he
    simp only [epViewEx, List.mem_cons, List.not_mem_nil, or_false] at he
    rcases he with rfl | rfl | rfl | rfl <;> first | exact ω0_valid | exact ω1_valid
  · intro e he hk
    simp only [epViewEx, List.mem_cons, List.not_mem_nil, or_false] at he
    rcases he with rfl | rfl | rfl | rfl
    · exact portView_ok (by intro s h; cases h; decide +kernel) (by intro s h; cases h; decide)
    · exact absurd hk (by decide +kernel)
    · exact portView_ok (by intro s h; cases h; decide +kernel) (by intro s h; cases h; decide)
    · exact absurd hk (by decide +kernel)
  · intro e he hk
    simp only [epViewEx, List.mem_cons, List.not_mem_nil, or_false] at he
    rcases he with rfl | rfl | rfl | rfl
    · exact absurd hk (by decide +kernel)
    · exact slice_ok (by intro s h; cases h; decide) (by
        intro e he
        simp only [List.mem_cons, List.not_mem_nil, or_false] at he
        rcases he with rfl | rfl <;> (intro s h; cases h; decide))
    · exact absurd hk (by decide +kernel)
    · exact slice_ok (by intro s h; cases h; decide) (by
        intro e he
        simp only [List.mem_cons, List.not_mem_nil, or_false] at he
        rcases he with rfl | rfl <;> (intro s h; cases h; decide))

theorem slice_live {pre : List (Delta CDoc)} {sv es : CDoc} {i k : Nat} {a : Json} {n sn : String} {eps : List (String × Bool)} (h : LiveEndpoint pre sv es i k a)
    (he : es = slice n sn eps) : k = 0 ∧ ∃ s, eps[i]? = some (s, true) ∧ a = .str s := by
  subst he
  obtain ⟨_, _, _, ep, h1, h2, h3⟩ := h
  rw [show sliceEndpoints (slice n sn eps) = eps.map (fun e => sliceEp e.1 e.2) from rfl, List.getElem?_map] at h1
  obtain ⟨e, h5, rfl⟩ := Option.map_eq_some_iff.mp h1
  rw [show endpointAddresses (sliceEp e.1 e.2) = [.str e.1] from rfl] at h3
  have h2 : some (Json.bool e.2) = some (.bool true) := h2
  cases k with
  | zero => cases h3; refine ⟨rfl, e.1, ?_, rfl⟩; rw [h5]; cases e; cases h2; rfl
  | succ k => cases h3

theorem epViewEx_live {pre : List (Delta CDoc)} (hp : pre <+: epViewEx.map Prod.snd) {sv es : CDoc} {i k : Nat} {a : Json} (h : LiveEndpoint pre sv es i k a) :
    (sv = portView "web" 0 80 ∨ sv = portView "web" 1 443) ∧ objKey es.1 = ("d", "a") ∧ k = 0 ∧ ((i = 0 ∧ a = .str "10.0.0.1") ∨ (i = 1 ∧ a = .str "10.0.0.2")) := by
  obtain ⟨δ, hδ, hg, hv⟩ := liveAs_version h.1
  obtain ⟨ε, hε, hg', he⟩ := liveAs_version h.2.1
  have hδ := hp.subset hδ
  have hε := hp.subset hε
  have e1 : sv = portView "web" 0 80 ∨ sv = portView "web" 1 443 := by
    simp only [epViewEx, List.map_cons, List.map_nil, List.mem_cons, List.not_mem_nil, or_false] at hδ
    rcases hδ with rfl | rfl | rfl | rfl
    · exact .inl (by rw [← hv]; decide +kernel)
    · exact absurd hg (by decide +kernel)
    · exact .inr (by rw [← hv]; decide +kernel)
    · exact absurd hg (by decide +kernel)
  have e2 : es = epEx1 ∨ es = epEx2 := by
    simp only [epViewEx, List.map_cons, List.map_nil, List.mem_cons, List.not_mem_nil, or_false] at hε
    rcases hε with rfl | rfl | rfl | rfl
    · exact absurd hg' (by decide +kernel)
    · exact .inl (by rw [← he]; decide +kernel)
    · exact absurd hg' (by decide +kernel)
    · exact .inr (by rw [← he]; decide +kernel)
  refine ⟨e1, by rcases e2 with rfl | rfl <;> rfl, ?_⟩
  rcases e2 with e2 | e2 <;>
  · obtain ⟨hk, s, hs, ha⟩ := slice_live h e2
    refine ⟨hk, ?_⟩
    rcases i with _ | _ | i
    · first | (cases hs; exact .inl ⟨rfl, ha⟩) | cases hs
    · first | (cases hs; exact .inr ⟨rfl, ha⟩) | cases hs
    · cases hs

theorem epViewEx_dups : ∀ pre, pre <+: epViewEx.map Prod.snd → NoDuplicates pre := by
  intro pre hp sv es i k a sv' es' i' k' a' h h' _ hs
  obtain ⟨v, e, hk, hi⟩ := epViewEx_live hp h
  obtain ⟨v', e', hk', hi'⟩ := epViewEx_live hp h'
  refine ⟨?_, liveAs_unique (k := ("d", "a")) (e ▸ h.2.1.2) (e' ▸ h'.2.1.2), ?_, by rw [hk, hk']⟩
  · rcases v with rfl | rfl <;> rcases v' with rfl | rfl <;> first | rfl | (simp only [epSpec, List.cons.injEq, Prod.mk.injEq] at hs; exact absurd hs.2.1.2 (by decide +kernel))
  · have : a = a' := by simp only [epSpec, List.cons.injEq, Prod.mk.injEq] at hs; exact hs.1.2
    subst this
    rcases hi with ⟨rfl, rfl⟩ | ⟨rfl, rfl⟩ <;> rcases hi' with ⟨rfl, h⟩ | ⟨rfl, h⟩ <;> first | rfl | (simp at h)

theorem epViewEx_hash : ∀ pre, pre <+: epViewEx.map Prod.snd → HashTells sliceBase pre := by
  intro pre hp sv es i k a sn sv' es' i' k' a' sn' h h' hsn hsn' hs
  obtain ⟨v, _, _, hi⟩ := epViewEx_live hp h
  obtain ⟨v', _, _, hi'⟩ := epViewEx_live hp h'
  rcases v with rfl | rfl <;> rcases v' with rfl | rfl <;> rcases hi with ⟨rfl, rfl⟩ | ⟨rfl, rfl⟩ <;> rcases hi' with ⟨rfl, rfl⟩ | ⟨rfl, rfl⟩ <;> cases hsn <;> cases hsn' <;>
    first | rfl | exact absurd hs (by decide +kernel)

-- a port of the example and its EndpointSlice, and one of another Service
example {j : CDoc} (hj : Combines (epSources.map GVK.kind) [portView "web" 0 80, epEx1] j) :=
  (C94_condition sliceBase sliceBase_reads (epViewEx_hist.views (ω0, ⟨.added, portView "web" 0 80⟩) (by simp [epViewEx]) (by decide +kernel))
    (epViewEx_hist.slices (ω1, ⟨.added, epEx1⟩) (by simp [epViewEx]) (by decide +kernel)) hj).1 ⟨⟨.str "web", by decide, rfl, rfl⟩, ⟨.str "d", by decide, rfl, rfl⟩⟩
example {j : CDoc} (hj : Combines (epSources.map GVK.kind) [portView "db" 0 80, epEx1] j) :=
  (C94_condition sliceBase sliceBase_reads (portView_ok (n := "db") (i := 0) (p := 80) (by intro s h; cases h; decide +kernel) (by intro s h; cases h; decide))
    (epViewEx_hist.slices (ω1, ⟨.added, epEx1⟩) (by simp [epViewEx]) (by decide +kernel)) hj).2 (by
      rintro ⟨⟨v, _, h1, h2⟩, _⟩
      rw [show nested (portView "db" 0 80).1 svcNamePath = some (.str "db") from rfl] at h1
      rw [show nested epEx1.1 ofServicePath = some (.str "web") from rfl] at h2
      cases h1
      exact absurd h2 (by decide))
-- the hypotheses hold for the example
example := C94_views_partial sliceBase sliceBase_canon sliceBase_reads id (fun _ h => h) (C94_read sliceBase) (p0 := epViewPipe) rfl epViewEx_hist epViewEx_dups epViewEx_hash
  (c0 := []) (by simp [AMap.WF]) (by intro k; simp [AMap.get])

/-- The cluster after a history. -/
def epViewAfter (hist : List (EvalOrder CDoc × Delta CDoc)) : Cluster :=
  clusterAfter epViewK [] ((runs (fun p (e : EvalOrder CDoc × Delta CDoc) => p.evaluate jsonOps e.1 e.2) epViewPipe hist).2.map (fun r => r.toOption.getD [])).flatten

-- what it computes: a view for each port and the address that is ready
example : (epViewAfter epViewEx).map (fun x => x.1) = [(epViewK, ("d", "web-2p80ab")), (epViewK, ("d", "web-2p443a"))] := by decide +kernel
-- a ready address of the example
example : LiveEndpoint (epViewEx.map Prod.snd) (portView "web" 0 80) epEx2 1 0 (.str "10.0.0.2") :=
  ⟨⟨by decide +kernel, [], _, [_, _, _], rfl, (by unfold Concerns; decide +kernel), by decide, by decide +kernel, (by unfold Concerns; decide +kernel)⟩,
   ⟨by decide +kernel, [_, _, _], _, [], rfl, (by unfold Concerns; decide +kernel), by decide, by decide +kernel, (by unfold Concerns; decide +kernel)⟩,
   ⟨⟨.str "web", by decide, rfl, rfl⟩, ⟨.str "d", by decide, rfl, rfl⟩⟩, sliceEp "10.0.0.2" true, rfl, rfl, rfl⟩

/-- A port and two EndpointSlices of the Service with the same address, as when an endpoint moves from one to the other; then it is deleted from the first. -/
def epViewDup : List (EvalOrder CDoc × Delta CDoc) :=
  [(ω0, ⟨.added, portView "web" 0 80⟩), (ω1, ⟨.added, slice "a" "web" [("10.0.0.1", true)]⟩), (ω0, ⟨.added, slice "b" "web" [("10.0.0.1", true)]⟩),
   (ω1, ⟨.updated, slice "a" "web" []⟩)]

theorem epViewDup_hist : EpHist epViewDup := by
  refine ⟨?_, by decide +kernel, watchOk_of_check jsonOps_lawful (by decide +kernel), ?_, ?_⟩
  · intro e he
    simp only [epViewDup, List.mem_cons, List.not_mem_nil, or_false] at he
    rcases he with rfl | rfl | rfl | rfl <;> first | exact ω0_valid | exact ω1_valid
  · intro e he hk
    simp only [epViewDup, List.mem_cons, List.not_mem_nil, or_false] at he
    rcases he with rfl | rfl | rfl | rfl
    · exact portView_ok (by intro s h; cases h; decide +kernel) (by intro s h; cases h; decide)
    · exact absurd hk (by decide +kernel)
    · exact absurd hk (by decide +kernel)
    · exact absurd hk (by decide +kernel)
  · intro e he hk
    simp only [epViewDup, List.mem_cons, List.not_mem_nil, or_false] at he
    rcases he with rfl | rfl | rfl | rfl
    · exact absurd hk (by decide +kernel)
    · exact slice_ok (by intro s h; cases h; decide) (by
        intro e he
        cases List.mem_singleton.mp he
        intro s h; cases h; decide)
    · exact slice_ok (by intro s h; cases h; decide) (by
        intro e he
        cases List.mem_singleton.mp he
        intro s h; cases h; decide)
    · exact slice_ok (by intro s h; cases h; decide) (by intro e he; cases he)

/-- The README promises an EndpointView for each ready address. With an address in two EndpointSlices of a Service, which Kubernetes allows (clients have to expect
it), the view is deleted when the address is removed from one of them, although the other still has it: no evaluation fails, the address is live and ready, and there is
no view. -/
theorem C94_duplicate : EpHist epViewDup ∧ newSpecPipe (fieldEnv sliceBase) id epViewK epSources epSpecOps = .ok epViewPipe ∧
    (∀ r ∈ (runs (fun p (e : EvalOrder CDoc × Delta CDoc) => p.evaluate jsonOps e.1 e.2) epViewPipe epViewDup).2, r.toOption ≠ none) ∧
    LiveEndpoint (epViewDup.map Prod.snd) (portView "web" 0 80) (slice "b" "web" [("10.0.0.1", true)]) 0 0 (.str "10.0.0.1") ∧
    ∀ key, (epViewAfter epViewDup).get (epViewK, key) = none := by
  refine ⟨epViewDup_hist, rfl, by decide +kernel,
    ⟨⟨by decide +kernel, [], _, [_, _, _], rfl, (by unfold Concerns; decide +kernel), by decide, by decide +kernel, (by unfold Concerns; decide +kernel)⟩,
     ⟨by decide +kernel, [_, _], _, [_], rfl, (by unfold Concerns; decide +kernel), by decide, by decide +kernel, (by unfold Concerns; decide +kernel)⟩,
     ⟨⟨.str "web", by decide, rfl, rfl⟩, ⟨.str "d", by decide, rfl, rfl⟩⟩, sliceEp "10.0.0.1" true, rfl, rfl, rfl⟩, fun key => ?_⟩
  rw [show epViewAfter epViewDup = [] by decide +kernel]
  rfl

end Dctl
