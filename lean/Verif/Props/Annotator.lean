import Verif.Operator.AnnotatorLemmas
import Verif.Props.EpView
/-!
# C120: operators that annotate the objects that refer to another object
-/
set_option autoImplicit false
set_option linter.unusedSectionVars false
namespace Dctl

/-- The join condition of both operators. -/
def refCond (sk tk q : String) : Expr := opList "@and" [opList "@eq" [strE (pathString [sk, "metadata", "name"]), strE q],
  eqE [sk, "metadata", "namespace"] [tk, "metadata", "namespace"]]

theorem ref_condition (base : Env) (R : RefSpec) {q : String} (hq : ∃ c r, q.toList = '$' :: c :: r ∧ c ≠ '$' ∧ r ≠ []) (hp : parsePath q = none)
    (hread : ∀ m, base.jget q (.map m) = .ok ((nested m (R.tgt.kind :: R.ref)).getD .null))
    (w1 : Words [R.src.kind, "metadata", "name"]) (w2 : Words [R.src.kind, "metadata", "namespace"]) (w3 : Words [R.tgt.kind, "metadata", "namespace"])
    {a b j : CDoc} (h1 : R.Ok a) (h2 : R.Ok b) (hj : Combines (R.sources.map GVK.kind) [a, b] j) :
    (R.Refers a b → CondTrue (fieldEnv base) (refCond R.src.kind R.tgt.kind q) j) ∧ (¬ R.Refers a b → CondFalse (fieldEnv base) (refCond R.src.kind R.tgt.kind q) j) := by
  have g1 : SMap.get j.1 R.src.kind = some (.map a.1) := (hj _ _).mpr ⟨0, a, rfl, rfl, rfl⟩
  have g2 : SMap.get j.1 R.tgt.kind = some (.map b.1) := (hj _ _).mpr ⟨1, b, rfl, rfl, rfl⟩
  obtain ⟨n, hn, hne⟩ := h1.1.1
  have e1 := eval_ordinary base (k := R.src.kind) (p := namePath) w1 (m := j.1) (by rw [nested_under g1]; exact h1.2 _ (by simp))
  rw [nested_under g1, hn] at e1
  have e2 := eval_query base hq hp (hread j.1) (by rw [nested_under g2]; exact ordinary_getD (h2.2 R.ref (by simp)))
  rw [nested_under g2] at e2
  have a2 := eval_agree base g1 g2 (p := nsPath) (q := nsPath) w2 w3
    (fun v hv => ⟨h1.2 _ (by simp) v hv, by obtain ⟨s, rfl⟩ := h1.1.2 v hv; intro l h; cases h⟩) (fun v hv => h2.2 nsPath (by simp) v hv)
  have a1 := C32_eq _ _ _ _ _ _ e1 e2 (by intro l h; cases h)
  have a1t : Agree a namePath b R.ref → eval (fieldEnv base) (opList "@eq" [strE (pathString [R.src.kind, "metadata", "name"]), strE q])
      ⟨.map j.1, .null⟩ = .ok (.bool true) := by
    rintro ⟨v, _, h1, h2⟩
    rw [hn] at h1
    cases h1
    rw [a1, h2]
    simp
  have a1f : ¬ Agree a namePath b R.ref → eval (fieldEnv base) (opList "@eq" [strE (pathString [R.src.kind, "metadata", "name"]), strE q])
      ⟨.map j.1, .null⟩ = .ok (.bool false) := by
    intro h
    rw [a1]
    cases hv : nested b.1 R.ref with
    | none => simp
    | some v =>
      by_cases e : Json.str n = v
      · subst e; exact absurd ⟨.str n, by simp, hn, hv⟩ h
      · simp [e]
  unfold CondTrue CondFalse refCond
  rw [eval_and]
  constructor
  · rintro ⟨l1, l2⟩
    have : andLoop ⟨.map j.1, .null⟩ ([_, _].map (Expr.den (fieldEnv base))) = .ok true := (andLoop_true _).mpr (by
      simp only [List.mem_cons, List.not_mem_nil, or_false, forall_eq_or_imp, forall_eq]
      exact ⟨a1t l1, a2.1 l2⟩)
    rw [this]; rfl
  · intro h
    have key : andLoop ⟨.map j.1, .null⟩ ([_, _].map (Expr.den (fieldEnv base))) = .ok false := (andLoop_false _).mpr (by
      by_cases l1 : Agree a namePath b R.ref
      · exact ⟨[_], _, [], rfl, by
          simp only [List.mem_cons, List.not_mem_nil, or_false, forall_eq]
          exact a1t l1, a2.2 (fun l2 => h ⟨l1, l2⟩)⟩
      · exact ⟨[], _, [_], rfl, by simp, a1f l1⟩)
    rw [key]; rfl

theorem refers_ns {R : RefSpec} {a b : CDoc} (h2 : R.Ok b) (h : R.Refers a b) : ∃ ns, nested b.1 nsPath = some (.str ns) := by
  obtain ⟨_, v, _, _, hv⟩ := h
  obtain ⟨ns, rfl⟩ := h2.1.2 v hv
  exact ⟨ns, hv⟩

/-! ### EndpointSlices -/

/-- The projection for EndpointSlices. -/
def sliceRefProj : Expr := .dict "@dict" [("metadata", .dict "@dict" [
  ("annotations", .dict "@dict" [(svcTypeKey, strE (pathString ["Service", "spec", "type"]))]),
  ("name", strE (pathString ["EndpointSlice", "metadata", "name"])), ("namespace", strE (pathString ["EndpointSlice", "metadata", "namespace"]))])]

/-- **C120** (the file for EndpointSlices): the pipeline in the file is read as this join and this projection. -/
theorem C120_read_slices (env : Env) : unmarshalPipeline env sliceRefJson = .ok [.join (refCond "Service" "EndpointSlice" ofServiceQuery), .project sliceRefProj] := by
  rfl

/-- The patch. -/
def slicePatch (n ns v : Json) : SMap Json := [("metadata", .map [("annotations", .map [(svcTypeKey, v)]), ("name", n), ("namespace", ns)])]

def sliceDoc (a b : CDoc) : CDoc :=
  ⟨slicePatch (valueAt b namePath) (valueAt b nsPath) (valueAt a ["spec", "type"]), by
    simp [slicePatch, SMap.Sorted, Json.Canon, Json.CanonM, valueAt_canon]⟩

theorem slice_proj (base : Env) {a b j : CDoc} (h1 : sliceRef.Ok a) (h2 : sliceRef.Ok b) (hj : Combines (sliceRef.sources.map GVK.kind) [a, b] j) :
    eval (fieldEnv base) sliceRefProj ⟨.map j.1, .null⟩ = .ok (.map (sliceDoc a b).1) := by
  have g1 : SMap.get j.1 "Service" = some (.map a.1) := (hj _ _).mpr ⟨0, a, rfl, rfl, rfl⟩
  have g2 : SMap.get j.1 "EndpointSlice" = some (.map b.1) := (hj _ _).mpr ⟨1, b, rfl, rfl, rfl⟩
  have a1 := eval_ordinary base (k := "EndpointSlice") (p := namePath) (by unfold Words; decide) (m := j.1) (by rw [nested_under g2]; exact h2.2 _ (by simp))
  have a2 := eval_ordinary base (k := "EndpointSlice") (p := nsPath) (by unfold Words; decide) (m := j.1) (by rw [nested_under g2]; exact h2.2 _ (by simp))
  have a3 := eval_ordinary base (k := "Service") (p := ["spec", "type"]) (by unfold Words; decide) (m := j.1) (by
    rw [nested_under g1]; exact h1.2 _ (by simp [sliceRef]))
  rw [nested_under g2] at a1 a2
  rw [nested_under g1] at a3
  have o1 := ordinary_getD (h2.2 namePath (by simp))
  have o2 := ordinary_getD (h2.2 nsPath (by simp))
  have o3 := ordinary_getD (h1.2 ["spec", "type"] (by simp [sliceRef]))
  have d2 := eval_dict_ok [(svcTypeKey, _, _)] (by
    simp only [List.mem_cons, List.not_mem_nil, or_false, forall_eq]
    exact ⟨⟨by decide, by decide⟩, a3, o3⟩)
  have d1 := eval_dict_ok [("annotations", _, _), ("name", _, _), ("namespace", _, _)] (by
    simp only [List.mem_cons, List.not_mem_nil, or_false, forall_eq_or_imp, forall_eq]
    exact ⟨⟨⟨by decide, by decide⟩, d2, ordinary_map _⟩, ⟨⟨by decide, by decide⟩, a1, o1⟩, ⟨by decide, by decide⟩, a2, o2⟩)
  have d6 := eval_dict_ok [("metadata", _, _)] (by
    simp only [List.mem_cons, List.not_mem_nil, or_false, forall_eq]
    exact ⟨⟨by decide, by decide⟩, d1, ordinary_map _⟩)
  refine d6.trans ?_
  simp only [List.foldl_cons, List.foldl_nil, SMap.set, sliceDoc, slicePatch, valueAt, String.reduceEq, String.reduceLT, if_false]

theorem slice_enforced {a b : CDoc} (h2 : sliceRef.Ok b) (h : sliceRef.Refers a b) :
    ∃ x : CDoc, jsonOps.enforce sliceRef.tgt (sliceDoc a b) = .ok x ∧ objKey x.1 = objKey b.1 ∧ nested x.1 sliceRef.fld = some (valueAt a sliceRef.val) ∧
      ∀ p, FreePath p → Disjoint p sliceRef.fld → ¬ (Json.map x.1).Mentions p := by
  obtain ⟨n, hn, hne⟩ := h2.1.1
  obtain ⟨ns, hns⟩ := refers_ns h2 h
  have v1 : valueAt b namePath = .str n := by unfold valueAt; rw [hn]; rfl
  have v2 : valueAt b nsPath = .str ns := by unfold valueAt; rw [hns]; rfl
  generalize hval : valueAt a ["spec", "type"] = val
  have hm : (sliceDoc a b).1 = slicePatch (.str n) (.str ns) val := by simp only [sliceDoc, v1, v2, hval]
  obtain ⟨x, hx⟩ := (C74_accepted_iff sliceRef.tgt _ (sliceDoc a b).2).mpr ⟨_, n, by rw [hm]; rfl, rfl, hne, by
    intro v hv
    cases hv
    exact ⟨ns, rfl⟩⟩
  obtain ⟨o1, o2, o3, o4, o5, o6⟩ := C74_object _ _ _ (sliceDoc a b).2 hx
  refine ⟨⟨x, enforceDoc_canon (sliceDoc a b).2 hx⟩, jsonOps_enforce.mpr hx, ?_, ?_, ?_⟩
  · show objKey x = _
    rw [o4, hm]
    simp only [objKey, nestedString, hn, hns]
    rfl
  · show nested x ["metadata", "annotations", svcTypeKey] = _
    rw [o6 "annotations" [svcTypeKey] (by decide), hm, show valueAt a sliceRef.val = val from hval]
    rfl
  · intro p hp hd hmen
    match p, hp, hd, hmen with
    | [], hp, _, _ => exact hp.1 rfl
    | k :: q, hp, hd, hmen =>
      have hget : ∃ v, SMap.get x k = some v ∧ v.Mentions q := by
        simp only [Json.Mentions] at hmen
        cases hv : SMap.get x k with
        | none => rw [hv] at hmen; exact hmen.elim
        | some v => rw [hv] at hmen; exact ⟨v, rfl, hmen⟩
      obtain ⟨v, hv, hmv⟩ := hget
      have ne : ∀ s, k = s → ¬ [s] <+: k :: q → False := by
        rintro s rfl h
        exact h ⟨q, rfl⟩
      by_cases k1 : k = "apiVersion"
      · exact ne _ k1 (hp.2.2 _ (by simp [protectedPaths]))
      by_cases k2 : k = "kind"
      · exact ne _ k2 (hp.2.2 _ (by simp [protectedPaths]))
      by_cases k3 : k = "metadata"
      · subst k3
        match q, hp, hd, hmv with
        | [], hp, _, _ => exact hp.2.1 rfl
        | c :: q, hp, hd, hmv =>
          have l1 : c ≠ "name" := by rintro rfl; exact hp.2.2 ["metadata", "name"] (by simp [protectedPaths]) ⟨q, rfl⟩
          have l2 : c ≠ "namespace" := by rintro rfl; exact hp.2.2 ["metadata", "namespace"] (by simp [protectedPaths]) ⟨q, rfl⟩
          have hann := o6 c [] l2
          rw [nested_cons, hv, hm] at hann
          have hname := o6 "name" [] (by decide)
          rw [nested_cons, hv, hm] at hname
          have : nested (slicePatch (.str n) (.str ns) val) ["metadata", "name"] = some (.str n) := rfl
          rw [this] at hname
          cases v with
          | map md =>
            have hann' := (nested_one md c).symm.trans hann
            by_cases l3 : c = "annotations"
            · subst l3
              have : nested (slicePatch (.str n) (.str ns) val) ["metadata", "annotations"] = some (.map [(svcTypeKey, val)]) := rfl
              rw [this] at hann'
              simp only [Json.Mentions, hann'] at hmv
              rcases mentions_chain (p := [svcTypeKey]) hmv with ⟨t, ht⟩ | ⟨t, ht⟩
              · exact hd.1 ⟨t, by rw [List.cons_append, List.cons_append, ht]; rfl⟩
              · exact hd.2 ⟨t, by rw [← ht]; rfl⟩
            · have : nested (slicePatch (.str n) (.str ns) val) ["metadata", c] = none := by
                simp [slicePatch, nested, Json.at, Json.field, SMap.get, Ne.symm l1, Ne.symm l2, Ne.symm l3]
              rw [this] at hann'
              simp [Json.Mentions, hann'] at hmv
          | _ => simp [Json.at, Json.field] at hname
      · rw [o5 k k2 k1 k3, hm] at hv
        simp [slicePatch, SMap.get, Ne.symm k3] at hv

theorem slice_refPipe (base : Env) (hq : ReadsOfService base) : RefPipe base sliceRef (refCond "Service" "EndpointSlice" ofServiceQuery) sliceRefProj sliceDoc where
  kinds := by decide
  ne := by decide
  free := by decide
  gv := by decide +kernel
  uid := by decide
  off := by unfold Disjoint; decide
  cond := fun h1 h2 hj => ref_condition base sliceRef ⟨'[', _, rfl, by decide, by simp⟩ (by decide) hq (by unfold Words; decide) (by unfold Words; decide) (by unfold Words; decide) h1 h2 hj
  proj := by
    intro a b j h1 h2 hj c
    unfold Projects
    rw [slice_proj base h1 h2 hj]
    constructor
    · rintro (h | ⟨us, h, _⟩)
      · simp only [Except.ok.injEq, Json.map.injEq] at h
        exact Subtype.ext h.symm
      · simp at h
    · rintro rfl
      exact .inl rfl
  enf := slice_enforced
  congr := by
    intro a b b' h1 h2
    unfold sliceDoc
    simp only [valueAt, h1, h2]

/-! ### Deployments -/

/-- The projection for Deployments. -/
def deployRefProj : Expr := configDepProj

/-- **C120** (the file for Deployments): the pipeline in the file is read as this join and this projection. -/
theorem C120_read_deployments (env : Env) : unmarshalPipeline env deployRefJson = .ok [.join (refCond "ConfigMap" "Deployment" relatedQuery), .project deployRefProj] := by
  rfl

theorem deploy_proj (base : Env) {a b j : CDoc} (h1 : deployRef.Ok a) (h2 : deployRef.Ok b) (hj : Combines (deployRef.sources.map GVK.kind) [a, b] j) :
    eval (fieldEnv base) deployRefProj ⟨.map j.1, .null⟩ = .ok (.map (versionDoc a b).1) := by
  have g1 : SMap.get j.1 "ConfigMap" = some (.map a.1) := (hj _ _).mpr ⟨0, a, rfl, rfl, rfl⟩
  have g2 : SMap.get j.1 "Deployment" = some (.map b.1) := (hj _ _).mpr ⟨1, b, rfl, rfl, rfl⟩
  have a1 := eval_ordinary base (k := "Deployment") (p := namePath) (by unfold Words; decide) (m := j.1) (by rw [nested_under g2]; exact h2.2 _ (by simp))
  have a2 := eval_ordinary base (k := "Deployment") (p := nsPath) (by unfold Words; decide) (m := j.1) (by rw [nested_under g2]; exact h2.2 _ (by simp))
  have a3 := eval_ordinary base (k := "ConfigMap") (p := rvPath) (by unfold Words; decide) (m := j.1) (by rw [nested_under g1]; exact h1.2 _ (by simp [deployRef]))
  rw [nested_under g2] at a1 a2
  rw [nested_under g1] at a3
  have o1 := ordinary_getD (h2.2 namePath (by simp))
  have o2 := ordinary_getD (h2.2 nsPath (by simp))
  have o3 := ordinary_getD (h1.2 rvPath (by simp [deployRef]))
  have d1 := eval_dict_ok [("name", _, _), ("namespace", _, _)] (by
    simp only [List.mem_cons, List.not_mem_nil, or_false, forall_eq_or_imp, forall_eq]
    exact ⟨⟨⟨by decide, by decide⟩, a1, o1⟩, ⟨by decide, by decide⟩, a2, o2⟩)
  have d2 := eval_dict_ok [(versionKey, _, _)] (by
    simp only [List.mem_cons, List.not_mem_nil, or_false, forall_eq]
    exact ⟨⟨by decide, by decide⟩, a3, o3⟩)
  have d3 := eval_dict_ok [("annotations", _, _)] (by
    simp only [List.mem_cons, List.not_mem_nil, or_false, forall_eq]
    exact ⟨⟨by decide, by decide⟩, d2, ordinary_map _⟩)
  have d4 := eval_dict_ok [("metadata", _, _)] (by
    simp only [List.mem_cons, List.not_mem_nil, or_false, forall_eq]
    exact ⟨⟨by decide, by decide⟩, d3, ordinary_map _⟩)
  have d5 := eval_dict_ok [("template", _, _)] (by
    simp only [List.mem_cons, List.not_mem_nil, or_false, forall_eq]
    exact ⟨⟨by decide, by decide⟩, d4, ordinary_map _⟩)
  have d6 := eval_dict_ok [("metadata", _, _), ("spec", _, _)] (by
    simp only [List.mem_cons, List.not_mem_nil, or_false, forall_eq_or_imp, forall_eq]
    exact ⟨⟨⟨by decide, by decide⟩, d1, ordinary_map _⟩, ⟨by decide, by decide⟩, d5, ordinary_map _⟩)
  refine d6.trans ?_
  simp only [List.foldl_cons, List.foldl_nil, SMap.set, versionDoc, versionPatch, valueAt, String.reduceEq, String.reduceLT, if_false]

theorem deploy_refPipe (base : Env) (hq : ReadsRelated base) : RefPipe base deployRef (refCond "ConfigMap" "Deployment" relatedQuery) deployRefProj versionDoc where
  kinds := by decide
  ne := by decide
  free := by decide
  gv := by decide +kernel
  uid := by decide
  off := by unfold Disjoint; decide
  cond := fun h1 h2 hj => ref_condition base deployRef ⟨'[', _, rfl, by decide, by simp⟩ (by decide) hq (by unfold Words; decide) (by unfold Words; decide) (by unfold Words; decide) h1 h2 hj
  proj := by
    intro a b j h1 h2 hj c
    unfold Projects
    rw [deploy_proj base h1 h2 hj]
    constructor
    · rintro (h | ⟨us, h, _⟩)
      · simp only [Except.ok.injEq, Json.map.injEq] at h
        exact Subtype.ext h.symm
      · simp at h
    · rintro rfl
      exact .inl rfl
  enf := by
    intro a b h2 h
    obtain ⟨n, hn, hne⟩ := h2.1.1
    obtain ⟨ns, hns⟩ := refers_ns h2 h
    exact versionDoc_made hn hne hns
  congr := by
    intro a b b' h1 h2
    unfold versionDoc
    simp only [valueAt, h1, h2]

/-! ### The theorems -/

/-- **C120** (partial; the operator of `test/endpointslice_annotator.yaml`): users create, change and delete Services and EndpointSlices while the operator is at work, also
between its evaluations and its patches, but never touch the annotation nor the label that names the Service. Then the operator, which watches the EndpointSlices that it patches,
can do only finitely many steps until users change something again, and when it can do no more, every EndpointSlice in the store has the type of the Service it names in the
annotation, and those that name no Service in the store do not have the annotation. Missing: changes of the label (see `C120_endless`), fields that look like paths, changes by others
to the annotation, patches of one object in the wrong order, and failing writes. -/
theorem C120_slices_partial (base : Env) (hq : ReadsOfService base) (H : (fieldEnv base).Canon) (srt : List Json → List Json) (U : ObjKey → Option Json) {spec : List SpecOp}
    (hspec : unmarshalPipeline (fieldEnv base) sliceRefJson = .ok spec) {p0 : Pipe CDoc AnyVal} (hnew : newSpecPipe (fieldEnv base) srt sliceRef.tgt sliceRef.sources spec = .ok p0)
    {as : List (LoopAct CDoc)} (hpol : (PWorld.init [p0]).PoliteRun jsonOps jsonPatching [sliceRef.tgt] (sliceRef.Good U) (fieldAt sliceRef.fld) none as) {W : PWorld CDoc AnyVal}
    (hrun : (PWorld.init [p0]).acts jsonOps jsonPatching as = some W) :
    Acc (PatchStep jsonOps jsonPatching) W ∧
    ∀ bs W', (∀ b ∈ bs, b.Own) → W.acts jsonOps jsonPatching bs = some W' → (¬ ∃ W'', PatchStep jsonOps jsonPatching W'' W') → sliceRef.Annotated W'.store := by
  rw [C120_read_slices] at hspec
  cases hspec
  exact (slice_refPipe base hq).rests U H srt hnew hpol hrun

/-- **C120** (partial; the operator of `test/deployment_configmap_handler.yaml`): the same for Deployments that name a ConfigMap in an annotation, and the version of the
ConfigMap. Missing: as above. -/
theorem C120_deployments_partial (base : Env) (hq : ReadsRelated base) (H : (fieldEnv base).Canon) (srt : List Json → List Json) (U : ObjKey → Option Json) {spec : List SpecOp}
    (hspec : unmarshalPipeline (fieldEnv base) deployRefJson = .ok spec) {p0 : Pipe CDoc AnyVal} (hnew : newSpecPipe (fieldEnv base) srt deployRef.tgt deployRef.sources spec = .ok p0)
    {as : List (LoopAct CDoc)} (hpol : (PWorld.init [p0]).PoliteRun jsonOps jsonPatching [deployRef.tgt] (deployRef.Good U) (fieldAt deployRef.fld) none as) {W : PWorld CDoc AnyVal}
    (hrun : (PWorld.init [p0]).acts jsonOps jsonPatching as = some W) :
    Acc (PatchStep jsonOps jsonPatching) W ∧
    ∀ bs W', (∀ b ∈ bs, b.Own) → W.acts jsonOps jsonPatching bs = some W' → (¬ ∃ W'', PatchStep jsonOps jsonPatching W'' W') → deployRef.Annotated W'.store := by
  rw [C120_read_deployments] at hspec
  cases hspec
  exact (deploy_refPipe base hq).rests U H srt hnew hpol hrun

end Dctl
