import Verif.Operator.PodAnnotatorLemmas
import Verif.Props.Annotator
/-!
# C121: operators that annotate the objects they watch
-/
set_option autoImplicit false
set_option linter.unusedSectionVars false
namespace Dctl

/-- The patch. -/
def annPatch (K : String) (n ns v : Json) : SMap Json := [("metadata", .map [("annotations", .map [(K, v)]), ("name", n), ("namespace", ns)])]

def annDoc (K : String) (v : CDoc → String) (d : CDoc) : CDoc :=
  ⟨annPatch K (valueAt d namePath) (valueAt d nsPath) (.str (v d)), by
    simp [annPatch, SMap.Sorted, Json.Canon, Json.CanonM, valueAt_canon]⟩

/-- The projection. -/
def annProj (K : String) (e : Expr) : Expr := .dict "@dict" [("metadata", .dict "@dict" [
  ("annotations", .dict "@dict" [(K, e)]), ("name", strE (pathString ["metadata", "name"])), ("namespace", strE (pathString ["metadata", "namespace"]))])]

theorem ann_proj (base : Env) {K : String} (hK : PlainKey K) {e : Expr} {d : CDoc} {v : CDoc → String}
    (ho : ∀ p ∈ [namePath, nsPath], ∀ v, nested d.1 p = some v → v.Ordinary) (he : eval (fieldEnv base) e ⟨.map d.1, .null⟩ = .ok (.str (v d))) (hv : (Json.str (v d)).Ordinary) :
    eval (fieldEnv base) (annProj K e) ⟨.map d.1, .null⟩ = .ok (.map (annDoc K v d).1) := by
  have a1 := eval_ordinary base (k := "metadata") (p := ["name"]) (by unfold Words; decide) (m := d.1) (ho namePath (by simp))
  have a2 := eval_ordinary base (k := "metadata") (p := ["namespace"]) (by unfold Words; decide) (m := d.1) (ho nsPath (by simp))
  have o1 := ordinary_getD (ho namePath (by simp))
  have o2 := ordinary_getD (ho nsPath (by simp))
  have d2 := eval_dict_ok [(K, _, _)] (by
    simp only [List.mem_cons, List.not_mem_nil, or_false, forall_eq]
    exact ⟨hK, he, hv⟩)
  have d1 := eval_dict_ok [("annotations", _, _), ("name", _, _), ("namespace", _, _)] (by
    simp only [List.mem_cons, List.not_mem_nil, or_false, forall_eq_or_imp, forall_eq]
    exact ⟨⟨⟨by decide, by decide⟩, d2, ordinary_map _⟩, ⟨⟨by decide, by decide⟩, a1, o1⟩, ⟨by decide, by decide⟩, a2, o2⟩)
  have d6 := eval_dict_ok [("metadata", _, _)] (by
    simp only [List.mem_cons, List.not_mem_nil, or_false, forall_eq]
    exact ⟨⟨by decide, by decide⟩, d1, ordinary_map _⟩)
  refine d6.trans ?_
  simp only [List.foldl_cons, List.foldl_nil, SMap.set, annDoc, annPatch, valueAt, String.reduceEq, String.reduceLT, if_false]

theorem ann_enforced (tgt : GVK) (K : String) (v : CDoc → String) {d : CDoc} (h1 : ProperName d) (h2 : Namespaced d) :
    ∃ x : CDoc, jsonOps.enforce tgt (annDoc K v d) = .ok x ∧ objKey x.1 = objKey d.1 ∧ nested x.1 ["metadata", "annotations", K] = some (.str (v d)) ∧
      ∀ p, FreePath p → Disjoint p ["metadata", "annotations", K] → ¬ (Json.map x.1).Mentions p := by
  obtain ⟨n, hn, hne⟩ := h1.1
  obtain ⟨ns, _, hns⟩ := h2
  have v1 : valueAt d namePath = .str n := by unfold valueAt; rw [hn]; rfl
  have v2 : valueAt d nsPath = .str ns := by unfold valueAt; rw [hns]; rfl
  generalize hval : Json.str (v d) = val
  have hm : (annDoc K v d).1 = annPatch K (.str n) (.str ns) val := by simp only [annDoc, v1, v2, hval]
  obtain ⟨x, hx⟩ := (C74_accepted_iff tgt _ (annDoc K v d).2).mpr ⟨_, n, by rw [hm]; rfl, rfl, hne, by
    intro v hv
    cases hv
    exact ⟨ns, rfl⟩⟩
  obtain ⟨o1, o2, o3, o4, o5, o6⟩ := C74_object _ _ _ (annDoc K v d).2 hx
  refine ⟨⟨x, enforceDoc_canon (annDoc K v d).2 hx⟩, jsonOps_enforce.mpr hx, ?_, ?_, ?_⟩
  · show objKey x = _
    rw [o4, hm]
    simp only [objKey, nestedString, hn, hns]
    rfl
  · show nested x ["metadata", "annotations", K] = _
    rw [o6 "annotations" [K] (by decide), hm]
    simp [annPatch, nested, Json.at, Json.field, SMap.get]
  · intro p hp hd hmen
    match p, hp, hd, hmen with
    | [], hp, _, _ => exact hp.1 rfl
    | k :: q, hp, hd, hmen =>
      have hget : ∃ v, SMap.get x k = some v ∧ v.Mentions q := by
        simp only [Json.Mentions] at hmen
        cases hv : SMap.get x k with
        | none => rw [hv] at hmen; exact hmen.elim
        | some v => rw [hv] at hmen; exact ⟨v, rfl, hmen⟩
      obtain ⟨v, hv, hmv⟩ := hget
      have ne : ∀ s, k = s → ¬ [s] <+: k :: q → False := by
        rintro s rfl h
        exact h ⟨q, rfl⟩
      by_cases k1 : k = "apiVersion"
      · exact ne _ k1 (hp.2.2 _ (by simp [protectedPaths]))
      by_cases k2 : k = "kind"
      · exact ne _ k2 (hp.2.2 _ (by simp [protectedPaths]))
      by_cases k3 : k = "metadata"
      · subst k3
        match q, hp, hd, hmv with
        | [], hp, _, _ => exact hp.2.1 rfl
        | c :: q, hp, hd, hmv =>
          have l1 : c ≠ "name" := by rintro rfl; exact hp.2.2 ["metadata", "name"] (by simp [protectedPaths]) ⟨q, rfl⟩
          have l2 : c ≠ "namespace" := by rintro rfl; exact hp.2.2 ["metadata", "namespace"] (by simp [protectedPaths]) ⟨q, rfl⟩
          have hann := o6 c [] l2
          rw [nested_cons, hv, hm] at hann
          have hname := o6 "name" [] (by decide)
          rw [nested_cons, hv, hm] at hname
          have : nested (annPatch K (.str n) (.str ns) val) ["metadata", "name"] = some (.str n) := rfl
          rw [this] at hname
          cases v with
          | map md =>
            have hann' := (nested_one md c).symm.trans hann
            by_cases l3 : c = "annotations"
            · subst l3
              have : nested (annPatch K (.str n) (.str ns) val) ["metadata", "annotations"] = some (.map [(K, val)]) := rfl
              rw [this] at hann'
              simp only [Json.Mentions, hann'] at hmv
              rcases mentions_chain (p := [K]) hmv with ⟨t, ht⟩ | ⟨t, ht⟩
              · exact hd.1 ⟨t, by rw [List.cons_append, List.cons_append, ht]⟩
              · exact hd.2 ⟨t, by rw [← ht]; rfl⟩
            · have : nested (annPatch K (.str n) (.str ns) val) ["metadata", c] = none := by
                simp [annPatch, nested, Json.at, Json.field, SMap.get, Ne.symm l1, Ne.symm l2, Ne.symm l3]
              rw [this] at hann'
              simp [Json.Mentions, hann'] at hmv
          | _ => simp [Json.at, Json.field] at hname
      · rw [o5 k k2 k1 k3, hm] at hv
        simp [annPatch, SMap.get, Ne.symm k3] at hv

theorem projects_evalTo {env : Env} {e : Expr} {d r : CDoc} (h : eval env e ⟨.map d.1, .null⟩ = .ok (.map r.1)) (c : CDoc) : Projects env e d c ↔ c = r := by
  unfold Projects
  rw [h]
  constructor
  · rintro (h | ⟨us, h, _⟩)
    · simp only [Except.ok.injEq, Json.map.injEq] at h
      exact Subtype.ext h.symm
    · simp at h
  · rintro rfl
    exact .inl rfl

theorem ann_congr {K : String} {v : CDoc → String} {d d' : CDoc} (h1 : nested d.1 namePath = nested d'.1 namePath) (h2 : nested d.1 nsPath = nested d'.1 nsPath)
    (h3 : Json.str (v d) = Json.str (v d')) : annDoc K v d = annDoc K v d' := by
  unfold annDoc
  simp only [valueAt, h1, h2, h3]

/-! ### The number of the containers -/

/-- The expression for the annotation. -/
def containersE : Expr := .app "@string" (.app "@len" (.exprs "@list" [strE (pathString ["spec", "containers"])]))

/-- The text of the annotation. -/
def containersText (d : CDoc) : String := toString (containersOf d).length

/-- **C121** (`README.md`): the pipeline in the file is read as this projection. -/
theorem C121_read_containers (env : Env) : unmarshalPipeline env containersJson = .ok [.project (annProj containersKey containersE)] := by
  rfl

theorem eval_containers (base : Env) {d : CDoc} {l : List Json} (h : nested d.1 ["spec", "containers"] = some (.list l)) :
    eval (fieldEnv base) containersE ⟨.map d.1, .null⟩ = .ok (.str (toString l.length)) := by
  have a1 := eval_ordinary base (k := "spec") (p := ["containers"]) (by unfold Words; decide) (m := d.1) (by rw [h]; rintro v ⟨⟩ s hs; cases hs)
  rw [h] at a1
  have a2 : eval (fieldEnv base) (.exprs "@list" [strE (pathString ["spec", "containers"])]) ⟨.map d.1, .null⟩ = .ok (.list l) :=
    (eval_list_ok (vs := [.list l]) (by
      simp only [eval] at a1
      simp [seqAll, a1])).trans rfl
  exact eval_numText (eval_len a2)

/-- Not what one expects: for a Pod without the field, the annotation says one container, since the list in the expression then has the null as its only element. -/
theorem C121_no_containers (base : Env) {d : CDoc} (h : nested d.1 ["spec", "containers"] = none) :
    eval (fieldEnv base) containersE ⟨.map d.1, .null⟩ = .ok (.str "1") := by
  have a1 := eval_ordinary base (k := "spec") (p := ["containers"]) (by unfold Words; decide) (m := d.1) (by rw [h]; rintro v ⟨⟩)
  rw [h] at a1
  have a2 : eval (fieldEnv base) (.exprs "@list" [strE (pathString ["spec", "containers"])]) ⟨.map d.1, .null⟩ = .ok (.list [.null]) :=
    (eval_list_ok (vs := [.null]) (by
      simp only [eval] at a1
      simp [seqAll, a1])).trans rfl
  exact eval_numText (n := 1) (eval_len a2)

theorem containers_ownPipe (base : Env) : OwnPipe base containersOwn (annProj containersKey containersE) (annDoc containersKey containersText) where
  free := by decide
  gv := by decide +kernel
  uid := by decide
  off := by unfold Disjoint; decide
  reads := by
    intro d d' h
    have h := h ["spec", "containers"] (by simp [containersOwn])
    simp only [containersOwn, containersOf, h]
    exact ⟨trivial, id⟩
  scalar := fun _ => trivial
  proj := by
    intro d hd
    obtain ⟨_, _, ho, l, hl⟩ := hd
    refine projects_evalTo (ann_proj base (K := containersKey) (v := containersText) ⟨by decide, by decide⟩ ho ?_ ?_)
    · rw [eval_containers base hl]
      simp only [containersText, containersOf, hl]
    · have := natText_ordinary (containersOf d).length ""
      rw [String.append_empty] at this
      exact this
  enf := fun hd => ann_enforced _ _ _ hd.1 hd.2.1
  congr := fun h1 h2 h3 => ann_congr h1 h2 h3

/-! ### The constant -/

/-- **C121** (`doc/getting-started.md`): the pipeline in the file is read as this projection. -/
theorem C121_read_managed (env : Env) : unmarshalPipeline env managedJson = .ok [.project (annProj managedKey (strE "true"))] := by
  rfl

theorem managed_ownPipe (base : Env) : OwnPipe base managedOwn (annProj managedKey (strE "true")) (annDoc managedKey (fun _ => "true")) where
  free := by decide
  gv := by decide +kernel
  uid := by decide
  off := by unfold Disjoint; decide
  reads := fun _ => ⟨rfl, id⟩
  scalar := fun _ => trivial
  proj := by
    intro d hd
    have ho : (Json.str "true").Ordinary := by intro s h; cases h; decide
    exact projects_evalTo (ann_proj base (K := managedKey) (v := fun _ => "true") ⟨by decide, by decide⟩ hd.2.2.1 (eval_text ho) ho)
  enf := fun hd => ann_enforced _ _ _ hd.1 hd.2.1
  congr := fun h1 h2 h3 => ann_congr h1 h2 h3

/-! ### The theorems -/

/-- **C121** (partial; the operator of `README.md`): users create, change and delete Pods while the operator is at work, also between its evaluations and its patches, but never touch
the annotation, and the Pods of one name always have the same number of containers. Then the operator, which watches the Pods that it patches, can do only finitely many steps until
users change something again, and when it can do no more, every Pod in the store has the number of its containers in the annotation. Missing: changes of the number of
containers (see `C121_endless`), Pods without containers (see `C121_no_containers`), names that look like paths, changes by others to the annotation, patches of one object in the wrong order,
and failing writes. -/
theorem C121_containers_partial (base : Env) (H : (fieldEnv base).Canon) (srt : List Json → List Json) (U : ObjKey → Json) {spec : List SpecOp}
    (hspec : unmarshalPipeline (fieldEnv base) containersJson = .ok spec) {p0 : Pipe CDoc AnyVal}
    (hnew : newSpecPipe (fieldEnv base) srt containersOwn.kind [containersOwn.kind] spec = .ok p0)
    {as : List (LoopAct CDoc)} (hpol : (PWorld.init [p0]).PoliteRun jsonOps jsonPatching [containersOwn.kind] (containersOwn.Good U) (fieldAt containersOwn.fld) none as)
    {W : PWorld CDoc AnyVal} (hrun : (PWorld.init [p0]).acts jsonOps jsonPatching as = some W) :
    Acc (PatchStep jsonOps jsonPatching) W ∧
    ∀ bs W', (∀ b ∈ bs, b.Own) → W.acts jsonOps jsonPatching bs = some W' → (¬ ∃ W'', PatchStep jsonOps jsonPatching W'' W') → containersOwn.Annotated W'.store := by
  rw [C121_read_containers] at hspec
  cases hspec
  exact (containers_ownPipe base).rests U H srt hnew hpol hrun

/-- **C121** (partial; the operator of `doc/getting-started.md`): the same for the constant; here users may change everything but the annotation. Missing: names that look like
paths, changes by others to the annotation, patches of one object in the wrong order, and failing writes. -/
theorem C121_managed_partial (base : Env) (H : (fieldEnv base).Canon) (srt : List Json → List Json) {spec : List SpecOp}
    (hspec : unmarshalPipeline (fieldEnv base) managedJson = .ok spec) {p0 : Pipe CDoc AnyVal}
    (hnew : newSpecPipe (fieldEnv base) srt managedOwn.kind [managedOwn.kind] spec = .ok p0)
    {as : List (LoopAct CDoc)} (hpol : (PWorld.init [p0]).PoliteRun jsonOps jsonPatching [managedOwn.kind] managedOwn.Ok (fieldAt managedOwn.fld) none as)
    {W : PWorld CDoc AnyVal} (hrun : (PWorld.init [p0]).acts jsonOps jsonPatching as = some W) :
    Acc (PatchStep jsonOps jsonPatching) W ∧
    ∀ bs W', (∀ b ∈ bs, b.Own) → W.acts jsonOps jsonPatching bs = some W' → (¬ ∃ W'', PatchStep jsonOps jsonPatching W'' W') →
      ∀ k d, W'.store managedOwn.kind k = some d → fieldAt managedOwn.fld d = some (.str "true") := by
  rw [C121_read_managed] at hspec
  cases hspec
  have hg : managedOwn.Good (fun _ => .str "true") = managedOwn.Ok := by
    funext d
    exact propext ⟨fun h => h.1, fun h => ⟨h, rfl⟩⟩
  exact (managed_ownPipe base).rests (fun _ => .str "true") H srt hnew (by rw [hg]; exact hpol) hrun

end Dctl
