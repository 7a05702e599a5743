import Verif.Props.Patcher
import Verif.Props.Defined
import Verif.Props.Expr
import Verif.Spec.ConfigDep
/-!
# C89: the configmap-deployment operator
-/
set_option autoImplicit false
namespace Dctl

/-- The expression of a comparison. -/
abbrev eqE (p q : List String) : Expr := opList "@eq" [strE (pathString p), strE (pathString q)]

/-- The join condition. -/
def configDepCond : Expr := opList "@and" [
  eqE ["ConfigMap", "metadata", "name"] ["ConfigDeployment", "spec", "configMap"],
  eqE ["Deployment", "metadata", "name"] ["ConfigDeployment", "spec", "deployment"],
  eqE ["ConfigMap", "metadata", "namespace"] ["Deployment", "metadata", "namespace"],
  eqE ["ConfigMap", "metadata", "namespace"] ["ConfigDeployment", "metadata", "namespace"]]

/-- The projection. -/
def configDepProj : Expr := .dict "@dict" [
  ("metadata", .dict "@dict" [("name", strE (pathString ["Deployment", "metadata", "name"])), ("namespace", strE (pathString ["Deployment", "metadata", "namespace"]))]),
  ("spec", .dict "@dict" [("template", .dict "@dict" [("metadata", .dict "@dict" [("annotations", .dict "@dict" [
    (versionKey, strE (pathString ["ConfigMap", "metadata", "resourceVersion"]))])])])])]

/-- **C89** (the file): the pipeline in the file is read as this join and this projection. -/
theorem C89_read (env : Env) : unmarshalPipeline env configDepJson = .ok [.join configDepCond, .project configDepProj] := by
  rfl

theorem eval_ordinary (base : Env) {k : String} {p : List String} (h : Words (k :: p)) {m : SMap Json} (ho : ∀ v, nested m (k :: p) = some v → v.Ordinary) :
    eval (fieldEnv base) (strE (pathString (k :: p))) ⟨.map m, .null⟩ = .ok ((nested m (k :: p)).getD .null) := by
  rw [eval_path base h]
  cases hv : nested m (k :: p) with
  | none => rfl
  | some v =>
    cases v with
    | str s => simp [Option.getD, (ho _ hv s rfl).1]
    | _ => rfl

theorem deref_ordinary {env : Env} {ctx : Ctx} {v : Json} (h : v.Ordinary) : derefValue env ctx v = .ok v := by
  cases v with
  | str s =>
    have h2 := (h s rfl).2
    show getJSONPath env ctx s = _
    unfold getJSONPath
    split
    · rename_i rest e
      rw [e] at h2; simp at h2
    · rfl
  | _ => rfl

theorem nested_under {j : SMap Json} {k : String} {a : CDoc} (h : SMap.get j k = some (.map a.1)) (p : List String) : nested j (k :: p) = nested a.1 p := by
  rw [nested_cons, h]; rfl

theorem eval_agree (base : Env) {j : SMap Json} {k l : String} {p q : List String} {a b : CDoc} (ha : SMap.get j k = some (.map a.1))
    (hb : SMap.get j l = some (.map b.1)) (hw : Words (k :: p)) (hw' : Words (l :: q)) (ho : ∀ v, nested a.1 p = some v → v.Ordinary ∧ v.NotList)
    (ho' : ∀ v, nested b.1 q = some v → v.Ordinary) :
    (Agree a p b q → eval (fieldEnv base) (eqE (k :: p) (l :: q)) ⟨.map j, .null⟩ = .ok (.bool true)) ∧
    (¬ Agree a p b q → eval (fieldEnv base) (eqE (k :: p) (l :: q)) ⟨.map j, .null⟩ = .ok (.bool false)) := by
  have e1 := eval_ordinary base hw (m := j) (by rw [nested_under ha]; exact fun v hv => (ho v hv).1)
  have e2 := eval_ordinary base hw' (m := j) (by rw [nested_under hb]; exact ho')
  rw [nested_under ha] at e1
  rw [nested_under hb] at e2
  rw [C32_eq _ _ _ _ _ _ e1 e2 (by
    cases hv : nested a.1 p with
    | none => simp [Json.NotList]
    | some v => exact (ho v hv).2)]
  have : ((nested a.1 p).getD .null ≠ .null ∧ (nested a.1 p).getD .null = (nested b.1 q).getD .null) ↔ Agree a p b q := by
    constructor
    · rintro ⟨h1, h2⟩
      cases h3 : nested a.1 p with
      | none => rw [h3] at h1; exact absurd rfl h1
      | some v =>
        cases h4 : nested b.1 q with
        | none => rw [h3, h4] at h2; rw [h3] at h1; exact absurd h2 h1
        | some w =>
          rw [h3, h4] at h2
          rw [h3] at h1
          exact ⟨v, h1, h3, by rw [h4]; exact congrArg some (Eq.symm h2)⟩
    · rintro ⟨v, h1, h2, h3⟩
      rw [h2, h3]
      exact ⟨h1, rfl⟩
  constructor
  · intro h
    rw [decide_eq_true (this.mpr h)]
  · intro h
    rw [decide_eq_false (fun h' => h (this.mp h'))]

theorem configDep_get {ds : List CDoc} {cm dep cd : CDoc} (hds : ds = [cm, dep, cd]) {j : CDoc} (hj : Combines (configDepSources.map GVK.kind) ds j) :
    SMap.get j.1 "ConfigMap" = some (.map cm.1) ∧ SMap.get j.1 "Deployment" = some (.map dep.1) ∧ SMap.get j.1 "ConfigDeployment" = some (.map cd.1) := by
  subst hds
  exact ⟨(hj _ _).mpr ⟨0, cm, rfl, rfl, rfl⟩, (hj _ _).mpr ⟨1, dep, rfl, rfl, rfl⟩, (hj _ _).mpr ⟨2, cd, rfl, rfl, rfl⟩⟩

theorem ConfigDepOk.name {d : CDoc} (h : ConfigDepOk d) (v : Json) (hv : nested d.1 namePath = some v) : v.Ordinary ∧ v.NotList := by
  refine ⟨h.2 _ (by simp) v hv, ?_⟩
  obtain ⟨n, hn, _⟩ := h.1.1
  rw [hv] at hn; cases hn
  intro l; simp

theorem ConfigDepOk.ns {d : CDoc} (h : ConfigDepOk d) (v : Json) (hv : nested d.1 nsPath = some v) : v.Ordinary ∧ v.NotList := by
  refine ⟨h.2 _ (by simp) v hv, ?_⟩
  obtain ⟨n, hn⟩ := h.1.2 v hv
  subst hn
  intro l; simp

/-- **C89** (the condition): the join condition is true of three objects exactly if the third links the first two, and false of all others: it never fails. -/
theorem C89_condition (base : Env) {cm dep cd j : CDoc} (h1 : ConfigDepOk cm) (h2 : ConfigDepOk dep) (h3 : ConfigDepOk cd)
    (hj : Combines (configDepSources.map GVK.kind) [cm, dep, cd] j) :
    (Linked cm dep cd → CondTrue (fieldEnv base) configDepCond j) ∧ (¬ Linked cm dep cd → CondFalse (fieldEnv base) configDepCond j) := by
  obtain ⟨g1, g2, g3⟩ := configDep_get rfl hj
  have a1 := eval_agree base g1 g3 (p := namePath) (q := refMapPath) (by unfold Words; decide) (by unfold Words; decide) h1.name (h3.2 _ (by simp))
  have a2 := eval_agree base g2 g3 (p := namePath) (q := refDepPath) (by unfold Words; decide) (by unfold Words; decide) h2.name (h3.2 _ (by simp))
  have a3 := eval_agree base g1 g2 (p := nsPath) (q := nsPath) (by unfold Words; decide) (by unfold Words; decide) h1.ns (fun v hv => (h2.ns v hv).1)
  have a4 := eval_agree base g1 g3 (p := nsPath) (q := nsPath) (by unfold Words; decide) (by unfold Words; decide) h1.ns (fun v hv => (h3.ns v hv).1)
  unfold CondTrue CondFalse configDepCond
  rw [eval_and]
  constructor
  · rintro ⟨l1, l2, l3, l4⟩
    have : andLoop ⟨.map j.1, .null⟩ ([_, _, _, _].map (Expr.den (fieldEnv base))) = .ok true := (andLoop_true _).mpr (by
      simp only [List.mem_cons, List.not_mem_nil, or_false, forall_eq_or_imp, forall_eq]
      exact ⟨a1.1 l1, a2.1 l2, a3.1 l3, a4.1 l4⟩)
    rw [this]; rfl
  · intro h
    have key : andLoop ⟨.map j.1, .null⟩ ([_, _, _, _].map (Expr.den (fieldEnv base))) = .ok false := (andLoop_false _).mpr (by
      by_cases l1 : Agree cm namePath cd refMapPath
      · by_cases l2 : Agree dep namePath cd refDepPath
        · by_cases l3 : Agree cm nsPath dep nsPath
          · have l4 : ¬ Agree cm nsPath cd nsPath := fun l4 => h ⟨l1, l2, l3, l4⟩
            exact ⟨[_, _, _], _, [], rfl, by
              simp only [List.mem_cons, List.not_mem_nil, or_false, forall_eq_or_imp, forall_eq]
              exact ⟨a1.1 l1, a2.1 l2, a3.1 l3⟩, a4.2 l4⟩
          · exact ⟨[_, _], _, [_], rfl, by
              simp only [List.mem_cons, List.not_mem_nil, or_false, forall_eq_or_imp, forall_eq]
              exact ⟨a1.1 l1, a2.1 l2⟩, a3.2 l3⟩
        · exact ⟨[_], _, [_, _], rfl, by
              simp only [List.mem_cons, List.not_mem_nil, or_false, forall_eq]
              exact a1.1 l1, a2.2 l2⟩
      · exact ⟨[], _, [_, _, _], rfl, by simp, a1.2 l1⟩)
    rw [key]; rfl

/-- The value of a field, null if there is none. -/
abbrev valueAt (d : CDoc) (p : List String) : Json := (nested d.1 p).getD .null

theorem setJSON_ordinary {env : Env} {ctx : Ctx} {k : String} (hk : PlainKey k) {v : Json} (hv : v.Ordinary) (m : SMap Json) :
    setJSONPath env ctx k v m = .ok (SMap.set m k v) := by
  rw [setJSONPath_plain hk, deref_ordinary hv]

theorem ordinary_map (m : SMap Json) : (Json.map m).Ordinary := by intro s h; cases h

theorem ordinary_getD {o : Option Json} (h : ∀ v, o = some v → v.Ordinary) : (o.getD .null).Ordinary := by
  cases o with
  | none => intro s h; cases h
  | some v => exact h v rfl

/-- A map literal of fields that have ordinary values. -/
theorem eval_dict {env : Env} {ctx : Ctx} : ∀ (l : List (String × Expr × Json)) (data : SMap Json),
    (∀ x ∈ l, PlainKey x.1 ∧ eval env x.2.1 ctx = .ok x.2.2 ∧ x.2.2.Ordinary) →
    setFields env ctx data (l.map (fun x => (x.1, x.2.1.den env))) = .ok (l.foldl (fun d x => SMap.set d x.1 x.2.2) data)
  | [], _, _ => rfl
  | (k, e, v) :: l, data, h => by
    obtain ⟨h1, h2, h3⟩ := h (k, e, v) (by simp)
    have h2' : e.den env ctx = .ok v := h2
    simp only [List.map_cons, setFields, h2', setJSON_ordinary h1 h3]
    exact eval_dict l _ (fun x hx => h x (by simp [hx]))

theorem eval_dict_ok {env : Env} {ctx : Ctx} (l : List (String × Expr × Json)) (h : ∀ x ∈ l, PlainKey x.1 ∧ eval env x.2.1 ctx = .ok x.2.2 ∧ x.2.2.Ordinary) :
    eval env (.dict "@dict" (l.map (fun x => (x.1, x.2.1)))) ctx = .ok (.map (l.foldl (fun d x => SMap.set d x.1 x.2.2) [])) := by
  simp only [eval, Expr.den, evalDict, if_true, denM_eq, List.map_map]
  have := eval_dict (env := env) (ctx := ctx) l [] h
  rw [show (((fun p : String × Expr => (p.1, p.2.den env)) ∘ fun x : String × Expr × Json => (x.1, x.2.1)) = fun x => (x.1, x.2.1.den env)) from rfl, this]

theorem configDep_proj (base : Env) {cm dep cd j : CDoc} (h1 : ConfigDepOk cm) (h2 : ConfigDepOk dep) (hj : Combines (configDepSources.map GVK.kind) [cm, dep, cd] j) :
    eval (fieldEnv base) configDepProj ⟨.map j.1, .null⟩ = .ok (.map (versionPatch (valueAt dep namePath) (valueAt dep nsPath) (valueAt cm rvPath))) := by
  obtain ⟨g1, g2, g3⟩ := configDep_get rfl hj
  have a1 := eval_ordinary base (k := "Deployment") (p := namePath) (by unfold Words; decide) (m := j.1) (by rw [nested_under g2]; exact h2.2 _ (by simp))
  have a2 := eval_ordinary base (k := "Deployment") (p := nsPath) (by unfold Words; decide) (m := j.1) (by rw [nested_under g2]; exact h2.2 _ (by simp))
  have a3 := eval_ordinary base (k := "ConfigMap") (p := rvPath) (by unfold Words; decide) (m := j.1) (by rw [nested_under g1]; exact h1.2 _ (by simp))
  rw [nested_under g2] at a1 a2
  rw [nested_under g1] at a3
  have o1 := ordinary_getD (h2.2 namePath (by simp))
  have o2 := ordinary_getD (h2.2 nsPath (by simp))
  have o3 := ordinary_getD (h1.2 rvPath (by simp))
  have d1 := eval_dict_ok [("name", _, _), ("namespace", _, _)] (by
    simp only [List.mem_cons, List.not_mem_nil, or_false, forall_eq_or_imp, forall_eq]
    exact ⟨⟨⟨by decide, by decide⟩, a1, o1⟩, ⟨by decide, by decide⟩, a2, o2⟩)
  have d2 := eval_dict_ok [(versionKey, _, _)] (by
    simp only [List.mem_cons, List.not_mem_nil, or_false, forall_eq]
    exact ⟨⟨by decide, by decide⟩, a3, o3⟩)
  have d3 := eval_dict_ok [("annotations", _, _)] (by
    simp only [List.mem_cons, List.not_mem_nil, or_false, forall_eq]
    exact ⟨⟨by decide, by decide⟩, d2, ordinary_map _⟩)
  have d4 := eval_dict_ok [("metadata", _, _)] (by
    simp only [List.mem_cons, List.not_mem_nil, or_false, forall_eq]
    exact ⟨⟨by decide, by decide⟩, d3, ordinary_map _⟩)
  have d5 := eval_dict_ok [("template", _, _)] (by
    simp only [List.mem_cons, List.not_mem_nil, or_false, forall_eq]
    exact ⟨⟨by decide, by decide⟩, d4, ordinary_map _⟩)
  have d6 := eval_dict_ok [("metadata", _, _), ("spec", _, _)] (by
    simp only [List.mem_cons, List.not_mem_nil, or_false, forall_eq_or_imp, forall_eq]
    exact ⟨⟨⟨by decide, by decide⟩, d1, ordinary_map _⟩, ⟨by decide, by decide⟩, d5, ordinary_map _⟩)
  refine d6.trans ?_
  simp only [List.foldl_cons, List.foldl_nil, SMap.set, versionPatch, String.reduceEq, String.reduceLT, if_false]

theorem valueAt_canon (d : CDoc) (p : List String) : (valueAt d p).Canon := by
  unfold valueAt
  cases h : nested d.1 p with
  | none => trivial
  | some v => exact at_canon d.2 h

theorem versionPatch_canon {n ns rv : Json} (h1 : n.Canon) (h2 : ns.Canon) (h3 : rv.Canon) : (Json.map (versionPatch n ns rv)).Canon := by
  simp [versionPatch, SMap.Sorted, Json.Canon, Json.CanonM, h1, h2, h3]

/-- The patch the operator makes for three linked objects. -/
def versionDoc (cm dep : CDoc) : CDoc :=
  ⟨versionPatch (valueAt dep namePath) (valueAt dep nsPath) (valueAt cm rvPath), versionPatch_canon (valueAt_canon _ _) (valueAt_canon _ _) (valueAt_canon _ _)⟩

theorem configDep_projects (base : Env) {cm dep cd j : CDoc} (h1 : ConfigDepOk cm) (h2 : ConfigDepOk dep) (hj : Combines (configDepSources.map GVK.kind) [cm, dep, cd] j)
    (c : CDoc) : Projects (fieldEnv base) configDepProj j c ↔ c = versionDoc cm dep := by
  unfold Projects
  rw [configDep_proj base h1 h2 hj]
  constructor
  · rintro (h | ⟨us, h, _⟩)
    · simp only [Except.ok.injEq, Json.map.injEq] at h
      exact Subtype.ext h.symm
    · simp at h
  · rintro rfl
    exact .inl rfl

theorem configDep_joinResults (base : Env) {cm dep cd : CDoc} (h1 : ConfigDepOk cm) (h2 : ConfigDepOk dep) (h3 : ConfigDepOk cd) (c : CDoc) :
    JoinResults (fieldEnv base) configDepSources configDepCond [.project configDepProj] [cm, dep, cd] c ↔ Linked cm dep cd ∧ c = versionDoc cm dep := by
  constructor
  · rintro ⟨j, hj, ht, hr⟩
    obtain ⟨_, a2⟩ := C89_condition base h1 h2 h3 hj
    cases hr with
    | project hp hnil =>
      cases hnil
      refine ⟨Classical.byContradiction fun hn => ?_, (configDep_projects base h1 h2 hj _).mp hp⟩
      have := a2 hn
      unfold CondTrue at ht
      unfold CondFalse at this
      rw [ht] at this
      simp at this
  · rintro ⟨hl, rfl⟩
    have hj := joinedDoc_combines (names := configDepSources.map GVK.kind) (by decide) [cm, dep, cd]
    exact ⟨_, hj, (C89_condition base h1 h2 h3 hj).1 hl, .project ((configDep_projects base h1 h2 hj _).mpr rfl) (.nil _)⟩

theorem version_configDepOk {hist : List (Delta CDoc)} (h : ∀ δ ∈ hist, ConfigDepOk δ.obj) {g : GVK} {d : CDoc} (hv : Versions jsonOps hist g d) : ConfigDepOk d := by
  obtain ⟨δ, hδ, _, rfl⟩ := hv
  obtain ⟨⟨⟨n, a1, a2⟩, a3⟩, a4⟩ := h δ hδ
  have off : ∀ p ∈ [namePath, nsPath, rvPath, refMapPath, refDepPath], nested (jsonOps.removeUID δ.obj).1 p = nested δ.obj.1 p := by
    intro p hp
    simp only [List.mem_cons, List.not_mem_nil, or_false] at hp
    rcases hp with rfl | rfl | rfl | rfl | rfl <;> exact removeUID_off δ.obj.2 (by decide) (by decide)
  refine ⟨⟨⟨n, (off _ (by simp)).trans a1, a2⟩, fun v hv => a3 v ((off _ (by simp)).symm.trans hv)⟩, fun p hp v hv => a4 p hp v ((off p hp).symm.trans hv)⟩

theorem live_configDepOk {hist : List (Delta CDoc)} (h : ∀ δ ∈ hist, ConfigDepOk δ.obj) {g : GVK} {d : CDoc} (hv : LiveObj hist g d) : ConfigDepOk d :=
  version_configDepOk h (liveAs_version hv)

theorem liveTuple_three {hist : List (Delta CDoc)} {a b c : GVK} {ds : List CDoc} : LiveTuple hist [a, b, c] ds ↔
    ∃ x y z, ds = [x, y, z] ∧ LiveObj hist a x ∧ LiveObj hist b y ∧ LiveObj hist c z := by
  constructor
  · intro h
    match ds, h with
    | [x, y, z], h => exact ⟨x, y, z, rfl, h.2 0 _ _ rfl rfl, h.2 1 _ _ rfl rfl, h.2 2 _ _ rfl rfl⟩
    | [], h => have := h.1; simp at this
    | [_], h => have := h.1; simp at this
    | [_, _], h => have := h.1; simp at this
    | _ :: _ :: _ :: _ :: _, h => have := h.1; simp at this
  · rintro ⟨x, y, z, rfl, h1, h2, h3⟩
    refine ⟨rfl, fun i s d hs hd => ?_⟩
    match i, hs, hd with
    | 0, hs, hd => cases hs; cases hd; exact h1
    | 1, hs, hd => cases hs; cases hd; exact h2
    | 2, hs, hd => cases hs; cases hd; exact h3
    | i + 3, hs, hd => simp at hs

theorem tupleIn_three {P Q R : CDoc → Prop} {ds : List CDoc} (h : TupleIn [P, Q, R] ds) : ∃ x y z, ds = [x, y, z] ∧ P x ∧ Q y ∧ R z := by
  match ds, h with
  | [x, y, z], h => exact ⟨x, y, z, rfl, h.2 0 _ _ rfl rfl, h.2 1 _ _ rfl rfl, h.2 2 _ _ rfl rfl⟩
  | [], h => have := h.1; simp at this
  | [_], h => have := h.1; simp at this
  | [_, _], h => have := h.1; simp at this
  | _ :: _ :: _ :: _ :: _, h => have := h.1; simp at this

/-- The tuples of live objects and their results are the linked objects and their patches. -/
theorem configDep_live (base : Env) {hist : List (Delta CDoc)} (hok : ∀ δ ∈ hist, ConfigDepOk δ.obj) (c : CDoc) :
    (∃ ds, LiveTuple hist configDepSources ds ∧ JoinResults (fieldEnv base) configDepSources configDepCond [.project configDepProj] ds c) ↔
      ∃ cm dep cd, LinkedNow hist cm dep cd ∧ c = versionDoc cm dep := by
  constructor
  · rintro ⟨ds, hl, hr⟩
    obtain ⟨cm, dep, cd, rfl, l1, l2, l3⟩ := liveTuple_three.mp hl
    obtain ⟨a, b⟩ := (configDep_joinResults base (live_configDepOk hok l1) (live_configDepOk hok l2) (live_configDepOk hok l3) c).mp hr
    exact ⟨cm, dep, cd, ⟨l1, l2, l3, a⟩, b⟩
  · rintro ⟨cm, dep, cd, ⟨l1, l2, l3, a⟩, b⟩
    exact ⟨_, liveTuple_three.mpr ⟨cm, dep, cd, rfl, l1, l2, l3⟩,
      (configDep_joinResults base (live_configDepOk hok l1) (live_configDepOk hok l2) (live_configDepOk hok l3) c).mpr ⟨a, b⟩⟩

theorem linked_ns {cm dep cd : CDoc} (h2 : ConfigDepOk dep) (h : Linked cm dep cd) : ∃ ns, nested dep.1 nsPath = some (.str ns) := by
  obtain ⟨_, _, ⟨v, _, _, hv⟩, _⟩ := h
  obtain ⟨ns, rfl⟩ := h2.1.2 v hv
  exact ⟨ns, hv⟩

theorem mentions_single {k l : String} {v : Json} {q : List String} (h : (Json.map [(k, v)]).Mentions (l :: q)) : l = k ∧ v.Mentions q := by
  by_cases e : k = l
  · subst e
    simpa [Json.Mentions, SMap.get] using h
  · simp [Json.Mentions, SMap.get, e] at h

/-- A map with one field, holding a map with one field, and so on. -/
def chainJson : List String → Json → Json
  | [], v => v
  | k :: p, v => .map [(k, chainJson p v)]

theorem mentions_chain {v : Json} : ∀ {p q : List String}, (chainJson p v).Mentions q → q <+: p ∨ p <+: q
  | [], q, _ => .inr ⟨q, rfl⟩
  | _ :: _, [], _ => .inl ⟨_, rfl⟩
  | k :: p, l :: q, h => by
    obtain ⟨rfl, h'⟩ := mentions_single h
    rcases mentions_chain h' with ⟨t, rfl⟩ | ⟨t, rfl⟩
    · exact .inl ⟨t, rfl⟩
    · exact .inr ⟨t, rfl⟩

/-- The object made of the patch: it has the name of the Deployment, the annotation, and nothing else. -/
theorem versionDoc_made {cm dep : CDoc} {n ns : String} (hn : nested dep.1 namePath = some (.str n)) (hne : n ≠ "") (hns : nested dep.1 nsPath = some (.str ns)) :
    ∃ x : CDoc, jsonOps.enforce deploymentK (versionDoc cm dep) = .ok x ∧ objKey x.1 = objKey dep.1 ∧ nested x.1 versionPath = some (valueAt cm rvPath) ∧
      ∀ p, FreePath p → Disjoint p versionPath → ¬ (Json.map x.1).Mentions p := by
  have v1 : valueAt dep namePath = .str n := by unfold valueAt; rw [hn]; rfl
  have v2 : valueAt dep nsPath = .str ns := by unfold valueAt; rw [hns]; rfl
  have hm : (versionDoc cm dep).1 = versionPatch (.str n) (.str ns) (valueAt cm rvPath) := by simp only [versionDoc, v1, v2]
  obtain ⟨x, hx⟩ := (C74_accepted_iff deploymentK _ (versionDoc cm dep).2).mpr ⟨[("name", .str n), ("namespace", .str ns)], n, by rw [hm]; rfl, rfl, hne, by
    intro v hv
    cases hv
    exact ⟨ns, rfl⟩⟩
  obtain ⟨o1, o2, o3, o4, o5, o6⟩ := C74_object _ _ _ (versionDoc cm dep).2 hx
  have hspec : SMap.get x "spec" = some (.map [("template", .map [("metadata", .map [("annotations", .map [(versionKey, valueAt cm rvPath)])])])]) := by
    rw [o5 _ (by decide) (by decide) (by decide), hm]; rfl
  refine ⟨⟨x, enforceDoc_canon (versionDoc cm dep).2 hx⟩, jsonOps_enforce.mpr hx, ?_, ?_, ?_⟩
  · show objKey x = _
    rw [o4, hm]
    simp only [objKey, nestedString, hn, hns]
    rfl
  · show nested x versionPath = _
    rw [nested_cons, hspec]
    rfl
  · intro p hp hd hmen
    match p, hp, hd, hmen with
    | [], hp, _, _ => exact hp.1 rfl
    | k :: q, hp, hd, hmen =>
      have hget : ∃ v, SMap.get x k = some v ∧ v.Mentions q := by
        simp only [Json.Mentions] at hmen
        cases hv : SMap.get x k with
        | none => rw [hv] at hmen; exact hmen.elim
        | some v => rw [hv] at hmen; exact ⟨v, rfl, hmen⟩
      obtain ⟨v, hv, hmv⟩ := hget
      have ne : ∀ s, k = s → ¬ [s] <+: k :: q → False := by
        rintro s rfl h
        exact h ⟨q, rfl⟩
      by_cases k1 : k = "apiVersion"
      · exact ne _ k1 (hp.2.2 _ (by simp [protectedPaths]))
      by_cases k2 : k = "kind"
      · exact ne _ k2 (hp.2.2 _ (by simp [protectedPaths]))
      by_cases k3 : k = "metadata"
      · subst k3
        match q, hp, hd, hmv with
        | [], hp, _, _ => exact hp.2.1 rfl
        | l :: q, hp, hd, hmv =>
          have l1 : l ≠ "name" := by rintro rfl; exact hp.2.2 ["metadata", "name"] (by simp [protectedPaths]) ⟨q, rfl⟩
          have l2 : l ≠ "namespace" := by rintro rfl; exact hp.2.2 ["metadata", "namespace"] (by simp [protectedPaths]) ⟨q, rfl⟩
          have hnone := o6 l [] l2
          rw [nested_cons, hv, hm] at hnone
          have : nested (versionPatch (.str n) (.str ns) (valueAt cm rvPath)) ["metadata", l] = none := by
            simp [versionPatch, nested, Json.at, Json.field, SMap.get, Ne.symm l1, Ne.symm l2]
          rw [this] at hnone
          have hname := o6 "name" [] (by decide)
          rw [nested_cons, hv, hm] at hname
          have : nested (versionPatch (.str n) (.str ns) (valueAt cm rvPath)) ["metadata", "name"] = some (.str n) := rfl
          rw [this] at hname
          cases v with
          | map md =>
            have : SMap.get md l = none := (nested_one md l).symm.trans hnone
            simp [Json.Mentions, this] at hmv
          | _ => simp [Json.at, Json.field] at hname
      by_cases k4 : k = "spec"
      · subst k4
        rw [hspec] at hv
        cases hv
        rcases mentions_chain (p := ["template", "metadata", "annotations", versionKey]) hmv with ⟨t, ht⟩ | ⟨t, ht⟩
        · exact hd.1 ⟨t, by rw [List.cons_append, ht]⟩
        · exact hd.2 ⟨t, by rw [← ht]; rfl⟩
      · rw [o5 k k2 k1 k3, hm] at hv
        simp [versionPatch, SMap.get, Ne.symm k3, Ne.symm k4] at hv

theorem versionDoc_enforced {cm dep cd : CDoc} (h2 : ConfigDepOk dep) (h : Linked cm dep cd) :
    ∃ x : CDoc, jsonOps.enforce deploymentK (versionDoc cm dep) = .ok x ∧ objKey x.1 = objKey dep.1 ∧ nested x.1 versionPath = some (valueAt cm rvPath) ∧
      ∀ p, FreePath p → Disjoint p versionPath → ¬ (Json.map x.1).Mentions p := by
  obtain ⟨n, hn, hne⟩ := h2.1.1
  obtain ⟨ns, hns⟩ := linked_ns h2 h
  exact versionDoc_made hn hne hns

theorem configDep_apart (base : Env) {hist : List (Delta CDoc)} (hok : ∀ δ ∈ hist, ConfigDepOk δ.obj) (honce : LinkedOnce hist) :
    TuplesApart (fieldEnv base) deploymentK hist configDepSources configDepCond [.project configDepProj] := by
  intro ds ds' c c' hl hl' hr hr' hsame
  obtain ⟨cm, dep, cd, rfl, l1, l2, l3⟩ := liveTuple_three.mp hl
  obtain ⟨cm', dep', cd', rfl, l1', l2', l3'⟩ := liveTuple_three.mp hl'
  obtain ⟨a, rfl⟩ := (configDep_joinResults base (live_configDepOk hok l1) (live_configDepOk hok l2) (live_configDepOk hok l3) c).mp hr
  obtain ⟨a', rfl⟩ := (configDep_joinResults base (live_configDepOk hok l1') (live_configDepOk hok l2') (live_configDepOk hok l3') c').mp hr'
  obtain ⟨x, e1, e2, _⟩ := versionDoc_enforced (live_configDepOk hok l2) a
  obtain ⟨x', e1', e2', _⟩ := versionDoc_enforced (live_configDepOk hok l2') a'
  have hk : objKey dep.1 = objKey dep'.1 := by
    rw [← e2, ← e2']
    rcases hsame with h | ⟨y, y', h1, h2, h3⟩
    · rw [h, e1'] at e1
      cases e1; rfl
    · rw [jsonOps_enforce.mp e1] at h1
      rw [jsonOps_enforce.mp e1'] at h2
      cases h1; cases h2
      exact h3
  have hd : dep = dep' := liveAs_unique l2.2 (hk ▸ l2'.2)
  subst hd
  have hc := honce cm dep cd cm' cd' ⟨l1, l2, l3, a⟩ ⟨l1', l2', l3', a'⟩
  subst hc
  have hm : cm = cm' := by
    obtain ⟨⟨v1, _, p1, q1⟩, _, _, ⟨v2, _, p2, q2⟩⟩ := a
    obtain ⟨⟨w1, _, r1, s1⟩, _, _, ⟨w2, _, r2, s2⟩⟩ := a'
    have hkey : objKey cm.1 = objKey cm'.1 := objKey_eq (by rw [p1, r1, ← q1, ← s1]) (by rw [p2, r2, ← q2, ← s2])
    exact liveAs_unique l1.2 (hkey ▸ l1'.2)
  subst hm
  rfl

theorem ConfigDepHist.okEvents {hist : List (EvalOrder CDoc × Delta CDoc)} (h : ConfigDepHist hist) : ∀ δ ∈ hist.map Prod.snd, ConfigDepOk δ.obj := by
  intro δ hδ
  obtain ⟨e, he, rfl⟩ := List.mem_map.mp hδ
  exact h.ok e he

theorem configDep_plain : ∀ op ∈ [SpecOp.project configDepProj], op.Plain := by
  intro op h; simp at h; subst h; trivial

/-- **C89** (partial): no evaluation of the operator ever fails. Missing: Deployments named by two ConfigDeployment objects, and fields that look like paths. -/
theorem C89_never_fails_partial (base : Env) (H : (fieldEnv base).Canon) (srt : List Json → List Json) {spec : List SpecOp}
    (hspec : unmarshalPipeline (fieldEnv base) configDepJson = .ok spec) {p0 : Pipe CDoc AnyVal}
    (hnew : newSpecPipe (fieldEnv base) srt deploymentK configDepSources spec = .ok p0) {hist : List (EvalOrder CDoc × Delta CDoc)} (hh : ConfigDepHist hist) :
    ∃ wss : List (List (Delta CDoc)), (runs (fun p (e : EvalOrder CDoc × Delta CDoc) => p.evaluate jsonOps e.1 e.2) p0 hist).2 = wss.map Except.ok := by
  rw [C89_read] at hspec
  cases hspec
  obtain ⟨wss, h, _⟩ := C83_never_fails_partial base H srt deploymentK configDepSources (by decide) configDepCond [.project configDepProj] configDep_plain p0 hnew
    hist hh.orders hh.kinds hh.watch (fun pre hpre => configDep_apart base (fun δ hδ => hh.okEvents δ (hpre.subset hδ)) (hh.once pre hpre))
    (by
      intro ds j hds hj
      obtain ⟨cm, dep, cd, rfl, v1, v2, v3⟩ := tupleIn_three hds
      have o1 := version_configDepOk hh.okEvents v1
      have o2 := version_configDepOk hh.okEvents v2
      have o3 := version_configDepOk hh.okEvents v3
      have hc := C89_condition base o1 o2 o3 hj
      by_cases hl : Linked cm dep cd
      · exact .inl ⟨hc.1 hl, _, (configDep_projects base o1 o2 hj _).mpr rfl, trivial⟩
      · exact .inr (hc.2 hl))
    (by
      intro ds c hds hr
      obtain ⟨cm, dep, cd, rfl, v1, v2, v3⟩ := tupleIn_three hds
      have o1 := version_configDepOk hh.okEvents v1
      have o2 := version_configDepOk hh.okEvents v2
      have o3 := version_configDepOk hh.okEvents v3
      obtain ⟨a, rfl⟩ := (configDep_joinResults base o1 o2 o3 c).mp hr
      obtain ⟨x, hx, _⟩ := versionDoc_enforced o2 a
      exact ⟨x.1, jsonOps_enforce.mp hx⟩)
    [] (by simp [AMap.WF]) (by intro k; rfl)
  exact ⟨wss, h⟩

theorem configDep_resultAt (base : Env) (H : (fieldEnv base).Canon) {srt : List Json → List Json} {cfg : List (PipeOp CDoc AnyVal)}
    (hcfg : compileOps (fieldEnv base) srt (configDepSources.map GVK.kind) [.join configDepCond, .project configDepProj] = .ok cfg)
    {pre : List (Delta CDoc)} (hok : ∀ δ ∈ pre, ConfigDepOk δ.obj) {k : ObjKey} {x : CDoc} (h : ResultAt configDepSources deploymentK cfg pre k x) :
    ∃ cm dep cd, LinkedNow pre cm dep cd ∧ objKey dep.1 = k ∧ nested x.1 versionPath = some (valueAt cm rvPath) ∧
      ∀ p, FreePath p → Disjoint p versionPath → ¬ (Json.map x.1).Mentions p := by
  obtain ⟨ins, o, d, h1, h2, h3, h4, h5⟩ := h
  obtain ⟨cm, dep, cd, hl, rfl⟩ := (configDep_live base hok d).mp
    ((C83_results base H srt _ (by decide) _ _ cfg hcfg (rowSpec_plain configDep_plain _) pre ins o h1 h2 d).mp h3)
  obtain ⟨x', e1, e2, e3, e4⟩ := versionDoc_enforced (live_configDepOk hok hl.2.1) hl.2.2.2
  rw [e1] at h4
  cases h4
  exact ⟨cm, dep, cd, hl, e2.symm.trans h5, e3, e4⟩

theorem configDep_resultAt_of (base : Env) (H : (fieldEnv base).Canon) {srt : List Json → List Json} {cfg : List (PipeOp CDoc AnyVal)}
    (hcfg : compileOps (fieldEnv base) srt (configDepSources.map GVK.kind) [.join configDepCond, .project configDepProj] = .ok cfg)
    {pre : List (Delta CDoc)} (hok : ∀ δ ∈ pre, ConfigDepOk δ.obj) (hex : ∃ ins o, LiveInputs jsonOps pre configDepSources ins ∧ PipelineSpec cfg ins o)
    {cm dep cd : CDoc} (h : LinkedNow pre cm dep cd) :
    ∃ x, ResultAt configDepSources deploymentK cfg pre (objKey dep.1) x ∧ nested x.1 versionPath = some (valueAt cm rvPath) := by
  obtain ⟨ins, o, h1, h2⟩ := hex
  obtain ⟨x, e1, e2, e3, _⟩ := versionDoc_enforced (live_configDepOk hok h.2.1) h.2.2.2
  refine ⟨x, ⟨ins, o, _, h1, h2, ?_, e1, e2⟩, e3⟩
  exact (C83_results base H srt _ (by decide) _ _ cfg hcfg (rowSpec_plain configDep_plain _) pre ins o h1 h2 _).mpr ((configDep_live base hok _).mpr ⟨cm, dep, cd, h, rfl⟩)

theorem configDep_one (base : Env) (H : (fieldEnv base).Canon) {srt : List Json → List Json} {cfg : List (PipeOp CDoc AnyVal)}
    (hcfg : compileOps (fieldEnv base) srt (configDepSources.map GVK.kind) [.join configDepCond, .project configDepProj] = .ok cfg)
    {hist : List (EvalOrder CDoc × Delta CDoc)} (hh : ConfigDepHist hist) : ∀ pre, pre <+: hist.map Prod.snd → ∀ ins o,
      LiveInputs jsonOps pre configDepSources ins → PipelineSpec cfg ins o → OnePerName jsonOps deploymentK o :=
  fun pre hpre _ _ hl hsp => join_onePerName base H (by decide) configDep_plain hcfg
    (configDep_apart base (fun δ hδ => hh.okEvents δ (hpre.subset hδ)) (hh.once pre hpre)) hl hsp

theorem configDep_det {env : Env} {srt : List Json → List Json} {cfg : List (PipeOp CDoc AnyVal)}
    (hcfg : compileOps env srt (configDepSources.map GVK.kind) [.join configDepCond, .project configDepProj] = .ok cfg) : GatherDet cfg :=
  gatherDet_of_none (by cases hcfg; rfl)

theorem configDep_spec (base : Env) (H : (fieldEnv base).Canon) {srt : List Json → List Json} {cfg : List (PipeOp CDoc AnyVal)}
    (hcfg : compileOps (fieldEnv base) srt (configDepSources.map GVK.kind) [.join configDepCond, .project configDepProj] = .ok cfg)
    {p0 : Pipe CDoc AnyVal} (hpipe : Pipe.new deploymentK configDepSources cfg = .ok p0) {hist : List (EvalOrder CDoc × Delta CDoc)} (hh : ConfigDepHist hist)
    {wss : List (List (Delta CDoc))} (hr : (runs (fun p (e : EvalOrder CDoc × Delta CDoc) => p.evaluate jsonOps e.1 e.2) p0 hist).2 = wss.map Except.ok)
    (h1 h2 : List (EvalOrder CDoc × Delta CDoc)) (e : hist = h1 ++ h2) :
    ∃ ins o, LiveInputs jsonOps (h1.map Prod.snd) configDepSources ins ∧ PipelineSpec cfg ins o := by
  obtain ⟨a, ha⟩ : ∃ a : List (List (Delta CDoc)), (runs (fun p (e : EvalOrder CDoc × Delta CDoc) => p.evaluate jsonOps e.1 e.2) p0 h1).2 = a.map Except.ok := by
    cases h2 with
    | nil => exact ⟨wss, by rw [← hr, e, List.append_nil]⟩
    | cons x h2 =>
      rw [e] at hr
      obtain ⟨a, _, _, _, ha, _⟩ := runs_at _ hr
      exact ⟨a, ha⟩
  subst e
  have hsub : ∀ e ∈ h1, e ∈ h1 ++ h2 := fun e he => List.mem_append_left _ he
  have hpre : h1.map Prod.snd <+: (h1 ++ h2).map Prod.snd := by rw [List.map_append]; exact List.prefix_append _ _
  have hw := hh.watch
  rw [List.map_append] at hw
  obtain ⟨ins, o, q1, q2, _⟩ := C19_view_maintenance_partial jsonOps_lawful (by decide) hpipe (hist := h1) (fun e he => hh.orders e (hsub e he))
    (fun e he => hh.kinds e (hsub e he)) (watchOk_prefix hw) (fun pre hp => configDep_one base H hcfg hh pre (hp.trans hpre)) ha
  exact ⟨ins, o, q1, q2⟩

/-- **C89** (partial): the annotation of a Deployment, whatever others do to its other fields. While a ConfigDeployment object links a ConfigMap to it, it is the version
of the ConfigMap; if it was never linked, it is as it was in the beginning; and when the link has gone, it has gone. Missing: Deployments named by two ConfigDeployment
objects, fields that look like paths, changes by others to the annotation, or to the Deployment between reading and writing it (C61), and failing writes. -/
theorem C89_annotation_partial (base : Env) (H : (fieldEnv base).Canon) (srt : List Json → List Json) {spec : List SpecOp}
    (hspec : unmarshalPipeline (fieldEnv base) configDepJson = .ok spec) {p0 : Pipe CDoc AnyVal}
    (hnew : newSpecPipe (fieldEnv base) srt deploymentK configDepSources spec = .ok p0) {hist : List (EvalOrder CDoc × Delta CDoc)} (hh : ConfigDepHist hist)
    {wss : List (List (Delta CDoc))} (hr : (runs (fun p (e : EvalOrder CDoc × Delta CDoc) => p.evaluate jsonOps e.1 e.2) p0 hist).2 = wss.map Except.ok)
    {k : ObjKey} {c0 c : Cluster} (hc0 : ClusterOk deploymentK c0) {y0 : SMap Json} (hy0 : c0.get (deploymentK, k) = some y0)
    (hP : Patched deploymentK k versionPath c0 wss.flatten c) :
    ∃ y, c.get (deploymentK, k) = some y ∧
      (∀ cm dep cd v, LinkedNow (hist.map Prod.snd) cm dep cd → objKey dep.1 = k → nested cm.1 rvPath = some v → v.Scalar → nested y versionPath = some v) ∧
      ((∀ pre, pre <+: hist.map Prod.snd → ∀ cm dep cd, LinkedNow pre cm dep cd → objKey dep.1 ≠ k) → nested y versionPath = nested y0 versionPath) ∧
      (∀ h1 h2 cm dep cd v, hist = h1 ++ h2 → h2 ≠ [] → LinkedNow (h1.map Prod.snd) cm dep cd → objKey dep.1 = k → nested cm.1 rvPath = some v → v.Scalar →
        (∀ h', h' <+: h2 → h' ≠ [] → ∀ cm dep cd, LinkedNow ((h1 ++ h').map Prod.snd) cm dep cd → objKey dep.1 ≠ k) → nested y versionPath = none) := by
  rw [C89_read] at hspec
  cases hspec
  obtain ⟨cfg, hcfg, hpipe⟩ := newSpecPipe_ok hnew
  have hone := configDep_one base H hcfg hh
  have hdet := configDep_det hcfg
  have hex := configDep_spec base H hcfg hpipe hh hr
  have hokp : ∀ pre, pre <+: hist.map Prod.snd → ∀ δ ∈ pre, ConfigDepOk δ.obj := fun pre hpre δ hδ => hh.okEvents δ (hpre.subset hδ)
  obtain ⟨y, hy, i1, i2, i3⟩ := C88_patcher_partial (by decide) hpipe hdet hh.orders hh.kinds hh.watch hone hr (k := k) (p := versionPath) (by decide) hc0 hy0 hP
  refine ⟨y, hy, ?_, ?_, ?_⟩
  · rintro cm dep cd v hl rfl hv hsc
    obtain ⟨x, hx, hxv⟩ := configDep_resultAt_of base H hcfg hh.okEvents (hex hist [] (by simp)) hl
    rw [show valueAt cm rvPath = v by unfold valueAt; rw [hv]; rfl] at hxv
    exact i1 x v hx hxv hsc
  · intro hno
    refine i2 (fun pre hpre x hx => ?_)
    obtain ⟨cm, dep, cd, hl, hk, _⟩ := configDep_resultAt base H hcfg (hokp pre hpre) hx
    exact absurd hk (hno pre hpre cm dep cd hl)
  · rintro h1 h2 cm dep cd v rfl hne hl rfl hv hsc hno
    have hpre : h1.map Prod.snd <+: (h1 ++ h2).map Prod.snd := by rw [List.map_append]; exact List.prefix_append _ _
    obtain ⟨x, hx, hxv⟩ := configDep_resultAt_of base H hcfg (hokp _ hpre) (hex h1 h2 rfl) hl
    rw [show valueAt cm rvPath = v by unfold valueAt; rw [hv]; rfl] at hxv
    refine i3 h1 h2 x v rfl hne hx hxv hsc (fun h' hp hn x' hx' => ?_)
    have hpre' : (h1 ++ h').map Prod.snd <+: (h1 ++ h2).map Prod.snd := by
      obtain ⟨t, rfl⟩ := hp
      exact ⟨t.map Prod.snd, by simp⟩
    obtain ⟨cm', dep', cd', hl', hk', _⟩ := configDep_resultAt base H hcfg (hokp _ hpre') hx'
    exact hno h' hp hn cm' dep' cd' hl' hk'

/-- **C89** (partial): the operator changes nothing else in a Deployment: neither in those it annotates nor in others. Missing: see `C89_annotation_partial`. -/
theorem C89_only_annotation_partial (base : Env) (H : (fieldEnv base).Canon) (srt : List Json → List Json) {spec : List SpecOp}
    (hspec : unmarshalPipeline (fieldEnv base) configDepJson = .ok spec) {p0 : Pipe CDoc AnyVal}
    (hnew : newSpecPipe (fieldEnv base) srt deploymentK configDepSources spec = .ok p0) {hist : List (EvalOrder CDoc × Delta CDoc)} (hh : ConfigDepHist hist)
    {wss : List (List (Delta CDoc))} (hr : (runs (fun p (e : EvalOrder CDoc × Delta CDoc) => p.evaluate jsonOps e.1 e.2) p0 hist).2 = wss.map Except.ok)
    {k : ObjKey} {p : List String} (hp : FreePath p) (hd : Disjoint p versionPath) {c0 c : Cluster} (hc0 : ClusterOk deploymentK c0) {y0 : SMap Json}
    (hy0 : c0.get (deploymentK, k) = some y0) (hP : Patched deploymentK k p c0 wss.flatten c) : ∃ y, c.get (deploymentK, k) = some y ∧ nested y p = nested y0 p := by
  rw [C89_read] at hspec
  cases hspec
  obtain ⟨cfg, hcfg, hpipe⟩ := newSpecPipe_ok hnew
  obtain ⟨y, hy, _, i2, _⟩ := C88_patcher_partial (by decide) hpipe (configDep_det hcfg) hh.orders hh.kinds hh.watch (configDep_one base H hcfg hh) hr (k := k) hp hc0 hy0 hP
  refine ⟨y, hy, i2 (fun pre hpre x hx => ?_)⟩
  obtain ⟨_, _, _, _, _, _, h⟩ := configDep_resultAt base H hcfg (fun δ hδ => hh.okEvents δ (hpre.subset hδ)) hx
  exact h p hp hd

theorem liveObj_snoc {hist : List (Delta CDoc)} {δ : Delta CDoc} {g : GVK} {d : CDoc} (h : ¬ (objGVK δ.obj.1 = g ∧ objKey δ.obj.1 = objKey d.1)) :
    LiveObj (hist ++ [δ]) g d ↔ LiveObj hist g d :=
  and_congr_right (fun _ => liveAs_snoc_not (fun hc => h ⟨hc.1, hc.2.1⟩))

/-- The patches after a change of a Deployment are the same. -/
theorem configDep_same {hist : List (Delta CDoc)} {δ : Delta CDoc} (hgvk : objGVK δ.obj.1 = deploymentK) (ht : δ.type ≠ .deleted) (ht' : δ.type ≠ .sync) {dep : CDoc}
    (hdep : LiveObj hist deploymentK dep) (hn : nested δ.obj.1 namePath = nested dep.1 namePath) (hns : nested δ.obj.1 nsPath = nested dep.1 nsPath) (c : CDoc) :
    (∃ cm dep cd, LinkedNow hist cm dep cd ∧ c = versionDoc cm dep) ↔ ∃ cm dep cd, LinkedNow (hist ++ [δ]) cm dep cd ∧ c = versionDoc cm dep := by
  have hk : objKey δ.obj.1 = objKey dep.1 := objKey_eq hn hns
  have other : ∀ g d, g ≠ deploymentK → (LiveObj (hist ++ [δ]) g d ↔ LiveObj hist g d) := fun g d hg =>
    liveObj_snoc (fun h => hg (h.1.symm.trans hgvk))
  have hnew : ∀ d, objKey d.1 = objKey dep.1 → (LiveObj (hist ++ [δ]) deploymentK d ↔ d = jsonOps.removeUID δ.obj) := by
    intro d hd
    have hc : Concerns jsonOps deploymentK (objKey d.1) δ := ⟨hgvk, hk.trans hd.symm, ht'⟩
    constructor
    · intro h
      exact ((liveAs_snoc_of hc).mp h.2).2.symm
    · rintro rfl
      exact ⟨(removeUID_gvk δ.obj.2).trans hgvk, (liveAs_snoc_of hc).mpr ⟨ht, rfl⟩⟩
  have hold : ∀ d, objKey d.1 = objKey dep.1 → LiveObj hist deploymentK d → d = dep := fun d hd h => liveAs_unique h.2 (hd ▸ hdep.2)
  have e1 : nested (jsonOps.removeUID δ.obj).1 namePath = nested dep.1 namePath := (removeUID_off δ.obj.2 (by decide) (by decide)).trans hn
  have e2 : nested (jsonOps.removeUID δ.obj).1 nsPath = nested dep.1 nsPath := (removeUID_off δ.obj.2 (by decide) (by decide)).trans hns
  have hkey : objKey (jsonOps.removeUID δ.obj).1 = objKey dep.1 := objKey_eq e1 e2
  have hlink : ∀ cm cd, Linked cm (jsonOps.removeUID δ.obj) cd ↔ Linked cm dep cd := by
    intro cm cd
    unfold Linked Agree
    rw [e1, e2]
  have hdoc : ∀ cm, versionDoc cm (jsonOps.removeUID δ.obj) = versionDoc cm dep := by
    intro cm
    unfold versionDoc
    simp only [valueAt, e1, e2]
  constructor
  · rintro ⟨cm, d, cd, ⟨l1, l2, l3, l4⟩, rfl⟩
    by_cases h : objKey d.1 = objKey dep.1
    · have := hold d h l2
      subst this
      exact ⟨cm, _, cd, ⟨(other _ _ (by decide)).mpr l1, (hnew _ hkey).mpr rfl, (other _ _ (by decide)).mpr l3, (hlink _ _).mpr l4⟩, (hdoc cm).symm⟩
    · exact ⟨cm, d, cd, ⟨(other _ _ (by decide)).mpr l1, (liveObj_snoc (fun h' => h (h'.2.symm.trans hk))).mpr l2, (other _ _ (by decide)).mpr l3, l4⟩, rfl⟩
  · rintro ⟨cm, d, cd, ⟨l1, l2, l3, l4⟩, rfl⟩
    by_cases h : objKey d.1 = objKey dep.1
    · have := (hnew d h).mp l2
      subst this
      exact ⟨cm, dep, cd, ⟨(other _ _ (by decide)).mp l1, hdep, (other _ _ (by decide)).mp l3, (hlink _ _).mp l4⟩, hdoc cm⟩
    · exact ⟨cm, d, cd, ⟨(other _ _ (by decide)).mp l1, (liveObj_snoc (fun h' => h (h'.2.symm.trans hk))).mp l2, (other _ _ (by decide)).mp l3, l4⟩, rfl⟩

/-- **C89** (partial): the operator watches the Deployments it patches, but its own patches do not wake it up for ever: an event that changes a Deployment, but not its
name, causes no write. Missing: see `C89_never_fails_partial`. -/
theorem C89_quiet_partial (base : Env) (H : (fieldEnv base).Canon) (srt : List Json → List Json) {spec : List SpecOp}
    (hspec : unmarshalPipeline (fieldEnv base) configDepJson = .ok spec) {p0 p' : Pipe CDoc AnyVal}
    (hnew : newSpecPipe (fieldEnv base) srt deploymentK configDepSources spec = .ok p0) {hist : List (EvalOrder CDoc × Delta CDoc)} {ω : EvalOrder CDoc} {δ : Delta CDoc}
    (hh : ConfigDepHist (hist ++ [(ω, δ)])) {wss : List (List (Delta CDoc))} {ws : List (Delta CDoc)}
    (hr : (runs (fun p (e : EvalOrder CDoc × Delta CDoc) => p.evaluate jsonOps e.1 e.2) p0 hist).2 = wss.map Except.ok)
    (he : (runs (fun p (e : EvalOrder CDoc × Delta CDoc) => p.evaluate jsonOps e.1 e.2) p0 hist).1.evaluate jsonOps ω δ = (p', .ok ws))
    (hgvk : objGVK δ.obj.1 = deploymentK) (ht : δ.type ≠ .deleted) {dep : CDoc} (hdep : LiveObj (hist.map Prod.snd) deploymentK dep)
    (hn : nested δ.obj.1 namePath = nested dep.1 namePath) (hns : nested δ.obj.1 nsPath = nested dep.1 nsPath) : ws = [] := by
  rw [C89_read] at hspec
  cases hspec
  obtain ⟨cfg, hcfg, hpipe⟩ := newSpecPipe_ok hnew
  have hmap : (hist ++ [(ω, δ)]).map Prod.snd = hist.map Prod.snd ++ [δ] := by simp
  have hone := configDep_one base H hcfg hh
  have hw := hh.watch
  rw [hmap] at hone hw
  obtain ⟨ins, o, ins', o', a1, a2, a3, a4, a5⟩ := C85_writes_exact_partial jsonOps_lawful (by decide) hpipe (fun e h => hh.orders e (by simp [h]))
    (fun e h => hh.kinds e (by simp [h])) (hh.orders (ω, δ) (by simp)) (hh.kinds (ω, δ) (by simp)) hw hone hr he
  have hok := hh.okEvents
  rw [hmap] at hok
  refine exactWrites_same a5 (fun d => ?_)
  rw [C83_results base H srt _ (by decide) _ _ cfg hcfg (rowSpec_plain configDep_plain _) _ ins o a1 a2 d,
    C83_results base H srt _ (by decide) _ _ cfg hcfg (rowSpec_plain configDep_plain _) _ ins' o' a3 a4 d,
    configDep_live base (fun δ h => hok δ (by simp [h])) d, configDep_live base hok d]
  exact configDep_same hgvk ht (hw _ _ [] rfl).2.2 hdep hn hns d

/-! ## An example -/

/-- A ConfigMap. -/
def cmObj (n rv : String) : CDoc :=
  ⟨[("apiVersion", .str "v1"), ("kind", .str "ConfigMap"), ("metadata", .map [("name", .str n), ("namespace", .str "d"), ("resourceVersion", .str rv)])], by
    simp [SMap.Sorted, Json.Canon, Json.CanonM]⟩

/-- A Deployment with replicas and annotations. -/
def depMap (r : Int) (a : SMap Json) : SMap Json :=
  [("apiVersion", .str "apps/v1"), ("kind", .str "Deployment"), ("metadata", .map [("name", .str "web"), ("namespace", .str "d")]),
    ("spec", .map [("replicas", .int r), ("template", .map [("metadata", .map [("annotations", .map a)])])])]

/-- The Deployment as the watch delivers it. -/
def depObj (r : Int) (v : Option String) : CDoc :=
  ⟨depMap r (match v with | none => [] | some v => [(versionKey, .str v)]), by cases v <;> simp [depMap, SMap.Sorted, Json.Canon, Json.CanonM]⟩

/-- A ConfigDeployment. -/
def cdObj (n cm : String) : CDoc :=
  ⟨[("apiVersion", .str "dcontroller.io/v1alpha1"), ("kind", .str "ConfigDeployment"), ("metadata", .map [("name", .str n), ("namespace", .str "d")]),
    ("spec", .map [("configMap", .str cm), ("deployment", .str "web")])], by simp [SMap.Sorted, Json.Canon, Json.CanonM]⟩

/-- The pipeline of the operator. -/
def configDepPipe : Pipe CDoc AnyVal :=
  match newSpecPipe plainEnv id deploymentK configDepSources [.join configDepCond, .project configDepProj] with
  | .ok p => p
  | .error _ => { sources := [], target := deploymentK, graph := {} }

/-- A ConfigMap and a Deployment, linked; the Deployment changes, the ConfigMap changes, and the link goes. -/
def configDepEx : List (EvalOrder CDoc × Delta CDoc) :=
  [(ω0, ⟨.added, cmObj "cfg" "7"⟩), (ω0, ⟨.added, depObj 1 none⟩), (ω1, ⟨.added, cdObj "l" "cfg"⟩), (ω0, ⟨.updated, depObj 1 (some "7")⟩),
   (ω1, ⟨.updated, cmObj "cfg" "9"⟩), (ω0, ⟨.updated, depObj 3 (some "9")⟩), (ω0, ⟨.deleted, cdObj "l" "cfg"⟩)]

/-- The patch with a version. -/
def verObj (v : String) : CDoc :=
  ⟨[("apiVersion", .str "apps/v1"), ("kind", .str "Deployment"), ("metadata", .map [("name", .str "web"), ("namespace", .str "d")]),
    ("spec", .map [("template", .map [("metadata", .map [("annotations", .map [(versionKey, .str v)])])])])], by simp [SMap.Sorted, Json.Canon, Json.CanonM]⟩

/-- The writes. -/
def configDepWrites : List (List (Delta CDoc)) :=
  [[], [], [⟨.upserted, verObj "7"⟩], [], [⟨.upserted, verObj "9"⟩], [], [⟨.deleted, verObj "9"⟩]]

/-- Two ConfigDeployment objects link the same objects, then one of them goes. -/
def twoLinks : List (EvalOrder CDoc × Delta CDoc) :=
  [(ω0, ⟨.added, cmObj "cfg" "7"⟩), (ω0, ⟨.added, depObj 1 none⟩), (ω1, ⟨.added, cdObj "l" "cfg"⟩), (ω0, ⟨.added, cdObj "m" "cfg"⟩), (ω0, ⟨.deleted, cdObj "m" "cfg"⟩)]

/-- The cluster with the Deployment. -/
def depCluster (r : Int) (a : SMap Json) : Cluster := [((deploymentK, ("d", "web")), depMap r a)]

theorem depCluster_ok (r : Int) {a : SMap Json} (h : (Json.map a).Canon) : ClusterOk deploymentK (depCluster r a) := by
  intro k y hy
  simp only [depCluster, AMap.get] at hy
  split at hy
  · cases hy
    exact ⟨by simp only [Json.Canon, SMap.Sorted] at h; simp [depMap, SMap.Sorted, Json.Canon, Json.CanonM, h], _, rfl⟩
  · cases hy

/-- Paths other than that of the replicas. -/
def OffReplicas (p : List String) : Prop := Disjoint p ["spec", "replicas"]

theorem depMap_off {r r' : Int} {a : SMap Json} {p : List String} (h : OffReplicas p) : nested (depMap r a) p = nested (depMap r' a) p := by
  match p, h with
  | [], h => exact absurd ⟨_, rfl⟩ h.1
  | [k], h =>
    by_cases e : k = "spec"
    · subst e; exact absurd ⟨_, rfl⟩ h.1
    · simp [depMap, nested_one, SMap.get, Ne.symm e]
  | k :: l :: p, h =>
    by_cases e : k = "spec"
    · subst e
      by_cases e' : l = "replicas"
      · subst e'; exact absurd ⟨p, rfl⟩ h.2
      · simp [depMap, nested_cons, SMap.get, Json.at, Json.field, Ne.symm e']
    · simp [depMap, nested_cons, SMap.get, Ne.symm e]

theorem configDepPatched (p : List String) (h : OffReplicas p) : Patched deploymentK ("d", "web") p (depCluster 1 []) configDepWrites.flatten (depCluster 3 []) := by
  have s0 : Patched deploymentK ("d", "web") p (depCluster 1 []) [] _ := .start
  have s1 := Patched.write (c' := depCluster 1 [(versionKey, .str "7")]) ⟨.upserted, verObj "7"⟩ none s0 (by intro o ho; cases ho) (by decide +kernel)
  have s2 := Patched.write (c' := depCluster 1 [(versionKey, .str "9")]) ⟨.upserted, verObj "9"⟩ none s1 (by intro o ho; cases ho) (by decide +kernel)
  have s3 := Patched.others (c' := depCluster 3 [(versionKey, .str "9")]) s2 ⟨depCluster_ok _ (by decide), by
    intro y hy
    refine ⟨_, rfl, ?_⟩
    cases hy
    exact depMap_off h, by intro h; cases h⟩
  exact Patched.write (c' := depCluster 3 []) ⟨.deleted, verObj "9"⟩ none s3 (by intro o ho; cases ho) (by decide +kernel)

theorem configDepEx_hist : ConfigDepHist configDepEx where
  orders := by
    intro e he
    simp only [configDepEx, List.mem_cons, List.not_mem_nil, or_false] at he
    rcases he with rfl | rfl | rfl | rfl | rfl | rfl | rfl <;> first | exact ω0_valid | exact ω1_valid
  kinds := by decide +kernel
  watch := watchOk_of_check jsonOps_lawful (by decide +kernel)
  ok := by
    intro e he
    simp only [configDepEx, List.mem_cons, List.not_mem_nil, or_false] at he
    have key : ∀ (m : SMap Json), (∀ p ∈ [namePath, nsPath, rvPath, refMapPath, refDepPath], ((nested m p).elim true (fun v => match v with
        | .str s => s ≠ "@now" && s.toList.head? ≠ some '$' | _ => true)) = true) →
        ∀ p ∈ [namePath, nsPath, rvPath, refMapPath, refDepPath], ∀ v, nested m p = some v → v.Ordinary := by
      intro m h p hp v hv s hs
      have := h p hp
      rw [hv, hs] at this
      simpa using this
    rcases he with rfl | rfl | rfl | rfl | rfl | rfl | rfl <;>
      exact ⟨⟨⟨_, rfl, by decide⟩, by intro v hv; cases hv; exact ⟨_, rfl⟩⟩, key _ (by decide +kernel)⟩
  once := by
    intro pre hp cm dep cd cm' cd' h h'
    have one : ∀ d, LiveObj pre configDepK d → objKey d.1 = ("d", "l") := by
      intro d hd
      obtain ⟨δ, hδ, h1, h2⟩ := live_event hd
      rw [← h2]
      have : ∀ δ ∈ configDepEx.map Prod.snd, objGVK δ.obj.1 = configDepK → objKey δ.obj.1 = ("d", "l") := by decide +kernel
      exact this δ (hp.subset hδ) h1
    have e1 := h.2.2.1.2
    have e2 := h'.2.2.1.2
    rw [one _ h.2.2.1] at e1
    rw [one _ h'.2.2.1] at e2
    exact liveAs_unique e1 e2

-- all hypotheses of C89 hold for the example
example := C89_never_fails_partial _ plainEnv_canon id (C89_read _) (p0 := configDepPipe) rfl configDepEx_hist
example := C89_annotation_partial _ plainEnv_canon id (C89_read _) (p0 := configDepPipe) rfl configDepEx_hist (wss := configDepWrites) (ok_of_toOption (by decide +kernel))
  (depCluster_ok 1 (by decide)) rfl (configDepPatched _ ⟨by decide, by decide⟩)
example (p : List String) (hp : FreePath p) (hd : Disjoint p versionPath) (h : OffReplicas p) :=
  C89_only_annotation_partial _ plainEnv_canon id (C89_read _) (p0 := configDepPipe) rfl configDepEx_hist (wss := configDepWrites) (ok_of_toOption (by decide +kernel))
  hp hd (depCluster_ok 1 (by decide)) rfl (configDepPatched _ h)

theorem ConfigDepHist.of_append {a b : List (EvalOrder CDoc × Delta CDoc)} (h : ConfigDepHist (a ++ b)) : ConfigDepHist a where
  orders := fun e he => h.orders e (List.mem_append_left _ he)
  kinds := fun e he => h.kinds e (List.mem_append_left _ he)
  watch := by have := h.watch; rw [List.map_append] at this; exact watchOk_prefix this
  ok := fun e he => h.ok e (List.mem_append_left _ he)
  once := fun pre hp => h.once pre (hp.trans (by rw [List.map_append]; exact List.prefix_append _ _))

example : ∀ p' ws, (runs (fun p (e : EvalOrder CDoc × Delta CDoc) => p.evaluate jsonOps e.1 e.2) configDepPipe (configDepEx.take 3)).1.evaluate jsonOps ω0
    ⟨.updated, depObj 1 (some "7")⟩ = (p', .ok ws) → ws = [] := fun p' ws he =>
  C89_quiet_partial _ plainEnv_canon id (C89_read _) (p0 := configDepPipe) rfl (hist := configDepEx.take 3)
    (ConfigDepHist.of_append (a := configDepEx.take 4) (b := configDepEx.drop 4) configDepEx_hist)
    (wss := configDepWrites.take 3) (ok_of_toOption (by decide +kernel)) he (by decide) (by decide) (dep := depObj 1 none)
    ⟨by decide, [_], _, [_], rfl, ⟨by decide, by decide, by decide⟩, by decide, by decide, (by unfold Concerns; decide +kernel)⟩ rfl rfl

/-- Not **C89** in general: if two ConfigDeployment objects link a ConfigMap to the same Deployment and one of them goes, the annotation goes, although the other still
links them. -/
theorem C89_two_links : ∃ wss : List (List (Delta CDoc)),
    (runs (fun p (e : EvalOrder CDoc × Delta CDoc) => p.evaluate jsonOps e.1 e.2) configDepPipe twoLinks).2 = wss.map Except.ok ∧
    WatchOk jsonOps (twoLinks.map Prod.snd) ∧ LinkedNow (twoLinks.map Prod.snd) (cmObj "cfg" "7") (depObj 1 none) (cdObj "l" "cfg") ∧
    Patched deploymentK ("d", "web") versionPath (depCluster 1 []) wss.flatten (depCluster 1 []) ∧ nested (depMap 1 []) versionPath = none := by
  refine ⟨[[], [], [⟨.upserted, verObj "7"⟩], [⟨.upserted, verObj "7"⟩], [⟨.deleted, verObj "7"⟩]], ok_of_toOption (by decide +kernel),
    watchOk_of_check jsonOps_lawful (by decide +kernel), ⟨?_, ?_, ?_, ?_⟩, ?_, rfl⟩
  · exact ⟨by decide, [], _, _, rfl, ⟨by decide, by decide, by decide⟩, by decide, by decide, (by unfold Concerns; decide +kernel)⟩
  · exact ⟨by decide, [_], _, _, rfl, ⟨by decide, by decide, by decide⟩, by decide, by decide, (by unfold Concerns; decide +kernel)⟩
  · exact ⟨by decide, [_, _], _, _, rfl, ⟨by decide, by decide, by decide⟩, by decide, by decide, (by unfold Concerns; decide +kernel)⟩
  · exact ⟨⟨.str "cfg", by decide, rfl, rfl⟩, ⟨.str "web", by decide, rfl, rfl⟩, ⟨.str "d", by decide, rfl, rfl⟩, ⟨.str "d", by decide, rfl, rfl⟩⟩
  · have s0 : Patched deploymentK ("d", "web") versionPath (depCluster 1 []) [] _ := .start
    have s1 := Patched.write (c' := depCluster 1 [(versionKey, .str "7")]) ⟨.upserted, verObj "7"⟩ none s0 (by intro o ho; cases ho) (by decide +kernel)
    have s2 := Patched.write (c' := depCluster 1 [(versionKey, .str "7")]) ⟨.upserted, verObj "7"⟩ none s1 (by intro o ho; cases ho) (by decide +kernel)
    exact Patched.write (c' := depCluster 1 []) ⟨.deleted, verObj "7"⟩ none s2 (by intro o ho; cases ho) (by decide +kernel)

end Dctl
