import Verif.Props.JoinPatcher
import Verif.Props.ConfigDep
import Verif.Spec.SvcHealth
/-!
# C90: the service health operator, its second controller
-/
set_option autoImplicit false
namespace Dctl

/-- The join condition. -/
def svcHealthCond : Expr := opList "@and" [
  eqE ["HealthView", "metadata", "name"] ["Service", "metadata", "name"],
  eqE ["HealthView", "metadata", "namespace"] ["Service", "metadata", "namespace"]]

/-- The expression for the list of pods. -/
abbrev podsE : Expr := strE (pathString ["HealthView", "pods"])

/-- The expression for the text of the annotation. -/
def readyE : Expr := opList "@concat" [
  .app "@string" (.app "@len" (opList "@filter" [opList "@eq" [strE ("$" ++ pathString ["ready"]), strE "True"], podsE])),
  strE "/",
  .app "@string" (.app "@len" podsE)]

/-- The projection. -/
def svcHealthProj : Expr := .dict "@dict" [("metadata", .dict "@dict" [("annotations", .dict "@dict" [(readyKey, readyE)]),
  ("name", strE (pathString ["Service", "metadata", "name"])), ("namespace", strE (pathString ["Service", "metadata", "namespace"]))])]

/-- **C90** (the file): the pipeline in the file is read as this join and this projection. -/
theorem C90_read (env : Env) : unmarshalPipeline env svcHealthJson = .ok [.join svcHealthCond, .project svcHealthProj] := by
  rfl

theorem svcHealth_get {hv svc j : CDoc} (hj : Combines (svcHealthSources.map GVK.kind) [hv, svc] j) :
    SMap.get j.1 "HealthView" = some (.map hv.1) ∧ SMap.get j.1 "Service" = some (.map svc.1) :=
  ⟨(hj _ _).mpr ⟨0, hv, rfl, rfl, rfl⟩, (hj _ _).mpr ⟨1, svc, rfl, rfl, rfl⟩⟩

theorem SvcHealthOk.name {d : CDoc} (h : SvcHealthOk d) (v : Json) (hv : nested d.1 namePath = some v) : v.Ordinary ∧ v.NotList := by
  refine ⟨h.2.1 _ (by simp) v hv, ?_⟩
  obtain ⟨n, hn, _⟩ := h.1.1
  rw [hv] at hn; cases hn
  intro l; simp

theorem SvcHealthOk.ns {d : CDoc} (h : SvcHealthOk d) (v : Json) (hv : nested d.1 nsPath = some v) : v.Ordinary ∧ v.NotList := by
  refine ⟨h.2.1 _ (by simp) v hv, ?_⟩
  obtain ⟨n, hn⟩ := h.1.2 v hv
  subst hn
  intro l; simp

/-- **C90** (the condition): the join condition is true of a HealthView and a Service exactly if they have the same name and namespace, and false of all others. -/
theorem C90_condition (base : Env) {hv svc j : CDoc} (h1 : SvcHealthOk hv) (h2 : SvcHealthOk svc) (hj : Combines (svcHealthSources.map GVK.kind) [hv, svc] j) :
    (SameService hv svc → CondTrue (fieldEnv base) svcHealthCond j) ∧ (¬ SameService hv svc → CondFalse (fieldEnv base) svcHealthCond j) := by
  obtain ⟨g1, g2⟩ := svcHealth_get hj
  have a1 := eval_agree base g1 g2 (p := namePath) (q := namePath) (by unfold Words; decide) (by unfold Words; decide) h1.name (fun v hv => (h2.name v hv).1)
  have a2 := eval_agree base g1 g2 (p := nsPath) (q := nsPath) (by unfold Words; decide) (by unfold Words; decide) h1.ns (fun v hv => (h2.ns v hv).1)
  unfold CondTrue CondFalse svcHealthCond
  rw [eval_and]
  constructor
  · rintro ⟨l1, l2⟩
    have : andLoop ⟨.map j.1, .null⟩ ([_, _].map (Expr.den (fieldEnv base))) = .ok true := (andLoop_true _).mpr (by
      simp only [List.mem_cons, List.not_mem_nil, or_false, forall_eq_or_imp, forall_eq]
      exact ⟨a1.1 l1, a2.1 l2⟩)
    rw [this]; rfl
  · intro h
    have key : andLoop ⟨.map j.1, .null⟩ ([_, _].map (Expr.den (fieldEnv base))) = .ok false := (andLoop_false _).mpr (by
      by_cases l1 : Agree hv namePath svc namePath
      · exact ⟨[_], _, [], rfl, by
          simp only [List.mem_cons, List.not_mem_nil, or_false, forall_eq]
          exact a1.1 l1, a2.2 (fun l2 => h ⟨l1, l2⟩)⟩
      · exact ⟨[], _, [_], rfl, by simp, a1.2 l1⟩)
    rw [key]; rfl

theorem natText_ordinary (n : Nat) (t : String) : (Json.str (toString n ++ t)).Ordinary := by
  rintro s h
  cases h
  have hd : ∃ c, (toString n ++ t).toList.head? = some c ∧ c.isDigit = true := by
    rw [String.toList_append, show (toString n).toList = Nat.toDigits 10 n from Nat.toList_repr]
    cases h : Nat.toDigits 10 n with
    | nil => exact absurd h Nat.toDigits_ne_nil
    | cons c cs => exact ⟨c, rfl, Nat.isDigit_of_mem_toDigits (by decide) (by decide) (h ▸ List.mem_cons_self)⟩
  obtain ⟨c, h1, h2⟩ := hd
  constructor
  · intro e
    rw [e] at h1
    cases h1
    exact absurd h2 (by decide)
  · intro e
    rw [e] at h1
    cases h1
    exact absurd h2 (by decide)

theorem intText (n : Nat) : toString (n : Int) = toString n := rfl

theorem seqAll_three {env : Env} {ctx : Ctx} {a b c : Expr} {va vb vc : Json} (ha : eval env a ctx = .ok va) (hb : eval env b ctx = .ok vb)
    (hc : eval env c ctx = .ok vc) : seqAll ctx ([a, b, c].map (Expr.den env)) = .ok [va, vb, vc] := by
  simp only [eval] at ha hb hc
  simp [seqAll, ha, hb, hc]

theorem eval_text {env : Env} {ctx : Ctx} {s : String} (h : (Json.str s).Ordinary) : eval env (strE s) ctx = .ok (.str s) := by
  obtain ⟨h1, h2⟩ := h s rfl
  show convert env ctx "@string" (.str s) = _
  unfold convert
  have : getJSONPath env ctx s = .ok (.str s) := deref_ordinary (env := env) (ctx := ctx) h
  simp only [String.reduceEq, if_false, asString, this, h1]

theorem eval_numText {env : Env} {ctx : Ctx} {e : Expr} {n : Nat} (h : eval env e ctx = .ok (.int n)) : eval env (.app "@string" e) ctx = .ok (.str (toString n)) := by
  have ho := natText_ordinary n ""
  rw [String.append_empty] at ho
  obtain ⟨h1, _⟩ := ho _ rfl
  have hd : e.den env ctx = .ok (.int n) := h
  have hg : getJSONPath env ctx (toString (n : Int)) = .ok (.str (toString n)) := deref_ordinary (env := env) (ctx := ctx) ho
  simp only [eval, Expr.den, evalApp, String.reduceEq, if_false]
  rw [if_pos (by decide), hd]
  show convert env ctx "@string" (.int n) = _
  unfold convert
  simp only [String.reduceEq, if_false, asString, hg, h1]

theorem eval_len {env : Env} {ctx : Ctx} {e : Expr} {l : List Json} (h : eval env e ctx = .ok (.list l)) : eval env (.app "@len" e) ctx = .ok (.int l.length) := by
  rw [eval_strict h (by decide) (by decide) (by decide) (by decide) (by decide) (by decide)]
  simp [strictOp, asList, Except.map]

theorem eval_subject (base : Env) {m : Json} {x : Json} (hx : x ≠ .null) {k : String} {p : List String} (h : Words (k :: p)) (ho : ∀ v, x.at (k :: p) = some v → v.Ordinary) :
    eval (fieldEnv base) (strE ("$" ++ pathString (k :: p))) ⟨m, x⟩ = .ok ((x.at (k :: p)).getD .null) := by
  have h1 := getJSONPath_subject base ⟨m, x⟩ hx k p h
  show convert (fieldEnv base) ⟨m, x⟩ "@string" (.str ("$" ++ pathString (k :: p))) = _
  unfold convert
  simp only [String.reduceEq, if_false, asString]
  rw [h1]
  have ho' := ordinary_getD ho
  show _ = Except.ok ((x.at (k :: p)).getD .null)
  generalize (x.at (k :: p)).getD .null = v at ho' ⊢
  cases v with
  | str s => simp [(ho' s rfl).1]
  | _ => rfl

theorem eval_ready (base : Env) {m : Json} {x : Json} (hx : x ≠ .null) (hr : ∀ v, x.at ["ready"] = some v → v.Ordinary ∧ v.NotList) :
    eval (fieldEnv base) (opList "@eq" [strE ("$" ++ pathString ["ready"]), strE "True"]) ⟨m, x⟩ = .ok (.bool (x.at ["ready"] = some (.str "True"))) := by
  rw [C32_eq _ _ _ _ _ _ (eval_subject base hx (k := "ready") (p := []) (by unfold Words; decide) (fun v hv => (hr v hv).1))
    (eval_text (by intro s h; cases h; decide)) (by
      cases hv : x.at ["ready"] with
      | none => simp [Json.NotList]
      | some v => exact (hr v hv).2)]
  congr 2
  cases hv : x.at ["ready"] with
  | none => simp
  | some v => 
    by_cases e : v = .str "True"
    · subst e; simp
    · simp [e]

/-- **C90** (the text): the annotation the controller computes is the number of ready pods, a slash, and the number of pods. -/
theorem C90_text (base : Env) {hv j : CDoc} (g : SMap.get j.1 "HealthView" = some (.map hv.1)) {l : List Json} (hl : HasPods hv l) :
    eval (fieldEnv base) readyE ⟨.map j.1, .null⟩ = .ok (.str (readyText l)) := by
  have hp : eval (fieldEnv base) podsE ⟨.map j.1, .null⟩ = .ok (.list l) := by
    have := eval_ordinary base (k := "HealthView") (p := podsPath) (by unfold Words; decide) (m := j.1) (by
      rw [nested_under g, hl.1]; intro v hv; cases hv; intro s hs; cases hs)
    rw [nested_under g, hl.1] at this
    exact this
  have hf := (C31_quantifiers (fieldEnv base) (opList "@eq" [strE ("$" ++ pathString ["ready"]), strE "True"]) podsE ⟨.map j.1, .null⟩ l
    (fun x => decide (x.at ["ready"] = some (.str "True"))) hp (fun x hx => eval_ready base (hl.2 x hx).1 (hl.2 x hx).2)).2.2
  have e1 := eval_numText (eval_len hf)
  have e3 := eval_numText (eval_len hp)
  have e2 := eval_text (env := fieldEnv base) (ctx := ⟨.map j.1, .null⟩) (s := "/") (by intro s h; cases h; decide)
  have hl3 := eval_list_ok (seqAll_three e1 e2 e3)
  unfold readyE opList
  rw [eval_strict hl3 (by decide) (by decide) (by decide) (by decide) (by decide) (by decide)]
  simp [strictOp, unpackList, listOf, asList, mapAll, asString, Except.map, readyText, readyCount, List.countP_eq_length_filter]

theorem svcHealth_proj (base : Env) {hv svc j : CDoc} (h2 : SvcHealthOk svc) (hj : Combines (svcHealthSources.map GVK.kind) [hv, svc] j) {l : List Json}
    (hl : HasPods hv l) :
    eval (fieldEnv base) svcHealthProj ⟨.map j.1, .null⟩ = .ok (.map (readyPatch (valueAt svc namePath) (valueAt svc nsPath) (readyText l))) := by
  obtain ⟨g1, g2⟩ := svcHealth_get hj
  have a1 := eval_ordinary base (k := "Service") (p := namePath) (by unfold Words; decide) (m := j.1) (by rw [nested_under g2]; exact h2.2.1 _ (by simp))
  have a2 := eval_ordinary base (k := "Service") (p := nsPath) (by unfold Words; decide) (m := j.1) (by rw [nested_under g2]; exact h2.2.1 _ (by simp))
  rw [nested_under g2] at a1 a2
  have o1 := ordinary_getD (h2.2.1 namePath (by simp))
  have o2 := ordinary_getD (h2.2.1 nsPath (by simp))
  have o3 : (Json.str (readyText l)).Ordinary := by
    unfold readyText
    rw [String.append_assoc]
    exact natText_ordinary _ _
  have d1 := eval_dict_ok [(readyKey, _, _)] (by
    simp only [List.mem_cons, List.not_mem_nil, or_false, forall_eq]
    exact ⟨⟨by decide, by decide⟩, C90_text base g1 hl, o3⟩)
  have d2 := eval_dict_ok [("annotations", _, _), ("name", _, _), ("namespace", _, _)] (by
    simp only [List.mem_cons, List.not_mem_nil, or_false, forall_eq_or_imp, forall_eq]
    exact ⟨⟨⟨by decide, by decide⟩, d1, ordinary_map _⟩, ⟨⟨by decide, by decide⟩, a1, o1⟩, ⟨by decide, by decide⟩, a2, o2⟩)
  have d3 := eval_dict_ok [("metadata", _, _)] (by
    simp only [List.mem_cons, List.not_mem_nil, or_false, forall_eq]
    exact ⟨⟨by decide, by decide⟩, d2, ordinary_map _⟩)
  refine d3.trans ?_
  simp only [List.foldl_cons, List.foldl_nil, SMap.set, readyPatch, String.reduceEq, String.reduceLT, if_false]

theorem readyPatch_canon {n ns : Json} (h1 : n.Canon) (h2 : ns.Canon) (t : String) : (Json.map (readyPatch n ns t)).Canon := by
  simp [readyPatch, SMap.Sorted, Json.Canon, Json.CanonM, h1, h2]

/-- The patch the controller makes for a Service and a list of pods. -/
def readyDoc (svc : CDoc) (l : List Json) : CDoc :=
  ⟨readyPatch (valueAt svc namePath) (valueAt svc nsPath) (readyText l), readyPatch_canon (valueAt_canon _ _) (valueAt_canon _ _) _⟩

theorem svcHealth_projects (base : Env) {hv svc j : CDoc} (h2 : SvcHealthOk svc) (hj : Combines (svcHealthSources.map GVK.kind) [hv, svc] j) {l : List Json}
    (hl : HasPods hv l) (c : CDoc) : Projects (fieldEnv base) svcHealthProj j c ↔ c = readyDoc svc l := by
  unfold Projects
  rw [svcHealth_proj base h2 hj hl]
  constructor
  · rintro (h | ⟨us, h, _⟩)
    · simp only [Except.ok.injEq, Json.map.injEq] at h
      exact Subtype.ext h.symm
    · simp at h
  · rintro rfl
    exact .inl rfl

theorem hasPods_unique {d : CDoc} {l l' : List Json} (h : HasPods d l) (h' : HasPods d l') : l = l' := by
  have := h.1.symm.trans h'.1
  simpa using this

theorem svcHealth_joinResults (base : Env) {hv svc : CDoc} (h1 : SvcHealthOk hv) (h2 : SvcHealthOk svc) {l : List Json} (hl : HasPods hv l) (c : CDoc) :
    JoinResults (fieldEnv base) svcHealthSources svcHealthCond [.project svcHealthProj] [hv, svc] c ↔ SameService hv svc ∧ c = readyDoc svc l := by
  constructor
  · rintro ⟨j, hj, ht, hr⟩
    obtain ⟨_, a2⟩ := C90_condition base h1 h2 hj
    cases hr with
    | project hp hnil =>
      cases hnil
      refine ⟨Classical.byContradiction fun hn => ?_, (svcHealth_projects base h2 hj hl _).mp hp⟩
      have := a2 hn
      unfold CondTrue at ht
      unfold CondFalse at this
      rw [ht] at this
      simp at this
  · rintro ⟨hc, rfl⟩
    have hj := joinedDoc_combines (names := svcHealthSources.map GVK.kind) (by decide) [hv, svc]
    exact ⟨_, hj, (C90_condition base h1 h2 hj).1 hc, .project ((svcHealth_projects base h2 hj hl _).mpr rfl) (.nil _)⟩

theorem version_svcHealthOk {hist : List (Delta CDoc)} (h : ∀ δ ∈ hist, SvcHealthOk δ.obj) {g : GVK} {d : CDoc} (hv : Versions jsonOps hist g d) : SvcHealthOk d := by
  obtain ⟨δ, hδ, _, rfl⟩ := hv
  obtain ⟨⟨⟨n, a1, a2⟩, a3⟩, a4, a5⟩ := h δ hδ
  have off : ∀ p ∈ [namePath, nsPath, podsPath], nested (jsonOps.removeUID δ.obj).1 p = nested δ.obj.1 p := by
    intro p hp
    simp only [List.mem_cons, List.not_mem_nil, or_false] at hp
    rcases hp with rfl | rfl | rfl <;> exact removeUID_off δ.obj.2 (by decide) (by decide)
  refine ⟨⟨⟨n, (off _ (by simp)).trans a1, a2⟩, fun v hv => a3 v ((off _ (by simp)).symm.trans hv)⟩, fun p hp v hv => a4 p hp v ((off p (by
    simp only [List.mem_cons, List.not_mem_nil, or_false] at hp ⊢
    rcases hp with rfl | rfl <;> simp)).symm.trans hv), fun hg => ?_⟩
  obtain ⟨l, h1, h2⟩ := a5 ((removeUID_gvk δ.obj.2).symm.trans hg)
  exact ⟨l, (off _ (by simp)).trans h1, h2⟩

theorem versions_gvk {hist : List (Delta CDoc)} {g : GVK} {d : CDoc} (hv : Versions jsonOps hist g d) : objGVK d.1 = g := by
  obtain ⟨δ, _, h, rfl⟩ := hv
  exact (removeUID_gvk δ.obj.2).trans h

theorem version_pods {hist : List (Delta CDoc)} (h : ∀ δ ∈ hist, SvcHealthOk δ.obj) {d : CDoc} (hv : Versions jsonOps hist healthK d) : ∃ l, HasPods d l :=
  (version_svcHealthOk h hv).2.2 (versions_gvk hv)

theorem liveTuple_two {hist : List (Delta CDoc)} {a b : GVK} {ds : List CDoc} : LiveTuple hist [a, b] ds ↔
    ∃ x y, ds = [x, y] ∧ LiveObj hist a x ∧ LiveObj hist b y := by
  constructor
  · intro h
    match ds, h with
    | [x, y], h => exact ⟨x, y, rfl, h.2 0 _ _ rfl rfl, h.2 1 _ _ rfl rfl⟩
    | [], h => have := h.1; simp at this
    | [_], h => have := h.1; simp at this
    | _ :: _ :: _ :: _, h => have := h.1; simp at this
  · rintro ⟨x, y, rfl, h1, h2⟩
    refine ⟨rfl, fun i s d hs hd => ?_⟩
    match i, hs, hd with
    | 0, hs, hd => cases hs; cases hd; exact h1
    | 1, hs, hd => cases hs; cases hd; exact h2
    | i + 2, hs, hd => simp at hs

theorem tupleIn_two {P Q : CDoc → Prop} {ds : List CDoc} (h : TupleIn [P, Q] ds) : ∃ x y, ds = [x, y] ∧ P x ∧ Q y := by
  match ds, h with
  | [x, y], h => exact ⟨x, y, rfl, h.2 0 _ _ rfl rfl, h.2 1 _ _ rfl rfl⟩
  | [], h => have := h.1; simp at this
  | [_], h => have := h.1; simp at this
  | _ :: _ :: _ :: _, h => have := h.1; simp at this

/-- The tuples of live objects and their results are the covered Services and their patches. -/
theorem svcHealth_live (base : Env) {hist : List (Delta CDoc)} (hok : ∀ δ ∈ hist, SvcHealthOk δ.obj) (c : CDoc) :
    (∃ ds, LiveTuple hist svcHealthSources ds ∧ JoinResults (fieldEnv base) svcHealthSources svcHealthCond [.project svcHealthProj] ds c) ↔
      ∃ hv svc l, SameServiceNow hist hv svc ∧ HasPods hv l ∧ c = readyDoc svc l := by
  constructor
  · rintro ⟨ds, hl, hr⟩
    obtain ⟨hv, svc, rfl, l1, l2⟩ := liveTuple_two.mp hl
    obtain ⟨l, hp⟩ := version_pods hok (liveAs_version l1)
    obtain ⟨a, b⟩ := (svcHealth_joinResults base (version_svcHealthOk hok (liveAs_version l1)) (version_svcHealthOk hok (liveAs_version l2)) hp c).mp hr
    exact ⟨hv, svc, l, ⟨l1, l2, a⟩, hp, b⟩
  · rintro ⟨hv, svc, l, ⟨l1, l2, a⟩, hp, b⟩
    exact ⟨_, liveTuple_two.mpr ⟨hv, svc, rfl, l1, l2⟩,
      (svcHealth_joinResults base (version_svcHealthOk hok (liveAs_version l1)) (version_svcHealthOk hok (liveAs_version l2)) hp c).mpr ⟨a, b⟩⟩

/-- The object made of the patch: it has the name of the Service, the annotation, and nothing else. -/
theorem readyDoc_enforced {hv svc : CDoc} (h2 : SvcHealthOk svc) (h : SameService hv svc) (l : List Json) :
    ∃ x : CDoc, jsonOps.enforce servicesK (readyDoc svc l) = .ok x ∧ objKey x.1 = objKey svc.1 ∧ nested x.1 readyPath = some (.str (readyText l)) ∧
      ∀ p, FreePath p → Disjoint p readyPath → ¬ (Json.map x.1).Mentions p := by
  obtain ⟨n, hn, hne⟩ := h2.1.1
  obtain ⟨ns, hns⟩ : ∃ ns, nested svc.1 nsPath = some (.str ns) := by
    obtain ⟨_, v, _, _, hv⟩ := h
    obtain ⟨ns, rfl⟩ := h2.1.2 v hv
    exact ⟨ns, hv⟩
  have v1 : valueAt svc namePath = .str n := by unfold valueAt; rw [hn]; rfl
  have v2 : valueAt svc nsPath = .str ns := by unfold valueAt; rw [hns]; rfl
  have hm : (readyDoc svc l).1 = readyPatch (.str n) (.str ns) (readyText l) := by simp only [readyDoc, v1, v2]
  obtain ⟨x, hx⟩ := (C74_accepted_iff servicesK _ (readyDoc svc l).2).mpr ⟨_, n, by rw [hm]; rfl, rfl, hne, by
    intro v hv
    cases hv
    exact ⟨ns, rfl⟩⟩
  obtain ⟨o1, o2, o3, o4, o5, o6⟩ := C74_object _ _ _ (readyDoc svc l).2 hx
  refine ⟨⟨x, enforceDoc_canon (readyDoc svc l).2 hx⟩, jsonOps_enforce.mpr hx, ?_, ?_, ?_⟩
  · show objKey x = _
    rw [o4, hm]
    simp only [objKey, nestedString, hn, hns]
    rfl
  · show nested x readyPath = _
    rw [o6 "annotations" [readyKey] (by decide), hm]
    rfl
  · intro p hp hd hmen
    match p, hp, hd, hmen with
    | [], hp, _, _ => exact hp.1 rfl
    | k :: q, hp, hd, hmen =>
      have hget : ∃ v, SMap.get x k = some v ∧ v.Mentions q := by
        simp only [Json.Mentions] at hmen
        cases hv : SMap.get x k with
        | none => rw [hv] at hmen; exact hmen.elim
        | some v => rw [hv] at hmen; exact ⟨v, rfl, hmen⟩
      obtain ⟨v, hv, hmv⟩ := hget
      have ne : ∀ s, k = s → ¬ [s] <+: k :: q → False := by
        rintro s rfl h
        exact h ⟨q, rfl⟩
      by_cases k1 : k = "apiVersion"
      · exact ne _ k1 (hp.2.2 _ (by simp [protectedPaths]))
      by_cases k2 : k = "kind"
      · exact ne _ k2 (hp.2.2 _ (by simp [protectedPaths]))
      by_cases k3 : k = "metadata"
      · subst k3
        match q, hp, hd, hmv with
        | [], hp, _, _ => exact hp.2.1 rfl
        | a :: q, hp, hd, hmv =>
          have l1 : a ≠ "name" := by rintro rfl; exact hp.2.2 ["metadata", "name"] (by simp [protectedPaths]) ⟨q, rfl⟩
          have l2 : a ≠ "namespace" := by rintro rfl; exact hp.2.2 ["metadata", "namespace"] (by simp [protectedPaths]) ⟨q, rfl⟩
          have hann := o6 a [] l2
          rw [nested_cons, hv, hm] at hann
          have hname := o6 "name" [] (by decide)
          rw [nested_cons, hv, hm] at hname
          have : nested (readyPatch (.str n) (.str ns) (readyText l)) ["metadata", "name"] = some (.str n) := rfl
          rw [this] at hname
          cases v with
          | map md =>
            have hann' := (nested_one md a).symm.trans hann
            by_cases l3 : a = "annotations"
            · subst l3
              have : nested (readyPatch (.str n) (.str ns) (readyText l)) ["metadata", "annotations"] = some (.map [(readyKey, .str (readyText l))]) := rfl
              rw [this] at hann'
              simp only [Json.Mentions, hann'] at hmv
              rcases mentions_chain (p := [readyKey]) hmv with ⟨t, ht⟩ | ⟨t, ht⟩
              · exact hd.1 ⟨t, by rw [List.cons_append, List.cons_append, ht]⟩
              · exact hd.2 ⟨t, by rw [← ht]; rfl⟩
            · have : nested (readyPatch (.str n) (.str ns) (readyText l)) ["metadata", a] = none := by
                simp [readyPatch, nested, Json.at, Json.field, SMap.get, Ne.symm l1, Ne.symm l2, Ne.symm l3]
              rw [this] at hann'
              simp [Json.Mentions, hann'] at hmv
          | _ => simp [Json.at, Json.field] at hname
      · rw [o5 k k2 k1 k3, hm] at hv
        simp [readyPatch, SMap.get, Ne.symm k3] at hv

theorem sameService_key {hv svc : CDoc} (h : SameService hv svc) : objKey hv.1 = objKey svc.1 := by
  obtain ⟨⟨v, _, p1, q1⟩, w, _, p2, q2⟩ := h
  exact objKey_eq (p1.trans q1.symm) (p2.trans q2.symm)

theorem svcHealth_apart (base : Env) {hist : List (Delta CDoc)} (hok : ∀ δ ∈ hist, SvcHealthOk δ.obj) :
    TuplesApart (fieldEnv base) servicesK hist svcHealthSources svcHealthCond [.project svcHealthProj] := by
  intro ds ds' c c' hl hl' hr hr' hsame
  obtain ⟨hv, svc, rfl, l1, l2⟩ := liveTuple_two.mp hl
  obtain ⟨hv', svc', rfl, l1', l2'⟩ := liveTuple_two.mp hl'
  obtain ⟨l, hp⟩ := version_pods hok (liveAs_version l1)
  obtain ⟨l', hp'⟩ := version_pods hok (liveAs_version l1')
  have o2 := version_svcHealthOk hok (liveAs_version l2)
  have o2' := version_svcHealthOk hok (liveAs_version l2')
  obtain ⟨a, rfl⟩ := (svcHealth_joinResults base (version_svcHealthOk hok (liveAs_version l1)) o2 hp c).mp hr
  obtain ⟨a', rfl⟩ := (svcHealth_joinResults base (version_svcHealthOk hok (liveAs_version l1')) o2' hp' c').mp hr'
  obtain ⟨x, e1, e2, _⟩ := readyDoc_enforced o2 a l
  obtain ⟨x', e1', e2', _⟩ := readyDoc_enforced o2' a' l'
  have hk : objKey svc.1 = objKey svc'.1 := by
    rw [← e2, ← e2']
    rcases hsame with h | ⟨y, y', h1, h2, h3⟩
    · rw [h, e1'] at e1
      cases e1; rfl
    · rw [jsonOps_enforce.mp e1] at h1
      rw [jsonOps_enforce.mp e1'] at h2
      cases h1; cases h2
      exact h3
  have hs : svc = svc' := liveAs_unique l2.2 (hk ▸ l2'.2)
  subst hs
  have hh : hv = hv' := liveAs_unique l1.2 (((sameService_key a).trans (sameService_key a').symm) ▸ l1'.2)
  subst hh
  rfl

theorem SvcHealthHist.okEvents {hist : List (EvalOrder CDoc × Delta CDoc)} (h : SvcHealthHist hist) : ∀ δ ∈ hist.map Prod.snd, SvcHealthOk δ.obj := by
  intro δ hδ
  obtain ⟨e, he, rfl⟩ := List.mem_map.mp hδ
  exact h.ok e he

theorem svcHealth_plain : ∀ op ∈ [SpecOp.project svcHealthProj], op.Plain := by
  intro op h; simp at h; subst h; trivial

/-- **C90** (partial): no evaluation of the controller ever fails. Missing: fields that look like paths, HealthViews that have no list of pods. -/
theorem C90_never_fails_partial (base : Env) (H : (fieldEnv base).Canon) (srt : List Json → List Json) {spec : List SpecOp}
    (hspec : unmarshalPipeline (fieldEnv base) svcHealthJson = .ok spec) {p0 : Pipe CDoc AnyVal}
    (hnew : newSpecPipe (fieldEnv base) srt servicesK svcHealthSources spec = .ok p0) {hist : List (EvalOrder CDoc × Delta CDoc)} (hh : SvcHealthHist hist) :
    ∃ wss : List (List (Delta CDoc)), (runs (fun p (e : EvalOrder CDoc × Delta CDoc) => p.evaluate jsonOps e.1 e.2) p0 hist).2 = wss.map Except.ok := by
  rw [C90_read] at hspec
  cases hspec
  obtain ⟨wss, h, _⟩ := C83_never_fails_partial base H srt servicesK svcHealthSources (by decide) svcHealthCond [.project svcHealthProj] svcHealth_plain p0 hnew
    hist hh.orders hh.kinds hh.watch (fun pre hpre => svcHealth_apart base (fun δ hδ => hh.okEvents δ (hpre.subset hδ)))
    (by
      intro ds j hds hj
      obtain ⟨hv, svc, rfl, v1, v2⟩ := tupleIn_two hds
      have o1 := version_svcHealthOk hh.okEvents v1
      have o2 := version_svcHealthOk hh.okEvents v2
      obtain ⟨l, hp⟩ := version_pods hh.okEvents v1
      have hc := C90_condition base o1 o2 hj
      by_cases hl : SameService hv svc
      · exact .inl ⟨hc.1 hl, _, (svcHealth_projects base o2 hj hp _).mpr rfl, trivial⟩
      · exact .inr (hc.2 hl))
    (by
      intro ds c hds hr
      obtain ⟨hv, svc, rfl, v1, v2⟩ := tupleIn_two hds
      have o1 := version_svcHealthOk hh.okEvents v1
      have o2 := version_svcHealthOk hh.okEvents v2
      obtain ⟨l, hp⟩ := version_pods hh.okEvents v1
      obtain ⟨a, rfl⟩ := (svcHealth_joinResults base o1 o2 hp c).mp hr
      obtain ⟨x, hx, _⟩ := readyDoc_enforced o2 a l
      exact ⟨x.1, jsonOps_enforce.mp hx⟩)
    [] (by simp [AMap.WF]) (by intro k; rfl)
  exact ⟨wss, h⟩

/-- What the tuples of live objects yield. -/
theorem svcHealth_tupleObject (base : Env) {hist : List (Delta CDoc)} (hok : ∀ δ ∈ hist, SvcHealthOk δ.obj) {x : CDoc}
    (h : TupleObject (fieldEnv base) servicesK hist svcHealthSources svcHealthCond [.project svcHealthProj] x) :
    ∃ hv svc, SameServiceNow hist hv svc ∧ objKey x.1 = objKey svc.1 ∧ ∀ p, FreePath p → Disjoint p readyPath → ¬ (Json.map x.1).Mentions p := by
  obtain ⟨ds, c, h1, h2, h3⟩ := h
  obtain ⟨hv, svc, l, hc, hp, rfl⟩ := (svcHealth_live base hok c).mp ⟨ds, h1, h2⟩
  obtain ⟨x', e1, e2, _, e4⟩ := readyDoc_enforced (version_svcHealthOk hok (liveAs_version hc.2.1)) hc.2.2 l
  rw [e1] at h3
  cases h3
  exact ⟨hv, svc, hc, e2, e4⟩

theorem svcHealth_tupleObject_of (base : Env) {hist : List (Delta CDoc)} (hok : ∀ δ ∈ hist, SvcHealthOk δ.obj) {hv svc : CDoc} (h : SameServiceNow hist hv svc)
    {l : List Json} (hl : HasPods hv l) : ∃ x, TupleObject (fieldEnv base) servicesK hist svcHealthSources svcHealthCond [.project svcHealthProj] x ∧
      objKey x.1 = objKey svc.1 ∧ nested x.1 readyPath = some (.str (readyText l)) := by
  obtain ⟨x, e1, e2, e3, _⟩ := readyDoc_enforced (version_svcHealthOk hok (liveAs_version h.2.1)) h.2.2 l
  obtain ⟨ds, h1, h2⟩ := (svcHealth_live base hok _).mpr ⟨hv, svc, l, h, hl, rfl⟩
  exact ⟨x, ⟨ds, _, h1, h2, e1⟩, e2, e3⟩

/-- **C90** (partial): the annotation of a Service, whatever others do to its other fields. While there is a HealthView of its name and namespace, it is the number of the
ready pods in it, a slash, and the number of all; if there never was one, it is as it was in the beginning; and when the HealthView has gone, it has gone. Missing: fields
that look like paths, HealthViews without a list of pods, changes by others to the annotation, or to the Service between reading and writing it (C61), and failing
writes. -/
theorem C90_annotation_partial (base : Env) (H : (fieldEnv base).Canon) (srt : List Json → List Json) {spec : List SpecOp}
    (hspec : unmarshalPipeline (fieldEnv base) svcHealthJson = .ok spec) {p0 : Pipe CDoc AnyVal}
    (hnew : newSpecPipe (fieldEnv base) srt servicesK svcHealthSources spec = .ok p0) {hist : List (EvalOrder CDoc × Delta CDoc)} (hh : SvcHealthHist hist)
    {wss : List (List (Delta CDoc))} (hr : (runs (fun p (e : EvalOrder CDoc × Delta CDoc) => p.evaluate jsonOps e.1 e.2) p0 hist).2 = wss.map Except.ok)
    {k : ObjKey} {c0 c : Cluster} (hc0 : ClusterOk servicesK c0) {y0 : SMap Json} (hy0 : c0.get (servicesK, k) = some y0)
    (hP : Patched servicesK k readyPath c0 wss.flatten c) :
    ∃ y, c.get (servicesK, k) = some y ∧
      (∀ hv svc l, SameServiceNow (hist.map Prod.snd) hv svc → objKey svc.1 = k → HasPods hv l → nested y readyPath = some (.str (readyText l))) ∧
      ((∀ pre, pre <+: hist.map Prod.snd → ∀ hv svc, SameServiceNow pre hv svc → objKey svc.1 ≠ k) → nested y readyPath = nested y0 readyPath) ∧
      (∀ h1 h2 hv svc, hist = h1 ++ h2 → h2 ≠ [] → SameServiceNow (h1.map Prod.snd) hv svc → objKey svc.1 = k →
        (∀ h', h' <+: h2 → h' ≠ [] → ∀ hv svc, SameServiceNow ((h1 ++ h').map Prod.snd) hv svc → objKey svc.1 ≠ k) → nested y readyPath = none) := by
  rw [C90_read] at hspec
  cases hspec
  have hokp : ∀ pre, pre <+: hist.map Prod.snd → ∀ δ ∈ pre, SvcHealthOk δ.obj := fun pre hpre δ hδ => hh.okEvents δ (hpre.subset hδ)
  obtain ⟨y, hy, i1, i2, i3⟩ := C88_join_partial base H srt servicesK svcHealthSources (by decide) svcHealthCond [.project svcHealthProj] svcHealth_plain p0 hnew hist
    hh.orders hh.kinds hh.watch (fun pre hpre => svcHealth_apart base (hokp pre hpre)) wss hr (k := k) (p := readyPath) (by decide) hc0 hy0 hP
  refine ⟨y, hy, ?_, ?_, ?_⟩
  · rintro hv svc l hl rfl hp
    obtain ⟨x, hx, hk, hxv⟩ := svcHealth_tupleObject_of base hh.okEvents hl hp
    exact i1 x _ hx hk hxv trivial
  · intro hno
    refine i2 (fun pre hpre x hx hk => ?_)
    obtain ⟨hv, svc, hl, hk', _⟩ := svcHealth_tupleObject base (hokp pre hpre) hx
    exact absurd (hk'.symm.trans hk) (hno pre hpre hv svc hl)
  · rintro h1 h2 hv svc rfl hne hl rfl hno
    have hpre : h1.map Prod.snd <+: (h1 ++ h2).map Prod.snd := by rw [List.map_append]; exact List.prefix_append _ _
    obtain ⟨l, hp⟩ := version_pods (hokp _ hpre) (liveAs_version hl.1)
    obtain ⟨x, hx, hk, hxv⟩ := svcHealth_tupleObject_of base (hokp _ hpre) hl hp
    refine i3 h1 h2 x _ rfl hne hx hk hxv trivial (fun h' hp hn x' hx' hk' => ?_)
    have hpre' : (h1 ++ h').map Prod.snd <+: (h1 ++ h2).map Prod.snd := by
      obtain ⟨t, rfl⟩ := hp
      exact ⟨t.map Prod.snd, by simp⟩
    obtain ⟨hv', svc', hl', hk'', _⟩ := svcHealth_tupleObject base (hokp _ hpre') hx'
    exact hno h' hp hn hv' svc' hl' (hk''.symm.trans hk')

/-- **C90** (partial): the controller changes nothing else in a Service. Missing: see `C90_annotation_partial`. -/
theorem C90_only_annotation_partial (base : Env) (H : (fieldEnv base).Canon) (srt : List Json → List Json) {spec : List SpecOp}
    (hspec : unmarshalPipeline (fieldEnv base) svcHealthJson = .ok spec) {p0 : Pipe CDoc AnyVal}
    (hnew : newSpecPipe (fieldEnv base) srt servicesK svcHealthSources spec = .ok p0) {hist : List (EvalOrder CDoc × Delta CDoc)} (hh : SvcHealthHist hist)
    {wss : List (List (Delta CDoc))} (hr : (runs (fun p (e : EvalOrder CDoc × Delta CDoc) => p.evaluate jsonOps e.1 e.2) p0 hist).2 = wss.map Except.ok)
    {k : ObjKey} {p : List String} (hp : FreePath p) (hd : Disjoint p readyPath) {c0 c : Cluster} (hc0 : ClusterOk servicesK c0) {y0 : SMap Json}
    (hy0 : c0.get (servicesK, k) = some y0) (hP : Patched servicesK k p c0 wss.flatten c) : ∃ y, c.get (servicesK, k) = some y ∧ nested y p = nested y0 p := by
  rw [C90_read] at hspec
  cases hspec
  have hokp : ∀ pre, pre <+: hist.map Prod.snd → ∀ δ ∈ pre, SvcHealthOk δ.obj := fun pre hpre δ hδ => hh.okEvents δ (hpre.subset hδ)
  obtain ⟨y, hy, _, i2, _⟩ := C88_join_partial base H srt servicesK svcHealthSources (by decide) svcHealthCond [.project svcHealthProj] svcHealth_plain p0 hnew hist
    hh.orders hh.kinds hh.watch (fun pre hpre => svcHealth_apart base (hokp pre hpre)) wss hr (k := k) hp hc0 hy0 hP
  refine ⟨y, hy, i2 (fun pre hpre x hx _ => ?_)⟩
  obtain ⟨_, _, _, _, h⟩ := svcHealth_tupleObject base (hokp pre hpre) hx
  exact h p hp hd

/-- The patches after a change of a Service are the same. -/
theorem svcHealth_same {hist : List (Delta CDoc)} {δ : Delta CDoc} (hgvk : objGVK δ.obj.1 = servicesK) (ht : δ.type ≠ .deleted) (ht' : δ.type ≠ .sync) {svc : CDoc}
    (hsvc : LiveObj hist servicesK svc) (hn : nested δ.obj.1 namePath = nested svc.1 namePath) (hns : nested δ.obj.1 nsPath = nested svc.1 nsPath) (c : CDoc) :
    (∃ hv svc l, SameServiceNow hist hv svc ∧ HasPods hv l ∧ c = readyDoc svc l) ↔ ∃ hv svc l, SameServiceNow (hist ++ [δ]) hv svc ∧ HasPods hv l ∧ c = readyDoc svc l := by
  have hk : objKey δ.obj.1 = objKey svc.1 := objKey_eq hn hns
  have other : ∀ d, LiveObj (hist ++ [δ]) healthK d ↔ LiveObj hist healthK d := fun d => liveObj_snoc (fun h => absurd (h.1.symm.trans hgvk) (by decide))
  have hnew : ∀ d, objKey d.1 = objKey svc.1 → (LiveObj (hist ++ [δ]) servicesK d ↔ d = jsonOps.removeUID δ.obj) := by
    intro d hd
    have hc : Concerns jsonOps servicesK (objKey d.1) δ := ⟨hgvk, hk.trans hd.symm, ht'⟩
    constructor
    · intro h
      exact ((liveAs_snoc_of hc).mp h.2).2.symm
    · rintro rfl
      exact ⟨(removeUID_gvk δ.obj.2).trans hgvk, (liveAs_snoc_of hc).mpr ⟨ht, rfl⟩⟩
  have hold : ∀ d, objKey d.1 = objKey svc.1 → LiveObj hist servicesK d → d = svc := fun d hd h => liveAs_unique h.2 (hd ▸ hsvc.2)
  have e1 : nested (jsonOps.removeUID δ.obj).1 namePath = nested svc.1 namePath := (removeUID_off δ.obj.2 (by decide) (by decide)).trans hn
  have e2 : nested (jsonOps.removeUID δ.obj).1 nsPath = nested svc.1 nsPath := (removeUID_off δ.obj.2 (by decide) (by decide)).trans hns
  have hkey : objKey (jsonOps.removeUID δ.obj).1 = objKey svc.1 := objKey_eq e1 e2
  have hlink : ∀ hv, SameService hv (jsonOps.removeUID δ.obj) ↔ SameService hv svc := by
    intro hv
    unfold SameService Agree
    rw [e1, e2]
  have hdoc : ∀ l, readyDoc (jsonOps.removeUID δ.obj) l = readyDoc svc l := by
    intro l
    unfold readyDoc
    simp only [valueAt, e1, e2]
  constructor
  · rintro ⟨hv, d, l, ⟨l1, l2, l4⟩, hp, rfl⟩
    by_cases h : objKey d.1 = objKey svc.1
    · have := hold d h l2
      subst this
      exact ⟨hv, _, l, ⟨(other _).mpr l1, (hnew _ hkey).mpr rfl, (hlink _).mpr l4⟩, hp, (hdoc l).symm⟩
    · exact ⟨hv, d, l, ⟨(other _).mpr l1, (liveObj_snoc (fun h' => h (h'.2.symm.trans hk))).mpr l2, l4⟩, hp, rfl⟩
  · rintro ⟨hv, d, l, ⟨l1, l2, l4⟩, hp, rfl⟩
    by_cases h : objKey d.1 = objKey svc.1
    · have := (hnew d h).mp l2
      subst this
      exact ⟨hv, svc, l, ⟨(other _).mp l1, hsvc, (hlink _).mp l4⟩, hp, hdoc l⟩
    · exact ⟨hv, d, l, ⟨(other _).mp l1, (liveObj_snoc (fun h' => h (h'.2.symm.trans hk))).mp l2, l4⟩, hp, rfl⟩

/-- **C90** (partial): the controller watches the Services it patches, but an event that changes a Service, and not its name, causes no write. Missing: see
`C90_never_fails_partial`. -/
theorem C90_quiet_partial (base : Env) (H : (fieldEnv base).Canon) (srt : List Json → List Json) {spec : List SpecOp}
    (hspec : unmarshalPipeline (fieldEnv base) svcHealthJson = .ok spec) {p0 p' : Pipe CDoc AnyVal}
    (hnew : newSpecPipe (fieldEnv base) srt servicesK svcHealthSources spec = .ok p0) {hist : List (EvalOrder CDoc × Delta CDoc)} {ω : EvalOrder CDoc} {δ : Delta CDoc}
    (hh : SvcHealthHist (hist ++ [(ω, δ)])) {wss : List (List (Delta CDoc))} {ws : List (Delta CDoc)}
    (hr : (runs (fun p (e : EvalOrder CDoc × Delta CDoc) => p.evaluate jsonOps e.1 e.2) p0 hist).2 = wss.map Except.ok)
    (he : (runs (fun p (e : EvalOrder CDoc × Delta CDoc) => p.evaluate jsonOps e.1 e.2) p0 hist).1.evaluate jsonOps ω δ = (p', .ok ws))
    (hgvk : objGVK δ.obj.1 = servicesK) (ht : δ.type ≠ .deleted) {svc : CDoc} (hsvc : LiveObj (hist.map Prod.snd) servicesK svc)
    (hn : nested δ.obj.1 namePath = nested svc.1 namePath) (hns : nested δ.obj.1 nsPath = nested svc.1 nsPath) : ws = [] := by
  rw [C90_read] at hspec
  cases hspec
  obtain ⟨cfg, hcfg, hpipe⟩ := newSpecPipe_ok hnew
  have hmap : (hist ++ [(ω, δ)]).map Prod.snd = hist.map Prod.snd ++ [δ] := by simp
  have hok := hh.okEvents
  have hw := hh.watch
  rw [hmap] at hok hw
  have hone : ∀ pre, pre <+: hist.map Prod.snd ++ [δ] → ∀ ins o, LiveInputs jsonOps pre svcHealthSources ins → PipelineSpec cfg ins o → OnePerName jsonOps servicesK o :=
    fun pre hpre _ _ hl hsp => join_onePerName base H (by decide) svcHealth_plain hcfg (svcHealth_apart base (fun δ hδ => hok δ (hpre.subset hδ))) hl hsp
  obtain ⟨ins, o, ins', o', a1, a2, a3, a4, a5⟩ := C85_writes_exact_partial jsonOps_lawful (by decide) hpipe (fun e h => hh.orders e (by simp [h]))
    (fun e h => hh.kinds e (by simp [h])) (hh.orders (ω, δ) (by simp)) (hh.kinds (ω, δ) (by simp)) hw hone hr he
  refine exactWrites_same a5 (fun d => ?_)
  rw [C83_results base H srt _ (by decide) _ _ cfg hcfg (rowSpec_plain svcHealth_plain _) _ ins o a1 a2 d,
    C83_results base H srt _ (by decide) _ _ cfg hcfg (rowSpec_plain svcHealth_plain _) _ ins' o' a3 a4 d,
    svcHealth_live base (fun δ h => hok δ (by simp [h])) d, svcHealth_live base hok d]
  exact svcHealth_same hgvk ht (hw _ _ [] rfl).2.2 hsvc hn hns d

/-! ## An example -/

/-- A pod in a HealthView. -/
abbrev podEntry (n r : String) : Json := .map [("podName", .str n), ("ready", .str r)]

/-- A HealthView with two pods. -/
def healthObj (r1 r2 : String) : CDoc :=
  ⟨[("apiVersion", .str "svc-health-operator.view.dcontroller.io/v1alpha1"), ("kind", .str "HealthView"), ("metadata", .map [("name", .str "web"), ("namespace", .str "d")]),
    ("pods", .list [podEntry "p" r1, podEntry "q" r2])], by simp [SMap.Sorted, Json.Canon, Json.CanonM, Json.CanonL]⟩

/-- A Service with annotations and a port. -/
def svcMap (port : Int) (a : SMap Json) : SMap Json :=
  [("apiVersion", .str "v1"), ("kind", .str "Service"), ("metadata", .map [("annotations", .map a), ("name", .str "web"), ("namespace", .str "d")]),
    ("spec", .map [("port", .int port)])]

/-- The Service as the watch delivers it. -/
def svcObj (port : Int) (v : Option String) : CDoc :=
  ⟨svcMap port (match v with | none => [] | some v => [(readyKey, .str v)]), by cases v <;> simp [svcMap, SMap.Sorted, Json.Canon, Json.CanonM]⟩

/-- The pipeline of the controller. -/
def svcHealthPipe : Pipe CDoc AnyVal :=
  match newSpecPipe plainEnv id servicesK svcHealthSources [.join svcHealthCond, .project svcHealthProj] with
  | .ok p => p
  | .error _ => { sources := [], target := servicesK, graph := {} }

/-- A Service and a HealthView; the Service changes, a pod becomes ready, the Service changes, and the HealthView goes. -/
def svcHealthEx : List (EvalOrder CDoc × Delta CDoc) :=
  [(ω0, ⟨.added, svcObj 80 none⟩), (ω1, ⟨.added, healthObj "True" "False"⟩), (ω0, ⟨.updated, svcObj 80 (some "1/2")⟩), (ω1, ⟨.updated, healthObj "True" "True"⟩),
   (ω0, ⟨.updated, svcObj 81 (some "2/2")⟩), (ω0, ⟨.deleted, healthObj "True" "True"⟩)]

/-- The patch with a text. -/
def readyObj (t : String) : CDoc :=
  ⟨[("apiVersion", .str "v1"), ("kind", .str "Service"), ("metadata", .map [("annotations", .map [(readyKey, .str t)]), ("name", .str "web"), ("namespace", .str "d")])], by
    simp [SMap.Sorted, Json.Canon, Json.CanonM]⟩

/-- The writes. -/
def svcHealthWrites : List (List (Delta CDoc)) :=
  [[], [⟨.upserted, readyObj "1/2"⟩], [], [⟨.upserted, readyObj "2/2"⟩], [], [⟨.deleted, readyObj "2/2"⟩]]

/-- The cluster with the Service. -/
def svcCluster (port : Int) (a : SMap Json) : Cluster := [((servicesK, ("d", "web")), svcMap port a)]

theorem svcCluster_ok (r : Int) {a : SMap Json} (h : (Json.map a).Canon) : ClusterOk servicesK (svcCluster r a) := by
  intro k y hy
  simp only [svcCluster, AMap.get] at hy
  split at hy
  · cases hy
    exact ⟨by simp only [Json.Canon, SMap.Sorted] at h; simp [svcMap, SMap.Sorted, Json.Canon, Json.CanonM, h], _, rfl⟩
  · cases hy

/-- Paths other than that of the port. -/
def OffPort (p : List String) : Prop := Disjoint p ["spec", "port"]

theorem svcMap_off {r r' : Int} {a : SMap Json} {p : List String} (h : OffPort p) : nested (svcMap r a) p = nested (svcMap r' a) p := by
  match p, h with
  | [], h => exact absurd ⟨_, rfl⟩ h.1
  | [k], h =>
    by_cases e : k = "spec"
    · subst e; exact absurd ⟨_, rfl⟩ h.1
    · simp [svcMap, nested_one, SMap.get, Ne.symm e]
  | k :: l :: p, h =>
    by_cases e : k = "spec"
    · subst e
      by_cases e' : l = "port"
      · subst e'; exact absurd ⟨p, rfl⟩ h.2
      · simp [svcMap, nested_cons, SMap.get, Json.at, Json.field, Ne.symm e']
    · simp [svcMap, nested_cons, SMap.get, Ne.symm e]

theorem svcHealthPatched (p : List String) (h : OffPort p) : Patched servicesK ("d", "web") p (svcCluster 80 []) svcHealthWrites.flatten (svcCluster 81 []) := by
  have s0 : Patched servicesK ("d", "web") p (svcCluster 80 []) [] _ := .start
  have s1 := Patched.write (c' := svcCluster 80 [(readyKey, .str "1/2")]) ⟨.upserted, readyObj "1/2"⟩ none s0 (by intro o ho; cases ho) (by decide +kernel)
  have s2 := Patched.write (c' := svcCluster 80 [(readyKey, .str "2/2")]) ⟨.upserted, readyObj "2/2"⟩ none s1 (by intro o ho; cases ho) (by decide +kernel)
  have s3 := Patched.others (c' := svcCluster 81 [(readyKey, .str "2/2")]) s2 ⟨svcCluster_ok _ (by decide), by
    intro y hy
    refine ⟨_, rfl, ?_⟩
    cases hy
    exact svcMap_off h, by intro h; cases h⟩
  exact Patched.write (c' := svcCluster 81 []) ⟨.deleted, readyObj "2/2"⟩ none s3 (by intro o ho; cases ho) (by decide +kernel)

theorem healthObj_pods {r1 r2 : String} (h1 : (Json.str r1).Ordinary) (h2 : (Json.str r2).Ordinary) : HasPods (healthObj r1 r2) [podEntry "p" r1, podEntry "q" r2] := by
  refine ⟨rfl, fun x hx => ?_⟩
  simp only [List.mem_cons, List.not_mem_nil, or_false] at hx
  rcases hx with rfl | rfl
  · exact ⟨by simp, fun v hv => by cases hv; exact ⟨h1, by intro l; simp⟩⟩
  · exact ⟨by simp, fun v hv => by cases hv; exact ⟨h2, by intro l; simp⟩⟩

theorem svcHealthEx_hist : SvcHealthHist svcHealthEx where
  orders := by
    intro e he
    simp only [svcHealthEx, List.mem_cons, List.not_mem_nil, or_false] at he
    rcases he with rfl | rfl | rfl | rfl | rfl | rfl <;> first | exact ω0_valid | exact ω1_valid
  kinds := by decide +kernel
  watch := watchOk_of_check jsonOps_lawful (by decide +kernel)
  ok := by
    intro e he
    simp only [svcHealthEx, List.mem_cons, List.not_mem_nil, or_false] at he
    have key : ∀ (m : SMap Json), nested m namePath = some (.str "web") → nested m nsPath = some (.str "d") →
        ∀ p ∈ [namePath, nsPath], ∀ v, nested m p = some v → v.Ordinary := by
      intro m h1 h2 p hp v hv s hs
      simp only [List.mem_cons, List.not_mem_nil, or_false] at hp
      rcases hp with rfl | rfl
      · rw [h1, hs] at hv; cases hv; decide
      · rw [h2, hs] at hv; cases hv; decide
    have t : (Json.str "True").Ordinary := by intro s h; cases h; decide
    have f : (Json.str "False").Ordinary := by intro s h; cases h; decide
    rcases he with rfl | rfl | rfl | rfl | rfl | rfl <;>
      refine ⟨⟨⟨_, rfl, by decide⟩, by intro v hv; cases hv; exact ⟨_, rfl⟩⟩, key _ rfl rfl, ?_⟩ <;>
      first
      | exact fun h => absurd h (by decide)
      | exact fun _ => ⟨_, healthObj_pods t f⟩
      | exact fun _ => ⟨_, healthObj_pods t t⟩

-- all hypotheses of C90 hold for the example
example := C90_never_fails_partial _ plainEnv_canon id (C90_read _) (p0 := svcHealthPipe) rfl svcHealthEx_hist
example := C90_annotation_partial _ plainEnv_canon id (C90_read _) (p0 := svcHealthPipe) rfl svcHealthEx_hist (wss := svcHealthWrites) (ok_of_toOption (by decide +kernel))
  (svcCluster_ok 80 (by decide)) rfl (svcHealthPatched _ ⟨by decide, by decide⟩)
example (p : List String) (hp : FreePath p) (hd : Disjoint p readyPath) (h : OffPort p) :=
  C90_only_annotation_partial _ plainEnv_canon id (C90_read _) (p0 := svcHealthPipe) rfl svcHealthEx_hist (wss := svcHealthWrites) (ok_of_toOption (by decide +kernel))
  hp hd (svcCluster_ok 80 (by decide)) rfl (svcHealthPatched _ h)
-- and those of C88 for specifications
example := C88_join_partial _ plainEnv_canon id servicesK svcHealthSources (by decide) svcHealthCond _ svcHealth_plain svcHealthPipe rfl svcHealthEx
  svcHealthEx_hist.orders svcHealthEx_hist.kinds svcHealthEx_hist.watch (fun _ hpre => svcHealth_apart _ (fun δ hδ => svcHealthEx_hist.okEvents δ (hpre.subset hδ)))
  svcHealthWrites (ok_of_toOption (by decide +kernel)) (p := readyPath) (by decide) (svcCluster_ok 80 (by decide)) rfl (svcHealthPatched _ ⟨by decide, by decide⟩)
example : readyText [podEntry "p" "True", podEntry "q" "False"] = "1/2" := by decide +kernel

theorem SvcHealthHist.of_append {a b : List (EvalOrder CDoc × Delta CDoc)} (h : SvcHealthHist (a ++ b)) : SvcHealthHist a where
  orders := fun e he => h.orders e (List.mem_append_left _ he)
  kinds := fun e he => h.kinds e (List.mem_append_left _ he)
  watch := by have := h.watch; rw [List.map_append] at this; exact watchOk_prefix this
  ok := fun e he => h.ok e (List.mem_append_left _ he)

example : ∀ p' ws, (runs (fun p (e : EvalOrder CDoc × Delta CDoc) => p.evaluate jsonOps e.1 e.2) svcHealthPipe (svcHealthEx.take 2)).1.evaluate jsonOps ω0
    ⟨.updated, svcObj 80 (some "1/2")⟩ = (p', .ok ws) → ws = [] := fun p' ws he =>
  C90_quiet_partial _ plainEnv_canon id (C90_read _) (p0 := svcHealthPipe) rfl (hist := svcHealthEx.take 2)
    (SvcHealthHist.of_append (a := svcHealthEx.take 3) (b := svcHealthEx.drop 3) svcHealthEx_hist)
    (wss := svcHealthWrites.take 2) (ok_of_toOption (by decide +kernel)) he (by decide) (by decide) (svc := svcObj 80 none)
    ⟨by decide, [], _, [_], rfl, ⟨by decide, by decide, by decide⟩, by decide, by decide, (by unfold Concerns; decide +kernel)⟩ rfl rfl

end Dctl
