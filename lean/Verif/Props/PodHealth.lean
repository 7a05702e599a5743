import Verif.Props.ListPipeline
import Verif.Props.SvcHealth
import Verif.Spec.PodHealth
/-!
# C91: the service health operator, its first controller
-/
set_option autoImplicit false
namespace Dctl

/-- The projection. -/
def podHealthProj : Expr := .dict "@dict" [
  ("metadata", .dict "@dict" [("name", strE appQuery), ("namespace", strE (pathString nsPath))]),
  ("pods", .dict "@dict" [("podName", strE (pathString namePath)), ("ready", strE readyQuery)])]

/-- The key of the groups. -/
def podHealthKey : Expr := opList "@concat" [strE (pathString namePath), strE "--", strE (pathString nsPath)]

/-- The operations of the controller. -/
abbrev podHealthSpec : List SpecOp := [.project podHealthProj, .gather (.exprs "@list" [podHealthKey, strE (pathString podsPath)])]

/-- **C91** (the file): the pipeline in the file is read as this projection and this gather. -/
theorem C91_read (env : Env) : unmarshalPipeline env podHealthJson = .ok podHealthSpec := by
  rfl

theorem eval_query (base : Env) {q : String} (hq : ∃ c r, q.toList = '$' :: c :: r ∧ c ≠ '$' ∧ r ≠ []) (hp : parsePath q = none) {m : SMap Json} {v : Json}
    (h : base.jget q (.map m) = .ok v) (ho : v.Ordinary) : eval (fieldEnv base) (strE q) ⟨.map m, .null⟩ = .ok v := by
  obtain ⟨c, r, hq, hc, hr⟩ := hq
  have e1 : q ≠ "$." := by
    rintro rfl
    have : '$' :: '.' :: [] = '$' :: c :: r := hq
    simp only [List.cons.injEq, true_and] at this
    exact hr this.2.symm
  have e2 : q ≠ "$$." := by
    rintro rfl
    have : '$' :: '$' :: ['.'] = '$' :: c :: r := hq
    simp only [List.cons.injEq, true_and] at this
    exact hc this.1.symm
  have hg : getJSONPath (fieldEnv base) ⟨.map m, .null⟩ q = .ok v := by
    rw [getJSONPath, hq]
    simp only [e1, e2, if_false]
    split
    · rename_i h; cases h; exact absurd rfl hc
    · show fieldGet base q _ = _
      rw [fieldGet, hp, h]
  show convert (fieldEnv base) ⟨.map m, .null⟩ "@string" (.str q) = _
  unfold convert
  simp only [String.reduceEq, if_false, asString, hg]
  cases v with
  | str s => simp [(ho s rfl).1]
  | _ => rfl

theorem readyStatus_canon (d : CDoc) : (readyStatus d.1).Canon := by
  unfold readyStatus
  split
  · rename_i l hl
    have hc := Json.canon_list.mp (at_canon (j := .map d.1) d.2 hl)
    cases h : ((l.filter (fun c => c.at ["type"] = some (.str "Ready"))).filterMap (fun c => c.at ["status"])).head? with
    | none => trivial
    | some v =>
      obtain ⟨x, hx, hv⟩ := List.mem_filterMap.mp (List.mem_of_mem_head? h)
      have hx' := hc x (List.mem_filter.mp hx).1
      cases x with
      | map m => exact at_canon (j := .map m) hx' hv
      | _ => cases hv
  · trivial

theorem podHealth_canon (d : CDoc) : (Json.map [("metadata", .map [("name", valueAt d appPath), ("namespace", valueAt d nsPath)]), ("pods", podStatus d)]).Canon := by
  have h1 := valueAt_canon d appPath
  have h2 := valueAt_canon d nsPath
  have h3 := valueAt_canon d namePath
  have h4 := readyStatus_canon d
  simp only [valueAt] at h1 h2 h3
  simp [podStatus, SMap.Sorted, Json.Canon, Json.CanonM, h1, h2, h3, h4]

/-- What the projection makes of a pod. -/
def podHealthDoc (d : CDoc) : CDoc := ⟨_, podHealth_canon d⟩

theorem podHealth_proj (base : Env) (hq : ReadsQueries base) {d : CDoc} (hd : PodHealthOk d) :
    eval (fieldEnv base) podHealthProj ⟨.map d.1, .null⟩ = .ok (.map (podHealthDoc d).1) := by
  obtain ⟨⟨n, hn, hno⟩, ⟨app, ns, ⟨happ, hns⟩, hne, ho1, ho2⟩, ho3, _⟩ := hd
  have oap : ∀ v, nested d.1 appPath = some v → v.Ordinary := by rw [happ]; intro v hv; cases hv; exact ho1
  have ons : ∀ v, nested d.1 nsPath = some v → v.Ordinary := by rw [hns]; intro v hv; cases hv; exact ho2
  have onm : ∀ v, nested d.1 namePath = some v → v.Ordinary := by rw [hn]; intro v hv; cases hv; exact hno
  have a1 := eval_query base (q := appQuery) ⟨'.', _, rfl, by decide, by simp⟩ (by decide) (hq.app d.1) (ordinary_getD oap)
  have a2 := eval_ordinary base (k := "metadata") (p := ["namespace"]) (by unfold Words; decide) (m := d.1) ons
  have a3 := eval_ordinary base (k := "metadata") (p := ["name"]) (by unfold Words; decide) (m := d.1) onm
  have a4 := eval_query base (q := readyQuery) ⟨'.', _, rfl, by decide, by simp⟩ (by decide) (hq.ready d.1) ho3
  have d1 := eval_dict_ok [("name", _, _), ("namespace", _, _)] (by
    simp only [List.mem_cons, List.not_mem_nil, or_false, forall_eq_or_imp, forall_eq]
    exact ⟨⟨⟨by decide, by decide⟩, a1, ordinary_getD oap⟩, ⟨by decide, by decide⟩, a2, ordinary_getD ons⟩)
  have d2 := eval_dict_ok [("podName", _, _), ("ready", _, _)] (by
    simp only [List.mem_cons, List.not_mem_nil, or_false, forall_eq_or_imp, forall_eq]
    exact ⟨⟨⟨by decide, by decide⟩, a3, ordinary_getD onm⟩, ⟨by decide, by decide⟩, a4, ho3⟩)
  have d3 := eval_dict_ok [("metadata", _, _), ("pods", _, _)] (by
    simp only [List.mem_cons, List.not_mem_nil, or_false, forall_eq_or_imp, forall_eq]
    exact ⟨⟨⟨by decide, by decide⟩, d1, ordinary_map _⟩, ⟨by decide, by decide⟩, d2, ordinary_map _⟩)
  refine d3.trans ?_
  simp only [List.foldl_cons, List.foldl_nil, SMap.set, podHealthDoc, podStatus, String.reduceEq, String.reduceLT, if_false]

theorem podHealth_projects (base : Env) (hq : ReadsQueries base) {d : CDoc} (hd : PodHealthOk d) (c : CDoc) :
    Projects (fieldEnv base) podHealthProj d c ↔ c = podHealthDoc d := by
  unfold Projects
  rw [podHealth_proj base hq hd]
  constructor
  · rintro (h | ⟨us, h, _⟩)
    · simp only [Except.ok.injEq, Json.map.injEq] at h
      exact Subtype.ext h.symm
    · simp at h
  · rintro rfl
    exact .inl rfl

theorem podHealthDoc_at {app ns : String} {d : CDoc} (h : PodOf app ns d) : nested (podHealthDoc d).1 namePath = some (.str app) ∧
    nested (podHealthDoc d).1 nsPath = some (.str ns) ∧ nested (podHealthDoc d).1 podsPath = some (podStatus d) := by
  have e1 : valueAt d appPath = .str app := by unfold valueAt; rw [h.1]; rfl
  have e2 : valueAt d nsPath = .str ns := by unfold valueAt; rw [h.2]; rfl
  simp only [podHealthDoc, e1, e2]
  exact ⟨rfl, rfl, rfl⟩

/-- The key of a document with this name and namespace. -/
theorem podHealth_key (base : Env) {d : CDoc} {app ns : String} (h1 : nested d.1 namePath = some (.str app)) (h2 : nested d.1 nsPath = some (.str ns))
    (o1 : (Json.str app).Ordinary) (o2 : (Json.str ns).Ordinary) :
    eval (fieldEnv base) podHealthKey ⟨.map d.1, .null⟩ = .ok (.str (app ++ "--" ++ ns)) := by
  have e1 := eval_ordinary base (k := "metadata") (p := ["name"]) (by unfold Words; decide) (m := d.1) (by rw [h1]; intro v hv; cases hv; exact o1)
  have e3 := eval_ordinary base (k := "metadata") (p := ["namespace"]) (by unfold Words; decide) (m := d.1) (by rw [h2]; intro v hv; cases hv; exact o2)
  rw [h1] at e1
  rw [h2] at e3
  have e2 := eval_text (env := fieldEnv base) (ctx := ⟨.map d.1, .null⟩) (s := "--") (by intro s h; cases h; decide)
  have hl3 := eval_list_ok (seqAll_three e1 e2 e3)
  unfold podHealthKey opList
  rw [eval_strict hl3 (by decide) (by decide) (by decide) (by decide) (by decide) (by decide)]
  simp [strictOp, unpackList, listOf, asList, mapAll, asString, Except.map]

theorem podHealth_value (base : Env) {app ns : String} {d : CDoc} (h : PodOf app ns d) :
    eval (fieldEnv base) (strE (pathString podsPath)) ⟨.map (podHealthDoc d).1, .null⟩ = .ok (podStatus d) := by
  have := eval_ordinary base (k := "pods") (p := []) (by unfold Words; decide) (m := (podHealthDoc d).1) (by
    rw [(podHealthDoc_at h).2.2]; intro v hv; cases hv; exact ordinary_map _)
  rw [(podHealthDoc_at h).2.2] at this
  exact this

theorem concat_map {A B : Type} {R : A → List B → Prop} {f : A → B} : ∀ {xs : List A} {ys : List B}, (∀ x ∈ xs, ∀ l, R x l → l = [f x]) → Concat R xs ys → ys = xs.map f
  | [], _, _, h => h
  | x :: xs, ys, hR, ⟨l, r, e, h1, h2⟩ => by
    rw [e, hR x (by simp) l h1, concat_map (fun y hy => hR y (by simp [hy])) h2]
    rfl

instance (app ns : String) (d : CDoc) : Decidable (PodOf app ns d) := inferInstanceAs (Decidable (_ ∧ _))

theorem podOf_unique {app ns app' ns' : String} {d : CDoc} (h : PodOf app ns d) (h' : PodOf app' ns' d) : app = app' ∧ ns = ns' := by
  obtain ⟨h1, h2⟩ := h
  obtain ⟨h3, h4⟩ := h'
  rw [h1] at h3
  rw [h2] at h4
  simp only [Option.some.injEq, Json.str.injEq] at h3 h4
  exact ⟨h3, h4⟩

theorem readyStatus_congr {a b : SMap Json} (h : nested a ["status", "conditions"] = nested b ["status", "conditions"]) : readyStatus a = readyStatus b := by
  unfold readyStatus
  rw [h]

theorem podOf_removeUID {app ns : String} {d : CDoc} : PodOf app ns (jsonOps.removeUID d) ↔ PodOf app ns d := by
  have h1 : nested (jsonOps.removeUID d).1 appPath = nested d.1 appPath := removeUID_off d.2 (by decide) (by decide)
  have h2 : nested (jsonOps.removeUID d).1 nsPath = nested d.1 nsPath := removeUID_off d.2 (by decide) (by decide)
  unfold PodOf
  rw [h1, h2]

theorem version_podHealthOk {hist : List (Delta CDoc)} (h : ∀ δ ∈ hist, PodHealthOk δ.obj) {g : GVK} {d : CDoc} (hv : Versions jsonOps hist g d) : PodHealthOk d := by
  obtain ⟨δ, hδ, _, rfl⟩ := hv
  obtain ⟨⟨n, a1, a2⟩, ⟨app, ns, b1, b2⟩, c⟩ := h δ hδ
  have h1 : nested (jsonOps.removeUID δ.obj).1 namePath = nested δ.obj.1 namePath := removeUID_off δ.obj.2 (by decide) (by decide)
  have h2 : readyStatus (jsonOps.removeUID δ.obj).1 = readyStatus δ.obj.1 := readyStatus_congr (removeUID_off δ.obj.2 (by decide) (by decide))
  exact ⟨⟨n, h1.trans a1, a2⟩, ⟨app, ns, podOf_removeUID.mpr b1, b2⟩, by rw [h2]; exact c⟩

/-- The applications of the versions in the history have different keys. -/
def AppsApart (hist : List (Delta CDoc)) : Prop := ∀ d d', Versions jsonOps hist monPodK d → Versions jsonOps hist monPodK d' → ∀ app ns app' ns',
  PodOf app ns d → PodOf app' ns' d' → app ++ "--" ++ ns = app' ++ "--" ++ ns' → app = app' ∧ ns = ns'

theorem podHealthHist_apart {hist : List (EvalOrder CDoc × Delta CDoc)} (h : PodHealthHist hist) : AppsApart (hist.map Prod.snd) := by
  rintro _ _ ⟨δ, hδ, _, rfl⟩ ⟨δ', hδ', _, rfl⟩ app ns app' ns' h1 h2
  obtain ⟨e, he, rfl⟩ := List.mem_map.mp hδ
  obtain ⟨e', he', rfl⟩ := List.mem_map.mp hδ'
  exact h.apart e he e' he' app ns app' ns' (podOf_removeUID.mp h1) (podOf_removeUID.mp h2)

theorem podHealth_words : Words podsPath := by unfold Words; decide
theorem podHealth_disjoint : Disjoint podsPath namePath ∧ Disjoint podsPath nsPath := ⟨⟨by decide, by decide⟩, by decide, by decide⟩

/-- The key and the value of what is made of a pod. -/
theorem podHealth_inGroup (base : Env) {d : CDoc} (hd : PodHealthOk d) {app ns : String} (h : PodOf app ns d) :
    eval (fieldEnv base) podHealthKey ⟨.map (podHealthDoc d).1, .null⟩ = .ok (.str (app ++ "--" ++ ns)) ∧
    eval (fieldEnv base) (strE (pathString podsPath)) ⟨.map (podHealthDoc d).1, .null⟩ = .ok (podStatus d) := by
  obtain ⟨_, ⟨app', ns', h', _, o1, o2⟩, _⟩ := hd
  obtain ⟨rfl, rfl⟩ := podOf_unique h h'
  exact ⟨podHealth_key base (podHealthDoc_at h).1 (podHealthDoc_at h).2.1 o1 o2, podHealth_value base h⟩

theorem podHealth_vals (base : Env) {app ns : String} : ∀ {xs : List CDoc}, (∀ x ∈ xs, PodHealthOk x) →
    (∀ x ∈ xs, ∀ app' ns', PodOf app' ns' x → app' ++ "--" ++ ns' = app ++ "--" ++ ns → app' = app ∧ ns' = ns) →
    (xs.map podHealthDoc).filterMap (rowVal (fieldEnv base) podHealthKey (strE (pathString podsPath)) (.str (app ++ "--" ++ ns))) =
      (xs.filter (fun d => decide (PodOf app ns d))).map podStatus
  | [], _, _ => rfl
  | x :: xs, hok, hap => by
    have ih := podHealth_vals base (fun y hy => hok y (List.mem_cons_of_mem _ hy)) (fun y hy => hap y (List.mem_cons_of_mem _ hy))
    obtain ⟨app', ns', h, _⟩ := (hok x (by simp)).2.1
    obtain ⟨e1, e2⟩ := podHealth_inGroup base (hok x (by simp)) h
    simp only [List.map_cons, List.filterMap_cons, rowVal, e1, e2]
    by_cases hk : app' ++ "--" ++ ns' = app ++ "--" ++ ns
    · obtain ⟨rfl, rfl⟩ := hap x (by simp) app' ns' h hk
      rw [List.filter_cons_of_pos (by simpa using h), List.map_cons, ← ih]
      simp [podStatus]
    · rw [List.filter_cons_of_neg (fun hp => hk (by
        obtain ⟨rfl, rfl⟩ := podOf_unique h (of_decide_eq_true hp); rfl)), ← ih]
      simp [hk]

/-- What the controller computes: the documents have the names of the applications of the live pods and list their pods. -/
theorem podHealth_computes (base : Env) (hq : ReadsQueries base) {srt : List Json → List Json} (hsrt : ∀ l, (srt l).Perm l) {hist : List (Delta CDoc)}
    (hok : ∀ δ ∈ hist, PodHealthOk δ.obj) (hap : AppsApart hist) {r : List CDoc} (h : Computes (fieldEnv base) srt hist [monPodK] podHealthSpec r) :
    (∀ c ∈ r, ∃ app ns d, LiveObj hist monPodK d ∧ PodOf app ns d ∧ nested c.1 namePath = some (.str app) ∧ nested c.1 nsPath = some (.str ns) ∧
      ListsPods hist app ns c.1) ∧
    (∀ d app ns, LiveObj hist monPodK d → PodOf app ns d → ∃ c ∈ r, nested c.1 namePath = some (.str app) ∧ nested c.1 nsPath = some (.str ns)) ∧ KeysApart r := by
  obtain ⟨xs, ops, ⟨hnd, rfl, src, hsrc, hx⟩, ms, h1, gs, ⟨kE, p, e, hp, keys, k1, k2, k3, k4⟩, rfl⟩ := h
  cases hsrc
  simp only [Expr.exprs.injEq, List.cons.injEq, and_true, true_and] at e
  obtain ⟨rfl, e⟩ := e
  have : podsPath = p := pathString_inj podHealth_words hp (by simpa [strE] using e)
  subst this
  have hver : ∀ x ∈ xs, Versions jsonOps hist monPodK x := fun x hxm => liveAs_version ((hx x).mp hxm)
  have hxok : ∀ x ∈ xs, PodHealthOk x := fun x hxm => version_podHealthOk hok (hver x hxm)
  have hms : ms = xs.map podHealthDoc := concat_map (fun x hxm l hl => by
    obtain ⟨c, hc, rfl⟩ := hl
    rw [(podHealth_projects base hq (hxok x hxm) c).mp hc]) h1
  subst hms
  have hlt : ∀ (i : Nat) (c : CDoc), r[i]? = some c → ∃ key, keys[i]? = some key := fun i c hi =>
    ⟨_, List.getElem?_eq_getElem (by rw [← k3]; exact (List.getElem?_eq_some_iff.mp hi).1)⟩
  have hgrp : ∀ (i : Nat) key c, keys[i]? = some key → r[i]? = some c → ∃ app ns, ∃ d ∈ xs, PodOf app ns d ∧ key = .str (app ++ "--" ++ ns) ∧
      nested c.1 namePath = some (.str app) ∧ nested c.1 nsPath = some (.str ns) ∧
      ∃ l, nested c.1 podsPath = some (.list l) ∧ l.Perm ((xs.filter (fun d => decide (PodOf app ns d))).map podStatus) := by
    intro i key c hi hc
    obtain ⟨rep, hrep, ⟨y1, _⟩, vals, hv, s1, s2⟩ := k4 i key c hi hc
    obtain ⟨d, hd, rfl⟩ := List.mem_map.mp hrep
    obtain ⟨app, ns, hpod, _⟩ := (hxok d hd).2.1
    have hkey : key = .str (app ++ "--" ++ ns) := by
      have := y1.1
      rw [(podHealth_inGroup base (hxok d hd) hpod).1] at this
      simpa using this.symm
    subst hkey
    rw [podHealth_vals base hxok (fun x hxm app' ns' hx' => hap x d (hver x hxm) (hver d hd) app' ns' app ns hx' hpod)] at hv
    exact ⟨app, ns, d, hd, hpod, rfl, (s2 _ podHealth_disjoint.1).trans (podHealthDoc_at hpod).1, (s2 _ podHealth_disjoint.2).trans (podHealthDoc_at hpod).2.1,
      _, s1, (hsrt vals).trans hv⟩
  refine ⟨fun c hc => ?_, fun d app ns hd hpod => ?_, ?_⟩
  · obtain ⟨i, hi⟩ := List.mem_iff_getElem?.mp hc
    obtain ⟨key, hk⟩ := hlt i c hi
    obtain ⟨app, ns, d, hd, hpod, _, e1, e2, l, e3, e4⟩ := hgrp i key c hk hi
    refine ⟨app, ns, d, (hx d).mp hd, hpod, e1, e2, _, l, ⟨hnd.filter _, fun d' => ?_⟩, e3, e4⟩
    rw [List.mem_filter, hx, decide_eq_true_iff]
  · have hdm := (hx d).mpr hd
    obtain ⟨g1, g2⟩ := podHealth_inGroup base (hxok d hdm) hpod
    obtain ⟨i, hi⟩ := List.mem_iff_getElem?.mp ((k2 (.str (app ++ "--" ++ ns))).mpr ⟨_, List.mem_map.mpr ⟨d, hdm, rfl⟩, ⟨g1, by simp⟩, _, g2, by simp [podStatus]⟩)
    have hi' : i < r.length := by rw [k3]; exact (List.getElem?_eq_some_iff.mp hi).1
    obtain ⟨app', ns', d', hd', hpod', e0, e1, e2, _⟩ := hgrp i _ _ hi (List.getElem?_eq_getElem hi')
    obtain ⟨rfl, rfl⟩ := hap d d' (hver d hdm) (hver d' hd') app ns app' ns' hpod hpod' (by simpa using e0)
    exact ⟨_, List.getElem_mem hi', e1, e2⟩
  · rw [KeysApart, List.pairwise_iff_getElem]
    intro i j hi hj hij hkey
    obtain ⟨key, hik⟩ := hlt i _ (List.getElem?_eq_getElem hi)
    obtain ⟨key', hjk⟩ := hlt j _ (List.getElem?_eq_getElem hj)
    obtain ⟨app, ns, d, _, _, e0, e1, e2, _⟩ := hgrp i _ _ hik (List.getElem?_eq_getElem hi)
    obtain ⟨app', ns', d', _, _, e0', e1', e2', _⟩ := hgrp j _ _ hjk (List.getElem?_eq_getElem hj)
    simp only [objKey, nestedString, e1, e2, e1', e2', Prod.mk.injEq] at hkey
    obtain ⟨rfl, rfl⟩ := hkey
    obtain ⟨hi', f1⟩ := List.getElem?_eq_some_iff.mp hik
    obtain ⟨hj', f2⟩ := List.getElem?_eq_some_iff.mp hjk
    exact (List.pairwise_iff_getElem.mp k1) i j hi' hj' hij (by rw [f1, f2, e0, e0'])

/-- **C91** (partial): after any history of the watch, starting from a cluster without HealthViews, no evaluation has failed and there is a HealthView for each
application and namespace with a live pod, and no other; it has the name of the application and the namespace of its pods, and lists exactly the live pods of the
application in that namespace, each once, each with the status of its condition Ready; and nothing but HealthViews has changed. Missing: pods without a label
`app`, applications whose name and namespace have the same text with two dashes in between, and failing or reordered writes. -/
theorem C91_views_partial (base : Env) (H : base.Canon) (hq : ReadsQueries base) (srt : List Json → List Json) (hsrt : ∀ l, (srt l).Perm l) (env : Env)
    {spec : List SpecOp} (hspec : unmarshalPipeline env podHealthJson = .ok spec) {p0 : Pipe CDoc AnyVal}
    (hnew : newSpecPipe (fieldEnv base) srt healthK [monPodK] spec = .ok p0) {hist : List (EvalOrder CDoc × Delta CDoc)} (hh : PodHealthHist hist)
    {c0 : Cluster} (hc0 : AMap.WF c0) (h0 : ∀ k, c0.get (healthK, k) = none) :
    ∃ wss : List (List (Delta CDoc)), (runs (fun p (e : EvalOrder CDoc × Delta CDoc) => p.evaluate jsonOps e.1 e.2) p0 hist).2 = wss.map Except.ok ∧
      (∀ k, ((clusterAfter healthK c0 wss.flatten).get (healthK, k)).isSome ↔ ∃ d, LiveObj (hist.map Prod.snd) monPodK d ∧ PodOf k.2 k.1 d) ∧
      (∀ k obj, (clusterAfter healthK c0 wss.flatten).get (healthK, k) = some obj → objKey obj = k ∧ ListsPods (hist.map Prod.snd) k.2 k.1 obj) ∧
      ∀ k, k.1 ≠ healthK → (clusterAfter healthK c0 wss.flatten).get k = c0.get k := by
  rw [C91_read] at hspec
  cases hspec
  have hok : ∀ δ ∈ hist.map Prod.snd, PodHealthOk δ.obj := by
    intro δ hδ
    obtain ⟨e, he, rfl⟩ := List.mem_map.mp hδ
    exact hh.ok e he
  have hapt := podHealthHist_apart hh
  have hcan : ∀ l : List Json, (∀ x ∈ l, x.Canon) → ∀ x ∈ srt l, x.Canon := fun l h x hx => h x ((hsrt l).mem_iff.mp hx)
  have hset : ∀ d, Settable podsPath d := by
    intro d q x h1 h2 h3
    obtain ⟨r, hr⟩ := h2
    cases q with
    | nil => exact absurd rfl h1
    | cons a q =>
      simp only [List.cons_append, List.cons.injEq, List.append_eq_nil_iff] at hr
      obtain ⟨rfl, rfl, rfl⟩ := hr
      exact absurd rfl h3
  obtain ⟨wss, hr, r, hres, hcl⟩ := C84_never_fails_partial base H srt hcan healthK [monPodK] (by simp) podHealthSpec
    (.inl ⟨podsPath, ⟨_, rfl, by simp, podHealth_words⟩, .inl trivial⟩) p0 hnew hist hh.orders (fun e he => by simp [hh.kinds e he]) hh.watch
    (fun e he => by obtain ⟨⟨n, h, _⟩, _⟩ := hh.ok e he; exact ⟨n, h⟩) trivial
    ⟨fun d hd => by
        obtain ⟨src, _, hd⟩ := hd
        exact ⟨_, (podHealth_projects base hq (version_podHealthOk hok hd) _).mpr rfl⟩,
      podHealthKey, podsPath, rfl, podHealth_words, fun c hc => by
        obtain ⟨d, ⟨src, _, hd⟩, hc⟩ := hc
        have hd' := version_podHealthOk hok hd
        rw [podHealth_projects base hq hd'] at hc
        subst hc
        obtain ⟨app, ns, hpod, _⟩ := hd'.2.1
        exact ⟨⟨_, (podHealth_inGroup base hd' hpod).1⟩, hset _⟩, trivial⟩
    (fun pre hpre r hres => by
      have hokp : ∀ δ ∈ pre, PodHealthOk δ.obj := fun δ hδ => hok δ (hpre.subset hδ)
      have hver : ∀ d, Versions jsonOps pre monPodK d → Versions jsonOps (hist.map Prod.snd) monPodK d := fun d => versions_mono (fun δ hδ => hpre.subset hδ)
      obtain ⟨a, _, b⟩ := podHealth_computes base hq hsrt hokp (fun d d' h h' => hapt d d' (hver d h) (hver d' h')) hres
      refine ⟨keysApart_names b, fun c hc => ?_⟩
      obtain ⟨app, ns, d, hd, hpod, e1, e2, _⟩ := a c hc
      obtain ⟨_, ⟨app', ns', hpod', hne, _⟩, _⟩ := version_podHealthOk hokp (liveAs_version hd)
      obtain ⟨rfl, rfl⟩ := podOf_unique hpod hpod'
      exact properName_enforced healthK ⟨⟨app, e1, hne⟩, fun v hv => ⟨ns, by rw [e2] at hv; cases hv; rfl⟩⟩) c0 hc0 h0
  obtain ⟨a1, a2, _⟩ := podHealth_computes base hq hsrt hok hapt hres
  obtain ⟨b1, b2, b3⟩ := hcl
  have key : ∀ {c : CDoc} {x : SMap Json} {app ns : String}, enforceDoc healthK c.1 = .ok x → nested c.1 namePath = some (.str app) →
      nested c.1 nsPath = some (.str ns) → objKey x = (ns, app) := by
    intro c x app ns hx e1 e2
    obtain ⟨_, _, _, h, _⟩ := C74_object healthK c.1 x c.2 hx
    rw [h]
    simp only [nestedString, e1, e2]
  refine ⟨wss, hr, fun k => ⟨fun hk => ?_, ?_⟩, fun k obj hobj => ?_, b3⟩
  · obtain ⟨obj, hobj⟩ := Option.isSome_iff_exists.mp hk
    obtain ⟨c, x, hc, hx, hkey, _⟩ := b1 k obj hobj
    obtain ⟨app, ns, d, hd, hpod, e1, e2, _⟩ := a1 c hc
    rw [key hx e1 e2] at hkey
    subst hkey
    exact ⟨d, hd, hpod⟩
  · rintro ⟨d, hd, hpod⟩
    obtain ⟨c, hc, e1, e2⟩ := a2 d _ _ hd hpod
    have hne : k.2 ≠ "" := by
      obtain ⟨_, ⟨app', ns', hpod', hne, _⟩, _⟩ := version_podHealthOk hok (liveAs_version hd)
      obtain ⟨e, _⟩ := podOf_unique hpod hpod'
      rw [e]; exact hne
    obtain ⟨x, hx⟩ := properName_enforced healthK (d := c) ⟨⟨k.2, e1, hne⟩, fun v hv => ⟨k.1, by rw [e2] at hv; cases hv; rfl⟩⟩
    obtain ⟨obj, hobj, _⟩ := b2 c x hc hx
    rw [key hx e1 e2] at hobj
    rw [hobj]
    rfl
  · obtain ⟨c, x, hc, hx, hkey, him⟩ := b1 k obj hobj
    obtain ⟨app, ns, d, hd, hpod, e1, e2, xs, l, h1, h2, h3⟩ := a1 c hc
    refine ⟨him.2.1.trans hkey, ?_⟩
    rw [key hx e1 e2] at hkey
    subst hkey
    obtain ⟨_, _, _, _, h5, _⟩ := C74_object healthK c.1 x c.2 hx
    rw [nested_one] at h2
    exact ⟨xs, l, h1, by rw [nested_one, him.1 _ (by decide), h5 _ (by decide) (by decide) (by decide), h2], h3⟩

/-! ## Examples -/

/-- A JSONPath library that knows the two queries. -/
def healthBase : Env := {
  jget := fun q j => match j with
    | .map m => if q = appQuery then .ok ((nested m appPath).getD .null) else if q = readyQuery then .ok (readyStatus m) else .error .err
    | _ => .error .err
  jset := fun _ _ _ => .error .err
  ftext := fun _ => "f"
  parseFloat := fun _ => none
  ofInt := fun i => i
  fop := fun _ a _ => a
  fabs := fun a => a
  fceil := fun a => a
  ffloor := fun a => a
  md5 := fun _ => "h"
  now := "t"
  intn := fun _ => 0
  sprintv := fun _ => "v"
  validKey := fun _ => true
  validValue := fun _ => true }

theorem healthBase_canon : healthBase.Canon := by
  refine ⟨fun q j v hj h => ?_, fun _ _ _ _ _ _ h => by cases h⟩
  cases j with
  | map m =>
    simp only [healthBase] at h
    split at h
    · cases h; exact valueAt_canon ⟨m, hj⟩ appPath
    · split at h
      · cases h; exact readyStatus_canon ⟨m, hj⟩
      · cases h
  | _ => cases h

theorem healthBase_reads : ReadsQueries healthBase := ⟨fun _ => rfl, fun _ => rfl⟩

/-- A pod with its labels and conditions. -/
def monPodMap (ns n : String) (labels : SMap Json) (conds : List Json) : SMap Json :=
  [("apiVersion", .str "v1"), ("kind", .str "Pod"), ("metadata", .map [("labels", .map labels), ("name", .str n), ("namespace", .str ns)]),
    ("status", .map [("conditions", .list conds)])]

/-- A condition. -/
def podCond (t s : String) : Json := .map [("status", .str s), ("type", .str t)]

/-- A pod of an application, with two conditions. -/
def monPod (app ns n ready : String) : CDoc :=
  ⟨monPodMap ns n [("app", .str app)] [podCond "Initialized" "True", podCond "Ready" ready], by simp [monPodMap, podCond, SMap.Sorted, Json.Canon, Json.CanonM, Json.CanonL]⟩

/-- The pipeline of the controller. -/
def podHealthPipe : Pipe CDoc AnyVal :=
  match newSpecPipe (fieldEnv healthBase) id healthK [monPodK] podHealthSpec with
  | .ok p => p
  | .error _ => { sources := [], target := healthK, graph := {} }

/-- Two pods of one application and one of the same application in another namespace; a pod becomes ready, and one goes. -/
def podHealthEx : List (EvalOrder CDoc × Delta CDoc) :=
  [(ω0, ⟨.added, monPod "web" "d" "p" "False"⟩), (ω1, ⟨.added, monPod "web" "d" "q" "True"⟩), (ω0, ⟨.added, monPod "web" "e" "p" "True"⟩),
   (ω1, ⟨.updated, monPod "web" "d" "p" "True"⟩), (ω0, ⟨.deleted, monPod "web" "e" "p" "True"⟩)]


/-- Two applications with the same key. -/
def podHealthClash : List (EvalOrder CDoc × Delta CDoc) :=
  [(ω0, ⟨.added, monPod "x--y" "z" "p" "True"⟩), (ω1, ⟨.added, monPod "x" "y--z" "q" "True"⟩)]

/-- A HealthView. -/
def podView (app ns : String) (l : List (String × String)) : CDoc :=
  ⟨[("apiVersion", .str "svc-health-operator.view.dcontroller.io/v1alpha1"), ("kind", .str "HealthView"), ("metadata", .map [("name", .str app), ("namespace", .str ns)]),
    ("pods", .list (l.map (fun q => .map [("podName", .str q.1), ("ready", .str q.2)])))], by
    have : Json.CanonL (l.map (fun q => Json.map [("podName", .str q.1), ("ready", .str q.2)])) := by
      induction l with
      | nil => trivial
      | cons q l ih => exact ⟨by simp [SMap.Sorted, Json.Canon, Json.CanonM], ih⟩
    simp [SMap.Sorted, Json.Canon, Json.CanonM, this]⟩

/-- A pod without application. -/
def noApp : CDoc := ⟨monPodMap "d" "p" [] [], by simp [monPodMap, SMap.Sorted, Json.Canon, Json.CanonM, Json.CanonL]⟩


theorem monPod_ok {app ns n ready : String} (h : app ≠ "") (h1 : (Json.str app).Ordinary) (h2 : (Json.str ns).Ordinary) (h3 : (Json.str n).Ordinary) (h4 : (Json.str ready).Ordinary) :
    PodHealthOk (monPod app ns n ready) :=
  ⟨⟨n, rfl, h3⟩, ⟨app, ns, ⟨rfl, rfl⟩, h, h1, h2⟩, h4, by intro l hl; cases hl⟩

theorem podHealthEx_hist : PodHealthHist podHealthEx where
  orders := by
    intro e he
    simp only [podHealthEx, List.mem_cons, List.not_mem_nil, or_false] at he
    rcases he with rfl | rfl | rfl | rfl | rfl <;> first | exact ω0_valid | exact ω1_valid
  kinds := by decide +kernel
  watch := watchOk_of_check jsonOps_lawful (by decide +kernel)
  ok := by
    intro e he
    simp only [podHealthEx, List.mem_cons, List.not_mem_nil, or_false] at he
    rcases he with rfl | rfl | rfl | rfl | rfl <;>
      exact monPod_ok (by decide) (by intro s h; cases h; decide) (by intro s h; cases h; decide) (by intro s h; cases h; decide) (by intro s h; cases h; decide)
  apart := by
    intro e he e' he' app ns app' ns' h h' hk
    simp only [podHealthEx, List.mem_cons, List.not_mem_nil, or_false] at he he'
    rcases he with rfl | rfl | rfl | rfl | rfl <;> obtain ⟨h1, h2⟩ := h <;> cases h1 <;> cases h2 <;>
      rcases he' with rfl | rfl | rfl | rfl | rfl <;> obtain ⟨h1, h2⟩ := h' <;> cases h1 <;> cases h2 <;>
      first | exact ⟨rfl, rfl⟩ | exact absurd hk (by decide)

-- all hypotheses of C91 hold for the example
example := C91_views_partial healthBase healthBase_canon healthBase_reads id (fun _ => .refl _) _ (C91_read healthBase) (p0 := podHealthPipe) rfl podHealthEx_hist
  (c0 := svcCluster 80 []) (by simp [AMap.WF, svcCluster]) (by intro k; simp [AMap.get, svcCluster, servicesK, healthK])
-- what it computes: two views, then one is left
example : (clusterAfter healthK [] ((runs (fun p (e : EvalOrder CDoc × Delta CDoc) => p.evaluate jsonOps e.1 e.2) podHealthPipe podHealthEx).2.map
    (fun r => r.toOption.getD [])).flatten) = [((healthK, ("d", "web")), (podView "web" "d" [("q", "True"), ("p", "True")]).1)] := by decide +kernel

/-- **C91** (divergence): two applications whose names and namespaces have the same text with two dashes in between share a group: the pods of one are listed in
the HealthView of the other, in another namespace, and it has none of its own. -/
theorem C91_clash : ∃ (hist : List (EvalOrder CDoc × Delta CDoc)) (wss : List (List (Delta CDoc))), (∀ e ∈ hist, e.1.Valid) ∧ (∀ e ∈ hist, objGVK e.2.obj.1 = monPodK) ∧
    WatchOk jsonOps (hist.map Prod.snd) ∧ (∀ e ∈ hist, PodHealthOk e.2.obj) ∧
    (runs (fun p (e : EvalOrder CDoc × Delta CDoc) => p.evaluate jsonOps e.1 e.2) podHealthPipe hist).2 = wss.map Except.ok ∧
    ∃ d, LiveObj (hist.map Prod.snd) monPodK d ∧ PodOf "x--y" "z" d ∧ (clusterAfter healthK [] wss.flatten).get (healthK, ("z", "x--y")) = none ∧
      ∃ obj l, (clusterAfter healthK [] wss.flatten).get (healthK, ("y--z", "x")) = some obj ∧ nested obj podsPath = some (.list l) ∧ podStatus d ∈ l := by
  refine ⟨podHealthClash, [[⟨.upserted, podView "x--y" "z" [("p", "True")]⟩],
    [⟨.deleted, podView "x--y" "z" [("p", "True")]⟩, ⟨.upserted, podView "x" "y--z" [("q", "True"), ("p", "True")]⟩]], ?_, by decide +kernel,
    watchOk_of_check jsonOps_lawful (by decide +kernel), ?_, ok_of_toOption (by decide +kernel), monPod "x--y" "z" "p" "True",
    ⟨by decide, [], _, [_], rfl, ⟨by decide, by decide, by decide⟩, by decide, by decide, (by unfold Concerns; decide +kernel)⟩, by decide, by decide +kernel,
    (podView "x" "y--z" [("q", "True"), ("p", "True")]).1, _, by decide +kernel, rfl, by decide +kernel⟩
  · intro e he
    simp only [podHealthClash, List.mem_cons, List.not_mem_nil, or_false] at he
    rcases he with rfl | rfl <;> first | exact ω0_valid | exact ω1_valid
  · intro e he
    simp only [podHealthClash, List.mem_cons, List.not_mem_nil, or_false] at he
    rcases he with rfl | rfl <;>
      exact monPod_ok (by decide) (by intro s h; cases h; decide) (by intro s h; cases h; decide) (by intro s h; cases h; decide) (by intro s h; cases h; decide)

/-- **C91** (divergence): while there is a pod with the label that opts in but without the label `app`, evaluations fail also for other pods in other namespaces,
which get no HealthView. -/
theorem C91_no_app : ((runs (fun p (e : EvalOrder CDoc × Delta CDoc) => p.evaluate jsonOps e.1 e.2) podHealthPipe
    [(ω0, ⟨.added, noApp⟩), (ω0, ⟨.added, monPod "web" "e" "q" "True"⟩), (ω0, ⟨.updated, monPod "web" "e" "q" "False"⟩), (ω0, ⟨.deleted, noApp⟩)]).2).map Except.toOption =
    [none, none, none, some [⟨.upserted, podView "web" "e" [("q", "False")]⟩]] := by decide +kernel

end Dctl
