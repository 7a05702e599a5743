import Verif.Props.PodHealth
import Verif.Spec.SvcView
/-!
# C93: the service controller of the endpoint slice operator
-/
set_option autoImplicit false
namespace Dctl

/-- The projection. -/
def svcViewProj : Expr := .dict "@dict" [
  ("metadata", .dict "@dict" [("name", strE (pathString namePath)), ("namespace", strE (pathString nsPath))]),
  ("spec", .dict "@dict" [("ports", strE (pathString portsPath)), ("serviceName", strE (pathString namePath)), ("type", strE (pathString typePath))])]

/-- The condition. -/
def enabledE : Expr := .app "@exists" (strE enabledQuery)

/-- The operations of the controller. -/
abbrev svcViewSpec : List SpecOp := [.select enabledE, .project svcViewProj, .unwind (strE (pathString portsPath))]

/-- **C93** (the file): the pipeline in the file is read as these operations. -/
theorem C93_read (env : Env) : unmarshalPipeline env svcViewJson = .ok svcViewSpec := by
  rfl

/-- **C93** (selection): the condition is true of the Services that have the annotation and false of the others. -/
theorem C93_condition (base : Env) (hq : ReadsEnabled base) {d : CDoc} (hd : SvcViewOk d) :
    (Enabled d → CondTrue (fieldEnv base) enabledE d) ∧ (¬ Enabled d → CondFalse (fieldEnv base) enabledE d) := by
  have h := eval_query base (q := enabledQuery) ⟨'[', _, rfl, by decide, by simp⟩ (by decide) (hq d.1) (ordinary_getD (hd.2.2 enabledPath (by simp)))
  have he : eval (fieldEnv base) enabledE ⟨.map d.1, .null⟩ = .ok (.bool (decide ((nested d.1 enabledPath).getD .null ≠ .null))) := by
    unfold enabledE
    rw [eval_strict h (by decide) (by decide) (by decide) (by decide) (by decide) (by decide)]
    simp [strictOp]
  unfold CondTrue CondFalse Enabled
  rw [he]
  exact ⟨fun h => by simp [h], fun h => by simp [Classical.not_not.mp h]⟩

theorem svcView_canon (d : CDoc) : (Json.map [("metadata", .map [("name", valueAt d namePath), ("namespace", valueAt d nsPath)]),
    ("spec", .map [("ports", valueAt d portsPath), ("serviceName", valueAt d namePath), ("type", valueAt d typePath)])]).Canon := by
  have h1 := valueAt_canon d namePath
  have h2 := valueAt_canon d nsPath
  have h3 := valueAt_canon d portsPath
  have h4 := valueAt_canon d typePath
  simp [SMap.Sorted, Json.Canon, Json.CanonM, h1, h2, h3, h4]

/-- What the projection makes of a Service. -/
def svcViewDoc (d : CDoc) : CDoc := ⟨_, svcView_canon d⟩

theorem svcView_projects (base : Env) {d : CDoc} (hd : SvcViewOk d) (c : CDoc) : Projects (fieldEnv base) svcViewProj d c ↔ c = svcViewDoc d := by
  obtain ⟨⟨n, ns, ⟨hn, hns⟩, _, o1, o2⟩, hports, hot⟩ := hd
  have onm : ∀ v, nested d.1 namePath = some v → v.Ordinary := by rw [hn]; intro v hv; cases hv; exact o1
  have ons : ∀ v, nested d.1 nsPath = some v → v.Ordinary := by rw [hns]; intro v hv; cases hv; exact o2
  have opt : ∀ v, nested d.1 portsPath = some v → v.Ordinary := by
    rcases hports with h | ⟨l, h⟩
    · intro v hv s hs; rw [hv] at h; simp only [Option.getD_some] at h; rw [h] at hs; cases hs
    · rw [h]; intro v hv s hs; cases hv; cases hs
  have oty := hot typePath (by simp)
  have a1 := eval_ordinary base (k := "metadata") (p := ["name"]) (by unfold Words; decide) (m := d.1) onm
  have a2 := eval_ordinary base (k := "metadata") (p := ["namespace"]) (by unfold Words; decide) (m := d.1) ons
  have a3 := eval_ordinary base (k := "spec") (p := ["ports"]) (by unfold Words; decide) (m := d.1) opt
  have a4 := eval_ordinary base (k := "spec") (p := ["type"]) (by unfold Words; decide) (m := d.1) oty
  have d1 := eval_dict_ok [("name", _, _), ("namespace", _, _)] (by
    simp only [List.mem_cons, List.not_mem_nil, or_false, forall_eq_or_imp, forall_eq]
    exact ⟨⟨⟨by decide, by decide⟩, a1, ordinary_getD onm⟩, ⟨by decide, by decide⟩, a2, ordinary_getD ons⟩)
  have d2 := eval_dict_ok [("ports", _, _), ("serviceName", _, _), ("type", _, _)] (by
    simp only [List.mem_cons, List.not_mem_nil, or_false, forall_eq_or_imp, forall_eq]
    exact ⟨⟨⟨by decide, by decide⟩, a3, ordinary_getD opt⟩, ⟨⟨by decide, by decide⟩, a1, ordinary_getD onm⟩, ⟨by decide, by decide⟩, a4, ordinary_getD oty⟩)
  have d3 := eval_dict_ok [("metadata", _, _), ("spec", _, _)] (by
    simp only [List.mem_cons, List.not_mem_nil, or_false, forall_eq_or_imp, forall_eq]
    exact ⟨⟨⟨by decide, by decide⟩, d1, ordinary_map _⟩, ⟨by decide, by decide⟩, d2, ordinary_map _⟩)
  have key : eval (fieldEnv base) svcViewProj ⟨.map d.1, .null⟩ = .ok (.map (svcViewDoc d).1) := by
    refine d3.trans ?_
    simp only [List.foldl_cons, List.foldl_nil, SMap.set, svcViewDoc, valueAt, String.reduceEq, String.reduceLT, if_false]
  unfold Projects
  rw [key]
  constructor
  · rintro (h | ⟨us, h, _⟩)
    · simp only [Except.ok.injEq, Json.map.injEq] at h
      exact Subtype.ext h.symm
    · simp at h
  · rintro rfl
    exact .inl rfl

theorem svcViewDoc_at (d : CDoc) : nested (svcViewDoc d).1 namePath = some (valueAt d namePath) ∧ nested (svcViewDoc d).1 nsPath = some (valueAt d nsPath) ∧
    nested (svcViewDoc d).1 portsPath = some (valueAt d portsPath) ∧ nested (svcViewDoc d).1 svcNamePath = some (valueAt d namePath) ∧
    nested (svcViewDoc d).1 typePath = some (valueAt d typePath) := ⟨rfl, rfl, rfl, rfl, rfl⟩

theorem svcViewDoc_named {n ns : String} {d : CDoc} (h : SvcNamed n ns d) : SvcNamed n ns (svcViewDoc d) := by
  refine ⟨(svcViewDoc_at d).1.trans ?_, (svcViewDoc_at d).2.1.trans ?_⟩
  · unfold valueAt; rw [h.1]; rfl
  · unfold valueAt; rw [h.2]; rfl

theorem svcNamed_key {n ns : String} {d : CDoc} (h : SvcNamed n ns d) : objKey d.1 = (ns, n) := by
  simp only [objKey, nestedString, h.1, h.2]

theorem svcPorts_doc {d : CDoc} {l : List Json} : nested (svcViewDoc d).1 portsPath = some (.list l) ↔ nested d.1 portsPath = some (.list l) := by
  rw [(svcViewDoc_at d).2.2.1]
  unfold valueAt
  cases nested d.1 portsPath with
  | none => simp
  | some v => simp

theorem version_svcViewOk {hist : List (Delta CDoc)} (h : ∀ δ ∈ hist, SvcViewOk δ.obj) {g : GVK} {d : CDoc} (hv : Versions jsonOps hist g d) : SvcViewOk d := by
  obtain ⟨δ, hδ, _, rfl⟩ := hv
  obtain ⟨⟨n, ns, ⟨a1, a2⟩, a3⟩, b, c⟩ := h δ hδ
  have off : ∀ p ∈ [namePath, nsPath, portsPath, typePath, enabledPath], nested (jsonOps.removeUID δ.obj).1 p = nested δ.obj.1 p := by
    intro p hp
    simp only [List.mem_cons, List.not_mem_nil, or_false] at hp
    rcases hp with rfl | rfl | rfl | rfl | rfl <;> exact removeUID_off δ.obj.2 (by decide) (by decide)
  refine ⟨⟨n, ns, ⟨(off _ (by simp)).trans a1, (off _ (by simp)).trans a2⟩, a3⟩, by rw [off portsPath (by simp)]; exact b, fun p hp v hv => c p hp v ((off p (by
    simp only [List.mem_cons, List.not_mem_nil, or_false] at hp ⊢
    rcases hp with rfl | rfl <;> simp)).symm.trans hv)⟩

/-- What the controller computes. -/
theorem svcView_computes (base : Env) (hq : ReadsEnabled base) {srt : List Json → List Json} {hist : List (Delta CDoc)} (hok : ∀ δ ∈ hist, SvcViewOk δ.obj)
    {r : List CDoc} (h : Computes (fieldEnv base) srt hist [servicesK] svcViewSpec r) :
    (∀ c ∈ r, ∃ svc i port n ns, LivePort hist svc i port ∧ SvcNamed n ns svc ∧ SvcNamed (elemName n i) ns c ∧ DescribesPort svc port c.1) ∧
    (∀ svc i port n ns, LivePort hist svc i port → SvcNamed n ns svc → ∃ c ∈ r, SvcNamed (elemName n i) ns c ∧ DescribesPort svc port c.1) ∧ KeysApart r := by
  obtain ⟨xs, ops, ⟨hnd, rfl, src, hsrc, hx⟩, ss, h1, ms, h2, gs, h3, rfl⟩ := h
  cases hsrc
  have hxok : ∀ x ∈ xs, SvcViewOk x := fun x hxm => version_svcViewOk hok (liveAs_version ((hx x).mp hxm))
  have hsub : ∀ s, s ∈ ss ↔ s ∈ xs ∧ Enabled s := by
    intro s
    constructor
    · intro hs
      obtain ⟨x, hxm, l, ⟨ht, rfl⟩ | ⟨_, rfl⟩, hsl⟩ := Concat.mem h1 s hs
      · cases List.mem_singleton.mp hsl
        refine ⟨hxm, Classical.byContradiction fun hn => ?_⟩
        have hf := (C93_condition base hq (hxok s hxm)).2 hn
        unfold CondTrue at ht
        unfold CondFalse at hf
        rw [ht] at hf
        simp at hf
      · cases hsl
    · rintro ⟨hxm, he⟩
      obtain ⟨l, ⟨_, rfl⟩ | ⟨hf, _⟩, hl⟩ := Concat.mem_of h1 s hxm
      · exact hl s (by simp)
      · have ht := (C93_condition base hq (hxok s hxm)).1 he
        unfold CondTrue at ht
        unfold CondFalse at hf
        rw [ht] at hf
        simp at hf
  have hms : ms = ss.map svcViewDoc := concat_map (fun x hxm l hl => by
    obtain ⟨c, hc, rfl⟩ := hl
    rw [(svcView_projects base (hxok x ((hsub x).mp hxm).1) c).mp hc]) h2
  subst hms
  have hkx : KeysApart xs := by
    refine List.Pairwise.imp_of_mem (fun {a b} ha hb hne hk => hne ?_) hnd
    have la := (hx a).mp ha
    have lb := (hx b).mp hb
    exact liveAs_unique (k := objKey b.1) (hk ▸ la.2) lb.2
  have hnx : ∀ x ∈ xs, Named x := fun x hxm => by obtain ⟨n, _, hn, _⟩ := (hxok x hxm).1; exact ⟨n, hn.1⟩
  have hks : KeysApart ss := (stage_apart (op := .select enabledE) trivial h1 hkx hnx).1
  have hkm : KeysApart (ss.map svcViewDoc) := by
    refine List.pairwise_map.mpr (List.Pairwise.imp_of_mem (fun {a b} ha hb hk hk' => hk ?_) hks)
    obtain ⟨n, ns, hn, _⟩ := (hxok a ((hsub a).mp ha).1).1
    obtain ⟨n', ns', hn', _⟩ := (hxok b ((hsub b).mp hb).1).1
    rw [svcNamed_key (svcViewDoc_named hn), svcNamed_key (svcViewDoc_named hn')] at hk'
    rw [svcNamed_key hn, svcNamed_key hn', hk']
  have hnm : ∀ x ∈ ss.map svcViewDoc, Named x := by
    intro x hxm
    obtain ⟨s, hs, rfl⟩ := List.mem_map.mp hxm
    obtain ⟨n, ns, hn, _⟩ := (hxok s ((hsub s).mp hs).1).1
    exact ⟨n, (svcViewDoc_named hn).1⟩
  have hkr := (stage_apart (op := .unwind (strE (pathString portsPath))) ⟨"spec", ["ports"], rfl, by unfold Words; decide, ⟨by decide, by decide⟩, ⟨by decide, by decide⟩⟩ h3 hkm hnm).1
  obtain ⟨path, he, hp, h3⟩ := h3
  have : portsPath = path := pathString_inj (by unfold Words; decide) hp (by simpa [strE] using he)
  subst this
  have hdesc : ∀ svc ∈ ss, ∀ i c n ns, SvcNamed n ns svc → UnwindsTo portsPath i (svcViewDoc svc) c →
      ∃ port, (svcPorts svc)[i]? = some port ∧ SvcNamed (elemName n i) ns c ∧ DescribesPort svc port c.1 := by
    rintro svc hs i c n ns hn ⟨l, v, n', u1, u2, u3, u4, u5, u6⟩
    have hn1 := svcViewDoc_named hn
    rw [hn1.1] at u3
    cases u3
    refine ⟨v, by unfold svcPorts; rw [svcPorts_doc.mp u1]; exact u2, ⟨u5, (u6 _ ⟨by decide, by decide⟩ ⟨by decide, by decide⟩).trans hn1.2⟩, u4, ?_, ?_⟩
    · rw [u6 _ ⟨by decide, by decide⟩ ⟨by decide, by decide⟩, (svcViewDoc_at svc).2.2.2.1, hn.1]
      unfold valueAt
      rw [hn.1]
      rfl
    · rw [u6 _ ⟨by decide, by decide⟩ ⟨by decide, by decide⟩, (svcViewDoc_at svc).2.2.2.2]
      rfl
  refine ⟨fun c hc => ?_, fun svc i port n ns hlive hn => ?_, hkr⟩
  · obtain ⟨m, hm, l, hl, hcl⟩ := Concat.mem h3 c hc
    obtain ⟨svc, hs, rfl⟩ := List.mem_map.mp hm
    obtain ⟨i, hi⟩ := List.mem_iff_getElem?.mp hcl
    have hu := (hl i c).mp hi
    obtain ⟨n, ns, hn, _⟩ := (hxok svc ((hsub svc).mp hs).1).1
    obtain ⟨port, p1, p2, p3⟩ := hdesc svc hs i c n ns hn hu
    exact ⟨svc, i, port, n, ns, ⟨(hx svc).mp ((hsub svc).mp hs).1, ((hsub svc).mp hs).2, p1⟩, hn, p2, p3⟩
  · obtain ⟨hlv, hen, hport⟩ := hlive
    have hs : svc ∈ ss := (hsub svc).mpr ⟨(hx svc).mpr hlv, hen⟩
    obtain ⟨l, hl, hlr⟩ := Concat.mem_of h3 (svcViewDoc svc) (List.mem_map.mpr ⟨svc, hs, rfl⟩)
    obtain ⟨pl, hpl, hget⟩ : ∃ pl, nested svc.1 portsPath = some (.list pl) ∧ pl[i]? = some port := by
      unfold svcPorts at hport
      split at hport
      · rename_i pl h; exact ⟨pl, h, hport⟩
      · simp at hport
    obtain ⟨hi, _⟩ := List.getElem?_eq_some_iff.mp hget
    obtain ⟨_, _, _, hex⟩ := C79_list base "spec" ["ports"] (by unfold Words; decide) ⟨by decide, by decide⟩ _ _ rfl (svcViewDoc svc) pl n (svcPorts_doc.mpr hpl)
      (svcViewDoc_named hn).1
    obtain ⟨c, _, hu⟩ := hex i hi
    obtain ⟨port', p1, p2, p3⟩ := hdesc svc hs i c n ns hn hu
    rw [hport] at p1
    cases p1
    exact ⟨c, hlr c (List.mem_of_getElem? ((hl i c).mpr hu)), p2, p3⟩

theorem describesPort_image {svc : CDoc} {port : Json} {c x obj : SMap Json} (hc : (Json.map c).Canon) (hx : enforceDoc svcViewK c = .ok x) (h : IsImage x obj)
    (hd : DescribesPort svc port c) : DescribesPort svc port obj := by
  obtain ⟨_, _, _, _, h5, _⟩ := C74_object svcViewK c x hc hx
  have key : ∀ q, nested obj ("spec" :: q) = nested c ("spec" :: q) := by
    intro q
    rw [nested_cons, nested_cons, h.1 _ (by decide), h5 _ (by decide) (by decide) (by decide)]
  unfold DescribesPort at hd ⊢
  rw [key, key, key]
  exact hd

/-- **C93** (partial): after any history of the watch, starting from a cluster without ServiceViews, no evaluation has failed and there is a ServiceView for each port of
each live Service with the annotation, and no other; it has the namespace of the Service and the name of the Service with the number of the port, and holds the port, the
name of the Service and its type; and nothing but ServiceViews has changed. Missing: fields that look like paths, ports that are no list, and failing or reordered
writes. -/
theorem C93_views_partial (base : Env) (H : base.Canon) (hq : ReadsEnabled base) (srt : List Json → List Json) (hcan : ∀ l : List Json, (∀ x ∈ l, x.Canon) → ∀ x ∈ srt l, x.Canon)
    {env : Env} {spec : List SpecOp} (hspec : unmarshalPipeline env svcViewJson = .ok spec) {p0 : Pipe CDoc AnyVal}
    (hnew : newSpecPipe (fieldEnv base) srt svcViewK [servicesK] spec = .ok p0) {hist : List (EvalOrder CDoc × Delta CDoc)} (hh : SvcViewHist hist)
    {c0 : Cluster} (hc0 : AMap.WF c0) (h0 : ∀ k, c0.get (svcViewK, k) = none) :
    ∃ wss : List (List (Delta CDoc)), (runs (fun p (e : EvalOrder CDoc × Delta CDoc) => p.evaluate jsonOps e.1 e.2) p0 hist).2 = wss.map Except.ok ∧
      (∀ svc i port n ns, LivePort (hist.map Prod.snd) svc i port → SvcNamed n ns svc →
        ∃ obj, (clusterAfter svcViewK c0 wss.flatten).get (svcViewK, (ns, elemName n i)) = some obj ∧ DescribesPort svc port obj) ∧
      (∀ k obj, (clusterAfter svcViewK c0 wss.flatten).get (svcViewK, k) = some obj →
        ∃ svc i port n ns, LivePort (hist.map Prod.snd) svc i port ∧ SvcNamed n ns svc ∧ k = (ns, elemName n i) ∧ objKey obj = k ∧ DescribesPort svc port obj) ∧
      ∀ k, k.1 ≠ svcViewK → (clusterAfter svcViewK c0 wss.flatten).get k = c0.get k := by
  rw [C93_read] at hspec
  cases hspec
  have hok : ∀ δ ∈ hist.map Prod.snd, SvcViewOk δ.obj := by
    intro δ hδ
    obtain ⟨e, he, rfl⟩ := List.mem_map.mp hδ
    exact hh.ok e he
  have proper : ∀ {c : CDoc} {n ns : String} {i : Nat}, SvcNamed (elemName n i) ns c → ProperName c := fun h =>
    ⟨⟨_, h.1, elemName_ne _ _⟩, fun v hv => ⟨_, by rw [h.2] at hv; cases hv; rfl⟩⟩
  have hw : Words portsPath := by unfold Words; decide
  obtain ⟨wss, hr, r, hres, b1, b2, b3⟩ := C84_never_fails_versions_partial base H srt hcan svcViewK [servicesK] (by simp) svcViewSpec
    p0 hnew hist hh.orders (fun e he => by simp [hh.kinds e he]) hh.watch
    ⟨⟨"spec", ["ports"], rfl, hw, ⟨by decide, by decide⟩⟩, fun c ⟨d, ⟨⟨src, _, hd⟩, _⟩, hc⟩ => by
        have hd' := version_svcViewOk hok hd
        rw [svcView_projects base hd'] at hc
        subst hc
        obtain ⟨n, ns, hn, _⟩ := hd'.1
        exact ⟨n, (svcViewDoc_named hn).1⟩, trivial⟩ trivial
    ⟨fun d ⟨src, _, hd⟩ => by
        have hd' := version_svcViewOk hok hd
        by_cases he : Enabled d
        · exact .inl ((C93_condition base hq hd').1 he)
        · exact .inr ((C93_condition base hq hd').2 he),
      fun d ⟨⟨src, _, hd⟩, _⟩ => ⟨_, (svcView_projects base (version_svcViewOk hok hd) _).mpr rfl⟩,
      portsPath, rfl, hw, fun c ⟨d, ⟨⟨src, _, hd⟩, _⟩, hc⟩ => by
        have hd' := version_svcViewOk hok hd
        rw [svcView_projects base hd'] at hc
        subst hc
        rw [(svcViewDoc_at d).2.2.1]
        rcases hd'.2.1 with h | ⟨l, h⟩
        · exact .inl h
        · exact .inr ⟨l, by unfold valueAt; rw [h]; rfl⟩, trivial⟩
    (fun pre hpre r hres => by
      obtain ⟨a, _, b⟩ := svcView_computes base hq (fun δ hδ => hok δ (hpre.subset hδ)) hres
      refine ⟨keysApart_names b, fun c hc => ?_⟩
      obtain ⟨svc, i, port, n, ns, _, _, hn, _⟩ := a c hc
      exact properName_enforced svcViewK (proper hn)) c0 hc0 h0
  obtain ⟨a1, a2, _⟩ := svcView_computes base hq hok hres
  have key : ∀ {c : CDoc} {x : SMap Json} {n ns : String}, enforceDoc svcViewK c.1 = .ok x → SvcNamed n ns c → objKey x = (ns, n) := by
    intro c x n ns hx hn
    obtain ⟨_, _, _, h, _⟩ := C74_object svcViewK c.1 x c.2 hx
    rw [h]
    simp only [nestedString, hn.1, hn.2]
  refine ⟨wss, hr, fun svc i port n ns hlive hn => ?_, fun k obj hobj => ?_, b3⟩
  · obtain ⟨c, hc, hcn, hcd⟩ := a2 svc i port n ns hlive hn
    obtain ⟨x, hx⟩ := properName_enforced svcViewK (proper hcn)
    obtain ⟨obj, hobj, him⟩ := b2 c x hc hx
    rw [key hx hcn] at hobj
    exact ⟨obj, hobj, describesPort_image c.2 hx him hcd⟩
  · obtain ⟨c, x, hc, hx, hkey, him⟩ := b1 k obj hobj
    obtain ⟨svc, i, port, n, ns, hlive, hn, hcn, hcd⟩ := a1 c hc
    exact ⟨svc, i, port, n, ns, hlive, hn, by rw [← hkey, key hx hcn], him.2.1.trans hkey, describesPort_image c.2 hx him hcd⟩

/-! ## Examples -/

/-- An environment that reads the annotation. -/
def enabledBase : Env := { healthBase with
  jget := fun q j => match j with
    | .map m => if q = enabledQuery then .ok ((nested m enabledPath).getD .null) else .error .err
    | _ => .error .err }

theorem enabledBase_canon : enabledBase.Canon := by
  refine ⟨fun q j v hj h => ?_, fun _ _ _ _ _ _ h => by cases h⟩
  cases j with
  | map m =>
    simp only [enabledBase] at h
    split at h
    · cases h; exact valueAt_canon ⟨m, hj⟩ enabledPath
    · cases h
  | _ => cases h

theorem enabledBase_reads : ReadsEnabled enabledBase := fun _ => rfl

/-- A port. -/
def svcPort (p : Int) : Json := .map [("port", .int p), ("protocol", .str "TCP")]

/-- A Service with annotations and ports. -/
def portSvc (n : String) (annots : SMap Json) (h : (Json.map annots).Canon) (ports : List Int) : CDoc :=
  ⟨[("apiVersion", .str "v1"), ("kind", .str "Service"), ("metadata", .map [("annotations", .map annots), ("name", .str n), ("namespace", .str "d")]),
    ("spec", .map [("ports", .list (ports.map svcPort)), ("type", .str "ClusterIP")])], by
    have : Json.CanonL (ports.map svcPort) := by
      induction ports with
      | nil => trivial
      | cons q l ih => exact ⟨by simp [svcPort, SMap.Sorted, Json.Canon, Json.CanonM], ih⟩
    simpa [SMap.Sorted, Json.Canon, Json.CanonM, this] using h⟩

/-- A Service with the annotation. -/
def onSvc (n : String) (ports : List Int) : CDoc := portSvc n [(enabledKey, .str "true")] (by simp [SMap.Sorted, Json.Canon, Json.CanonM]) ports
/-- A Service without the annotation. -/
def offSvc (n : String) (ports : List Int) : CDoc := portSvc n [] (by simp [SMap.Sorted, Json.Canon, Json.CanonM]) ports

/-- The pipeline of the controller. -/
def svcViewPipe : Pipe CDoc AnyVal :=
  match newSpecPipe (fieldEnv enabledBase) id svcViewK [servicesK] svcViewSpec with
  | .ok p => p
  | .error _ => { sources := [], target := svcViewK, graph := {} }

/-- Two Services, one with the annotation; it loses a port and gets another, and the other gets the annotation. -/
def svcViewEx : List (EvalOrder CDoc × Delta CDoc) :=
  [(ω0, ⟨.added, onSvc "web" [80, 443]⟩), (ω1, ⟨.added, offSvc "db" [5432]⟩), (ω0, ⟨.updated, onSvc "web" [8080]⟩), (ω1, ⟨.updated, onSvc "db" [5432, 5433]⟩)]

theorem portSvc_ok {n : String} {annots : SMap Json} {h : (Json.map annots).Canon} {ports : List Int} (h1 : n ≠ "") (h2 : (Json.str n).Ordinary)
    (h3 : ∀ v, nested (portSvc n annots h ports).1 enabledPath = some v → v.Ordinary) : SvcViewOk (portSvc n annots h ports) :=
  ⟨⟨n, "d", ⟨rfl, rfl⟩, h1, h2, by intro s h; cases h; decide⟩, .inr ⟨_, rfl⟩, by
    intro p hp v hv
    simp only [List.mem_cons, List.not_mem_nil, or_false] at hp
    rcases hp with rfl | rfl
    · cases hv; intro s hs; cases hs; decide
    · exact h3 v hv⟩

theorem svcViewEx_hist : SvcViewHist svcViewEx := by
  refine ⟨?_, by decide +kernel, watchOk_of_check jsonOps_lawful (by decide +kernel), ?_⟩
  · intro e he
    simp only [svcViewEx, List.mem_cons, List.not_mem_nil, or_false] at he
    rcases he with rfl | rfl | rfl | rfl <;> first | exact ω0_valid | exact ω1_valid
  · intro e he
    simp only [svcViewEx, List.mem_cons, List.not_mem_nil, or_false] at he
    rcases he with rfl | rfl | rfl | rfl <;>
      exact portSvc_ok (h := by simp [SMap.Sorted, Json.Canon, Json.CanonM]) (by decide) (by intro s h; cases h; decide) (by intro v hv; first | (cases hv; intro s hs; cases hs; decide) | cases hv)

-- the Services of the example, with and without the annotation
example := (C93_condition enabledBase enabledBase_reads (svcViewEx_hist.ok (ω0, ⟨.added, onSvc "web" [80, 443]⟩) (by simp [svcViewEx]))).1 (by unfold Enabled; decide)
example := (C93_condition enabledBase enabledBase_reads (svcViewEx_hist.ok (ω1, ⟨.added, offSvc "db" [5432]⟩) (by simp [svcViewEx]))).2 (by unfold Enabled; decide)
-- the hypotheses hold for the example
example := C93_views_partial enabledBase enabledBase_canon enabledBase_reads id (fun _ h => h) (C93_read enabledBase) (p0 := svcViewPipe) rfl svcViewEx_hist
  (c0 := svcCluster 80 []) (by simp [AMap.WF, svcCluster]) (by intro k; simp [AMap.get, svcCluster, servicesK, svcViewK])
-- a port of the example
example : LivePort (svcViewEx.map Prod.snd) (onSvc "db" [5432, 5433]) 1 (svcPort 5433) :=
  ⟨⟨by decide, [_, _, _], _, [], rfl, ⟨by decide, by decide, by decide⟩, by decide, by decide, (by unfold Concerns; decide +kernel)⟩, by unfold Enabled; decide, by decide⟩

/-- A ServiceView. -/
def svcView (n : String) (i : Nat) (p : Int) : SMap Json :=
  [("apiVersion", .str "ep-operator.view.dcontroller.io/v1alpha1"), ("kind", .str "ServiceView"), ("metadata", .map [("name", .str (elemName n i)), ("namespace", .str "d")]),
    ("spec", .map [("ports", svcPort p), ("serviceName", .str n), ("type", .str "ClusterIP")])]

-- what it computes: one view for each port
example : (clusterAfter svcViewK [] ((runs (fun p (e : EvalOrder CDoc × Delta CDoc) => p.evaluate jsonOps e.1 e.2) svcViewPipe svcViewEx).2.map
    (fun r => r.toOption.getD [])).flatten).get (svcViewK, ("d", elemName "db" 1)) = some (svcView "db" 1 5433) := by decide +kernel

end Dctl
