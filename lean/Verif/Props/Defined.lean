import Verif.Props.Rows
/-!
# C19, C82, C83: evaluations that never fail

Pipelines that are defined on the objects of a history are evaluated without an error, whatever their expressions do on other objects.
-/
set_option autoImplicit false
namespace Dctl
open ZSet

section
variable {D J : Type} [DecidableEq D] [DecidableEq J]

/-- **C19** (no failures): no evaluation of a watch history fails if every operation succeeds on the objects of the history and on what the operations before it
make of them, and the results have valid and unique names. Nothing is asked of the operations on other documents. -/
theorem C19_defined {O : ObjOps D} (L : O.Lawful) {sources : List GVK} {target : GVK} {cfg : List (PipeOp D J)}
    {p0 : Pipe D J} (hn : (sources.map GVK.kind).Nodup) (hnew : Pipe.new target sources cfg = .ok p0)
    {hist : List (EvalOrder D × Delta D)} (hd : DefinedPipeline cfg (sources.map (Versions O (hist.map Prod.snd))))
    (hω : ∀ e ∈ hist, e.1.Valid) (hs : ∀ e ∈ hist, O.gvk e.2.obj ∈ sources) (hw : WatchOk O (hist.map Prod.snd))
    (hone : ∀ pre, pre <+: hist.map Prod.snd → ∀ ins o, LiveInputs O pre sources ins → PipelineSpec cfg ins o →
      OnePerName O target o ∧ AllEnforced O target o) :
    ∃ wss : List (List (Delta D)),
      (runs (fun p (e : EvalOrder D × Delta D) => p.evaluate O e.1 e.2) p0 hist).2 = wss.map Except.ok := by
  have hinv := runInv_new (O := O) hn hnew
  obtain ⟨g, hg, rfl⟩ := pipe_new_ok hnew
  exact runs_ok_dom L hn (H := hist.map Prod.snd) hinv (newPipeline_ok hg hn (by simp) hd) (enforced_empty O target).2 (enforced_empty O target).1
    (by simp) hω hs (by simpa using hw) (fun h' _ hp => by simpa using hone h' hp)

end

theorem mapM_mem {A B : Type} {f : A → Except Err B} : ∀ {l : List A} {r : List B}, l.mapM f = .ok r → ∀ x ∈ l, ∃ y ∈ r, f x = .ok y
  | [], _, _, x, hx => by simp at hx
  | a :: l, r, h, x, hx => by
    rw [List.mapM_cons] at h
    cases ha : f a with
    | error e => rw [ha] at h; cases h
    | ok y =>
      rw [ha] at h
      cases hl : l.mapM f with
      | error e => rw [hl] at h; cases h
      | ok ys =>
        rw [hl] at h
        cases h
        rcases List.mem_cons.mp hx with rfl | hx
        · exact ⟨y, by simp, ha⟩
        · obtain ⟨z, hz, e⟩ := mapM_mem hl x hx
          exact ⟨z, by simp [hz], e⟩

theorem stages_defined (base : Env) (H : (fieldEnv base).Canon) {srt : List Json → List Json} {names : List String} :
    ∀ {spec : List SpecOp} {b : Bool} {cfg : List (PipeOp CDoc AnyVal)} {P : CDoc → Prop}, RowSpec (fieldEnv base) b spec →
      compileOps (fieldEnv base) srt names spec = .ok cfg → (∀ d, P d → Evaluates (fieldEnv base) spec d) → (b = true → ∀ d, P d → Named d) →
      DefinedStages cfg P
  | [], b, cfg, P, _, hc, _, _ => by
    cases hc
    trivial
  | op :: spec, b, cfg, P, hrow, hc, he, hn => by
    obtain ⟨p, ps, rfl, hcp, hcs⟩ := compileOps_cons hc
    cases op with
    | join e => exact absurd hrow (by simp [RowSpec])
    | gather e => exact absurd hrow (by simp [RowSpec])
    | select e =>
      cases hcp
      refine ⟨fun d hd => ?_, stages_defined base H (spec := spec) (b := b) hrow hcs ?_ ?_⟩
      · rcases he d hd with ⟨h, _⟩ | h
        · exact ⟨_, selectOp_ok.mpr ⟨true, h, rfl⟩⟩
        · exact ⟨_, selectOp_ok.mpr ⟨false, h, rfl⟩⟩
      · rintro c ⟨d, ds, hd, h1, h2⟩
        obtain ⟨h3, rfl⟩ := row_select.mp ⟨ds, h1, h2⟩
        rcases he c hd with ⟨_, h⟩ | h
        · exact h
        · rw [CondTrue, h] at h3; cases h3
      · rintro hb c ⟨d, ds, hd, h1, h2⟩
        obtain ⟨h3, rfl⟩ := row_select.mp ⟨ds, h1, h2⟩
        exact hn hb c hd
    | project e =>
      cases hcp
      have himg : ∀ c, (PipeOp.project (J := AnyVal) (projectOp (fieldEnv base) e)).image P c → ∃ d, P d ∧ Projects (fieldEnv base) e d c := by
        rintro c ⟨d, hd, h⟩
        exact ⟨d, hd, (row_project H).mp ⟨[c], h, by simp⟩⟩
      have hev : ∀ c, (PipeOp.project (J := AnyVal) (projectOp (fieldEnv base) e)).image P c → Evaluates (fieldEnv base) spec c := by
        intro c hc
        obtain ⟨d, hd, h⟩ := himg c hc
        obtain ⟨c', h1, h2⟩ := he d hd
        rw [projects_unique h h1]
        exact h2
      refine ⟨fun d hd => ?_, ?_⟩
      · obtain ⟨c, h, _⟩ := he d hd
        exact ⟨c, (C78_one _ H e d _).mpr ⟨c, h, rfl⟩⟩
      · rcases hrow with hrow | ⟨h1, hrow⟩
        · exact stages_defined base H hrow hcs hev (by simp)
        · refine stages_defined base H hrow hcs hev (fun _ c hc => ?_)
          obtain ⟨d, hd, h⟩ := himg c hc
          exact h1 d c (fun hb => hn hb d hd) h
    | unwind e =>
      obtain ⟨hb, hf, hrow⟩ := hrow
      obtain ⟨ex, tr, rfl, hop⟩ := compile_unwind hcp
      have key : ∀ d, P d → ∃ ds, unwindDocs ex tr d = .ok ds := by
        intro d hd
        obtain ⟨path, h1, h2, h3, _⟩ := he d hd
        obtain ⟨k, p, h4, h5, h6⟩ := hf
        have : k :: p = path := pathString_inj h5 h2 (by
          rw [h4] at h1
          simpa [strE] using h1)
        subst this
        subst h4
        rcases h3 with h3 | ⟨l, h3⟩
        · exact ⟨_, (C79_no_list base k p h5 ex tr hop d).1 h3⟩
        · obtain ⟨n, hnn⟩ := hn hb d hd
          obtain ⟨ds, h, _⟩ := C79_list base k p h5 h6 ex tr hop d l n h3 hnn
          exact ⟨ds, h⟩
      have hdef : ∀ d, P d → ∃ r, ex d = .ok r ∧ ∀ es, r = some es → ∀ x ∈ es, ∃ y, tr d x = .ok y := by
        intro d hd
        obtain ⟨ds, hds⟩ := key d hd
        unfold unwindDocs at hds
        split at hds
        · cases hds
        · rename_i h
          exact ⟨none, h, by simp⟩
        · rename_i es h
          refine ⟨some es, h, fun es' h' x hx => ?_⟩
          cases h'
          obtain ⟨y, _, hy⟩ := mapM_mem hds x hx
          exact ⟨y, hy⟩
      have himg : ∀ c, (PipeOp.unwind ex tr).image P c → ∃ d, P d ∧ ∃ path i, e = strE (pathString path) ∧ Words path ∧ UnwindsTo path i d c := by
        rintro c ⟨d, es, x, hd, h1, h2, h3⟩
        obtain ⟨ds, hds⟩ := key d hd
        refine ⟨d, hd, (row_unwind base hf hop (hn hb d hd) hds c).mp ?_⟩
        unfold unwindDocs at hds
        rw [h1] at hds
        obtain ⟨y, hy, hyx⟩ := mapM_mem hds x h2
        rw [h3] at hyx
        cases hyx
        exact hy
      refine ⟨hdef, stages_defined base H hrow hcs ?_ ?_⟩
      · intro c hc
        obtain ⟨d, hd, path, i, h1, h2, h3⟩ := himg c hc
        obtain ⟨path', h4, h5, _, h6⟩ := he d hd
        have : path = path' := pathString_inj h2 h5 (by
          rw [h1] at h4
          simpa [strE] using h4)
        subst this
        exact h6 i c h3
      · intro _ c hc
        obtain ⟨d, _, path, i, _, _, l, v, n, _, _, _, _, h, _⟩ := himg c hc
        exact ⟨_, h⟩

/-! ## C82 -/

theorem liveAs_version {hist : List (Delta CDoc)} {g : GVK} {d : CDoc} (h : LiveObj hist g d) : Versions jsonOps hist g d := by
  obtain ⟨_, pre, δ, post, rfl, hc, _, hu, _⟩ := h
  exact ⟨δ, by simp, hc.1, hu⟩

theorem version_named {hist : List (Delta CDoc)} (hn : ∀ δ ∈ hist, Named δ.obj) {g : GVK} {d : CDoc} (h : Versions jsonOps hist g d) : Named d := by
  obtain ⟨δ, hδ, _, rfl⟩ := h
  obtain ⟨n, hn⟩ := hn δ hδ
  exact ⟨n, (removeUID_off δ.obj.2 (by decide) (by decide)).trans hn⟩

theorem versions_mono {hist hist' : List (Delta CDoc)} (h : ∀ δ ∈ hist, δ ∈ hist') {g : GVK} {d : CDoc} (hv : Versions jsonOps hist g d) :
    Versions jsonOps hist' g d := by
  obtain ⟨δ, hδ, h1⟩ := hv
  exact ⟨δ, h δ hδ, h1⟩

theorem nested_meta {m : SMap Json} {k : String} {v : Json} (h : nested m ["metadata", k] = some v) :
    ∃ md, SMap.get m "metadata" = some (.map md) ∧ SMap.get md k = some v := by
  rw [nested_cons, Option.bind_eq_some_iff] at h
  obtain ⟨x, h1, h2⟩ := h
  cases x with
  | map md => exact ⟨md, h1, (nested_one md k).symm.trans h2⟩
  | _ => rw [at_not_map (by intro x; simp)] at h2; cases h2

theorem properName_enforced (t : GVK) {d : CDoc} (h : ProperName d) : ∃ x, enforceDoc t d.1 = .ok x := by
  obtain ⟨⟨n, h1, h2⟩, h3⟩ := h
  obtain ⟨md, m1, m2⟩ := nested_meta h1
  refine (C74_accepted_iff t d.1 d.2).mpr ⟨md, n, m1, m2, h2, fun v hv => h3 v ?_⟩
  rw [nested_cons, m1]
  exact (nested_one _ _).trans hv

theorem elemName_ne (n : String) (i : Nat) : elemName n i ≠ "" := by
  intro e
  have := congrArg String.length e
  simp [elemName, String.length_append] at this

/-- Results of objects with proper names have proper names. -/
theorem results_proper {env : Env} {spec : List SpecOp} {d c : CDoc} (hs : ∀ op ∈ spec, NameSafe env op) (hr : Results env spec d c) (h : ProperName d) :
    ProperName c := by
  induction hr with
  | nil d => exact h
  | select _ _ ih => exact ih (fun o ho => hs o (List.mem_cons_of_mem _ ho)) h
  | @project e ops d m c hp _ ih =>
    refine ih (fun o ho => hs o (List.mem_cons_of_mem _ ho)) ?_
    obtain ⟨⟨n, h1, h2⟩, h3⟩ := h
    obtain ⟨k1, k2⟩ := hs (.project e) (by simp) d m ⟨n, h1⟩ hp
    exact ⟨⟨n, by rw [k1]; exact h1, h2⟩, by rw [k2]; exact h3⟩
  | @unwind path i ops d m c hw hu _ ih =>
    refine ih (fun o ho => hs o (List.mem_cons_of_mem _ ho)) ?_
    obtain ⟨k, p, e1, e2, e3, e4⟩ := hs (.unwind _) (List.mem_cons_self ..)
    have : path = k :: p := pathString_inj hw e2 (by simpa [strE] using e1)
    subst this
    obtain ⟨⟨n, h1, h2⟩, h3⟩ := h
    obtain ⟨l, v, n', _, _, u3, _, u5, u6⟩ := hu
    rw [h1] at u3
    cases u3
    exact ⟨⟨_, u5, elemName_ne n i⟩, by rw [u6 nsPath e4 (by simp [Disjoint, List.cons_prefix_cons])]; exact h3⟩

/-- **C82** (no failures): a controller with one source and a pipeline of selections, projections that keep the name, and unwinds, end to end. If the operations
succeed on every object of the history (as delivered, without a view UID), and the objects have proper names, then no evaluation fails and the cluster holds exactly
the images of the objects made of the results of the live source objects. Nothing is assumed about other objects. Missing: gathers, and failing or reordered
writes. -/
theorem C82_never_fails_partial (base : Env) (H : (fieldEnv base).Canon) (srt : List Json → List Json) (target src : GVK) (spec : List SpecOp)
    (p0 : Pipe CDoc AnyVal) (hnew : newSpecPipe (fieldEnv base) srt target [src] spec = .ok p0) (hsafe : ∀ op ∈ spec, NameSafe (fieldEnv base) op)
    (hist : List (EvalOrder CDoc × Delta CDoc)) (hω : ∀ e ∈ hist, e.1.Valid) (hs : ∀ e ∈ hist, objGVK e.2.obj.1 = src) (hw : WatchOk jsonOps (hist.map Prod.snd))
    (hpn : ∀ e ∈ hist, ProperName e.2.obj) (hev : ∀ e ∈ hist, Evaluates (fieldEnv base) spec (jsonOps.removeUID e.2.obj))
    (c0 : Cluster) (hc0 : AMap.WF c0) (h0 : ∀ k, c0.get (target, k) = none) :
    ∃ wss : List (List (Delta CDoc)), (runs (fun p (e : EvalOrder CDoc × Delta CDoc) => p.evaluate jsonOps e.1 e.2) p0 hist).2 = wss.map Except.ok ∧
      ClusterHolds target (fun c => ∃ d, LiveObj (hist.map Prod.snd) src d ∧ Results (fieldEnv base) spec d c) c0 (clusterAfter target c0 wss.flatten) := by
  obtain ⟨cfg, hcfg, hpipe⟩ := newSpecPipe_ok hnew
  have hrow := rowSpec_of_safe hsafe
  have hnm : ∀ e ∈ hist, Named e.2.obj := fun e he => let ⟨⟨n, h, _⟩, _⟩ := hpn e he; ⟨n, h⟩
  have hpn' : ∀ e ∈ hist, ProperName (jsonOps.removeUID e.2.obj) := by
    intro e he
    have e1 : nested (removeUID e.2.obj.1) namePath = nested e.2.obj.1 namePath := removeUID_off e.2.obj.2 (by decide) (by decide)
    have e2 : nested (removeUID e.2.obj.1) nsPath = nested e.2.obj.1 nsPath := removeUID_off e.2.obj.2 (by decide) (by decide)
    have h := hpn e he
    unfold ProperName at h ⊢
    rw [← e1, ← e2] at h
    exact h
  have hnm' : ∀ δ ∈ hist.map Prod.snd, Named δ.obj := by
    intro δ hδ
    obtain ⟨e, he, rfl⟩ := List.mem_map.mp hδ
    exact hnm e he
  have hver : ∀ d, Versions jsonOps (hist.map Prod.snd) src d → ∃ e ∈ hist, jsonOps.removeUID e.2.obj = d := by
    rintro d ⟨δ, hδ, _, h⟩
    obtain ⟨e, he, rfl⟩ := List.mem_map.mp hδ
    exact ⟨e, he, h⟩
  have hdef : DefinedPipeline cfg ([src].map (Versions jsonOps (hist.map Prod.snd))) := by
    have hst : DefinedStages cfg (Versions jsonOps (hist.map Prod.snd) src) := by
      refine stages_defined base H hrow hcfg (fun d hd => ?_) (fun _ d hd => version_named hnm' hd)
      obtain ⟨e, he, rfl⟩ := hver d hd
      exact hev e he
    unfold DefinedPipeline
    split
    · rename_i ev rest
      exact absurd hst.1 (by simp [PipeOp.DefinedOn])
    · intro P hP
      simp only [List.map_cons, List.map_nil, List.cons.injEq, and_true] at hP
      exact hP ▸ hst
  have hboth : ∀ pre, pre <+: hist.map Prod.snd → ∀ ins o, LiveInputs jsonOps pre [src] ins → PipelineSpec cfg ins o →
      OnePerName jsonOps target o ∧ AllEnforced jsonOps target o := by
    intro pre hpre ins o hl hsp
    have hres := C82_results base H srt src spec cfg hcfg hrow pre (fun δ hδ => hnm' δ (hpre.subset hδ)) ins o hl hsp
    obtain ⟨z, rfl, hst⟩ := pipelineSpec_row hrow hcfg hsp
    have hz := live_one hl
    obtain ⟨f1, f2⟩ := liveSet_facts hz
    refine ⟨onePerName_of_unique (stages_unique base H hsafe hcfg hst hz.1 f2
      (fun d hd => live_named (fun δ hδ => hnm' δ (hpre.subset hδ)) ((f1 d).mp hd))), fun c hc => ?_⟩
    obtain ⟨d, hd, hr⟩ := (hres c).mp hc
    obtain ⟨e, he, rfl⟩ := hver d (versions_mono (fun δ hδ => hpre.subset hδ) (liveAs_version hd))
    obtain ⟨x, hx⟩ := properName_enforced target (results_proper hsafe hr (hpn' e he))
    exact ⟨⟨x, enforceDoc_canon c.2 hx⟩, jsonOps_enforce.mpr hx⟩
  obtain ⟨wss, hr⟩ := C19_defined (sources := [src]) jsonOps_lawful (by simp) hpipe hdef hω (fun e he => by simp [jsonOps, hs e he]) hw hboth
  exact ⟨wss, hr, C82_cluster_partial base H srt target src spec p0 hnew hsafe hist hω hs hw hnm wss hr c0 hc0 h0⟩

/-- Runs selections and projections on one document (used in examples). -/
def rowRun (env : Env) : List SpecOp → CDoc → Option (List CDoc)
  | [], d => some [d]
  | .select e :: ops, d =>
    match selectOp env e d with
    | .ok [_] => rowRun env ops d
    | .ok _ => some []
    | .error _ => none
  | .project e :: ops, d =>
    match projectOp env e d with
    | .ok [c] => rowRun env ops c
    | _ => none
  | _, _ => none

theorem rowRun_spec {env : Env} (H : env.Canon) : ∀ {spec : List SpecOp} {d : CDoc} {l : List CDoc}, rowRun env spec d = some l →
    Evaluates env spec d ∧ ∀ c, Results env spec d c → c ∈ l
  | [], d, l, h => by
    cases h
    refine ⟨trivial, fun c hr => ?_⟩
    cases hr
    simp
  | .select e :: ops, d, l, h => by
    simp only [rowRun] at h
    split at h
    · rename_i x hx
      obtain ⟨b, hb, hd⟩ := selectOp_ok.mp hx
      cases b
      · simp at hd
      · obtain ⟨i1, i2⟩ := rowRun_spec H h
        refine ⟨.inl ⟨hb, i1⟩, fun c hr => ?_⟩
        cases hr with
        | select _ h2 => exact i2 c h2
    · rename_i ds hne hx
      obtain ⟨b, hb, hd⟩ := selectOp_ok.mp hx
      cases b
      · refine ⟨.inr hb, fun c hr => ?_⟩
        cases hr with
        | select h1 _ => rw [CondTrue, hb] at h1; cases h1
      · exact absurd hd (hne d)
    · cases h
  | .project e :: ops, d, l, h => by
    simp only [rowRun] at h
    split at h
    · rename_i x hx
      have hp : Projects env e d x := (row_project H).mp ⟨[x], hx, by simp⟩
      obtain ⟨i1, i2⟩ := rowRun_spec H h
      refine ⟨⟨x, hp, i1⟩, fun c hr => ?_⟩
      cases hr with
      | project h1 h2 =>
        rw [projects_unique h1 hp] at h2
        exact i2 c h2
    · cases h
  | .unwind e :: ops, d, l, h => by simp [rowRun] at h
  | .join e :: ops, d, l, h => by simp [rowRun] at h
  | .gather e :: ops, d, l, h => by simp [rowRun] at h

-- all hypotheses of C82 hold for the example, although the condition fails on a pod without a number as spec
example := C82_never_fails_partial _ plainEnv_canon id viewK podK exRowSpec exRowPipe rfl exRowSpec_safe exJsonHist
  (by intro e he
      simp only [exJsonHist, List.mem_cons, List.not_mem_nil, or_false] at he
      rcases he with rfl | rfl | rfl | rfl | rfl <;> first | exact ω0_valid | exact ω1_valid)
  (by decide) (watchOk_of_check jsonOps_lawful (by decide +kernel))
  (by intro e he
      simp only [exJsonHist, List.mem_cons, List.not_mem_nil, or_false] at he
      rcases he with rfl | rfl | rfl | rfl | rfl <;> exact ⟨⟨_, rfl, by decide⟩, fun v hv => by cases hv⟩)
  (by have h : ∀ e ∈ exJsonHist, (rowRun plainEnv exRowSpec (jsonOps.removeUID e.2.obj)).isSome = true := by decide +kernel
      intro e he
      obtain ⟨l, hl⟩ := Option.isSome_iff_exists.mp (h e he)
      exact (rowRun_spec plainEnv_canon hl).1)
  [((podK, ("", "a")), (podDoc "a" 3).1)] (by simp [AMap.WF]) (by intro k; simp [AMap.get, podK, viewK])

/-- A pod without a spec. -/
def barePod : CDoc := ⟨[("apiVersion", .str "v1"), ("kind", .str "Pod"), ("metadata", .map [("name", .str "z")])], by simp [SMap.Sorted, Json.Canon, Json.CanonM]⟩

example : (selectOp plainEnv (opList "@gt" [strE "$.spec", intE 1]) barePod).toOption = none := by decide +kernel

/-! ## C83 -/

/-- **C83** (no failures): a controller with several sources and a join followed by selections and projections, end to end. If the condition of the join is true or false of
every tuple of objects of the history, the operations succeed on the tuples it accepts and the results have valid names, then no evaluation fails and the cluster
holds exactly the images of the objects made of the results of the tuples of live objects. Missing: as in `C83_cluster_partial`, except that the success of the
evaluations is not assumed. -/
theorem C83_never_fails_partial (base : Env) (H : (fieldEnv base).Canon) (srt : List Json → List Json) (target : GVK) (sources : List GVK)
    (hn : (sources.map GVK.kind).Nodup) (e : Expr) (ops : List SpecOp) (hpl : ∀ op ∈ ops, op.Plain) (p0 : Pipe CDoc AnyVal)
    (hnew : newSpecPipe (fieldEnv base) srt target sources (.join e :: ops) = .ok p0) (hist : List (EvalOrder CDoc × Delta CDoc)) (hω : ∀ e ∈ hist, e.1.Valid)
    (hs : ∀ e ∈ hist, objGVK e.2.obj.1 ∈ sources) (hw : WatchOk jsonOps (hist.map Prod.snd))
    (hap : ∀ pre, pre <+: hist.map Prod.snd → TuplesApart (fieldEnv base) target pre sources e ops)
    (hev : ∀ ds j, TupleIn (sources.map (Versions jsonOps (hist.map Prod.snd))) ds → Combines (sources.map GVK.kind) ds j →
      Evaluates (fieldEnv base) (.select e :: ops) j)
    (henf : ∀ ds c, TupleIn (sources.map (Versions jsonOps (hist.map Prod.snd))) ds → JoinResults (fieldEnv base) sources e ops ds c →
      ∃ x, enforceDoc target c.1 = .ok x)
    (c0 : Cluster) (hc0 : AMap.WF c0) (h0 : ∀ k, c0.get (target, k) = none) :
    ∃ wss : List (List (Delta CDoc)), (runs (fun p (e : EvalOrder CDoc × Delta CDoc) => p.evaluate jsonOps e.1 e.2) p0 hist).2 = wss.map Except.ok ∧
      ClusterHolds target (fun c => ∃ ds, LiveTuple (hist.map Prod.snd) sources ds ∧ JoinResults (fieldEnv base) sources e ops ds c) c0
        (clusterAfter target c0 wss.flatten) := by
  obtain ⟨cfg, hcfg, hpipe⟩ := newSpecPipe_ok hnew
  have hrow := rowSpec_plain (env := fieldEnv base) hpl false
  have hdef : DefinedPipeline cfg (sources.map (Versions jsonOps (hist.map Prod.snd))) := by
    obtain ⟨p, ps, rfl, hp, hps⟩ := compileOps_cons hcfg
    cases hp
    have hcond : ∀ ds, TupleIn (sources.map (Versions jsonOps (hist.map Prod.snd))) ds →
        Evaluates (fieldEnv base) (.select e :: ops) (joinedDoc (sources.map GVK.kind) ds) := fun ds hds => hev ds _ hds (joinedDoc_combines hn ds)
    refine ⟨fun ds hds => ?_, stages_defined base H hrow hps ?_ (by simp)⟩
    · rcases hcond ds hds with ⟨h, _⟩ | h
      · exact ⟨_, joinOp_ok.mpr ⟨true, h, rfl⟩⟩
      · exact ⟨_, joinOp_ok.mpr ⟨false, h, rfl⟩⟩
    · rintro j ⟨ds, r, hds, h1, h2⟩
      obtain ⟨b, hb, rfl⟩ := joinOp_ok.mp h1
      cases b
      · simp at h2
      · simp only [if_true, List.mem_singleton] at h2
        subst h2
        rcases hcond ds hds with ⟨_, h⟩ | h
        · exact h
        · rw [CondFalse, hb] at h; cases h
  have hboth : ∀ pre, pre <+: hist.map Prod.snd → ∀ ins o, LiveInputs jsonOps pre sources ins → PipelineSpec cfg ins o →
      OnePerName jsonOps target o ∧ AllEnforced jsonOps target o := by
    intro pre hpre ins o hl hsp
    have hres := C83_results base H srt sources hn e ops cfg hcfg hrow pre ins o hl hsp
    refine ⟨join_onePerName base H hn hpl hcfg (hap pre hpre) hl hsp, fun c hc => ?_⟩
    obtain ⟨ds, hd, hr⟩ := (hres c).mp hc
    obtain ⟨x, hx⟩ := henf ds c ⟨by simpa using hd.1, fun i P d hP hi => by
      rw [List.getElem?_map, Option.map_eq_some_iff] at hP
      obtain ⟨s, hs, rfl⟩ := hP
      exact versions_mono (fun δ hδ => hpre.subset hδ) (liveAs_version (hd.2 i s d hs hi))⟩ hr
    exact ⟨⟨x, enforceDoc_canon c.2 hx⟩, jsonOps_enforce.mpr hx⟩
  obtain ⟨wss, hr⟩ := C19_defined jsonOps_lawful hn hpipe hdef hω hs hw hboth
  exact ⟨wss, hr, C83_cluster_partial base H srt target sources hn e ops hpl p0 hnew hist hω hs hw hap wss hr c0 hc0 h0⟩

theorem exJoin_rows (ds : List CDoc) (h : TupleIn ([podK, serviceK].map (Versions jsonOps (exJoinHist.map Prod.snd))) ds) :
    ∃ l, rowRun plainEnv (.select exJoinCond :: [.project (.dict "@dict" exJoinFields)]) (joinedDoc ([podK, serviceK].map GVK.kind) ds) = some l ∧
      ∀ c ∈ l, (enforceDoc viewK c.1).toOption.isSome = true := by
  match ds, h with
  | [a, b], h =>
    obtain ⟨δ, h1, h2, rfl⟩ := h.2 0 _ a rfl rfl
    obtain ⟨ε, h3, h4, rfl⟩ := h.2 1 _ b rfl rfl
    have key : ∀ δ ∈ exJoinHist.map Prod.snd, jsonOps.gvk δ.obj = podK → ∀ ε ∈ exJoinHist.map Prod.snd, jsonOps.gvk ε.obj = serviceK →
        (rowRun plainEnv (.select exJoinCond :: [.project (.dict "@dict" exJoinFields)])
          (joinedDoc ([podK, serviceK].map GVK.kind) [jsonOps.removeUID δ.obj, jsonOps.removeUID ε.obj])).elim false
          (fun l => l.all (fun c => (enforceDoc viewK c.1).toOption.isSome)) = true := by decide +kernel
    have hk := key δ h1 h2 ε h3 h4
    cases hr : rowRun plainEnv (.select exJoinCond :: [.project (.dict "@dict" exJoinFields)])
        (joinedDoc ([podK, serviceK].map GVK.kind) [jsonOps.removeUID δ.obj, jsonOps.removeUID ε.obj]) with
    | none => rw [hr] at hk; simp at hk
    | some l =>
      rw [hr] at hk
      exact ⟨l, rfl, by simpa using hk⟩
  | [], h => have := h.1; simp at this
  | [_], h => have := h.1; simp at this
  | _ :: _ :: _ :: _, h => have := h.1; simp at this

-- all hypotheses of C83 hold for the example
example := C83_never_fails_partial _ plainEnv_canon id viewK [podK, serviceK] (by decide) exJoinCond [.project (.dict "@dict" exJoinFields)]
  (by intro op h; simp at h; subst h; trivial) exJoinPipe rfl exJoinHist
  (by intro e he
      simp only [exJoinHist, List.mem_cons, List.not_mem_nil, or_false] at he
      rcases he with rfl | rfl | rfl | rfl <;> first | exact ω0_valid | exact ω1_valid)
  (by decide) (watchOk_of_check jsonOps_lawful (by decide +kernel)) exJoin_apart
  (fun ds j hds hj => by
    obtain ⟨l, hl, _⟩ := exJoin_rows ds hds
    rw [combines_unique hj (joinedDoc_combines (by decide) ds)]
    exact (rowRun_spec plainEnv_canon hl).1)
  (fun ds c hds hr => by
    obtain ⟨l, hl, he⟩ := exJoin_rows ds hds
    obtain ⟨j, hj, h1, h2⟩ := hr
    rw [combines_unique hj (joinedDoc_combines (by decide) ds)] at h1 h2
    have := he c ((rowRun_spec plainEnv_canon hl).2 c (.select h1 h2))
    cases hx : enforceDoc viewK c.1 with
    | ok x => exact ⟨x, rfl⟩
    | error e => rw [hx] at this; simp [Except.toOption] at this)
  [((podK, ("", "a")), (podDoc "a" 3).1)] (by simp [AMap.WF]) (by intro k; simp [AMap.get, podK, viewK])

end Dctl
