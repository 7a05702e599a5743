import Verif.Pipeline.RowLemmas
import Verif.Props.EndToEnd
/-!
# C82, C83: controllers given by a specification, end to end
-/
set_option autoImplicit false
namespace Dctl
open ZSet

/-- The objects of the target kind in the cluster are exactly the images of the objects made of the documents in `R`; other kinds are as in `c0`. -/
def ClusterHolds (target : GVK) (R : CDoc → Prop) (c0 c : Cluster) : Prop :=
  (∀ k obj, c.get (target, k) = some obj → ∃ d x, R d ∧ enforceDoc target d.1 = .ok x ∧ objKey x = k ∧ IsImage x obj) ∧
  (∀ d x, R d → enforceDoc target d.1 = .ok x → ∃ obj, c.get (target, objKey x) = some obj ∧ IsImage x obj) ∧
  ∀ k, k.1 ≠ target → c.get k = c0.get k

theorem newSpecPipe_ok {env : Env} {srt : List Json → List Json} {target : GVK} {sources : List GVK} {spec : List SpecOp} {p0 : Pipe CDoc AnyVal}
    (h : newSpecPipe env srt target sources spec = .ok p0) :
    ∃ cfg, compileOps env srt (sources.map GVK.kind) spec = .ok cfg ∧ Pipe.new target sources cfg = .ok p0 := by
  unfold newSpecPipe at h
  split at h
  · cases h
  · rename_i cfg hc
    exact ⟨cfg, hc, h⟩

theorem pipelineSpec_row {env : Env} {srt : List Json → List Json} {names : List String} {spec : List SpecOp} {b : Bool} (hrow : RowSpec env b spec)
    {cfg : List (PipeOp CDoc AnyVal)} (hc : compileOps env srt names spec = .ok cfg) {ins : List (ZSet CDoc)} {o : ZSet CDoc} (h : PipelineSpec cfg ins o) :
    ∃ z, ins = [z] ∧ StagesSpec cfg z o := by
  cases cfg with
  | nil => exact h
  | cons p ps =>
    cases p with
    | join ev =>
      obtain ⟨e, rest, rfl⟩ := (compileOps_join hc).2.1.mp ⟨ev, ps, rfl⟩
      exact absurd hrow (by cases b <;> simp [RowSpec])
    | select ev => exact h
    | project ev => exact h
    | unwind ex tr => exact h
    | gather g => exact h

theorem live_one {hist : List (Delta CDoc)} {src : GVK} {z : ZSet CDoc} (h : LiveInputs jsonOps hist [src] [z]) : LiveSet jsonOps hist src z := by
  obtain ⟨z', hz', hl⟩ := h.2 0 src rfl
  simp only [List.getElem?_cons_zero, Option.some.injEq] at hz'
  exact hz' ▸ hl

theorem onePerName_of_unique {t : GVK} {o : ZSet CDoc} (h : UniqueNames o) : OnePerName jsonOps t o := by
  refine ⟨h.1, fun d d' a b hd hd' ha hb hk => h.2 d d' hd hd' ?_⟩
  obtain ⟨_, _, _, e1, _⟩ := C74_object t d.1 a.1 d.2 (jsonOps_enforce.mp ha)
  obtain ⟨_, _, _, e2, _⟩ := C74_object t d'.1 b.1 d'.2 (jsonOps_enforce.mp hb)
  have hk' : objKey a.1 = objKey b.1 := hk
  rw [e1, e2] at hk'
  exact hk'

/-! ## C82 -/

/-- **C82** (results): the documents a pipeline of selections, projections and unwinds computes from the live objects of its source are the results of these
objects, one by one. -/
theorem C82_results (base : Env) (H : (fieldEnv base).Canon) (srt : List Json → List Json) (src : GVK) (spec : List SpecOp) (cfg : List (PipeOp CDoc AnyVal))
    (hc : compileOps (fieldEnv base) srt [src.kind] spec = .ok cfg) (hrow : RowSpec (fieldEnv base) true spec)
    (hist : List (Delta CDoc)) (hnm : ∀ δ ∈ hist, Named δ.obj) (ins : List (ZSet CDoc)) (o : ZSet CDoc) (hl : LiveInputs jsonOps hist [src] ins)
    (hs : PipelineSpec cfg ins o) (c : CDoc) : 0 < get o c ↔ ∃ d, LiveObj hist src d ∧ Results (fieldEnv base) spec d c := by
  obtain ⟨z, rfl, hst⟩ := pipelineSpec_row hrow hc hs
  have hz := live_one hl
  obtain ⟨f1, f2⟩ := liveSet_facts hz
  rw [stages_results base H hrow hc hst hz.1 (nonNeg_pos hz.1 (fun d => (f2.1 d).1)) (fun _ d hd => live_named hnm ((f1 d).mp hd))]
  exact exists_congr (fun d => and_congr_left (fun _ => f1 d))

/-- **C82** (partial): a controller with one source and a pipeline of selections, projections that keep the name, and unwinds, end to end. No assumption on the
names of the results is needed: after any watch history the cluster holds exactly the images of the objects made of the results of the live source objects.
Missing: gathers, evaluations that fail, and failing or reordered writes. -/
theorem C82_cluster_partial (base : Env) (H : (fieldEnv base).Canon) (srt : List Json → List Json) (target src : GVK) (spec : List SpecOp)
    (p0 : Pipe CDoc AnyVal) (hnew : newSpecPipe (fieldEnv base) srt target [src] spec = .ok p0) (hsafe : ∀ op ∈ spec, NameSafe (fieldEnv base) op)
    (hist : List (EvalOrder CDoc × Delta CDoc)) (hω : ∀ e ∈ hist, e.1.Valid) (hs : ∀ e ∈ hist, objGVK e.2.obj.1 = src) (hw : WatchOk jsonOps (hist.map Prod.snd))
    (hnm : ∀ e ∈ hist, Named e.2.obj) (wss : List (List (Delta CDoc)))
    (hr : (runs (fun p (e : EvalOrder CDoc × Delta CDoc) => p.evaluate jsonOps e.1 e.2) p0 hist).2 = wss.map Except.ok)
    (c0 : Cluster) (hc0 : AMap.WF c0) (h0 : ∀ k, c0.get (target, k) = none) :
    ClusterHolds target (fun c => ∃ d, LiveObj (hist.map Prod.snd) src d ∧ Results (fieldEnv base) spec d c) c0 (clusterAfter target c0 wss.flatten) := by
  obtain ⟨cfg, hcfg, hpipe⟩ := newSpecPipe_ok hnew
  have hrow := rowSpec_of_safe hsafe
  have hnm' : ∀ δ ∈ hist.map Prod.snd, Named δ.obj := by
    intro δ hδ
    obtain ⟨e, he, rfl⟩ := List.mem_map.mp hδ
    exact hnm e he
  have hone : ∀ pre, pre <+: hist.map Prod.snd → ∀ ins o, LiveInputs jsonOps pre [src] ins → PipelineSpec cfg ins o → OnePerName jsonOps target o := by
    intro pre hpre ins o hl hsp
    obtain ⟨z, rfl, hst⟩ := pipelineSpec_row hrow hcfg hsp
    have hz := live_one hl
    obtain ⟨f1, f2⟩ := liveSet_facts hz
    exact onePerName_of_unique (stages_unique base H hsafe hcfg hst hz.1 f2 (fun d hd => live_named (fun δ hδ => hnm' δ (hpre.subset hδ)) ((f1 d).mp hd)))
  obtain ⟨ins, o, h1, h2, h3, h4, h5⟩ := C75_cluster_partial (sources := [src]) (by simp) hpipe hω (fun e he => by simp [hs e he]) hw hone hr c0 hc0 h0
  have hres := C82_results base H srt src spec cfg hcfg hrow _ hnm' ins o h1 h2
  refine ⟨fun k obj hobj => ?_, fun d x hd hx => h4 d x ((hres d).mpr hd) hx, h5⟩
  obtain ⟨d, x, a, b⟩ := h3 k obj hobj
  exact ⟨d, x, (hres d).mp a, b⟩

theorem project_metadata (base : Env) {fields : List (String × Expr)} (hk : ∀ p ∈ fields, PlainKey p.1) (hn : (fields.map Prod.fst).Nodup) {k : String} {p : List String}
    (hw : Words (k :: p)) (hm : ("metadata", strE (pathString (k :: p))) ∈ fields) {d c : CDoc} {md : SMap Json} (hmd : nested d.1 (k :: p) = some (.map md))
    (hp : Projects (fieldEnv base) (.dict "@dict" fields) d c) : SMap.get c.1 "metadata" = some (.map md) := by
  have hev : eval (fieldEnv base) (strE (pathString (k :: p))) ⟨.map d.1, .null⟩ = .ok (.map md) := eval_path_ne hw (by rw [hmd]; rfl) (by simp)
  have hdict : ∀ v, eval (fieldEnv base) (.dict "@dict" fields) ⟨.map d.1, .null⟩ = .ok v →
      ∃ r, v = .map r ∧ setFields (fieldEnv base) ⟨.map d.1, .null⟩ [] (fields.map (fun p => (p.1, p.2.den (fieldEnv base)))) = .ok r := by
    intro v h
    simp only [eval, Expr.den, evalDict, if_true, denM_eq] at h
    split at h
    · cases h
    · rename_i r hr
      cases h
      exact ⟨r, rfl, hr⟩
  rcases hp with h | ⟨us, h, _⟩
  · obtain ⟨r, e, hr⟩ := hdict _ h
    cases e
    have := (setFields_plain (env := fieldEnv base) (ctx := ⟨.map d.1, .null⟩) (fields.map (fun p => (p.1, p.2.den (fieldEnv base)))) [] SMap.sorted_nil
      (by intro q hq; obtain ⟨p, hp, rfl⟩ := List.mem_map.mp hq; exact hk p hp) (by rw [List.map_map]; exact hn)).2 _ hr
    refine this.2.1 ("metadata", (strE (pathString (k :: p))).den (fieldEnv base)) (List.mem_map.mpr ⟨_, hm, rfl⟩) (.map md) ?_
    simp only [fieldValue]
    rw [show (strE (pathString (k :: p))).den (fieldEnv base) ⟨.map d.1, .null⟩ = .ok (.map md) from hev]
    rfl
  · obtain ⟨r, e, _⟩ := hdict _ h
    cases e

theorem metadata_of_named {d : CDoc} (h : Named d) : ∃ md, SMap.get d.1 "metadata" = some (.map md) := by
  obtain ⟨n, hname⟩ := h
  rw [nested_cons, Option.bind_eq_some_iff] at hname
  obtain ⟨x, h1, h2⟩ := hname
  cases x with
  | map md => exact ⟨md, h1⟩
  | _ => rw [at_not_map (by intro x; simp)] at h2; cases h2

/-- **C82** (which projections keep the name): those that copy the metadata and set any other fields. -/
theorem C82_keeps_name (base : Env) (fields : List (String × Expr)) (hk : ∀ p ∈ fields, PlainKey p.1) (hn : (fields.map Prod.fst).Nodup)
    (hm : ("metadata", strE (pathString ["metadata"])) ∈ fields) : KeepsName (fieldEnv base) (.dict "@dict" fields) := by
  intro d c hd hp
  have hw : Words ["metadata"] := by intro x hx; simp at hx; subst hx; decide
  obtain ⟨md, hmd⟩ := metadata_of_named hd
  have hget := project_metadata base hk hn hw hm (by rw [nested_one, hmd]) hp
  exact ⟨by rw [nested_cons, nested_cons, hget, hmd], by rw [nested_cons, nested_cons, hget, hmd]⟩

/-- Pods with spec above 1, with the metadata and the spec as data. -/
def exRowSpec : List SpecOp :=
  [.select (opList "@gt" [strE "$.spec", intE 1]), .project (.dict "@dict" [("metadata", strE (pathString ["metadata"])), ("data", strE "$.spec")])]

/-- The pipeline of the example. -/
def exRowPipe : Pipe CDoc AnyVal :=
  match newSpecPipe plainEnv id viewK [podK] exRowSpec with
  | .ok p => p
  | .error _ => { sources := [], target := viewK, graph := {} }

/-- A View object of the example. -/
def rowView (n : String) (v : Int) : CDoc :=
  ⟨[("apiVersion", .str "v1"), ("data", .int v), ("kind", .str "View"), ("metadata", .map [("labels", .map [("app", .str n)]), ("name", .str n)])], by
    simp [SMap.Sorted, Json.Canon, Json.CanonM]⟩

/-- The writes of the example. -/
def exRowWrites : List (List (Delta CDoc)) :=
  [[⟨.upserted, rowView "a" 2⟩], [⟨.upserted, rowView "b" 5⟩], [⟨.upserted, rowView "a" 3⟩], [], [⟨.deleted, rowView "b" 5⟩]]

theorem exRowSpec_safe : ∀ op ∈ exRowSpec, NameSafe plainEnv op := by
  intro op h
  simp only [exRowSpec, List.mem_cons, List.not_mem_nil, or_false] at h
  rcases h with rfl | rfl
  · trivial
  · refine C82_keeps_name _ _ ?_ (by decide) (by simp)
    intro p hp
    simp only [List.mem_cons, List.not_mem_nil, or_false] at hp
    rcases hp with rfl | rfl <;> exact ⟨by decide, by decide⟩

instance instDecDeltas : DecidableEq (List (Delta CDoc)) := inferInstance

theorem ok_of_toOption {α : Type} : ∀ {l : List (Except Err α)} {r : List α}, l.map Except.toOption = r.map some → l = r.map .ok
  | [], [], _ => rfl
  | [], _ :: _, h => by simp at h
  | _ :: _, [], h => by simp at h
  | x :: l, y :: r, h => by
    simp only [List.map_cons, List.cons.injEq] at h
    rw [List.map_cons, ok_of_toOption h.2]
    cases x with
    | error e => simp [Except.toOption] at h
    | ok a => simp only [Except.toOption, Option.some.injEq] at h; rw [h.1]

-- all hypotheses of C82 hold for the example
example := C82_cluster_partial _ plainEnv_canon id viewK podK exRowSpec exRowPipe rfl exRowSpec_safe exJsonHist
  (by intro e he
      simp only [exJsonHist, List.mem_cons, List.not_mem_nil, or_false] at he
      rcases he with rfl | rfl | rfl | rfl | rfl <;> first | exact ω0_valid | exact ω1_valid)
  (by decide) (watchOk_of_check jsonOps_lawful (by decide +kernel))
  (by intro e he
      simp only [exJsonHist, List.mem_cons, List.not_mem_nil, or_false] at he
      rcases he with rfl | rfl | rfl | rfl | rfl <;> exact ⟨_, rfl⟩)
  exRowWrites (ok_of_toOption (by decide +kernel)) [((podK, ("", "a")), (podDoc "a" 3).1)] (by simp [AMap.WF]) (by intro k; simp [AMap.get, podK, viewK])

/-! ## C83 -/

/-- **C83** (results): the documents a pipeline with a join computes from the live objects of its sources are the results of the tuples of live objects, one
of each source. -/
theorem C83_results (base : Env) (H : (fieldEnv base).Canon) (srt : List Json → List Json) (sources : List GVK) (hn : (sources.map GVK.kind).Nodup) (e : Expr)
    (ops : List SpecOp) (cfg : List (PipeOp CDoc AnyVal)) (hc : compileOps (fieldEnv base) srt (sources.map GVK.kind) (.join e :: ops) = .ok cfg)
    (hrow : RowSpec (fieldEnv base) false ops) (hist : List (Delta CDoc)) (ins : List (ZSet CDoc)) (o : ZSet CDoc) (hl : LiveInputs jsonOps hist sources ins)
    (hs : PipelineSpec cfg ins o) (c : CDoc) : 0 < get o c ↔ ∃ ds, LiveTuple hist sources ds ∧ JoinResults (fieldEnv base) sources e ops ds c := by
  obtain ⟨p, ps, rfl, hp, hps⟩ := compileOps_cons hc
  cases hp
  obtain ⟨m, hj, hst⟩ := hs
  obtain ⟨hm, hv, hg⟩ := join_live hn hl hj
  rw [stages_results base H hrow hps hst hm (nonNeg_pos hm (fun d => by rcases hv d with h | h <;> omega)) (by simp)]
  constructor
  · rintro ⟨j, hj, hr⟩
    obtain ⟨ds, h1, h2, h3⟩ := (hg j).mp hj
    exact ⟨ds, h1, j, h2, h3, hr⟩
  · rintro ⟨ds, h1, j, h2, h3, h4⟩
    exact ⟨j, (hg j).mpr ⟨ds, h1, h2, h3⟩, h4⟩

theorem rowSpec_plain {env : Env} : ∀ {ops : List SpecOp}, (∀ op ∈ ops, op.Plain) → ∀ b, RowSpec env b ops
  | [], _, b => by cases b <;> trivial
  | op :: ops, h, b => by
    have h1 := h op (by simp)
    have ih := rowSpec_plain (env := env) (fun o ho => h o (List.mem_cons_of_mem _ ho))
    cases op with
    | select e => exact ih b
    | project e => exact .inl (ih false)
    | unwind e => exact absurd h1 (by simp [SpecOp.Plain])
    | join e => exact absurd h1 (by simp [SpecOp.Plain])
    | gather e => exact absurd h1 (by simp [SpecOp.Plain])

/-- Different tuples of live objects have different results, with different names. -/
def TuplesApart (env : Env) (target : GVK) (hist : List (Delta CDoc)) (sources : List GVK) (e : Expr) (ops : List SpecOp) : Prop :=
  ∀ ds ds' c c', LiveTuple hist sources ds → LiveTuple hist sources ds' → JoinResults env sources e ops ds c → JoinResults env sources e ops ds' c' →
    (c = c' ∨ ∃ x x', enforceDoc target c.1 = .ok x ∧ enforceDoc target c'.1 = .ok x' ∧ objKey x = objKey x') → ds = ds'

theorem results_plain_unique {env : Env} : ∀ {ops : List SpecOp}, (∀ op ∈ ops, op.Plain) → ∀ {d c c' : CDoc}, Results env ops d c → Results env ops d c' → c = c'
  | [], _, d, c, c', h, h' => by cases h; cases h'; rfl
  | op :: ops, hp, d, c, c', h, h' => by
    have hp' : ∀ op ∈ ops, op.Plain := fun o ho => hp o (List.mem_cons_of_mem _ ho)
    cases h with
    | select h1 h2 =>
      cases h' with
      | select g1 g2 => exact results_plain_unique hp' h2 g2
    | project h1 h2 =>
      cases h' with
      | project g1 g2 =>
        have := projects_unique h1 g1
        subst this
        exact results_plain_unique hp' h2 g2
    | unwind => exact absurd (hp _ List.mem_cons_self) (by simp [SpecOp.Plain])

theorem join_onePerName (base : Env) (H : (fieldEnv base).Canon) {srt : List Json → List Json} {target : GVK} {sources : List GVK}
    (hn : (sources.map GVK.kind).Nodup) {e : Expr} {ops : List SpecOp} (hpl : ∀ op ∈ ops, op.Plain) {cfg : List (PipeOp CDoc AnyVal)}
    (hcfg : compileOps (fieldEnv base) srt (sources.map GVK.kind) (.join e :: ops) = .ok cfg) {pre : List (Delta CDoc)}
    (hap : TuplesApart (fieldEnv base) target pre sources e ops) {ins : List (ZSet CDoc)} {o : ZSet CDoc} (hl : LiveInputs jsonOps pre sources ins)
    (hsp : PipelineSpec cfg ins o) : OnePerName jsonOps target o := by
  have hrow := rowSpec_plain (env := fieldEnv base) hpl false
  have hres := C83_results base H srt sources hn e ops cfg hcfg hrow pre ins o hl hsp
  obtain ⟨p, ps, rfl, hp, hps⟩ := compileOps_cons hcfg
  cases hp
  obtain ⟨m, hj, hst⟩ := hsp
  obtain ⟨hm, hv, hg⟩ := join_live hn hl hj
  refine ⟨?_, ?_⟩
  · refine stages_once base H hpl hps hst hm (nonNeg_pos hm (fun d => by rcases hv d with h | h <;> omega)) (fun d _ _ => by rcases hv d with h | h <;> omega) ?_
    intro d d' c hd hd' hrd hrd'
    obtain ⟨ds, t1, t2, t3⟩ := (hg d).mp hd
    obtain ⟨ds', t1', t2', t3'⟩ := (hg d').mp hd'
    have := hap ds ds' c c t1 t1' ⟨d, t2, t3, hrd⟩ ⟨d', t2', t3', hrd'⟩ (.inl rfl)
    subst this
    exact combines_unique t2 t2'
  · intro d d' a b hd hd' ha hb hk
    obtain ⟨ds, t1, t2⟩ := (hres d).mp hd
    obtain ⟨ds', t1', t2'⟩ := (hres d').mp hd'
    have := hap ds ds' d d' t1 t1' t2 t2' (.inr ⟨a.1, b.1, jsonOps_enforce.mp ha, jsonOps_enforce.mp hb, hk⟩)
    subst this
    obtain ⟨j, c1, _, r1⟩ := t2
    obtain ⟨j', c1', _, r1'⟩ := t2'
    have := combines_unique c1 c1'
    subst this
    exact results_plain_unique hpl r1 r1'

/-- **C83** (partial): a controller with several sources and a pipeline of a join, selections and projections, end to end, if the results of different tuples have
different names: after any watch history the cluster holds exactly the images of the objects made of the results of the tuples of live source objects that
satisfy the join condition. Missing: unwinds and gathers after the join, evaluations that fail, and failing or reordered writes. -/
theorem C83_cluster_partial (base : Env) (H : (fieldEnv base).Canon) (srt : List Json → List Json) (target : GVK) (sources : List GVK)
    (hn : (sources.map GVK.kind).Nodup) (e : Expr) (ops : List SpecOp) (hpl : ∀ op ∈ ops, op.Plain) (p0 : Pipe CDoc AnyVal)
    (hnew : newSpecPipe (fieldEnv base) srt target sources (.join e :: ops) = .ok p0) (hist : List (EvalOrder CDoc × Delta CDoc)) (hω : ∀ e ∈ hist, e.1.Valid)
    (hs : ∀ e ∈ hist, objGVK e.2.obj.1 ∈ sources) (hw : WatchOk jsonOps (hist.map Prod.snd))
    (hap : ∀ pre, pre <+: hist.map Prod.snd → TuplesApart (fieldEnv base) target pre sources e ops) (wss : List (List (Delta CDoc)))
    (hr : (runs (fun p (e : EvalOrder CDoc × Delta CDoc) => p.evaluate jsonOps e.1 e.2) p0 hist).2 = wss.map Except.ok)
    (c0 : Cluster) (hc0 : AMap.WF c0) (h0 : ∀ k, c0.get (target, k) = none) :
    ClusterHolds target (fun c => ∃ ds, LiveTuple (hist.map Prod.snd) sources ds ∧ JoinResults (fieldEnv base) sources e ops ds c) c0
      (clusterAfter target c0 wss.flatten) := by
  obtain ⟨cfg, hcfg, hpipe⟩ := newSpecPipe_ok hnew
  have hrow := rowSpec_plain (env := fieldEnv base) hpl false
  obtain ⟨ins, o, h1, h2, h3, h4, h5⟩ := C75_cluster_partial hn hpipe hω hs hw
    (fun pre hpre _ _ hl hsp => join_onePerName base H hn hpl hcfg (hap pre hpre) hl hsp) hr c0 hc0 h0
  have hres := C83_results base H srt sources hn e ops cfg hcfg hrow _ ins o h1 h2
  refine ⟨fun k obj hobj => ?_, fun d x hd hx => h4 d x ((hres d).mpr hd) hx, h5⟩
  obtain ⟨d, x, a, b⟩ := h3 k obj hobj
  exact ⟨d, x, (hres d).mp a, b⟩

/-- The join condition lets an object of the source at position `i` take part in at most one tuple. -/
def OnePartner (env : Env) (hist : List (Delta CDoc)) (sources : List GVK) (e : Expr) (i : Nat) : Prop :=
  ∀ ds ds' j j', LiveTuple hist sources ds → LiveTuple hist sources ds' → Combines (sources.map GVK.kind) ds j → Combines (sources.map GVK.kind) ds' j' →
    CondTrue env e j → CondTrue env e j' → ds[i]? = ds'[i]? → ds = ds'

/-- **C83** (names from one source): if the results get the metadata of one of the sources, and every object of it takes part in at most one tuple, then the
results of different tuples have different names. -/
theorem C83_names (base : Env) (target : GVK) (hist : List (Delta CDoc)) (hnm : ∀ δ ∈ hist, Named δ.obj) (sources : List GVK)
    (e : Expr) (i : Nat) (s : GVK) (hi : sources[i]? = some s) (hw : Words [s.kind, "metadata"]) (hone : OnePartner (fieldEnv base) hist sources e i)
    (fields : List (String × Expr)) (hk : ∀ p ∈ fields, PlainKey p.1) (hf : (fields.map Prod.fst).Nodup)
    (hm : ("metadata", strE (pathString [s.kind, "metadata"])) ∈ fields) :
    TuplesApart (fieldEnv base) target hist sources e [.project (.dict "@dict" fields)] := by
  have key : ∀ ds c, LiveTuple hist sources ds → JoinResults (fieldEnv base) sources e [.project (.dict "@dict" fields)] ds c →
      ∃ d, ds[i]? = some d ∧ LiveObj hist s d ∧ objKey c.1 = objKey d.1 := by
    rintro ds c ht ⟨j, hj, _, hr⟩
    have hlt : i < ds.length := by rw [ht.1]; exact (List.getElem?_eq_some_iff.mp hi).1
    have hd : ds[i]? = some ds[i] := List.getElem?_eq_getElem hlt
    have hl := ht.2 i s ds[i] hi hd
    refine ⟨ds[i], hd, hl, ?_⟩
    have hg : SMap.get j.1 s.kind = some (.map ds[i].1) := (hj s.kind _).mpr ⟨i, ds[i], by rw [List.getElem?_map, hi]; rfl, hd, rfl⟩
    obtain ⟨md, hmd⟩ := metadata_of_named (live_named hnm hl)
    cases hr with
    | project hp hnil =>
      cases hnil
      have hget := project_metadata base hk hf hw hm (by rw [nested_cons, hg]; exact (nested_one _ _).trans hmd) hp
      exact objKey_eq (by rw [nested_cons, nested_cons, hget, hmd]) (by rw [nested_cons, nested_cons, hget, hmd])
  intro ds ds' c c' ht ht' hr hr' hsame
  obtain ⟨d, hd, hl, hkd⟩ := key ds c ht hr
  obtain ⟨d', hd', hl', hkd'⟩ := key ds' c' ht' hr'
  have hkey : objKey c.1 = objKey c'.1 := by
    rcases hsame with rfl | ⟨x, x', hx, hx', hxx⟩
    · rfl
    · obtain ⟨_, _, _, e1, _⟩ := C74_object target c.1 x c.2 hx
      obtain ⟨_, _, _, e2, _⟩ := C74_object target c'.1 x' c'.2 hx'
      rw [e1, e2] at hxx
      exact hxx
  have hdd : d = d' := by
    have h2 := hl'.2
    rw [← hkd', ← hkey, hkd] at h2
    exact liveAs_unique hl.2 h2
  obtain ⟨j, hj, hc, _⟩ := hr
  obtain ⟨j', hj', hc', _⟩ := hr'
  exact hone ds ds' j j' ht ht' hj hj' hc hc' (by rw [hd, hd', hdd])

/-- A second kind of the example. -/
abbrev serviceK : GVK := ⟨"", "v1", "Service"⟩

/-- A service. -/
def svcDoc (n : String) (v : Int) : CDoc :=
  ⟨[("apiVersion", .str "v1"), ("kind", .str "Service"), ("metadata", .map [("name", .str n)]), ("spec", .int v)], by
    simp [SMap.Sorted, Json.Canon, Json.CanonM]⟩

/-- The fields of the results of the example. -/
def exJoinFields : List (String × Expr) := [("metadata", strE (pathString ["Pod", "metadata"])), ("service", strE (pathString ["Service", "metadata", "name"]))]

/-- Pods with a spec above that of the service. -/
def exJoinCond : Expr := opList "@gt" [strE (pathString ["Pod", "spec"]), strE (pathString ["Service", "spec"])]

/-- The pipeline of the example. -/
def exJoinPipe : Pipe CDoc AnyVal :=
  match newSpecPipe plainEnv id viewK [podK, serviceK] [.join exJoinCond, .project (.dict "@dict" exJoinFields)] with
  | .ok p => p
  | .error _ => { sources := [], target := viewK, graph := {} }

/-- Two pods and a service, which changes. -/
def exJoinHist : List (EvalOrder CDoc × Delta CDoc) :=
  [(ω0, ⟨.added, podDoc "a" 2⟩), (ω1, ⟨.added, svcDoc "s" 1⟩), (ω0, ⟨.added, podDoc "b" 5⟩), (ω1, ⟨.updated, svcDoc "s" 3⟩)]

/-- A View object of the example. -/
def joinView (n : String) : CDoc :=
  ⟨[("apiVersion", .str "v1"), ("kind", .str "View"), ("metadata", .map [("labels", .map [("app", .str n)]), ("name", .str n)]), ("service", .str "s")], by
    simp [SMap.Sorted, Json.Canon, Json.CanonM]⟩

/-- The writes of the example. -/
def exJoinWrites : List (List (Delta CDoc)) :=
  [[], [⟨.upserted, joinView "a"⟩], [⟨.upserted, joinView "b"⟩], [⟨.deleted, joinView "a"⟩]]

theorem live_event {hist : List (Delta CDoc)} {g : GVK} {d : CDoc} (h : LiveObj hist g d) : ∃ δ ∈ hist, objGVK δ.obj.1 = g ∧ objKey δ.obj.1 = objKey d.1 := by
  obtain ⟨_, pre, δ, post, rfl, hc, _⟩ := h
  exact ⟨δ, by simp, hc.1, hc.2.1⟩

-- every pod has at most one partner, since there is one service
theorem exJoin_partner (pre : List (Delta CDoc)) (hp : pre <+: exJoinHist.map Prod.snd) : OnePartner plainEnv pre [podK, serviceK] exJoinCond 0 := by
  have hsvc : ∀ d, LiveObj pre serviceK d → objKey d.1 = ("", "s") := by
    intro d hd
    obtain ⟨δ, hδ, h1, h2⟩ := live_event hd
    have h3 := hp.subset hδ
    rw [← h2]
    have : ∀ δ ∈ exJoinHist.map Prod.snd, objGVK δ.obj.1 = serviceK → objKey δ.obj.1 = ("", "s") := by decide +kernel
    exact this δ h3 h1
  intro ds ds' j j' ht ht' _ _ _ _ h0
  have two : ∀ ds, LiveTuple pre [podK, serviceK] ds → ∃ a b, ds = [a, b] ∧ LiveObj pre serviceK b := by
    intro ds h
    match ds, h with
    | [a, b], h => exact ⟨a, b, rfl, h.2 1 serviceK b rfl rfl⟩
    | [], h => have := h.1; simp at this
    | [_], h => have := h.1; simp at this
    | _ :: _ :: _ :: _, h => have := h.1; simp at this
  obtain ⟨a, b, rfl, hb⟩ := two ds ht
  obtain ⟨a', b', rfl, hb'⟩ := two ds' ht'
  simp only [List.getElem?_cons_zero, Option.some.injEq] at h0
  have e1 := hb.2
  have e2 := hb'.2
  rw [hsvc b hb] at e1
  rw [hsvc b' hb'] at e2
  rw [h0, liveAs_unique e1 e2]

theorem exJoin_apart (pre : List (Delta CDoc)) (hp : pre <+: exJoinHist.map Prod.snd) :
    TuplesApart plainEnv viewK pre [podK, serviceK] exJoinCond [.project (.dict "@dict" exJoinFields)] :=
  C83_names _ viewK pre
    (by intro δ hδ
        have h := hp.subset hδ
        simp only [exJoinHist, List.map_cons, List.map_nil, List.mem_cons, List.not_mem_nil, or_false] at h
        rcases h with rfl | rfl | rfl | rfl <;> exact ⟨_, rfl⟩)
    [podK, serviceK] exJoinCond 0 podK rfl
    (by intro x hx
        simp only [List.mem_cons, List.not_mem_nil, or_false] at hx
        rcases hx with rfl | rfl <;> decide)
    (exJoin_partner pre hp) exJoinFields
    (by intro p h
        simp only [exJoinFields, List.mem_cons, List.not_mem_nil, or_false] at h
        rcases h with rfl | rfl <;> exact ⟨by decide, by decide⟩)
    (by decide) (by simp [exJoinFields, podK])

-- all hypotheses of C83 hold for the example
example := C83_cluster_partial _ plainEnv_canon id viewK [podK, serviceK] (by decide) exJoinCond [.project (.dict "@dict" exJoinFields)]
  (by intro op h; simp at h; subst h; trivial) exJoinPipe rfl exJoinHist
  (by intro e he
      simp only [exJoinHist, List.mem_cons, List.not_mem_nil, or_false] at he
      rcases he with rfl | rfl | rfl | rfl <;> first | exact ω0_valid | exact ω1_valid)
  (by decide) (watchOk_of_check jsonOps_lawful (by decide +kernel))
  exJoin_apart
  exJoinWrites (ok_of_toOption (by decide +kernel)) [((podK, ("", "a")), (podDoc "a" 3).1)] (by simp [AMap.WF]) (by intro k; simp [AMap.get, podK, viewK])

end Dctl
