import Verif.Props.Patcher
import Verif.Props.Defined
/-!
# C88 for specifications with a join
-/
set_option autoImplicit false
namespace Dctl

theorem compile_plain_gather {env : Env} {srt : List Json → List Json} {names : List String} : ∀ {ops : List SpecOp} {cfg : List (PipeOp CDoc AnyVal)},
    (∀ op ∈ ops, op.Plain) → compileOps env srt names ops = .ok cfg → ∀ g, PipeOp.gather g ∉ cfg
  | [], cfg, _, h => by cases h; simp
  | op :: ops, cfg, hpl, h => by
    intro g hg
    obtain ⟨p, ps, rfl, hp, hps⟩ := compileOps_cons h
    rcases List.mem_cons.mp hg with e | e
    · subst e
      have := hpl op (by simp)
      cases op <;> first | exact this | simp [compileOp] at hp
    · exact compile_plain_gather (fun o ho => hpl o (by simp [ho])) hps g e

/-- `x` is the object the tuple `ds` of live objects yields. -/
def TupleObject (env : Env) (target : GVK) (hist : List (Delta CDoc)) (sources : List GVK) (e : Expr) (ops : List SpecOp) (x : CDoc) : Prop :=
  ∃ ds c, LiveTuple hist sources ds ∧ JoinResults env sources e ops ds c ∧ jsonOps.enforce target c = .ok x

/-- **C88** (partial, for specifications): a controller with several sources, a pipeline of a join, selections and projections, and a Patcher target, end to end: the
fields of the objects that the tuples of live objects yield are kept in the objects of the cluster. Missing: see `C88_patcher_partial`; unwinds and gathers. -/
theorem C88_join_partial (base : Env) (H : (fieldEnv base).Canon) (srt : List Json → List Json) (target : GVK) (sources : List GVK)
    (hn : (sources.map GVK.kind).Nodup) (e : Expr) (ops : List SpecOp) (hpl : ∀ op ∈ ops, op.Plain) (p0 : Pipe CDoc AnyVal)
    (hnew : newSpecPipe (fieldEnv base) srt target sources (.join e :: ops) = .ok p0) (hist : List (EvalOrder CDoc × Delta CDoc)) (hω : ∀ e ∈ hist, e.1.Valid)
    (hs : ∀ e ∈ hist, objGVK e.2.obj.1 ∈ sources) (hw : WatchOk jsonOps (hist.map Prod.snd))
    (hap : ∀ pre, pre <+: hist.map Prod.snd → TuplesApart (fieldEnv base) target pre sources e ops) (wss : List (List (Delta CDoc)))
    (hr : (runs (fun p (e : EvalOrder CDoc × Delta CDoc) => p.evaluate jsonOps e.1 e.2) p0 hist).2 = wss.map Except.ok)
    {k : ObjKey} {p : List String} (hp : FreePath p) {c0 c : Cluster} (hc0 : ClusterOk target c0) {y0 : SMap Json} (hy0 : c0.get (target, k) = some y0)
    (hP : Patched target k p c0 wss.flatten c) :
    ∃ y, c.get (target, k) = some y ∧
      (∀ x v, TupleObject (fieldEnv base) target (hist.map Prod.snd) sources e ops x → objKey x.1 = k → nested x.1 p = some v → v.Scalar → nested y p = some v) ∧
      ((∀ pre, pre <+: hist.map Prod.snd → ∀ x, TupleObject (fieldEnv base) target pre sources e ops x → objKey x.1 = k → ¬ (Json.map x.1).Mentions p) →
        nested y p = nested y0 p) ∧
      (∀ h1 h2 x v, hist = h1 ++ h2 → h2 ≠ [] → TupleObject (fieldEnv base) target (h1.map Prod.snd) sources e ops x → objKey x.1 = k → nested x.1 p = some v →
        v.Scalar → (∀ h', h' <+: h2 → h' ≠ [] → ∀ x', TupleObject (fieldEnv base) target ((h1 ++ h').map Prod.snd) sources e ops x' → objKey x'.1 ≠ k) →
        nested y p = none) := by
  obtain ⟨cfg, hcfg, hpipe⟩ := newSpecPipe_ok hnew
  have hrow := rowSpec_plain (env := fieldEnv base) hpl false
  have hone : ∀ pre, pre <+: hist.map Prod.snd → ∀ ins o, LiveInputs jsonOps pre sources ins → PipelineSpec cfg ins o → OnePerName jsonOps target o :=
    fun pre hpre _ _ hl hsp => join_onePerName base H hn hpl hcfg (hap pre hpre) hl hsp
  have hdet : GatherDet cfg := by
    intro g hg
    obtain ⟨p, ps, rfl, hp, hps⟩ := compileOps_cons hcfg
    cases hp
    rcases List.mem_cons.mp hg with h | h
    · cases h
    · exact (compile_plain_gather hpl hps g h).elim
  have res : ∀ pre x, ResultAt sources target cfg pre k x → TupleObject (fieldEnv base) target pre sources e ops x ∧ objKey x.1 = k := by
    rintro pre x ⟨ins, o, d, h1, h2, h3, h4, h5⟩
    obtain ⟨ds, a, b⟩ := (C83_results base H srt sources hn e ops cfg hcfg hrow pre ins o h1 h2 d).mp h3
    exact ⟨⟨ds, d, a, b, h4⟩, h5⟩
  have res' : ∀ h1 h2, hist = h1 ++ h2 → ∀ x, TupleObject (fieldEnv base) target (h1.map Prod.snd) sources e ops x → objKey x.1 = k →
      ResultAt sources target cfg (h1.map Prod.snd) k x := by
    rintro h1 h2 e x ⟨ds, d, a, b, h4⟩ h5
    obtain ⟨w, hw1⟩ : ∃ a : List (List (Delta CDoc)), (runs (fun p (e : EvalOrder CDoc × Delta CDoc) => p.evaluate jsonOps e.1 e.2) p0 h1).2 = a.map Except.ok := by
      cases h2 with
      | nil => exact ⟨wss, by rw [← hr, e, List.append_nil]⟩
      | cons x h2 =>
        rw [e] at hr
        obtain ⟨a, _, _, _, ha, _⟩ := runs_at _ hr
        exact ⟨a, ha⟩
    subst e
    have hpre : h1.map Prod.snd <+: (h1 ++ h2).map Prod.snd := by rw [List.map_append]; exact List.prefix_append _ _
    have hw' := hw
    rw [List.map_append] at hw'
    obtain ⟨ins, o, q1, q2, _⟩ := C19_view_maintenance_partial jsonOps_lawful hn hpipe (hist := h1) (fun e he => hω e (List.mem_append_left _ he))
      (fun e he => hs e (List.mem_append_left _ he)) (watchOk_prefix hw') (fun pre hp => hone pre (hp.trans hpre)) hw1
    exact ⟨ins, o, d, q1, q2, (C83_results base H srt sources hn _ ops cfg hcfg hrow _ ins o q1 q2 d).mpr ⟨ds, a, b⟩, h4, h5⟩
  obtain ⟨y, hy, i1, i2, i3⟩ := C88_patcher_partial hn hpipe hdet hω hs hw hone hr hp hc0 hy0 hP
  refine ⟨y, hy, ?_, ?_, ?_⟩
  · intro x v hx hk
    exact i1 x v (res' hist [] (by simp) x hx hk)
  · intro h
    exact i2 (fun pre hpre x hx => h pre hpre x (res _ _ hx).1 (res _ _ hx).2)
  · intro h1 h2 x v e hne hx hk hv hsc hno
    exact i3 h1 h2 x v e hne (res' h1 h2 e x hx hk) hv hsc (fun h' hp hn x' hx' => hno h' hp hn x' (res _ _ hx').1 (res _ _ hx').2)

end Dctl
