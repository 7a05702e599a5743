import Verif.Spec.Operator
/-!
# Building controllers and the kinds of an operator (C59, C73)
-/
set_option autoImplicit false
namespace Dctl

theorem mem_sourceGVKs (native : Mapper) (op : String) (l : List ResCfg) (g : GVK) : g ∈ sourceGVKs native op l ↔ ∃ s ∈ l, s.gvk native op = some g := by
  induction l with
  | nil => simp [sourceGVKs]
  | cons s l ih =>
    rw [sourceGVKs]
    split
    · rename_i h; simp [ih, h]
    · rename_i g' h; simp [ih, h, eq_comm]

theorem mem_targetGVKs (native : Mapper) (op : String) (t : Option ResCfg) (g : GVK) : g ∈ targetGVKs native op t ↔ ∃ x, t = some x ∧ x.gvk native op = some g := by
  cases t with
  | none => simp [targetGVKs]
  | some x =>
    rw [targetGVKs]
    split
    · rename_i h; simp [h]
    · rename_i g' h; simp [h, eq_comm]

theorem mem_ownKinds (group : String) (l seen : List GVK) (g : GVK) : g ∈ ownKinds group l seen ↔ g ∈ l ∧ g.group = group ∧ g ∉ seen := by
  induction l generalizing seen with
  | nil => simp [ownKinds]
  | cons a l ih => grind [ownKinds]

theorem ownKinds_nodup (group : String) (l seen : List GVK) : (ownKinds group l seen).Nodup := by
  induction l generalizing seen with
  | nil => simp [ownKinds]
  | cons a l ih =>
    rw [ownKinds]
    split
    · exact ih _
    · split
      · exact ih _
      · exact List.nodup_cons.2 ⟨by simp [mem_ownKinds], ih _⟩

theorem watchSources_ok (env : BuildEnv) (op : String) (l : List ResCfg) (i : Nat) :
    (watchSources env op i l).2.2 = true ↔ ∀ j s, l[j]? = some s → (∃ g, s.gvk env.native op = some g) ∧ env.setup (i + j) = true := by
  induction l generalizing i with
  | nil => simp [watchSources]
  | cons s l ih =>
    rw [watchSources]
    split
    · rename_i h
      simp only [Bool.false_eq_true, false_iff]
      intro hall
      obtain ⟨⟨g, hg⟩, -⟩ := hall 0 s rfl
      rw [h] at hg; cases hg
    · rename_i g h
      split
      · rename_i hs
        simp only [ih]
        constructor
        · intro hall j x hj
          cases j with
          | zero => cases hj; exact ⟨⟨g, h⟩, hs⟩
          | succ j =>
            have := hall j x hj
            rwa [show i + 1 + j = i + (j + 1) by omega] at this
        · intro hall j x hj
          have := hall (j + 1) x hj
          rwa [show i + (j + 1) = i + 1 + j by omega] at this
      · rename_i hs
        simp only [Bool.false_eq_true, false_iff]
        intro hall
        exact hs (hall 0 s rfl).2

theorem watchSources_all (env : BuildEnv) (op : String) (l : List ResCfg) (i : Nat) (h : (watchSources env op i l).2.2 = true) :
    (watchSources env op i l).1 = List.range' i l.length ∧ (watchSources env op i l).2.1 = baseKinds env op l := by
  induction l generalizing i with
  | nil => simp [watchSources, baseKinds]
  | cons s l ih =>
    rw [watchSources] at h ⊢
    split at h
    · cases h
    · rename_i g hg
      split at h
      · rename_i hs
        obtain ⟨h1, h2⟩ := ih (i + 1) h
        simp only [hs, if_true, h1, h2]
        refine ⟨by simp [List.range'_succ], ?_⟩
        cases hp : s.periodic <;> simp [baseKinds, hp, hg]
      · cases h

/-! ## C73: building controllers -/

/-- **C73.** A controller is built without error exactly if it has a name, a source and a target, all kinds are known, all sources can be watched and
the pipeline is valid; otherwise exactly one critical error is pushed. -/
theorem build_error_iff (env : BuildEnv) (op : String) (c : CtrlCfg) :
    ((newDeclarative env op c).errors = 0 ↔ Buildable env op c) ∧ (newDeclarative env op c).errors ≤ 1 := by
  unfold newDeclarative Buildable
  split
  · rename_i h; simp [h]
  · rename_i h
    split
    · rename_i h2; simp [List.eq_nil_of_length_eq_zero h2]
    · rename_i h2
      have h2' : c.sources ≠ [] := fun e => h2 (by simp [e])
      split
      · rename_i ht; simp [ht]
      · rename_i t ht
        split
        · rename_i hg; simp [ht, hg]
        · rename_i tg hg
          have hw := watchSources_ok env op c.sources 0
          simp only [Nat.zero_add] at hw
          cases hb : (watchSources env op 0 c.sources).2.2 with
          | false =>
            have : ¬ SourcesOk env op c.sources := fun hs => by rw [hb] at hw; exact absurd (hw.2 hs) (by simp)
            simp [hb, this]
          | true =>
            have hs : SourcesOk env op c.sources := hw.1 hb
            have hk := (watchSources_all env op c.sources 0 hb).2
            cases hp : env.pipelineOk (baseKinds env op c.sources) tg <;> simp [hb, hk, hs, h, h2', ht, hg, hp]

/-- **C73.** A controller built without error has the configured name, target and sources, watches every source, and its pipeline takes the kinds of the sources
that are not periodic. -/
theorem build_accepted (env : BuildEnv) (op : String) (c : CtrlCfg) (h : Buildable env op c) :
    newDeclarative env op c = ⟨c.name, c.target, c.sources, List.range c.sources.length, some (baseKinds env op c.sources), 0⟩ := by
  obtain ⟨h1, h2, ⟨t, tg, ht, hg, hp⟩, h4⟩ := h
  have hw : (watchSources env op 0 c.sources).2.2 = true := (watchSources_ok env op c.sources 0).2 (by simpa [SourcesOk] using h4)
  obtain ⟨ha, hb⟩ := watchSources_all env op c.sources 0 hw
  have h2' : c.sources.length ≠ 0 := by simpa using h2
  unfold newDeclarative
  simp [h1, ht, hg, hw, ha, hb, hp, h2, List.range_eq_range']

/-- **C73.** A controller has a pipeline exactly if it was built without error. -/
theorem build_pipeline (env : BuildEnv) (op : String) (c : CtrlCfg) : (newDeclarative env op c).pipeline.isSome = true ↔ (newDeclarative env op c).errors = 0 := by
  unfold newDeclarative
  split
  · simp
  · split
    · simp
    · split
      · simp
      · split
        · simp
        · simp only
          split
          · split <;> simp
          · simp

/-- **C73, partial.** A controller rejected for lack of a name, a source or a target with a known kind watches nothing. Missing: those rejected later, see
`rejected_watches`. -/
theorem rejected_idle_partial (env : BuildEnv) (op : String) (c : CtrlCfg) (h : ¬ OpCtrl.Shaped op (.declarative c env)) :
    (newDeclarative env op c).watched = [] ∧ (newDeclarative env op c).pipeline = none := by
  unfold newDeclarative
  split
  · simp
  · rename_i h1
    split
    · simp
    · rename_i h2
      have h2' : c.sources ≠ [] := fun e => h2 (by simp [e])
      split
      · simp
      · rename_i t ht
        split
        · simp
        · rename_i tg hg
          exact absurd ⟨h1, h2', t, tg, ht, hg⟩ h

/-- A controller with two sources. -/
def demoCtrl : CtrlCfg := ⟨"c", [⟨none, none, "Foo", false⟩, ⟨some "apps", none, "Deployment", true⟩], some ⟨none, none, "Bar", false⟩⟩

/-- A manager that knows the kinds of "apps"; everything goes well. -/
def demoBuild : BuildEnv := ⟨fun g k => if g = "apps" then some ⟨g, "v1", k⟩ else none, fun _ => true, fun _ _ => true⟩

example : newDeclarative demoBuild "op" demoCtrl = ⟨"c", demoCtrl.target, demoCtrl.sources, [0, 1], some [viewGVK "op" "Foo"], 0⟩ := by decide
example : ¬ OpCtrl.Shaped "op" (.declarative { demoCtrl with target := none } demoBuild) := by simp [OpCtrl.Shaped]

/-- **C73, not as stated.** A controller rejected because of its pipeline, or of a later source, still watches the sources set up before; the reconcilers of those then
call a pipeline that is nil. -/
theorem rejected_watches :
    (newDeclarative { demoBuild with pipelineOk := fun _ _ => false } "op" demoCtrl).watched = [0, 1] ∧
    (newDeclarative { demoBuild with pipelineOk := fun _ _ => false } "op" demoCtrl).pipeline = none ∧
    (newDeclarative { demoBuild with native := fun _ _ => none } "op" demoCtrl).watched = [0] ∧
    (newDeclarative { demoBuild with native := fun _ _ => none } "op" demoCtrl).pipeline = none := by decide

/-! ## C59: the kinds of an operator -/

theorem build_kept (env : BuildEnv) (op : String) (c : CtrlCfg) :
    ((newDeclarative env op c).target = none ∨ (newDeclarative env op c).target = c.target) ∧
    ((newDeclarative env op c).sources = [] ∨ (newDeclarative env op c).sources = c.sources) ∧
    (OpCtrl.Shaped op (.declarative c env) → (newDeclarative env op c).target = c.target ∧ (newDeclarative env op c).sources = c.sources) := by
  unfold newDeclarative OpCtrl.Shaped
  split
  · rename_i h; simp [h]
  · split
    · rename_i h2; simp [List.eq_nil_of_length_eq_zero h2]
    · split
      · rename_i ht; simp [ht]
      · rename_i t ht
        split
        · rename_i hg; simp [ht, hg]
        · simp only
          split
          · split <;> simp [ht]
          · simp [ht]

theorem gvks_uses (op : String) (c : OpCtrl) (g : GVK) : (g ∈ c.gvks op → c.Uses op g) ∧ (c.Shaped op → c.Uses op g → g ∈ c.gvks op) := by
  cases c with
  | native l => simp [OpCtrl.gvks, OpCtrl.Uses]
  | declarative c env =>
    obtain ⟨h1, h2, h3⟩ := build_kept env op c
    simp only [OpCtrl.gvks, OpCtrl.Uses, ctrlGVKs, List.mem_append, mem_targetGVKs, mem_sourceGVKs, Mentions]
    constructor
    · rintro (⟨x, hx, hg⟩ | ⟨s, hs, hg⟩)
      · rcases h1 with h | h
        · rw [h] at hx; cases hx
        · exact .inl ⟨x, h ▸ hx, hg⟩
      · rcases h2 with h | h
        · rw [h] at hs; cases hs
        · exact .inr ⟨s, h ▸ hs, hg⟩
    · intro hsh h
      rw [(h3 hsh).1, (h3 hsh).2]
      exact h

/-- **C59.** The kinds an operator exposes are of its own group, used by one of its controllers as source or target, and each is listed once. -/
theorem exposed_sound (op : String) (cs : List OpCtrl) :
    (operatorGVKs op cs).Nodup ∧ ∀ g ∈ operatorGVKs op cs, g.group = viewGroup op ∧ ∃ c ∈ cs, c.Uses op g := by
  refine ⟨ownKinds_nodup _ _ _, ?_⟩
  intro g hg
  rw [operatorGVKs, mem_ownKinds, List.mem_flatMap] at hg
  obtain ⟨⟨c, hc, h⟩, h2, -⟩ := hg
  exact ⟨h2, c, hc, (gvks_uses op c g).1 h⟩

/-- **C59, partial.** The kinds an operator exposes are exactly those of its own group that one of its controllers uses as source or target. Missing: controllers
rejected because they lack a name, a source or a target with a known kind, see `rejected_not_exposed`. -/
theorem exposed_exactly_partial (op : String) (cs : List OpCtrl) (h : ∀ c ∈ cs, c.Shaped op) (g : GVK) :
    g ∈ operatorGVKs op cs ↔ g.group = viewGroup op ∧ ∃ c ∈ cs, c.Uses op g := by
  refine ⟨(exposed_sound op cs).2 g, ?_⟩
  rintro ⟨h1, c, hc, hu⟩
  rw [operatorGVKs, mem_ownKinds, List.mem_flatMap]
  exact ⟨⟨c, hc, (gvks_uses op c g).2 (h c hc) hu⟩, h1, by simp⟩

/-- Two controllers that share a kind, and a native one. -/
def demoCtrls : List OpCtrl :=
  [.declarative demoCtrl demoBuild, .declarative ⟨"d", [⟨some (viewGroup "op"), some "v7", "Bar", false⟩], some ⟨some "other.view.dcontroller.io", none, "Baz", false⟩⟩ demoBuild,
   .native [viewGVK "op" "Foo", viewGVK "op" "Qux"]]

example : ∀ c ∈ demoCtrls, c.Shaped "op" := by
  simp only [demoCtrls, List.mem_cons, List.not_mem_nil, or_false, forall_eq_or_imp, forall_eq]
  refine ⟨⟨by decide, by decide, ⟨none, none, "Bar", false⟩, viewGVK "op" "Bar", rfl, by decide⟩,
    ⟨by decide, by decide, ⟨some "other.view.dcontroller.io", none, "Baz", false⟩, ⟨"other.view.dcontroller.io", "v1alpha1", "Baz"⟩, rfl, by decide⟩, trivial⟩
example : operatorGVKs "op" demoCtrls = [viewGVK "op" "Bar", viewGVK "op" "Foo", viewGVK "op" "Qux"] := by decide

/-- **C59, not as stated.** If the kind of the target is not known (yet), the sources are not exposed. -/
theorem rejected_not_exposed :
    let c : CtrlCfg := ⟨"c", [⟨none, none, "Foo", false⟩], some ⟨some "apps", none, "Deployment", false⟩⟩
    let env : BuildEnv := { demoBuild with native := fun _ _ => none }
    (OpCtrl.declarative c env).Uses "op" (viewGVK "op" "Foo") ∧ operatorGVKs "op" [.declarative c env] = [] :=
  ⟨.inr ⟨⟨none, none, "Foo", false⟩, by simp, by decide⟩, by decide⟩

end Dctl
