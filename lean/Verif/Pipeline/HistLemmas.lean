import Verif.Controller.SyncLemmas
import Verif.Dbsp.DomLemmas
/-! Helper lemmas about whole histories. -/
set_option autoImplicit false
set_option linter.unusedSectionVars false
namespace Dctl
variable {D J : Type} [DecidableEq D] [DecidableEq J]
open ZSet

theorem watchOk_prefix {O : ObjOps D} {a b : List (Delta D)} (h : WatchOk O (a ++ b)) : WatchOk O a := by
  intro pre ε post e
  exact h pre ε (post ++ b) (by rw [e]; simp)

theorem emitted_append (a b : List (Except Err (List (Delta D)))) : emitted (a ++ b) = emitted a ++ emitted b := by
  simp [emitted]

theorem emitted_ok (wss : List (List (Delta D))) : emitted (wss.map Except.ok) = wss.flatten := by
  induction wss with
  | nil => rfl
  | cons a t ih =>
    simp only [emitted, List.map_cons, List.flatMap_cons, List.flatten_cons] at ih ⊢
    rw [ih]

/-- Executor state and target record after a successful history. -/
theorem runs_inv {O : ObjOps D} (L : O.Lawful) {sources : List GVK} {target : GVK} {cfg : List (PipeOp D J)}
    (hn : (sources.map GVK.kind).Nodup) {pre : List (Delta D)} {p : Pipe D J} {o : ZSet D}
    (h : RunInv O sources target cfg pre p o) {hist : List (EvalOrder D × Delta D)}
    (hω : ∀ e ∈ hist, e.1.Valid) (hs : ∀ e ∈ hist, O.gvk e.2.obj ∈ sources) (hw : WatchOk O (pre ++ hist.map Prod.snd))
    {wss : List (List (Delta D))}
    (hr : (runs (fun p (e : EvalOrder D × Delta D) => p.evaluate O e.1 e.2) p hist).2 = wss.map Except.ok) :
    ∃ o', RunInv O sources target cfg (pre ++ hist.map Prod.snd)
        (runs (fun p (e : EvalOrder D × Delta D) => p.evaluate O e.1 e.2) p hist).1 o' ∧
      (Holds O target o (fun k => p.tgt.get k) → AllEnforced O target o → OnePerName O target o →
        (∀ h', h' ≠ [] → h' <+: hist.map Prod.snd → ∀ ins o, LiveInputs O (pre ++ h') sources ins → PipelineSpec cfg ins o →
          OnePerName O target o) →
        AllEnforced O target o' ∧ OnePerName O target o' ∧
        Holds O target o' (fun k => (runs (fun p (e : EvalOrder D × Delta D) => p.evaluate O e.1 e.2) p hist).1.tgt.get k)) ∧
      (fun k => (runs (fun p (e : EvalOrder D × Delta D) => p.evaluate O e.1 e.2) p hist).1.tgt.get k) =
        Target.writes O (fun k => p.tgt.get k) wss.flatten := by
  induction hist generalizing pre p o wss with
  | nil =>
    cases wss with
    | nil => exact ⟨o, by simpa [runs] using h, fun a b c _ => ⟨b, c, a⟩, rfl⟩
    | cons _ _ => simp [runs] at hr
  | cons e t ih =>
    obtain ⟨ω, δ⟩ := e
    simp only [List.map_cons] at hw
    have hw1 : WatchOk O (pre ++ [δ]) := watchOk_prefix (b := t.map Prod.snd) (by simpa using hw)
    have he := (watchOk_snoc hw1).2 p.src h.tracks
    cases wss with
    | nil => simp [runs] at hr
    | cons ws wss =>
    simp only [runs, List.map_cons, List.cons.injEq] at hr
    obtain ⟨hr1, hr2⟩ := hr
    have hev : p.evaluate O ω δ = ((p.evaluate O ω δ).1, .ok ws) := by
      rw [← hr1]
    obtain ⟨r, ds, k1, k2, k3, k4⟩ := h.step L hn (hω (ω, δ) (by simp)) (hs (ω, δ) (by simp)) he hev
    obtain ⟨o', i1, i2, i3⟩ := ih k2 (fun x hx => hω x (List.mem_cons_of_mem _ hx)) (fun x hx => hs x (List.mem_cons_of_mem _ hx))
      (by simpa using hw) hr2
    simp only [runs]
    refine ⟨o', by simpa using i1, fun hH hE h1 hone => ?_, ?_⟩
    · have hspec := k2.spec L (liveInputs_stores L k2.inv k2.tracks sources)
      have h1' : OnePerName O target (o.add r) :=
        hone [δ] (by simp) ⟨t.map Prod.snd, by simp⟩ _ _ (liveInputs_stores L k2.inv k2.tracks sources) hspec
      obtain ⟨hE', hH'⟩ := reconcile_holds (hω (ω, δ) (by simp)).recon h.twf k1 ((hω (ω, δ) (by simp)).list _)
        (fun d => get_add h.wf_out k1 d) h1 h1' hH hE k3 k4
      refine i2 hH' hE' h1' ?_
      intro h' hne ⟨u, hu⟩ ins oo hl hp
      exact hone (δ :: h') (by simp) ⟨u, by simp [hu]⟩ ins oo (by simpa using hl) hp
    · rw [i3, ((reconcile_spec (hω (ω, δ) (by simp)).recon k4).2.2.2.1 h.twf).2]
      simp [Target.writes_append]

theorem holds_empty (O : ObjOps D) (t : GVK) : Holds O t [] (fun _ => none) := by
  intro k obj
  simp [ZSet.get]

theorem enforced_empty (O : ObjOps D) (t : GVK) : AllEnforced O t [] ∧ OnePerName O t [] := by
  refine ⟨fun d hd => by simp at hd, fun d => by simp, fun d d' a b hd => by simp at hd⟩

theorem onePerName_eqv {O : ObjOps D} {t : GVK} {o o' : ZSet D} (h : Eqv o o') (h1 : OnePerName O t o) : OnePerName O t o' := by
  unfold OnePerName at *
  have : ∀ d, get o' d = get o d := fun d => (h d).symm
  simpa only [this] using h1

theorem holds_eqv {O : ObjOps D} {t : GVK} {o o' : ZSet D} (h : Eqv o o') {T : Target D} (h1 : Holds O t o T) : Holds O t o' T := by
  unfold Holds at *
  have : ∀ d, get o' d = get o d := fun d => (h d).symm
  simpa only [this] using h1

theorem holds_unique {O : ObjOps D} {t : GVK} {o : ZSet D} {T T' : Target D} (h : Holds O t o T) (h' : Holds O t o T') : T = T' := by
  funext k
  cases hk : T k with
  | none =>
    cases hk' : T' k with
    | none => rfl
    | some y => have := (h k y).mpr ((h' k y).mp hk'); rw [hk] at this; simp at this
  | some x => exact ((h' k x).mpr ((h k x).mp hk)).symm

/-- The accumulated output of the invariant does not change when the inputs do not. -/
theorem RunInv.zero_step {O : ObjOps D} (L : O.Lawful) {sources : List GVK} {target : GVK} {cfg : List (PipeOp D J)}
    {hist hist' : List (Delta D)} {p p' : Pipe D J} {o r : ZSet D} (hdet : GatherDet cfg)
    (h : RunInv O sources target cfg hist p o) (h' : RunInv O sources target cfg hist' p' (o.add r)) (hr : WF r)
    (hsame : ∀ g ∈ sources, ∀ k d, LiveAs O hist g k d ↔ LiveAs O hist' g k d) : r = [] := by
  have l1 := liveInputs_stores L h.inv h.tracks sources
  have l2 := liveInputs_stores L h'.inv h'.tracks sources
  have he := pipelineSpec_unique hdet (liveInputs_eqvL hsame l1 l2) (h.spec L l1) (h'.spec L l2)
  refine (eqv_nil hr).mp ?_
  intro d
  have := he d
  rw [get_add h.wf_out hr] at this
  simp; omega

theorem reconcile_nil {O : ObjOps D} {ρ : RecOrder D} (hρ : ρ.Valid) (tgt : Store D) : reconcile O ρ tgt [] = .ok (tgt, []) := by
  unfold reconcile
  simp only [groupDeltas]
  have h1 := List.perm_nil.mp (hρ.groups [])
  rw [h1]
  simp only [actAll]
  rw [List.perm_nil.mp (hρ.deletes []), List.perm_nil.mp (hρ.upserts [])]
  rfl

theorem target_last {O : ObjOps D} {T : Target D} {ws : List (Delta D)} {k : ObjKey} {y : D} (h0 : T k = none)
    (h : Target.writes O T ws k = some y) :
    ∃ a u b, ws = a ++ u :: b ∧ O.key u.obj = k ∧ u.type ≠ .deleted ∧ u.obj = y ∧ ∀ v ∈ b, O.key v.obj ≠ k := by
  induction ws generalizing T with
  | nil => simp [Target.writes, h0] at h
  | cons w ws ih =>
    by_cases hx : ∃ v ∈ ws, O.key v.obj = k
    · -- a later write decides
      have key : ∀ (ws : List (Delta D)) (T T' : Target D), (∃ v ∈ ws, O.key v.obj = k) →
          Target.writes O T ws k = Target.writes O T' ws k := by
        intro ws
        induction ws with
        | nil => intro T T' h; simp at h
        | cons v vs ihv =>
          intro T T' h
          by_cases hv : ∃ v ∈ vs, O.key v.obj = k
          · exact ihv _ _ hv
          · obtain ⟨v', hv', hk⟩ := h
            rcases List.mem_cons.mp hv' with rfl | hm
            · have gen : ∀ (l : List (Delta D)) (S : Target D), (∀ u ∈ l, O.key u.obj ≠ k) → Target.writes O S l k = S k := by
                intro l
                induction l with
                | nil => intro S _; rfl
                | cons u l ihl =>
                  intro S hl
                  show Target.writes O (Target.write O S u) l k = S k
                  rw [ihl _ (fun x hx => hl x (List.mem_cons_of_mem _ hx))]
                  simp [Target.write, hl u (by simp)]
              have hvs : ∀ u ∈ vs, O.key u.obj ≠ k := fun u hu e => hv ⟨u, hu, e⟩
              show Target.writes O (Target.write O T v') vs k = Target.writes O (Target.write O T' v') vs k
              rw [gen _ _ hvs, gen _ _ hvs]
              simp [Target.write, hk]
            · exact absurd ⟨v', hm, hk⟩ hv
      have h2 : Target.writes O T ws k = some y := by
        rw [← h]; exact key ws _ _ hx
      obtain ⟨a, u, b, e, r⟩ := ih h0 h2
      exact ⟨w :: a, u, b, by rw [e]; rfl, r⟩
    · have gen : ∀ (l : List (Delta D)) (S : Target D), (∀ u ∈ l, O.key u.obj ≠ k) → Target.writes O S l k = S k := by
        intro l
        induction l with
        | nil => intro S _; rfl
        | cons u l ihl =>
          intro S hl
          show Target.writes O (Target.write O S u) l k = S k
          rw [ihl _ (fun x hx => hl x (List.mem_cons_of_mem _ hx))]
          simp [Target.write, hl u (by simp)]
      have hvs : ∀ u ∈ ws, O.key u.obj ≠ k := fun u hu e => hx ⟨u, hu, e⟩
      have h2 : Target.write O T w k = some y := by
        rw [← h]; exact (gen ws _ hvs).symm
      unfold Target.write at h2
      by_cases hk : O.key w.obj = k
      · rw [if_pos hk] at h2
        split at h2
        · simp at h2
        · rename_i hnd
          simp only [Option.some.injEq] at h2
          exact ⟨[], w, ws, rfl, hk, hnd, h2, hvs⟩
      · rw [if_neg hk, h0] at h2; simp at h2

/-- The record of a pipeline after any steps, and the shape of a further batch. -/
theorem step_record {O : ObjOps D} {p : Pipe D J} (h : AMap.WF p.tgt) (e : EvalOrder D × Option (Delta D)) (hω : e.1.Valid) :
    AMap.WF (p.step O e).1.tgt ∧
    (fun k => (p.step O e).1.tgt.get k) = Target.writes O (fun k => p.tgt.get k) (emitted [(p.step O e).2]) ∧
    ∀ ws, (p.step O e).2 = .ok ws → ∃ ds, reconcile O e.1.recon p.tgt ds = .ok ((p.step O e).1.tgt, ws) := by
  obtain ⟨ω, ev⟩ := e
  unfold Pipe.step
  cases ev with
  | some δ =>
    have hh := evaluate_record (O := O) (ω := ω) hω h δ
    refine ⟨hh.1, ?_, ?_⟩
    · cases hr : (p.evaluate O ω δ).2 with
      | ok ws => rw [hr] at hh; simp only [emitted, List.flatMap_cons, List.flatMap_nil, List.append_nil]; exact hh.2.1
      | error e => rw [hr] at hh; simp only [emitted, List.flatMap_cons, List.flatMap_nil, List.append_nil]; simp only at hh; rw [hh.2]; rfl
    · intro ws hr
      simp only at hr
      rw [hr] at hh; exact hh.2.2
  | none =>
    have hh := syncAll_record (O := O) (ω := ω) hω h
    refine ⟨hh.1, ?_, ?_⟩
    · cases hr : (p.syncAll O ω).2 with
      | ok ws => rw [hr] at hh; simp only [emitted, List.flatMap_cons, List.flatMap_nil, List.append_nil]; exact hh.2.1
      | error e => rw [hr] at hh; simp only [emitted, List.flatMap_cons, List.flatMap_nil, List.append_nil]; simp only at hh; rw [hh.2]; rfl
    · intro ws hr
      simp only at hr
      rw [hr] at hh; exact hh.2.2

theorem steps_record {O : ObjOps D} {p : Pipe D J} (h : AMap.WF p.tgt) (es : List (EvalOrder D × Option (Delta D)))
    (hω : ∀ e ∈ es, e.1.Valid) :
    AMap.WF (runs (Pipe.step O) p es).1.tgt ∧
    (fun k => (runs (Pipe.step O) p es).1.tgt.get k) = Target.writes O (fun k => p.tgt.get k) (emitted (runs (Pipe.step O) p es).2) ∧
    ∀ w ∈ emitted (runs (Pipe.step O) p es).2, w.type = .deleted ∨ w.type = .upserted := by
  induction es generalizing p with
  | nil => exact ⟨h, rfl, by simp [runs, emitted]⟩
  | cons e t ih =>
    obtain ⟨h1, h2, h3⟩ := step_record (O := O) h e (hω e (by simp))
    obtain ⟨i1, i2, i3⟩ := ih h1 (fun x hx => hω x (List.mem_cons_of_mem _ hx))
    simp only [runs]
    have hsplit : ∀ (r : Except Err (List (Delta D))) rs, emitted (r :: rs) = emitted [r] ++ emitted rs :=
      fun r rs => emitted_append [r] rs
    refine ⟨i1, ?_, ?_⟩
    · rw [i2, h2, ← Target.writes_append, ← hsplit]
    · intro w hw
      rw [hsplit, List.mem_append] at hw
      rcases hw with hw | hw
      · cases hr : (p.step O e).2 with
        | error er => rw [hr] at hw; simp [emitted] at hw
        | ok ws =>
          rw [hr] at hw
          simp only [emitted, List.flatMap_cons, List.flatMap_nil, List.append_nil] at hw
          obtain ⟨ds, hd⟩ := h3 ws hr
          obtain ⟨dels, ups, rfl, a, b⟩ := (reconcile_spec (hω e (by simp)).recon hd).2.1
          rcases List.mem_append.mp hw with hw | hw
          · exact Or.inl (a w hw)
          · exact Or.inr (b w hw)
      · exact i3 w hw

theorem convertZSet_ok {O : ObjOps D} {t : GVK} {z : ZSet D} (h : ∀ p ∈ z, p.2 ≠ 0 → ∃ o, O.enforce t p.1 = .ok o) :
    ∃ ds, convertZSet O t z = .ok ds := by
  induction z with
  | nil => exact ⟨[], rfl⟩
  | cons p z ih =>
    obtain ⟨d, m⟩ := p
    obtain ⟨ds, hds⟩ := ih (fun p hp => h p (List.mem_cons_of_mem _ hp))
    unfold convertZSet
    by_cases hm : m = 0
    · rw [if_pos hm]; exact ⟨ds, hds⟩
    · rw [if_neg hm]
      obtain ⟨o, ho⟩ := h (d, m) (by simp) hm
      rw [ho, hds]
      exact ⟨_, rfl⟩

/-- No operator of the graph can fail. -/
def GraphTotal (g : Graph D J) : Prop :=
  ChainTotal g.chain ∧ ((∃ ev ps, g.join = some (.incr ev g.inputs.length ps) ∧ ∀ ds, ∃ r, ev ds = .ok r) ∨ (g.join = none ∧ g.inputs ≠ []))

theorem newPipeline_graphTotal {sources : List String} {cfg : List (PipeOp D J)} {g : Graph D J}
    (hnew : newPipeline sources cfg = .ok g) (hs : sources.Nodup) (ht : ∀ p ∈ cfg, p.Total) : GraphTotal g := by
  obtain ⟨h1, h2, h3, h4, h5, h6⟩ := newPipeline_facts hnew
  have hin := (newPipeline_inputs hnew).2 hs
  refine ⟨newPipeline_total hnew ht, ?_⟩
  cases hl : leadJoin cfg with
  | none => rw [hl] at h3; exact Or.inr ⟨h3, h4⟩
  | some ev =>
    rw [hl] at h3
    refine Or.inl ⟨ev, _, by rw [h3, hin]; rfl, ?_⟩
    unfold leadJoin at hl
    split at hl
    · simp only [Option.some.injEq] at hl
      subst hl
      exact ht (.join _) (by simp)
    · simp at hl

/-- The change sets made of a history hold versions from the history. -/
theorem convertDelta_versions {O : ObjOps D} {c c' : SrcCache D} {pre : List (Delta D)} (hi : SrcInv O c) (ht : Tracks O c pre) {δ : Delta D}
    {z : ZSet D} (h : convertDelta O c δ = .ok (c', z)) {H : List (Delta D)} (hH : ∀ ε ∈ pre ++ [δ], ε ∈ H) :
    ∀ x ∈ z.map Prod.fst, Versions O H (O.gvk δ.obj) x := by
  have hnew : Versions O H (O.gvk δ.obj) (O.removeUID δ.obj) := ⟨δ, hH δ (by simp), rfl, rfl⟩
  have hold : ∀ d, (c (O.gvk δ.obj)).get (O.key δ.obj) = some d → Versions O H (O.gvk δ.obj) d := by
    intro d hd
    obtain ⟨a, ε, b, e1, e2, _, e4, _⟩ := (ht _ _ _).mp hd
    exact ⟨ε, hH ε (by simp [e1]), e2.1, e4⟩
  have one : ∀ (m : Int), ∀ x ∈ (ZSet.addDoc [] (O.removeUID δ.obj) m).map Prod.fst, Versions O H (O.gvk δ.obj) x := by
    intro m x hx
    rcases mem_fst_addDoc hx with rfl | hx
    · exact hnew
    · simp at hx
  rcases convertDelta_cases c δ hi with ⟨_, _, h'⟩ | ⟨_, _, h'⟩ | ⟨_, h'⟩ | ⟨_, _, e, h'⟩ | ⟨_, _, h'⟩ | ⟨_, e, h'⟩ <;> rw [h'] at h
  · cases h; simp
  · cases h
    intro x hx
    unfold updateZSet at hx
    split at hx
    · rcases mem_fst_addDoc hx with rfl | hx
      · exact hnew
      · rcases mem_fst_addDoc hx with rfl | hx
        · exact hold _ (by assumption)
        · simp at hx
    · exact one _ x hx
  · cases h; exact one _
  · cases h
  · cases h; exact one _
  · cases h

/-- Every event of a watch history is evaluated successfully if the executor is successful on the change sets of the history. -/
theorem runs_ok_gen {O : ObjOps D} (L : O.Lawful) {sources : List GVK} {target : GVK} {cfg : List (PipeOp D J)}
    (hn : (sources.map GVK.kind).Nodup) {H : List (Delta D)} {G : Graph D J → Prop}
    (hG : ∀ (ω : EvalOrder D) (δ : Delta D) z g, ω.Valid → O.gvk δ.obj ∈ sources → G g → g.inputs = sources.map GVK.kind →
      (∀ x ∈ z.map Prod.fst, Versions O H (O.gvk δ.obj) x) →
      ∃ g' r, g.process ω.exec (evalInputs sources (O.gvk δ.obj).kind z) = (g', .ok r) ∧ G g')
    {pre : List (Delta D)} {p : Pipe D J} {o : ZSet D}
    (h : RunInv O sources target cfg pre p o) (hg : G p.graph) (h1 : OnePerName O target o) (hE : AllEnforced O target o)
    {hist : List (EvalOrder D × Delta D)} (hH : ∀ δ ∈ pre ++ hist.map Prod.snd, δ ∈ H)
    (hω : ∀ e ∈ hist, e.1.Valid) (hs : ∀ e ∈ hist, O.gvk e.2.obj ∈ sources) (hw : WatchOk O (pre ++ hist.map Prod.snd))
    (hone : ∀ h', h' ≠ [] → h' <+: hist.map Prod.snd → ∀ ins o, LiveInputs O (pre ++ h') sources ins → PipelineSpec cfg ins o →
      OnePerName O target o ∧ AllEnforced O target o) :
    ∃ wss : List (List (Delta D)),
      (runs (fun p (e : EvalOrder D × Delta D) => p.evaluate O e.1 e.2) p hist).2 = wss.map Except.ok := by
  induction hist generalizing pre p o with
  | nil => exact ⟨[], rfl⟩
  | cons e t ih =>
    obtain ⟨ω, δ⟩ := e
    simp only [List.map_cons] at hw
    have hw1 : WatchOk O (pre ++ [δ]) := watchOk_prefix (b := t.map Prod.snd) (by simpa using hw)
    have he := (watchOk_snoc hw1).2 p.src h.tracks
    obtain ⟨src', z, hc⟩ := eventOk_ok h.inv he
    have hωv := hω (ω, δ) (by simp)
    obtain ⟨g', r, k1, k2⟩ := hG ω δ z p.graph hωv (hs (ω, δ) (by simp)) hg h.inputs
      (convertDelta_versions h.inv h.tracks hc (fun ε hε => hH ε (by
        rcases List.mem_append.mp hε with hε | hε
        · exact List.mem_append_left _ hε
        · simp only [List.mem_singleton] at hε; subst hε; simp)))
    -- the state with the target record unchanged satisfies the executor invariant
    have hstep : RunInv O sources target cfg (pre ++ [δ]) ({ p with src := src', graph := g' } : Pipe D J) (o.add r) ∧ WF r := by
      have hsa : srcAfter O p.src δ = src' := by unfold srcAfter; rw [hc]
      exact h.step_core L hn hωv (hs (ω, δ) (by simp)) he hc (by rw [h.srcs]; exact k1)
    have hspec := hone [δ] (by simp) ⟨t.map Prod.snd, by simp⟩ _ _
      (liveInputs_stores L hstep.1.inv hstep.1.tracks sources) (hstep.1.spec L (liveInputs_stores L hstep.1.inv hstep.1.tracks sources))
    obtain ⟨ds, hds⟩ : ∃ ds, convertZSet O target (ω.list r) = .ok ds := by
      refine convertZSet_ok ?_
      intro q hq hq0
      obtain ⟨d, m⟩ := q
      have hm := (hωv.list r).mem_iff.mp hq
      have hg' := ((mem_iff_get hstep.2 _ _).mp hm).1
      have ha := get_add h.wf_out hstep.2 d
      have a1 := h1.1 d
      have a2 := hspec.1.1 d
      by_cases hp : 0 < get o d
      · exact hE d hp
      · exact hspec.2 d (by simp only at hq0; omega)
    obtain ⟨⟨tgt', ws⟩, hrc⟩ := reconcile_ok (O := O) (ρ := ω.recon) (tgt := p.tgt) (convertZSet_type hds)
    have hev : p.evaluate O ω δ = ({ p with src := src', graph := g', tgt := tgt' }, .ok ws) := by
      unfold Pipe.evaluate
      simp only [hc, h.srcs, k1, h.tgtk, hds, hrc]
    have hinv : RunInv O sources target cfg (pre ++ [δ]) ({ p with src := src', graph := g', tgt := tgt' } : Pipe D J) (o.add r) :=
      ⟨hstep.1.srcs, hstep.1.tgtk, hstep.1.inputs, hstep.1.inv, hstep.1.tracks, hstep.1.graph,
        ((reconcile_spec hωv.recon hrc).2.2.2.1 h.twf).1⟩
    obtain ⟨wss, hwss⟩ := ih hinv k2 hspec.1 hspec.2 (fun ε hε => hH ε (by simpa using hε))
      (fun x hx => hω x (List.mem_cons_of_mem _ hx)) (fun x hx => hs x (List.mem_cons_of_mem _ hx)) (by simpa using hw)
      (by
        intro h' hne ⟨u, hu⟩ ins oo hl hp
        exact hone (δ :: h') (by simp) ⟨u, by simp [hu]⟩ ins oo (by simpa using hl) hp)
    exact ⟨ws :: wss, by simp only [runs, hev, hwss, List.map_cons]⟩

/-- Every event of a watch history is evaluated successfully. -/
theorem runs_ok {O : ObjOps D} (L : O.Lawful) {sources : List GVK} {target : GVK} {cfg : List (PipeOp D J)}
    (hn : (sources.map GVK.kind).Nodup) {pre : List (Delta D)} {p : Pipe D J} {o : ZSet D}
    (h : RunInv O sources target cfg pre p o) (hg : GraphTotal p.graph) (h1 : OnePerName O target o) (hE : AllEnforced O target o)
    {hist : List (EvalOrder D × Delta D)}
    (hω : ∀ e ∈ hist, e.1.Valid) (hs : ∀ e ∈ hist, O.gvk e.2.obj ∈ sources) (hw : WatchOk O (pre ++ hist.map Prod.snd))
    (hone : ∀ h', h' ≠ [] → h' <+: hist.map Prod.snd → ∀ ins o, LiveInputs O (pre ++ h') sources ins → PipelineSpec cfg ins o →
      OnePerName O target o ∧ AllEnforced O target o) :
    ∃ wss : List (List (Delta D)),
      (runs (fun p (e : EvalOrder D × Delta D) => p.evaluate O e.1 e.2) p hist).2 = wss.map Except.ok := by
  refine runs_ok_gen L hn (G := GraphTotal) ?_ h hg h1 hE (fun _ hδ => hδ) hω hs hw hone
  intro ω δ z g _ hsrc hg hin _
  have hki : (O.gvk δ.obj).kind ∈ sources.map GVK.kind := List.mem_map.mpr ⟨_, hsrc, rfl⟩
  obtain ⟨g', r, k1, k2, k3, k4⟩ := process_total (σ := ω.exec) hg.1 (by rw [hin]; exact evalInputs_exact hn hki z) hg.2
  exact ⟨g', r, k1, k2, by rw [k3]; exact k4⟩

/-- Every event of a watch history is evaluated successfully if the pipeline is defined on the objects of the history. -/
theorem runs_ok_dom {O : ObjOps D} (L : O.Lawful) {sources : List GVK} {target : GVK} {cfg : List (PipeOp D J)}
    (hn : (sources.map GVK.kind).Nodup) {pre : List (Delta D)} {p : Pipe D J} {o : ZSet D} {H : List (Delta D)}
    (h : RunInv O sources target cfg pre p o) (hg : GraphOk (sources.map (Versions O H)) p.graph) (h1 : OnePerName O target o)
    (hE : AllEnforced O target o)
    {hist : List (EvalOrder D × Delta D)} (hH : ∀ δ ∈ pre ++ hist.map Prod.snd, δ ∈ H)
    (hω : ∀ e ∈ hist, e.1.Valid) (hs : ∀ e ∈ hist, O.gvk e.2.obj ∈ sources) (hw : WatchOk O (pre ++ hist.map Prod.snd))
    (hone : ∀ h', h' ≠ [] → h' <+: hist.map Prod.snd → ∀ ins o, LiveInputs O (pre ++ h') sources ins → PipelineSpec cfg ins o →
      OnePerName O target o ∧ AllEnforced O target o) :
    ∃ wss : List (List (Delta D)),
      (runs (fun p (e : EvalOrder D × Delta D) => p.evaluate O e.1 e.2) p hist).2 = wss.map Except.ok := by
  refine runs_ok_gen L hn (G := GraphOk (sources.map (Versions O H))) ?_ h hg h1 hE hH hω hs hw hone
  intro ω δ z g hω hsrc hg hin hz
  have hki : (O.gvk δ.obj).kind ∈ sources.map GVK.kind := List.mem_map.mpr ⟨_, hsrc, rfl⟩
  obtain ⟨g', r, k1, k2, _⟩ := process_dom hg hω.exec (by rw [hin]; exact evalInputs_exact hn hki z) (by
    rw [hin, evalInputs_row hn]
    have : ∀ l : List GVK, (∀ s ∈ l, s ∈ sources) →
        InDoms (l.map (Versions O H)) (l.map (fun s => if (O.gvk δ.obj).kind = s.kind then z else [])) := by
      intro l
      induction l with
      | nil => intro _; trivial
      | cons s l ih =>
        intro hl
        refine ⟨?_, ih (fun s hs => hl s (List.mem_cons_of_mem _ hs))⟩
        dsimp only
        split
        · rename_i he
          have : O.gvk δ.obj = s := nodup_map_inj hn hsrc (hl s (by simp)) he
          rw [← this]
          exact hz
        · exact InDom.nil _
    exact this sources (fun _ h => h))
  exact ⟨g', r, k1, k2⟩

end Dctl
