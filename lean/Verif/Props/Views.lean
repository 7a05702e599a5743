import Verif.Props.Loop
import Verif.Props.Defined
/-!
# C86, C87: operators made of views
-/
set_option autoImplicit false
namespace Dctl
variable {J : Type} [DecidableEq J]

theorem setStr_ns {m : SMap Json} (hm : (Json.map m).Canon) (s : String) {v : Json} (h : nested (setStr m nsPath s) nsPath = some v) : ∃ ns, v = .str ns := by
  unfold setStr at h
  split at h
  · rw [removeNested_at hm (by decide)] at h; cases h
  · cases hg : SMap.get m "metadata" with
    | none =>
      rw [show nsPath = ["metadata", "namespace"] from rfl, setField_two_none _ hg, nested_cons, SMap.get_set _ hm.sorted, if_pos rfl] at h
      have h' : nested [("namespace", Json.str s)] ["namespace"] = some v := h
      rw [nested_one] at h'
      simp [SMap.get] at h'
      exact ⟨s, h'.symm⟩
    | some x =>
      cases x with
      | map x =>
        rw [show nsPath = ["metadata", "namespace"] from rfl, setField_two _ hg, nested_cons, SMap.get_set _ hm.sorted, if_pos rfl] at h
        have h' : nested (SMap.set x "namespace" (.str s)) ["namespace"] = some v := h
        rw [nested_one, SMap.get_set _ (hm.val hg).sorted, if_pos rfl] at h'
        cases h'; exact ⟨s, rfl⟩
      | _ =>
        rw [show setField m nsPath (.str s) = m by simp [setField, setNested, hg], show nsPath = ["metadata", "namespace"] from rfl, nested_cons, hg] at h
        simp [Json.at, Json.field] at h

theorem named_of_key {m : SMap Json} (h : (objKey m).2 ≠ "") : ∃ n, nested m namePath = some (.str n) ∧ n ≠ "" := by
  simp only [objKey, nestedString] at h
  cases hn : nested m namePath with
  | none => rw [show nested m ["metadata", "name"] = none from hn] at h; simp at h
  | some v =>
    rw [show nested m ["metadata", "name"] = some v from hn] at h
    cases v with
    | str n => exact ⟨n, rfl, h⟩
    | _ => simp at h

/-- What an Updater stores has a proper name. -/
theorem updaterPut_proper {t : GVK} {o : Option CDoc} {x : CDoc} (hx : jsonOps.enforce t x = .ok x) (ho : ∀ y, o = some y → ProperName y) :
    ProperName (updaterPut t o x) := by
  obtain ⟨a1, a2, a3, _⟩ := C74_object t x.1 x.1 x.2 (jsonOps_enforce.mp hx)
  have hkey : objKey (updaterPut t o x).1 = objKey x.1 := by
    have hcl : ∃ c : Cluster, c.get (t, objKey x.1) = o.map (·.1) ∧ (updaterWrite t c .upserted x.1).get (t, objKey x.1) = some (updaterPut t o x).1 := by
      cases o with
      | none =>
        refine ⟨[], rfl, ?_⟩
        simp only [updaterWrite, AMap.get]
        exact AMap.get_set .. |>.trans (if_pos rfl)
      | some y =>
        refine ⟨[((t, objKey x.1), y.1)], by simp [AMap.get], ?_⟩
        simp only [updaterWrite, AMap.get]
        exact AMap.get_set .. |>.trans (if_pos rfl)
    obtain ⟨c, hc1, hc2⟩ := hcl
    obtain ⟨r, r1, _, _, _, r5, _⟩ := C46_upsert t c .upserted x.1 (by simp) x.2 a3 (by
      intro z hz
      rw [hc1] at hz
      cases o with
      | none => cases hz
      | some y =>
        cases hz
        obtain ⟨⟨n, h1, _⟩, _⟩ := ho y rfl
        exact ⟨y.2, (nested_meta h1).imp fun _ h => h.1⟩)
    rw [hc2] at r1
    cases r1
    exact r5
  refine ⟨named_of_key (by rw [hkey]; exact a3), fun v hv => ?_⟩
  have hform : ∃ m : SMap Json, (Json.map m).Canon ∧ (updaterPut t o x).1 = setStr m nsPath (objKey x.1).1 := by
    cases o with
    | none => exact ⟨_, setStr_canon (setGVK_canon (mergeStrings_canon (mergeStrings_canon (upd_content_canon x.2 (bareObj_canon _ _))))), rfl⟩
    | some y => exact ⟨_, setStr_canon (setGVK_canon (mergeStrings_canon (mergeStrings_canon (upd_content_canon x.2 y.2)))), rfl⟩
  obtain ⟨m, hm, e⟩ := hform
  rw [e] at hv
  exact setStr_ns hm _ hv

/-- **C86** (views, partial): in an operator with Updater targets whose users write objects with proper names, consider a controller with one source and a pipeline of
selections, projections that keep the name, and unwinds. Whenever no event is queued at it and all its writes are sent, the objects of its target in the store are exactly images of the results of
the objects of its source in the store. Missing: as in `C86_settled_partial`, except that nothing is assumed about the names of the results. -/
theorem C86_views_partial (base : Env) (H : (fieldEnv base).Canon) (srt : List Json → List Json) {ps : List (Pipe CDoc AnyVal)} (hnd : (ps.map Pipe.target).Nodup)
    (hgv : ∀ p ∈ ps, '/' ∉ p.target.group.toList ∧ '/' ∉ p.target.version.toList)
    {as : List (LoopAct CDoc)} (ha : ∀ a ∈ as, a.Allowed jsonOps (ps.map Pipe.target)) (hgood : ∀ a ∈ as, a.GoodAct ProperName) {W : World CDoc AnyVal}
    (hrun : (World.init ps).acts jsonOps updaterPut as = some W) {i : Nat} {target src : GVK} {spec : List SpecOp} {p0 : Pipe CDoc AnyVal}
    (hnew : newSpecPipe (fieldEnv base) srt target [src] spec = .ok p0) (hsafe : ∀ op ∈ spec, NameSafe (fieldEnv base) op) (hp : ps[i]? = some p0)
    {s : Station CDoc AnyVal} (hs : W.stations[i]? = some s) (hidle : s.Idle) :
    (∀ k y, W.store target k = some y → ∃ k' d c x, W.store src k' = some d ∧ Results (fieldEnv base) spec (jsonOps.removeUID d) c ∧
      enforceDoc target c.1 = .ok x ∧ objKey x = k ∧ IsImage x y.1) ∧
    ∀ k' d c x, W.store src k' = some d → Results (fieldEnv base) spec (jsonOps.removeUID d) c → enforceDoc target c.1 = .ok x →
      ∃ y, W.store target (objKey x) = some y ∧ IsImage x y.1 := by
  obtain ⟨cfg, hcfg, hpipe⟩ := newSpecPipe_ok hnew
  have hrow := rowSpec_of_safe hsafe
  have hst : ∀ p ∈ ps, Storing jsonOps (updaterPut p.target) p.target ImgDoc := fun p hp => updaterPut_storing (hgv p hp)
  have hG := goodW_acts jsonOps_lawful hnd hst (fun p _ o x hx ho => updaterPut_proper hx ho) (loopInv_init jsonOps ImgDoc ps) (goodW_init ProperName ps) ha hgood hrun
  obtain ⟨T, hW, _⟩ := loopInv_acts jsonOps_lawful hnd hst (loopInv_init jsonOps ImgDoc ps) ha hrun
  have hc := hW.core i p0 s hp hs
  have hsrc : p0.sources = [src] := by obtain ⟨g, _, rfl⟩ := pipe_new_ok hpipe; rfl
  have hnm : ∀ δ ∈ s.done.map Prod.snd, Named δ.obj := by
    intro δ hδ
    obtain ⟨e, he, rfl⟩ := List.mem_map.mp hδ
    obtain ⟨⟨n, h, _⟩, _⟩ := hG.done i s hs e he
    exact ⟨n, h⟩
  have hone : ∀ pre, pre <+: s.done.map Prod.snd → ∀ ins o, LiveInputs jsonOps pre [src] ins → PipelineSpec cfg ins o → OnePerName jsonOps target o := by
    intro pre hpre ins o hl hsp
    obtain ⟨z, rfl, hst⟩ := pipelineSpec_row hrow hcfg hsp
    have hz := live_one hl
    obtain ⟨f1, f2⟩ := liveSet_facts hz
    exact onePerName_of_unique (stages_unique base H hsafe hcfg hst hz.1 f2 (fun d hd => live_named (fun δ hδ => hnm δ (hpre.subset hδ)) ((f1 d).mp hd)))
  obtain ⟨ins, o, h1, h2, h3, h4⟩ := C86_updater_partial hnd hgv ha hrun (by simp) hpipe hp hs hidle hone
  have hl : LiveInputs jsonOps (s.done.map Prod.snd) [src] ins := by
    rw [← hsrc] at h1 ⊢
    exact (storeInputs_iff jsonOps_lawful hW.store hc hidle ins).mpr h1
  have hres := C82_results base H srt src spec cfg hcfg hrow _ hnm ins o hl h2
  have hlive := core_storeSet jsonOps_lawful hW.store hc hidle (g := src) (by rw [hsrc]; simp)
  refine ⟨fun k y hy => ?_, fun k' d c x hd hr hx => h4 c x ((hres c).mpr ⟨_, (hlive _).mpr ⟨k', d, hd, rfl⟩, hr⟩) hx⟩
  obtain ⟨c, x, e1, e2, e3, e4⟩ := h3 k y hy
  obtain ⟨d', hd', hr⟩ := (hres c).mp e1
  obtain ⟨k', d, hd, rfl⟩ := (hlive d').mp hd'
  exact ⟨k', d, c, x, hd, hr, e2, e3, e4⟩

/-- Controllers of C86 whose operations succeed on good objects never fail. -/
theorem neverFails_view (base : Env) (H : (fieldEnv base).Canon) (srt : List Json → List Json) {target src : GVK} {spec : List SpecOp} {p0 : Pipe CDoc AnyVal}
    (hnew : newSpecPipe (fieldEnv base) srt target [src] spec = .ok p0) (hsafe : ∀ op ∈ spec, NameSafe (fieldEnv base) op) {Good : CDoc → Prop}
    (hpn : ∀ d, Good d → ProperName d) (hev : ∀ d, Good d → objGVK d.1 = src → Evaluates (fieldEnv base) spec (jsonOps.removeUID d)) : NeverFails jsonOps Good p0 := by
  intro hist h hw
  have hsrc : p0.sources = [src] := by
    obtain ⟨cfg, _, hpipe⟩ := newSpecPipe_ok hnew
    obtain ⟨g, _, rfl⟩ := pipe_new_ok hpipe; rfl
  have hs : ∀ e ∈ hist, objGVK e.2.obj.1 = src := by
    intro e he
    have := (h e he).2.1
    rw [hsrc, List.mem_singleton] at this
    exact this
  obtain ⟨wss, hr, _⟩ := C82_never_fails_partial base H srt target src spec p0 hnew hsafe hist (fun e he => (h e he).1) hs hw
    (fun e he => hpn _ (h e he).2.2) (fun e he => hev _ (h e he).2.2 (hs e he)) [] (by simp [AMap.WF]) (fun _ => rfl)
  exact ⟨wss, hr⟩

/-- A controller of the operator: its source, its operations and its pipeline. -/
structure ViewCtl where
  src : GVK
  spec : List SpecOp
  pipe : Pipe CDoc AnyVal

/-- The controller is what is made of its declaration, and the operations are selections, projections that keep the name, and unwinds. -/
def ViewCtl.Ok (env : Env) (srt : List Json → List Json) (v : ViewCtl) : Prop :=
  newSpecPipe env srt v.pipe.target [v.src] v.spec = .ok v.pipe ∧ ∀ op ∈ v.spec, NameSafe env op

/-- The object can be evaluated by all controllers that read its kind. -/
def Readable (env : Env) (vs : List ViewCtl) (d : CDoc) : Prop :=
  ∀ v ∈ vs, objGVK d.1 = v.src → Evaluates env v.spec (jsonOps.removeUID d)

theorem isImage_refl (x : SMap Json) : IsImage x x := ⟨fun _ _ => rfl, rfl, fun _ _ l hl => ⟨l, hl, fun _ _ h => h⟩⟩

theorem updaterPut_gvk {t : GVK} (hgv : '/' ∉ t.group.toList ∧ '/' ∉ t.version.toList) {o : Option CDoc} {x : CDoc} (hx : jsonOps.enforce t x = .ok x)
    (ho : ∀ y, o = some y → ProperName y) : objGVK (updaterPut t o x).1 = t :=
  ((updaterPut_storing hgv).put o x hx fun y hy => by
    obtain ⟨⟨n, h1, h2⟩, _⟩ := ho y hy
    exact ⟨y, isImage_refl _, by simpa [objKey, nestedString, show nested y.1 ["metadata", "name"] = some (.str n) from h1] using h2⟩).1

/-- **C87** (views, partial): an operator with Updater targets whose controllers have one source each and are made of selections, projections that keep the name, and
unwinds. No controller is fed by itself. If users write objects with proper names that the controllers reading them can evaluate, and the objects of the targets can be
evaluated by the controllers reading them, then the operator settles in whatever order the controllers work, and once it has settled all targets are up to date:
they hold exactly images of the results of the objects of the sources. Missing: as in `C87_settles_partial`; joins and gathers. -/
theorem C87_views_partial (base : Env) (H : (fieldEnv base).Canon) (srt : List Json → List Json) {vs : List ViewCtl} (hok : ∀ v ∈ vs, v.Ok (fieldEnv base) srt)
    (hnd : ((vs.map ViewCtl.pipe).map Pipe.target).Nodup)
    (hgv : ∀ v ∈ vs, '/' ∉ v.pipe.target.group.toList ∧ '/' ∉ v.pipe.target.version.toList) (hac : Acyclic (vs.map ViewCtl.pipe))
    (htot : ∀ d, ProperName d → objGVK d.1 ∈ (vs.map ViewCtl.pipe).map Pipe.target → Readable (fieldEnv base) vs d)
    {as : List (LoopAct CDoc)} (ha : ∀ a ∈ as, a.Allowed jsonOps ((vs.map ViewCtl.pipe).map Pipe.target))
    (hg : ∀ a ∈ as, a.GoodAct (fun d => ProperName d ∧ Readable (fieldEnv base) vs d)) {W : World CDoc AnyVal}
    (hrun : (World.init (vs.map ViewCtl.pipe)).acts jsonOps updaterPut as = some W) :
    Acc (WorkStep jsonOps updaterPut) W ∧
    ∀ bs W', (∀ b ∈ bs, b.Own) → W.acts jsonOps updaterPut bs = some W' → (¬ ∃ W'', WorkStep jsonOps updaterPut W'' W') →
      ∀ v ∈ vs,
        (∀ k y, W'.store v.pipe.target k = some y → ∃ k' d c x, W'.store v.src k' = some d ∧ Results (fieldEnv base) v.spec (jsonOps.removeUID d) c ∧
          enforceDoc v.pipe.target c.1 = .ok x ∧ objKey x = k ∧ IsImage x y.1) ∧
        ∀ k' d c x, W'.store v.src k' = some d → Results (fieldEnv base) v.spec (jsonOps.removeUID d) c → enforceDoc v.pipe.target c.1 = .ok x →
          ∃ y, W'.store v.pipe.target (objKey x) = some y ∧ IsImage x y.1 := by
  have hpv : ∀ p ∈ vs.map ViewCtl.pipe, ∃ v ∈ vs, v.pipe = p := fun p hp => List.mem_map.mp hp
  have hgv' : ∀ p ∈ vs.map ViewCtl.pipe, '/' ∉ p.target.group.toList ∧ '/' ∉ p.target.version.toList := by
    intro p hp; obtain ⟨v, hv, rfl⟩ := hpv p hp; exact hgv v hv
  have hst : ∀ p ∈ vs.map ViewCtl.pipe, Storing jsonOps (updaterPut p.target) p.target ImgDoc := fun p hp => updaterPut_storing (hgv' p hp)
  have hput : ∀ p ∈ vs.map ViewCtl.pipe, ∀ o x, jsonOps.enforce p.target x = .ok x → (∀ y, o = some y → ProperName y ∧ Readable (fieldEnv base) vs y) →
      ProperName (updaterPut p.target o x) ∧ Readable (fieldEnv base) vs (updaterPut p.target o x) := by
    intro p hp o x hx ho
    have hpn := updaterPut_proper hx (fun y hy => (ho y hy).1)
    exact ⟨hpn, htot _ hpn (by rw [updaterPut_gvk (hgv' p hp) hx (fun y hy => (ho y hy).1)]; exact List.mem_map_of_mem hp)⟩
  have hnf : ∀ p ∈ vs.map ViewCtl.pipe, NeverFails jsonOps (fun d => ProperName d ∧ Readable (fieldEnv base) vs d) p := by
    intro p hp
    obtain ⟨v, hv, rfl⟩ := hpv p hp
    exact neverFails_view base H srt (hok v hv).1 (hok v hv).2 (fun d h => h.1) (fun d h => h.2 v hv)
  obtain ⟨h1, h2, _⟩ := C87_settles_partial jsonOps_lawful hnd hst hac hput hnf ha hg hrun
  refine ⟨h1, fun bs W' hbs hW' hno v hv => ?_⟩
  obtain ⟨i, hi, hiv⟩ := List.mem_iff_getElem.mp hv
  have hpi : (vs.map ViewCtl.pipe)[i]? = some v.pipe := by rw [List.getElem?_map, List.getElem?_eq_getElem hi, hiv]; rfl
  have ha' : ∀ a ∈ as ++ bs, a.Allowed jsonOps ((vs.map ViewCtl.pipe).map Pipe.target) := by
    intro a h
    rcases List.mem_append.mp h with h | h
    · exact ha a h
    · exact (allowed_of_own (Good := fun _ => True) (hbs a h)).1
  have hg' : ∀ a ∈ as ++ bs, a.GoodAct ProperName := by
    intro a h
    rcases List.mem_append.mp h with h | h
    · have := hg a h
      cases a with
      | user w => exact this.1
      | work => trivial
      | send => trivial
    · exact (allowed_of_own (O := jsonOps) (ts := []) (hbs a h)).2
  have hrun' := acts_append hrun hW'
  obtain ⟨T, hW, _⟩ := loopInv_acts jsonOps_lawful hnd hst (loopInv_init jsonOps ImgDoc _) ha' hrun'
  have hlt : i < W'.stations.length := by rw [hW.len]; simpa using hi
  have hs : W'.stations[i]? = some W'.stations[i] := List.getElem?_eq_getElem hlt
  exact C86_views_partial base H srt hnd hgv' ha' hg' hrun' (hok v hv).1 (hok v hv).2 hpi hs (h2 bs W' hbs hW' hno i _ hs)

/-- The second controller of the example. -/
def exTailSpec : List SpecOp := [.select (.lit "@bool" (.bool true))]
def exTailPipe : Pipe CDoc AnyVal :=
  match newSpecPipe plainEnv id sumK [viewK] exTailSpec with
  | .ok p => p
  | .error _ => { sources := [], target := viewK, graph := {} }

/-- The controllers of the example: views of the pods with spec above 1, and sums of the views. -/
def exViews : List ViewCtl := [⟨podK, exRowSpec, exRowPipe⟩, ⟨viewK, exTailSpec, exTailPipe⟩]

/-- What happens in the example. -/
def exViewActs : List (LoopAct CDoc) :=
  [.user ⟨.upserted, podDoc "a" 2⟩, .user ⟨.upserted, podDoc "b" 5⟩, .work 0 podK ω0, .send 0 0, .user ⟨.upserted, podDoc "a" 3⟩, .work 1 viewK ω1, .work 0 podK ω0,
   .send 1 0, .user ⟨.deleted, podDoc "b" 5⟩]

/-- The world then. -/
def exViewW : World CDoc AnyVal := ((World.init (exViews.map ViewCtl.pipe)).acts jsonOps updaterPut exViewActs).getD (World.init [])

theorem exViewW_run : (World.init (exViews.map ViewCtl.pipe)).acts jsonOps updaterPut exViewActs = some exViewW := by
  have h : ((World.init (exViews.map ViewCtl.pipe)).acts jsonOps updaterPut exViewActs).isSome = true := by decide +kernel
  unfold exViewW
  revert h
  cases (World.init (exViews.map ViewCtl.pipe)).acts jsonOps updaterPut exViewActs with
  | none => simp
  | some W => simp

theorem exTail_evaluates (d : CDoc) : Evaluates plainEnv exTailSpec d := .inl ⟨rfl, trivial⟩

-- all hypotheses of C87 hold for the example, in a state where events are still queued
example := C87_views_partial _ plainEnv_canon id (vs := exViews) (as := exViewActs)
  (by intro v hv
      simp only [exViews, List.mem_cons, List.not_mem_nil, or_false] at hv
      rcases hv with rfl | rfl
      · exact ⟨rfl, exRowSpec_safe⟩
      · refine ⟨rfl, ?_⟩
        intro op h
        simp only [exTailSpec, List.mem_singleton] at h
        subst h; trivial)
  (by decide)
  (by intro v hv
      simp only [exViews, List.mem_cons, List.not_mem_nil, or_false] at hv
      rcases hv with rfl | rfl <;> decide)
  ⟨id, fun i j p q hi hj h => by
    match i, j with
    | 0, 0 => cases hi; cases hj; exact absurd h (by decide)
    | 0, 1 => decide
    | 1, 0 => cases hi; cases hj; exact absurd h (by decide)
    | 1, 1 => cases hi; cases hj; exact absurd h (by decide)
    | n + 2, _ => simp [exViews] at hi
    | _, n + 2 => simp [exViews] at hj⟩
  (by intro d _ hd v hv hs
      simp only [exViews, List.mem_cons, List.not_mem_nil, or_false] at hv
      rcases hv with rfl | rfl
      · rw [hs] at hd; exact absurd hd (by decide)
      · exact exTail_evaluates _)
  (by intro a ha
      simp only [exViewActs, List.mem_cons, List.not_mem_nil, or_false] at ha
      rcases ha with rfl | rfl | rfl | rfl | rfl | rfl | rfl | rfl | rfl <;>
        first | exact ω0_valid | exact ω1_valid | exact trivial | (simp only [LoopAct.Allowed]; decide +kernel))
  (by have hp : ∀ n v, (n, v) ∈ [("a", (2 : Int)), ("b", 5), ("a", 3)] → ProperName (podDoc n v) ∧ Readable plainEnv exViews (podDoc n v) := by
        intro n v h
        refine ⟨?_, ?_⟩
        · simp only [List.mem_cons, List.not_mem_nil, or_false, Prod.mk.injEq] at h
          rcases h with ⟨rfl, rfl⟩ | ⟨rfl, rfl⟩ | ⟨rfl, rfl⟩ <;> exact ⟨⟨_, rfl, by decide⟩, fun v hv => by cases hv⟩
        · intro c hc _
          simp only [exViews, List.mem_cons, List.not_mem_nil, or_false] at hc
          rcases hc with rfl | rfl
          · have hr : ∀ e ∈ [("a", (2 : Int)), ("b", 5), ("a", 3)], (rowRun plainEnv exRowSpec (jsonOps.removeUID (podDoc e.1 e.2))).isSome = true := by decide +kernel
            obtain ⟨l, hl⟩ := Option.isSome_iff_exists.mp (hr _ h)
            exact (rowRun_spec plainEnv_canon hl).1
          · exact exTail_evaluates _
      intro a ha
      simp only [exViewActs, List.mem_cons, List.not_mem_nil, or_false] at ha
      rcases ha with rfl | rfl | rfl | rfl | rfl | rfl | rfl | rfl | rfl <;> first | exact trivial | exact hp _ _ (by simp))
  exViewW_run

example : exViewW.store sumK ("", "b") = none ∧ (exViewW.store sumK ("", "a")).isSome = true ∧ (exViewW.stations.map (fun s => (s.out.length, s.pipe.sources.map (fun g => (s.pending g).length)))) = [(1, [2]), (0, [0])] := by decide +kernel

/-! ### A controller that feeds itself -/

/-- A controller that reads the pods and writes pods, with the other value. -/
def flip : List (PipeOp ExObj Nat) := [.project (fun x => .ok [{ x with val := 1 - x.val }])]
def flipPipe : Pipe ExObj Nat :=
  match Pipe.new podK [podK] flip with
  | .ok p => p
  | .error _ => { sources := [], target := podK, graph := {} }

/-- The pipeline after the pod was seen with value 0, and with value 1. -/
def flip0 : Pipe ExObj Nat := (flipPipe.evaluate exOps ω0 (pod .added "a" 0)).1
def flip1 : Pipe ExObj Nat := (flip0.evaluate exOps ω0 (pod .updated "a" 1)).1

theorem flip0_step : flip0.evaluate exOps ω0 (pod .updated "a" 1) = (flip1, .ok [pod .upserted "a" 0]) := rfl
theorem flip1_step : flip1.evaluate exOps ω0 (pod .updated "a" 0) = (flip0, .ok [pod .upserted "a" 1]) := by
  have h : flip1.evaluate exOps ω0 (pod .updated "a" 0) = ({ flip0 with src := (flip1.evaluate exOps ω0 (pod .updated "a" 0)).1.src }, .ok [pod .upserted "a" 1]) := rfl
  have e : ∀ g, (flip1.evaluate exOps ω0 (pod .updated "a" 0)).1.src g = flip0.src g := by
    intro g
    by_cases hg : g = podK
    · subst hg; rfl
    · have e1 : ∀ (c : SrcCache ExObj) (l : Store ExObj), SrcCache.put c podK l g = c g := fun c l => if_neg hg
      exact (e1 flip1.src _).trans ((e1 flip0.src _))
  rw [h, funext e]

/-- The pod is being switched back and forth: the controller has seen it with value `v`, and the event with the other value is queued. -/
def Flipping (W : World ExObj Nat) : Prop :=
  ∃ v s, (v = 0 ∧ s.pipe = flip0 ∨ v = 1 ∧ s.pipe = flip1) ∧ W.stations = [s] ∧ s.pending podK = [pod .updated "a" (1 - v)] ∧ s.out = [] ∧
    W.store podK ("default", "a") = some ⟨"Pod", "a", false, 1 - v⟩

theorem flipping_step {W : World ExObj Nat} (h : Flipping W) : ∃ W1 W', WorkStep exOps plainPut W1 W ∧ WorkStep exOps plainPut W' W1 ∧ Flipping W' := by
  obtain ⟨v, s, hv, hs, hq, ho, hst⟩ := h
  have hsrc : ∀ p, p = flip0 ∨ p = flip1 → podK ∈ p.sources ∧ p.target = podK := by
    rintro p (rfl | rfl) <;> exact ⟨by decide +kernel, by decide +kernel⟩
  have hsp := hsrc s.pipe (hv.imp And.right And.right)
  have hev : ∃ p', s.pipe.evaluate exOps ω0 (pod .updated "a" (1 - v)) = (p', .ok [pod .upserted "a" v]) ∧ (1 - v = 0 ∧ p' = flip0 ∨ 1 - v = 1 ∧ p' = flip1) ∧ 1 - (1 - v) = v := by
    rcases hv with ⟨rfl, e⟩ | ⟨rfl, e⟩
    · exact ⟨flip1, by rw [e]; exact flip0_step, .inr ⟨rfl, rfl⟩, rfl⟩
    · exact ⟨flip0, by rw [e]; exact flip1_step, .inl ⟨rfl, rfl⟩, rfl⟩
  obtain ⟨p', hev, hp', hvv⟩ := hev
  have hp1 := hsrc p' (hp'.imp And.right And.right)
  let s0 : Station ExObj Nat :=
    { pipe := p', pending := fun g => if g = podK then [] else s.pending g, out := [pod .upserted "a" v], done := s.done ++ [(ω0, pod .updated "a" (1 - v))] }
  let s1 : Station ExObj Nat := { s0 with out := [] }
  have hact0 : W.act exOps plainPut (.work 0 podK ω0) = some { W with stations := [s0] } := by
    simp only [World.act, hs, List.getElem?_cons_zero, Station.work, if_pos hsp.1, hq, hev, ho, List.set_cons_zero]
    rfl
  have hact : World.act exOps plainPut { W with stations := [s0] } (.send 0 0) =
      some (World.write exOps (plainPut podK) podK { W with stations := [s1] } (pod .upserted "a" v)) := by
    simp only [World.act, List.getElem?_cons_zero, Station.send, s0, List.take_zero, List.all_nil, if_true, List.set_cons_zero, hp1.2]
    rfl
  refine ⟨_, _, ⟨_, show LoopAct.Own (.work 0 podK ω0) from ω0_valid, hact0⟩, ⟨_, show LoopAct.Own (.send 0 0) from trivial, hact⟩, ?_⟩
  have hw : storeWrite exOps (plainPut podK) W.store podK (pod .upserted "a" v) =
      (storePut W.store podK ("default", "a") (some ⟨"Pod", "a", false, v⟩), some (pod .updated "a" v)) := by
    simp only [storeWrite, pod, exOps, hst, plainPut]
  refine ⟨1 - v, Station.notify exOps (pod .updated "a" v) s1, ?_, ?_, ?_, ?_, ?_⟩
  · rw [show (Station.notify exOps (pod .updated "a" v) s1).pipe = p' by unfold Station.notify; split <;> rfl]
    exact hp'
  · simp only [World.write, hw, List.map_cons, List.map_nil]
  · have hm : exOps.gvk (pod .updated "a" v).obj ∈ s1.pipe.sources := hp1.1
    simp only [Station.notify, if_pos hm, hvv]
    rfl
  · unfold Station.notify; split <;> rfl
  · simp only [World.write, hw, hvv, storePut, and_self, if_true]

/-- C87, necessity of the hypothesis: the controllers of an operator with a controller that feeds itself may never come to rest. -/
theorem C87_cycle_endless : ∃ W, (World.init [flipPipe]).acts exOps plainPut [.user (pod .upserted "a" 0), .work 0 podK ω0, .send 0 0] = some W ∧
    ¬ Acc (WorkStep exOps plainPut) W := by
  have hno : ∀ W : World ExObj Nat, Acc (Relation.TransGen (WorkStep exOps plainPut)) W → ¬ Flipping W := by
    intro W h
    induction h with
    | intro W _ ih =>
      intro hf
      obtain ⟨W1, W', h1, h2, h3⟩ := flipping_step hf
      exact ih W' (.tail (.single h2) h1) h3
  refine ⟨_, rfl, fun h => hno _ h.transGen ⟨0, _, .inl ⟨rfl, rfl⟩, rfl, rfl, rfl, rfl⟩⟩

end Dctl
