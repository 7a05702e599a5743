import Verif.Operator.LoopLemmas
import Verif.Props.EndToEnd
/-!
# C86, C87: the controllers of an operator together
-/
set_option autoImplicit false
namespace Dctl
variable {D J : Type} [DecidableEq D] [DecidableEq J]

/-! ### C86 -/

theorem core_storeSet {O : ObjOps D} (L : O.Lawful) {p0 : Pipe D J} {W : World D J} {s : Station D J} (hS : StoreOk O W.store) (hc : Core O p0 W.store s)
    (hi : s.Idle) {g : GVK} (hg : g ∈ p0.sources) (d : D) :
    (O.gvk d = g ∧ LiveAs O (s.done.map Prod.snd) g (O.key d) d) ↔ ∃ k y, W.store g k = some y ∧ O.removeUID y = d := by
  have hp : s.pending g = [] := hi.1 g (by rw [hc.srcs]; exact hg)
  have hf := (hc.feeds g hg).live
  rw [hp, List.append_nil] at hf
  simp only [liveAs_ofKind] at hf
  constructor
  · rintro ⟨_, h⟩
    obtain ⟨y, h1, h2⟩ := (hf _ _).mp h
    exact ⟨_, y, h1, h2⟩
  · rintro ⟨k, y, h1, rfl⟩
    obtain ⟨h3, h4⟩ := hS g k y h1
    rw [L.gvk_uid, L.key_uid]
    refine ⟨h3, ?_⟩
    rw [h4]
    exact (hf _ _).mpr ⟨y, h1, rfl⟩

theorem storeInputs_iff {O : ObjOps D} (L : O.Lawful) {p0 : Pipe D J} {W : World D J} {s : Station D J} (hS : StoreOk O W.store) (hc : Core O p0 W.store s)
    (hi : s.Idle) (ins : List (ZSet D)) : LiveInputs O (s.done.map Prod.snd) p0.sources ins ↔ StoreInputs O W.store p0.sources ins := by
  unfold LiveInputs StoreInputs LiveSet
  refine and_congr Iff.rfl (forall_congr' fun i => forall_congr' fun g => forall_congr' fun hg => exists_congr fun z => and_congr Iff.rfl (and_congr Iff.rfl ?_))
  have := core_storeSet L hS hc hi (List.mem_of_getElem? hg)
  simp only [this]

/-- **C86** (partial): the controllers of an operator work on a shared store, in any order; what one writes, the others watch, and users create, change and delete objects
of other kinds at any time, also between an evaluation and its writes. Whenever no event is queued at a controller and all its writes are sent, the store holds exactly
images of the objects its pipeline computes from the objects of its sources that are in the store at that moment. Missing: what is missing in
`C19_view_maintenance_partial`, failing evaluations and writes (C22, C23), writes of one object in the wrong order (C24), events delivered in another order than the
changes of the store (C43), Patcher targets, and targets that users or other controllers write too. -/
theorem C86_settled_partial {O : ObjOps D} (L : O.Lawful) {Img : D → D → Prop} {put : GVK → Option D → D → D} {ps : List (Pipe D J)}
    (hnd : (ps.map Pipe.target).Nodup) (hst : ∀ p ∈ ps, Storing O (put p.target) p.target Img)
    {as : List (LoopAct D)} (ha : ∀ a ∈ as, a.Allowed O (ps.map Pipe.target)) {W : World D J} (hrun : (World.init ps).acts O put as = some W)
    {i : Nat} {sources : List GVK} {target : GVK} {cfg : List (PipeOp D J)} {p0 : Pipe D J} (hn : (sources.map GVK.kind).Nodup)
    (hnew : Pipe.new target sources cfg = .ok p0) (hp : ps[i]? = some p0) {s : Station D J} (hs : W.stations[i]? = some s) (hidle : s.Idle)
    (hone : ∀ pre, pre <+: s.done.map Prod.snd → ∀ ins o, LiveInputs O pre sources ins → PipelineSpec cfg ins o → OnePerName O target o) :
    ∃ ins o, StoreInputs O W.store sources ins ∧ PipelineSpec cfg ins o ∧ HoldsImages O Img target o (W.store target) := by
  obtain ⟨T, hW, hT⟩ := loopInv_acts L hnd hst (loopInv_init O Img ps) ha hrun
  have hc := hW.core i p0 s hp hs
  obtain ⟨wss, hwss⟩ := oks_map _ hc.oks
  have hsrc : p0.sources = sources ∧ p0.target = target := by obtain ⟨g, _, rfl⟩ := pipe_new_ok hnew; exact ⟨rfl, rfl⟩
  obtain ⟨ins, o, h1, h2, h3⟩ := C19_view_maintenance_partial L hn hnew (fun e he => (hc.orders e he).1)
    (fun e he => hsrc.1 ▸ (hc.orders e he).2) (core_watchOk hc) hone hwss
  have hTi : T i = Target.writes O (fun _ => none) wss.flatten := by
    have := (hT i p0 s hp hs).1
    rw [hidle.2, expect, hwss, emitted_ok] at this
    exact this
  have him := hW.img i p0 hp
  rw [hTi, hsrc.2] at him
  refine ⟨ins, o, ?_, h2, ?_, ?_⟩
  · rw [← hsrc.1] at h1 ⊢
    exact (storeInputs_iff L hW.store hc hidle ins).mp h1
  · intro k y hy
    have := him k
    rw [hy] at this
    cases hx : Target.writes O (fun _ => none) wss.flatten k with
    | none => rw [hx] at this; exact this.elim
    | some x =>
      rw [hx] at this
      obtain ⟨d, e1, e2, e3⟩ := (h3 k x).mp hx
      exact ⟨d, x, e1, e2, e3, this⟩
  · intro d x hd hx
    have hT := (h3 (O.key x) x).mpr ⟨d, hd, hx, rfl⟩
    have := him (O.key x)
    rw [hT] at this
    cases hy : W.store target (O.key x) with
    | none => rw [hy] at this; exact this.elim
    | some y => rw [hy] at this; exact ⟨y, rfl, this⟩


/-- **C86** (partial), for pipelines with at most one possible result: whatever set of objects the pipeline may compute from the objects in the store, the store holds its
images. -/
theorem C86_every_result_partial {O : ObjOps D} (L : O.Lawful) {Img : D → D → Prop} {put : GVK → Option D → D → D} {ps : List (Pipe D J)}
    (hnd : (ps.map Pipe.target).Nodup) (hst : ∀ p ∈ ps, Storing O (put p.target) p.target Img)
    {as : List (LoopAct D)} (ha : ∀ a ∈ as, a.Allowed O (ps.map Pipe.target)) {W : World D J} (hrun : (World.init ps).acts O put as = some W)
    {i : Nat} {sources : List GVK} {target : GVK} {cfg : List (PipeOp D J)} {p0 : Pipe D J} (hn : (sources.map GVK.kind).Nodup)
    (hnew : Pipe.new target sources cfg = .ok p0) (hdet : GatherDet cfg) (hp : ps[i]? = some p0) {s : Station D J} (hs : W.stations[i]? = some s) (hidle : s.Idle)
    (hone : ∀ pre, pre <+: s.done.map Prod.snd → ∀ ins o, LiveInputs O pre sources ins → PipelineSpec cfg ins o → OnePerName O target o)
    {ins : List (ZSet D)} {o : ZSet D} (hins : StoreInputs O W.store sources ins) (ho : PipelineSpec cfg ins o) :
    HoldsImages O Img target o (W.store target) := by
  obtain ⟨ins', o', h1, h2, h3, h4⟩ := C86_settled_partial L hnd hst ha hrun hn hnew hp hs hidle hone
  have he : EqvL ins' ins := by
    obtain ⟨T, hW, _⟩ := loopInv_acts L hnd hst (loopInv_init O Img ps) ha hrun
    have hc := hW.core i p0 s hp hs
    have hsrc : p0.sources = sources := by obtain ⟨g, _, rfl⟩ := pipe_new_ok hnew; rfl
    subst hsrc
    exact liveInputs_eqvL (fun _ _ _ _ => Iff.rfl) ((storeInputs_iff L hW.store hc hidle _).mpr h1) ((storeInputs_iff L hW.store hc hidle _).mpr hins)
  have hu := pipelineSpec_unique hdet he h2 ho
  refine ⟨fun k y hy => ?_, fun d x hd hx => h4 d x (by rw [hu d]; exact hd) hx⟩
  obtain ⟨d, x, e1, e2⟩ := h3 k y hy
  exact ⟨d, x, by rw [← hu d]; exact e1, e2⟩

/-- Kinds and pipelines of the example: a view of the pods, and the sums of the view with the services of the same name. -/
def sumK : GVK := ⟨"", "v1", "Sum"⟩
def exA : Pipe ExObj Nat := newPipe [podK] exSel
def exB : Pipe ExObj Nat :=
  match Pipe.new sumK [viewK, svcK] exJoin with
  | .ok p => p
  | .error _ => { sources := [], target := sumK, graph := {} }

/-- Objects are stored as they are written. -/
def plainPut : GVK → Option ExObj → ExObj → ExObj := fun _ _ x => x

/-- What happens in the example. -/
def exActs : List (LoopAct ExObj) :=
  [.user (pod .upserted "a" 3), .user (svc .upserted "a" 1), .work 1 svcK ω0, .work 0 podK ω1, .user (pod .upserted "a" 4), .send 0 0, .work 1 viewK ω0,
   .work 0 podK ω0, .user (pod .upserted "b" 2), .user (pod .deleted "b" 2), .work 0 podK ω0, .send 0 1, .send 0 0, .work 1 viewK ω1, .work 0 podK ω0, .send 1 0, .send 0 0,
   .work 1 viewK ω0, .work 1 viewK ω0, .send 1 0]

/-- The world then. -/
def exW : World ExObj Nat := ((World.init [exA, exB]).acts exOps plainPut exActs).getD (World.init [])

theorem exW_run : (World.init [exA, exB]).acts exOps plainPut exActs = some exW := by
  have h : ((World.init [exA, exB]).acts exOps plainPut exActs).isSome = true := by decide +kernel
  unfold exW
  revert h
  cases (World.init [exA, exB]).acts exOps plainPut exActs with
  | none => simp
  | some W => simp

theorem plainPut_storing : ∀ p ∈ [exA, exB], Storing exOps (plainPut p.target) p.target Eq := by
  have h : ∀ t : GVK, t.group = "" → t.version = "v1" → Storing exOps (plainPut t) t Eq := by
    rintro ⟨g, v, k⟩ rfl rfl
    refine ⟨fun o x hx _ => ⟨?_, rfl, rfl⟩⟩
    simp only [exOps] at hx ⊢
    split at hx
    · cases hx
    · have := congrArg (fun r : Except Err ExObj => r.toOption.map ExObj.kind) hx
      simp only [Except.toOption, Option.map_some, Option.some.injEq] at this
      simp [plainPut, this]
  intro p hp
  simp only [List.mem_cons, List.not_mem_nil, or_false] at hp
  rcases hp with rfl | rfl <;> exact h _ rfl rfl

theorem exActs_allowed : ∀ a ∈ exActs, a.Allowed exOps ([exA, exB].map Pipe.target) := by
  intro a ha
  simp only [exActs, List.mem_cons, List.not_mem_nil, or_false] at ha
  rcases ha with rfl | rfl | rfl | rfl | rfl | rfl | rfl | rfl | rfl | rfl | rfl | rfl | rfl | rfl | rfl | rfl | rfl | rfl | rfl | rfl <;>
    first | exact ω0_valid | exact ω1_valid | exact trivial | (simp only [LoopAct.Allowed]; decide)

/-- The events the second controller has seen. -/
def exSeen : List (Delta ExObj) :=
  [svc .added "a" 1, view .added "a" 30, view .added "b" 20, view .updated "a" 40, view .deleted "b" 20]

theorem exSeen_names (pre : List (Delta ExObj)) (hp : pre <+: exSeen) (ins : List (ZSet ExObj)) (o : ZSet ExObj) (hl : LiveInputs exOps pre [viewK, svcK] ins)
    (hs : PipelineSpec exJoin ins o) : OnePerName exOps sumK o := by
  obtain ⟨n, hn, rfl⟩ : ∃ n, n < 6 ∧ pre = exSeen.take n := ⟨pre.length, Nat.lt_succ_of_le hp.length_le, List.prefix_iff_eq_take.mp hp⟩
  refine (oneName_of_snapshot exOps_lawful (by decide) (g := exB.graph) (s := match exB.graph.toSnapshot with | .ok s => s | .error _ => {}) rfl rfl rfl _ ?_ hl hs).1
  have : ∀ n < 6, oneNameB exOps sumK [viewK, svcK] (match exB.graph.toSnapshot with | .ok s => s | .error _ => {}) (exSeen.take n) = true := by decide +kernel
  exact this n hn

/-- All hypotheses of C86 hold in the example: the sums are those of the values in the store. -/
example : ∃ ins o, StoreInputs exOps exW.store [viewK, svcK] ins ∧ PipelineSpec exJoin ins o ∧ HoldsImages exOps Eq sumK o (exW.store sumK) := by
  have hs : ∃ s, exW.stations[1]? = some s ∧ (s.done.map Prod.snd = exSeen) ∧ s.Idle := by
    have h : exW.stations[1]?.map (fun s => (s.done.map Prod.snd, s.pipe.sources.all (fun g => (s.pending g).isEmpty), s.out)) = some (exSeen, true, []) := by decide +kernel
    revert h
    cases exW.stations[1]? with
    | none => simp
    | some s =>
      intro h
      simp only [Option.map_some, Option.some.injEq, Prod.mk.injEq, List.all_eq_true, List.isEmpty_iff] at h
      exact ⟨s, rfl, h.1, h.2⟩
  obtain ⟨s, h1, h2, h3⟩ := hs
  exact C86_settled_partial (i := 1) (p0 := exB) exOps_lawful (by decide) plainPut_storing exActs_allowed exW_run (by decide) rfl rfl h1 h3
    (by rw [h2]; exact exSeen_names)

example : exW.store sumK ("default", "a") = some ⟨"Sum", "a", false, 41⟩ ∧ exW.store viewK ("default", "a") = some ⟨"View", "a", false, 40⟩ ∧
    exW.store sumK ("default", "b") = none := by decide +kernel

/-! ### Updater targets -/

/-- `pkg/reconciler/target.go:90-177`, `ctrlutils.go:38-81`: the object an Updater stores. -/
def updaterPut (t : GVK) (o : Option CDoc) (x : CDoc) : CDoc :=
  match o with
  | none => ⟨updaterMutate t x.1 (bareObj t (objKey x.1)), updaterMutate_canon x.2 (bareObj_canon _ _)⟩
  | some y => ⟨updaterMutate t x.1 y.1, updaterMutate_canon x.2 y.2⟩

/-- The image of an object with a name. -/
def ImgDoc (x y : CDoc) : Prop := IsImage x.1 y.1 ∧ (objKey x.1).2 ≠ ""

theorem updaterPut_storing {t : GVK} (hgv : '/' ∉ t.group.toList ∧ '/' ∉ t.version.toList) : Storing jsonOps (updaterPut t) t ImgDoc := by
  refine ⟨fun o x hx hold => ?_⟩
  obtain ⟨a1, a2, a3, _⟩ := C74_object t x.1 x.1 x.2 (jsonOps_enforce.mp hx)
  -- the cluster with just the object that is there
  have hcl : ∃ c : Cluster, c.get (t, objKey x.1) = o.map (·.1) ∧ (updaterWrite t c .upserted x.1).get (t, objKey x.1) = some (updaterPut t o x).1 := by
    cases o with
    | none =>
      refine ⟨[], rfl, ?_⟩
      simp only [updaterWrite, AMap.get]
      exact AMap.get_set .. |>.trans (if_pos rfl)
    | some y =>
      refine ⟨[((t, objKey x.1), y.1)], by simp [AMap.get], ?_⟩
      simp only [updaterWrite, AMap.get]
      exact AMap.get_set .. |>.trans (if_pos rfl)
  obtain ⟨c, hc1, hc2⟩ := hcl
  have hold' : ∀ z, c.get (t, objKey x.1) = some z → (Json.map z).Canon ∧ ∃ y, SMap.get z "metadata" = some (.map y) := by
    intro z hz
    rw [hc1] at hz
    cases o with
    | none => cases hz
    | some y =>
      cases hz
      obtain ⟨x', h1, h2⟩ := hold y rfl
      exact ⟨y.2, metadata_of_name (by rw [h1.2.1]; exact h2)⟩
  obtain ⟨r, r1, r2, r3, r4, r5, r6, _⟩ := C46_upsert t c .upserted x.1 (by simp) x.2 a3 hold'
  rw [hc2] at r1
  cases r1
  refine ⟨?_, r5, ⟨fun k hk => ?_, r5, fun f hf l hl => ?_⟩, a3⟩
  · show objGVK (updaterPut t o x).1 = t
    have e1 : nestedString (updaterPut t o x).1 ["apiVersion"] = gvString t := by simp only [nestedString, nested, Json.at, Json.field, r4]
    have e2 : nestedString (updaterPut t o x).1 ["kind"] = t.kind := by simp only [nestedString, nested, Json.at, Json.field, r3]
    unfold objGVK
    rw [e1, gv_round hgv.1 hgv.2, e2]
  · by_cases k1 : k = "kind"
    · subst k1; rw [r3, a1]
    · by_cases k2 : k = "apiVersion"
      · subst k2; rw [r4, a2]
      · exact r2 k hk k2 k1
  · obtain ⟨l', h1, h2⟩ := r6 f hf l hl
    exact ⟨l', h1, fun k v hv => by rw [h2, hv]; rfl⟩

/-- **C86** (partial), for JSON objects and Updater targets. Missing: as in `C86_settled_partial`. -/
theorem C86_updater_partial {ps : List (Pipe CDoc J)} (hnd : (ps.map Pipe.target).Nodup)
    (hgv : ∀ p ∈ ps, '/' ∉ p.target.group.toList ∧ '/' ∉ p.target.version.toList)
    {as : List (LoopAct CDoc)} (ha : ∀ a ∈ as, a.Allowed jsonOps (ps.map Pipe.target)) {W : World CDoc J}
    (hrun : (World.init ps).acts jsonOps updaterPut as = some W)
    {i : Nat} {sources : List GVK} {target : GVK} {cfg : List (PipeOp CDoc J)} {p0 : Pipe CDoc J} (hn : (sources.map GVK.kind).Nodup)
    (hnew : Pipe.new target sources cfg = .ok p0) (hp : ps[i]? = some p0) {s : Station CDoc J} (hs : W.stations[i]? = some s) (hidle : s.Idle)
    (hone : ∀ pre, pre <+: s.done.map Prod.snd → ∀ ins o, LiveInputs jsonOps pre sources ins → PipelineSpec cfg ins o → OnePerName jsonOps target o) :
    ∃ ins o, StoreInputs jsonOps W.store sources ins ∧ PipelineSpec cfg ins o ∧
      (∀ k y, W.store target k = some y → ∃ d x, 0 < ZSet.get o d ∧ enforceDoc target d.1 = .ok x ∧ objKey x = k ∧ IsImage x y.1) ∧
      ∀ d x, 0 < ZSet.get o d → enforceDoc target d.1 = .ok x → ∃ y, W.store target (objKey x) = some y ∧ IsImage x y.1 := by
  obtain ⟨ins, o, h1, h2, h3, h4⟩ := C86_settled_partial jsonOps_lawful hnd (fun p hp => updaterPut_storing (hgv p hp)) ha hrun hn hnew hp hs hidle hone
  refine ⟨ins, o, h1, h2, ?_, ?_⟩
  · intro k y hy
    obtain ⟨d, x, e1, e2, e3, e4⟩ := h3 k y hy
    exact ⟨d, x.1, e1, jsonOps_enforce.mp e2, e3, e4.1⟩
  · intro d x hd hx
    obtain ⟨y, e1, e2⟩ := h4 d ⟨x, enforceDoc_canon d.2 hx⟩ hd (jsonOps_enforce.mpr hx)
    exact ⟨y, e1, e2.1⟩

/-- What happens in the example with JSON objects. -/
def exJsonActs : List (LoopAct CDoc) :=
  [.user ⟨.upserted, podDoc "a" 2⟩, .user ⟨.upserted, podDoc "b" 5⟩, .work 0 podK ω0, .user ⟨.upserted, podDoc "a" 3⟩, .work 0 podK ω1, .send 0 1, .work 0 podK ω0,
   .user ⟨.deleted, podDoc "b" 5⟩, .send 0 0, .send 0 0, .work 0 podK ω1, .send 0 0]

/-- The world then. -/
def exJsonW : World CDoc Nat := ((World.init [exJsonPipe]).acts jsonOps updaterPut exJsonActs).getD (World.init [])

theorem exJsonW_run : (World.init [exJsonPipe]).acts jsonOps updaterPut exJsonActs = some exJsonW := by
  have h : ((World.init [exJsonPipe]).acts jsonOps updaterPut exJsonActs).isSome = true := by decide +kernel
  unfold exJsonW
  revert h
  cases (World.init [exJsonPipe]).acts jsonOps updaterPut exJsonActs with
  | none => simp
  | some W => simp

/-- The events the controller has seen. -/
def exJsonSeen : List (Delta CDoc) := [⟨.added, podDoc "a" 2⟩, ⟨.added, podDoc "b" 5⟩, ⟨.updated, podDoc "a" 3⟩, ⟨.deleted, podDoc "b" 5⟩]

theorem exJsonSeen_names (pre : List (Delta CDoc)) (hp : pre <+: exJsonSeen) (ins : List (ZSet CDoc)) (o : ZSet CDoc) (hl : LiveInputs jsonOps pre [podK] ins)
    (hs : PipelineSpec exSelJson ins o) : OnePerName jsonOps viewK o := by
  obtain ⟨n, hn, rfl⟩ : ∃ n, n < 5 ∧ pre = exJsonSeen.take n := ⟨pre.length, Nat.lt_succ_of_le hp.length_le, List.prefix_iff_eq_take.mp hp⟩
  refine (oneName_of_snapshot jsonOps_lawful (by decide) (g := exJsonPipe.graph) (s := exJsonSnap) rfl rfl rfl _ ?_ hl hs).1
  have : ∀ n < 5, oneNameB jsonOps viewK [podK] exJsonSnap (exJsonSeen.take n) = true := by decide +kernel
  exact this n hn

-- all hypotheses of `C86_updater_partial` hold in the example
example : ∃ ins o, StoreInputs jsonOps exJsonW.store [podK] ins ∧ PipelineSpec exSelJson ins o ∧
    (∀ k y, exJsonW.store viewK k = some y → ∃ d x, 0 < ZSet.get o d ∧ enforceDoc viewK d.1 = .ok x ∧ objKey x = k ∧ IsImage x y.1) ∧
    ∀ d x, 0 < ZSet.get o d → enforceDoc viewK d.1 = .ok x → ∃ y, exJsonW.store viewK (objKey x) = some y ∧ IsImage x y.1 := by
  have hs : ∃ s, exJsonW.stations[0]? = some s ∧ (s.done.map Prod.snd = exJsonSeen) ∧ s.Idle := by
    have h : exJsonW.stations[0]?.map (fun s => (s.done.map Prod.snd, s.pipe.sources.all (fun g => (s.pending g).isEmpty), s.out)) = some (exJsonSeen, true, []) := by
      rfl
    revert h
    cases exJsonW.stations[0]? with
    | none => simp
    | some s =>
      intro h
      simp only [Option.map_some, Option.some.injEq, Prod.mk.injEq, List.all_eq_true, List.isEmpty_iff] at h
      exact ⟨s, rfl, h.1, h.2⟩
  obtain ⟨s, h1, h2, h3⟩ := hs
  refine C86_updater_partial (i := 0) (p0 := exJsonPipe) (ps := [exJsonPipe]) (as := exJsonActs) (by decide) (by intro p hp; simp only [List.mem_singleton] at hp; subst hp; decide)
    ?_ exJsonW_run (by decide) rfl rfl h1 h3 (by rw [h2]; exact exJsonSeen_names)
  intro a ha
  simp only [exJsonActs, List.mem_cons, List.not_mem_nil, or_false] at ha
  rcases ha with rfl | rfl | rfl | rfl | rfl | rfl | rfl | rfl | rfl | rfl | rfl | rfl <;>
    first | exact ω0_valid | exact ω1_valid | exact trivial | (simp only [LoopAct.Allowed]; decide +kernel)

example : exJsonW.store viewK ("", "a") = some (viewDoc "a" 3) ∧ exJsonW.store viewK ("", "b") = none := by decide +kernel

/-! ### C87 -/

/-- A controller of the operator evaluates an event or sends a write: `W'` comes right after `W`. -/
def WorkStep (O : ObjOps D) (put : GVK → Option D → D → D) (W' W : World D J) : Prop := ∃ a : LoopAct D, a.Own ∧ W.act O put a = some W'

omit [DecidableEq D] in
theorem allowed_of_own {O : ObjOps D} {ts : List GVK} {Good : D → Prop} {a : LoopAct D} (h : a.Own) : a.Allowed O ts ∧ a.GoodAct Good := by
  cases a with
  | user => exact h.elim
  | work => exact ⟨h, trivial⟩
  | send => exact ⟨trivial, trivial⟩

/-- No controller is fed by itself, not even through others: along `rank`, what a controller writes is read by later ones only. -/
def Acyclic (ps : List (Pipe D J)) : Prop :=
  ∃ rank : Nat → Nat, ∀ (i j : Nat) p q, ps[i]? = some p → ps[j]? = some q → p.target ∈ q.sources → rank i < rank j

/-- No evaluation of a watch history of good objects fails. -/
def NeverFails (O : ObjOps D) (Good : D → Prop) (p : Pipe D J) : Prop :=
  ∀ hist : List (EvalOrder D × Delta D), (∀ e ∈ hist, e.1.Valid ∧ O.gvk e.2.obj ∈ p.sources ∧ Good e.2.obj) → WatchOk O (hist.map Prod.snd) →
    ∃ wss : List (List (Delta D)), (runs (fun p (e : EvalOrder D × Delta D) => p.evaluate O e.1 e.2) p hist).2 = wss.map Except.ok

theorem acc_of_inv {O : ObjOps D} (L : O.Lawful) {Img : D → D → Prop} {put : GVK → Option D → D → D} {ps : List (Pipe D J)} (hnd : (ps.map Pipe.target).Nodup)
    (hst : ∀ p ∈ ps, Storing O (put p.target) p.target Img) (hac : Acyclic ps) {W : World D J} (h : LoopInv O Img ps W) : Acc (WorkStep O put) W := by
  obtain ⟨rank, hr⟩ := hac
  obtain ⟨N, hN⟩ : ∃ N, ∀ i < ps.length, rank i ≤ N := by
    have : ∀ n, ∃ N, ∀ i < n, rank i ≤ N := by
      intro n
      induction n with
      | zero => exact ⟨0, fun i hi => absurd hi (Nat.not_lt_zero i)⟩
      | succ n ih =>
        obtain ⟨N, h⟩ := ih
        refine ⟨max N (rank n), fun i hi => ?_⟩
        by_cases e : i = n
        · subst e; exact Nat.le_max_right _ _
        · exact Nat.le_trans (h i (by omega)) (Nat.le_max_left _ _)
    exact this _
  have gen : ∀ t : Tup (2 * N + 1), Acc (tupLt (2 * N + 1)) t → ∀ W : World D J, tup (2 * N + 1) (W.load rank ps.length) = t → LoopInv O Img ps W → Acc (WorkStep O put) W := by
    intro t ht
    induction ht with
    | intro t _ ih =>
      rintro W rfl hW
      refine Acc.intro _ ?_
      rintro W' ⟨a, ha, hact⟩
      obtain ⟨i, h1, b, h2, h3⟩ := load_own hnd hst hr hW ha hact
      have := hN i h1
      exact ih _ (tup_lt (2 * N + 1) (by split <;> omega) h2 h3) W' rfl (loopInv_act L hnd hst hW (allowed_of_own (Good := fun _ => True) ha).1 hact)
  exact gen _ ((tupLt_wf (2 * N + 1)).apply _) W rfl h

/-- **C87** (no endless work): if no controller is fed by itself, directly or through others, then from every state the operator can reach the controllers can work
only finitely long, in whatever order they do it, unless users change something. -/
theorem C87_terminates {O : ObjOps D} (L : O.Lawful) {Img : D → D → Prop} {put : GVK → Option D → D → D} {ps : List (Pipe D J)} (hnd : (ps.map Pipe.target).Nodup)
    (hst : ∀ p ∈ ps, Storing O (put p.target) p.target Img) (hac : Acyclic ps) {as : List (LoopAct D)} (ha : ∀ a ∈ as, a.Allowed O (ps.map Pipe.target))
    {W : World D J} (hrun : (World.init ps).acts O put as = some W) : Acc (WorkStep O put) W :=
  acc_of_inv L hnd hst hac (loopInv_acts L hnd hst (loopInv_init O Img ps) ha hrun)

theorem core_next {O : ObjOps D} {p0 : Pipe D J} {S : GVK → Target D} {s : Station D J} (h : Core O p0 S s) {g : GVK} (hg : g ∈ p0.sources) {δ : Delta D} {q : List (Delta D)}
    (hq : s.pending g = δ :: q) : O.gvk δ.obj = g ∧ WatchOk O (s.done.map Prod.snd ++ [δ]) := by
  have hf := h.feeds g hg
  have hk : O.gvk δ.obj = g := hf.kind δ (by rw [hq]; simp)
  refine ⟨hk, watchOk_of_kinds _ (fun g' hg' => ?_)⟩
  rw [ofKind_snoc]
  by_cases e : O.gvk δ.obj = g'
  · rw [if_pos e]
    have := hf.ok
    rw [hq, ← hk, e, show δ :: q = [δ] ++ q from rfl, ← List.append_assoc] at this
    exact watchOk_prefix this
  · rw [if_neg e]
    simp only [List.map_append, List.map_map, List.mem_append, List.mem_map, List.map_cons, List.map_nil, List.mem_singleton] at hg'
    rcases hg' with ⟨e', he', rfl⟩ | rfl
    · exact watchOk_prefix (h.feeds _ (h.orders e' he').2).ok
    · exact absurd rfl e

/-- **C87** (no controller is stuck): if evaluations do not fail, a controller with an event in a queue can work on it. -/
theorem C87_progress {O : ObjOps D} (L : O.Lawful) {Img : D → D → Prop} {Good : D → Prop} {put : GVK → Option D → D → D} {ps : List (Pipe D J)}
    (hnd : (ps.map Pipe.target).Nodup) (hst : ∀ p ∈ ps, Storing O (put p.target) p.target Img)
    (hput : ∀ p ∈ ps, ∀ o x, O.enforce p.target x = .ok x → (∀ y, o = some y → Good y) → Good (put p.target o x)) (hok : ∀ p ∈ ps, NeverFails O Good p)
    {as : List (LoopAct D)} (ha : ∀ a ∈ as, a.Allowed O (ps.map Pipe.target)) (hg : ∀ a ∈ as, a.GoodAct Good)
    {W : World D J} (hrun : (World.init ps).acts O put as = some W) {i : Nat} {s : Station D J} (hs : W.stations[i]? = some s) {g : GVK} (hgs : g ∈ s.pipe.sources)
    (hne : s.pending g ≠ []) (ω : EvalOrder D) (hω : ω.Valid) : ∃ W', W.act O put (.work i g ω) = some W' := by
  have hinv := loopInv_acts L hnd hst (loopInv_init O Img ps) ha hrun
  have hgood := goodW_acts L hnd hst hput (loopInv_init O Img ps) (goodW_init Good ps) ha hg hrun
  obtain ⟨T, hW, _⟩ := hinv
  have hlt : i < ps.length := by rw [← hW.len]; exact (List.getElem?_eq_some_iff.mp hs).1
  have hp0 : ps[i]? = some ps[i] := List.getElem?_eq_getElem hlt
  have hc := hW.core i _ s hp0 hs
  cases hq : s.pending g with
  | nil => exact absurd hq hne
  | cons δ q =>
    have hgp : g ∈ ps[i].sources := hc.srcs ▸ hgs
    obtain ⟨hk, hw⟩ := core_next hc hgp hq
    obtain ⟨wss, hwss⟩ := hok _ (List.getElem_mem hlt) (s.done ++ [(ω, δ)]) (by
      intro e he
      rcases List.mem_append.mp he with he | he
      · exact ⟨(hc.orders e he).1, (hc.orders e he).2, hgood.done i s hs e he⟩
      · cases List.mem_singleton.mp he
        exact ⟨hω, by rw [hk]; exact hgp, hgood.pending i s hs g δ (by rw [hq]; simp)⟩) (by simpa using hw)
    rw [runs_snoc] at hwss
    have hev : ∃ p' ws, s.pipe.evaluate O ω δ = (p', .ok ws) := by
      have hpipe := hc.pipe
      rw [← hpipe] at hwss
      have hlast : (s.pipe.evaluate O ω δ).2 ∈ wss.map Except.ok := by rw [← hwss]; simp
      obtain ⟨ws, _, hws⟩ := List.mem_map.mp hlast
      exact ⟨(s.pipe.evaluate O ω δ).1, ws, by rw [hws]⟩
    obtain ⟨p', ws, hev⟩ := hev
    simp only [World.act, hs, Station.work, if_pos hgs, hq, hev]
    exact ⟨_, rfl⟩

/-- **C87** (no controller is stuck): a controller with writes to send can send the first one. -/
theorem C87_progress_send (O : ObjOps D) (put : GVK → Option D → D → D) {W : World D J} {i : Nat} {s : Station D J} (hs : W.stations[i]? = some s) (hne : s.out ≠ []) :
    ∃ W', W.act O put (.send i 0) = some W' := by
  cases ho : s.out with
  | nil => exact absurd ho hne
  | cons w q =>
    simp only [World.act, hs, Station.send, ho, List.getElem?_cons_zero, List.take_zero, List.all_nil, if_true]
    exact ⟨_, rfl⟩

theorem acts_append {O : ObjOps D} {put : GVK → Option D → D → D} {as bs : List (LoopAct D)} {W W1 W2 : World D J} (h1 : W.acts O put as = some W1)
    (h2 : W1.acts O put bs = some W2) : W.acts O put (as ++ bs) = some W2 := by
  induction as generalizing W with
  | nil => cases h1; exact h2
  | cons a as ih =>
    simp only [World.acts, List.cons_append] at h1 ⊢
    split at h1
    · cases h1
    · exact ih h1

/-- **C87** (partial): if no controller is fed by itself and evaluations do not fail, then from every state the operator can reach the controllers come to a state where
nothing is queued and all writes are sent, in whatever order they work; with `C86_settled_partial` the store then holds images of the composition of all views. Missing: what is missing in
C86; a bound on the number of steps. -/
theorem C87_settles_partial {O : ObjOps D} (L : O.Lawful) {Img : D → D → Prop} {Good : D → Prop} {put : GVK → Option D → D → D} {ps : List (Pipe D J)}
    (hnd : (ps.map Pipe.target).Nodup) (hst : ∀ p ∈ ps, Storing O (put p.target) p.target Img) (hac : Acyclic ps)
    (hput : ∀ p ∈ ps, ∀ o x, O.enforce p.target x = .ok x → (∀ y, o = some y → Good y) → Good (put p.target o x)) (hok : ∀ p ∈ ps, NeverFails O Good p)
    {as : List (LoopAct D)} (ha : ∀ a ∈ as, a.Allowed O (ps.map Pipe.target)) (hg : ∀ a ∈ as, a.GoodAct Good)
    {W : World D J} (hrun : (World.init ps).acts O put as = some W) :
    Acc (WorkStep O put) W ∧
    (∀ bs W', (∀ b ∈ bs, b.Own) → W.acts O put bs = some W' → (¬ ∃ W'', WorkStep O put W'' W') →
      ∀ (i : Nat) s, W'.stations[i]? = some s → s.Idle) ∧
    ∃ bs W', (∀ b ∈ bs, b.Own) ∧ W.acts O put bs = some W' ∧ ∀ (i : Nat) s, W'.stations[i]? = some s → s.Idle := by
  have hacc := C87_terminates L hnd hst hac ha hrun
  have hwork : ∀ bs : List (LoopAct D), (∀ b ∈ bs, b.Own) →
      (∀ a ∈ as ++ bs, a.Allowed O (ps.map Pipe.target)) ∧ ∀ a ∈ as ++ bs, a.GoodAct Good := by
    intro bs hbs
    refine ⟨fun a h => ?_, fun a h => ?_⟩ <;> rcases List.mem_append.mp h with h | h
    · exact ha a h
    · exact (allowed_of_own (Good := fun _ => True) (hbs a h)).1
    · exact hg a h
    · exact (allowed_of_own (O := O) (ts := []) (hbs a h)).2
  have hstuck : ∀ bs W', (∀ b ∈ bs, b.Own) → W.acts O put bs = some W' → (¬ ∃ W'', WorkStep O put W'' W') →
      ∀ (i : Nat) s, W'.stations[i]? = some s → s.Idle := by
    intro bs W' hbs hW' hno i s hs
    refine ⟨fun g hgs => ?_, ?_⟩
    · by_cases hne : s.pending g = []
      · exact hne
      · obtain ⟨h1, h2⟩ := hwork bs hbs
        obtain ⟨W'', h⟩ := C87_progress L hnd hst hput hok h1 h2 (acts_append hrun hW') hs hgs hne ω0 ω0_valid
        exact absurd ⟨W'', _, show LoopAct.Own (.work i g ω0) from ω0_valid, h⟩ hno
    · by_cases hne : s.out = []
      · exact hne
      · obtain ⟨W'', h⟩ := C87_progress_send O put hs hne
        exact absurd ⟨W'', _, show LoopAct.Own (.send i 0) from trivial, h⟩ hno
  refine ⟨hacc, hstuck, ?_⟩
  have gen : ∀ W1, Acc (WorkStep O put) W1 → ∀ bs, (∀ b ∈ bs, b.Own) → W.acts O put bs = some W1 →
      ∃ bs W', (∀ b ∈ bs, b.Own) ∧ W.acts O put bs = some W' ∧ ∀ (i : Nat) s, W'.stations[i]? = some s → s.Idle := by
    intro W1 h1
    induction h1 with
    | intro W1 _ ih =>
      intro bs hbs hW1
      by_cases hno : ∃ W'', WorkStep O put W'' W1
      · obtain ⟨W'', a, hown, hact⟩ := hno
        refine ih W'' ⟨a, hown, hact⟩ (bs ++ [a]) ?_ (acts_append hW1 ?_)
        · intro b hb
          rcases List.mem_append.mp hb with hb | hb
          · exact hbs b hb
          · cases List.mem_singleton.mp hb; exact hown
        · simp only [World.acts, hact]
      · exact ⟨bs, W1, hbs, hW1, hstuck bs W1 hbs hW1 hno⟩
  exact gen W hacc [] (by simp) rfl

end Dctl
