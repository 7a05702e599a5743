import Verif.Operator.PatchLoopRest
/-!
# C118: controllers that patch what they watch
-/
set_option autoImplicit false
set_option linter.unusedSectionVars false
namespace Dctl
variable {D J V : Type} [DecidableEq D] [DecidableEq J]

theorem pacts_append {O : ObjOps D} {P : Patching D} {as bs : List (LoopAct D)} {W W1 W2 : PWorld D J} (h1 : W.acts O P as = some W1)
    (h2 : W1.acts O P bs = some W2) : W.acts O P (as ++ bs) = some W2 := by
  induction as generalizing W with
  | nil => cases h1; exact h2
  | cons a as ih =>
    simp only [PWorld.acts, List.cons_append] at h1 ⊢
    split at h1
    · cases h1
    · exact ih h1

theorem own_run {O : ObjOps D} (L : O.Lawful) {P : Patching D} {ts : List GVK} {Good Res : D → Prop} {Fine : GVK → List (Delta D) → Prop} {fld : D → V} {blank : V}
    (hP : P.Sound O ts Good Res fld blank) (hF : ∀ g h δ, Fine g (h ++ [δ]) → Fine g h) {ps : List (Pipe D J)} (hnd : (ps.map Pipe.target).Nodup)
    (hts : ∀ p ∈ ps, p.target ∈ ts) (hsp : ∀ p ∈ ps, SelfPatching O ts Good Fine Res p) : ∀ (bs : List (LoopAct D)) W1 W', (∀ b ∈ bs, b.Own) →
      PInv O Good Res fld blank ps W1 → QueuesOk O W1 → W1.FineEvents O ts Fine →
      W1.acts O P bs = some W' → PInv O Good Res fld blank ps W' ∧ QueuesOk O W' ∧ W'.FineEvents O ts Fine := by
  intro bs
  induction bs with
  | nil => intro W1 W' _ h1 h2 h3 h; cases h; exact ⟨h1, h2, h3⟩
  | cons b bs ih =>
    intro W1 W' hb h1 h2 h3 h
    simp only [PWorld.acts] at h
    split at h
    · cases h
    · rename_i W2 hW2
      have hb0 := hb b (by simp)
      exact ih W2 W' (fun c hc => hb c (List.mem_cons_of_mem _ hc)) (pinv_act L hP hF hnd hts hsp h1 h3 (polite_of_own hb0) hW2) (queuesOk_act h2 hW2)
        (own_step hP hF hts hsp h1 h2 h3 hb0 hW2).1 h

theorem polite_own {O : ObjOps D} {P : Patching D} {ts : List GVK} {Good : D → Prop} {fld : D → V} {blank : V} :
    ∀ {bs : List (LoopAct D)} {W : PWorld D J}, (∀ b ∈ bs, b.Own) → W.PoliteRun O P ts Good fld blank bs
  | [], _, _ => trivial
  | b :: _, _, hb => ⟨polite_of_own (hb b (by simp)), fun _ _ => polite_own (fun c hc => hb c (List.mem_cons_of_mem _ hc))⟩

theorem polite_append {O : ObjOps D} {P : Patching D} {ts : List GVK} {Good : D → Prop} {fld : D → V} {blank : V} {bs : List (LoopAct D)} (hb : ∀ b ∈ bs, b.Own) :
    ∀ {as : List (LoopAct D)} {W : PWorld D J}, W.PoliteRun O P ts Good fld blank as → W.PoliteRun O P ts Good fld blank (as ++ bs)
  | [], _, _ => polite_own hb
  | _ :: _, _, h => ⟨h.1, fun W' hW' => polite_append hb (h.2 W' hW')⟩

/-- **C118** (no endless work): controllers patch objects of kinds that they watch; users create, change and delete objects of all kinds at any time, also between an
evaluation and its patches. If of the objects of the patched kinds the pipelines use no more than that they exist, then from every state the operator can reach the
controllers can work only finitely long, in whatever order they do it, unless users change something. -/
theorem C118_terminates {O : ObjOps D} (L : O.Lawful) {P : Patching D} {Good Res : D → Prop} {Fine : GVK → List (Delta D) → Prop} {fld : D → V} {blank : V}
    {ps : List (Pipe D J)} (hP : P.Sound O (ps.map Pipe.target) Good Res fld blank) (hF : ∀ g h δ, Fine g (h ++ [δ]) → Fine g h) (hnd : (ps.map Pipe.target).Nodup)
    (hsp : ∀ p ∈ ps, SelfPatching O (ps.map Pipe.target) Good Fine Res p) {as : List (LoopAct D)}
    (hpol : (PWorld.init ps).PoliteRun O P (ps.map Pipe.target) Good fld blank as) {W : PWorld D J} (hrun : (PWorld.init ps).acts O P as = some W)
    (hfin : W.FineEvents O (ps.map Pipe.target) Fine) : Acc (PatchStep O P) W := by
  have hts : ∀ p ∈ ps, p.target ∈ ps.map Pipe.target := fun p hp => List.mem_map.mpr ⟨p, hp, rfl⟩
  exact patch_acc L hP hF hnd hts hsp (pinv_acts L hP hF hnd hts hsp as (pinv_init O Good Res fld blank ps) (queuesOk_init O ps) hfin hpol hrun)
    (queuesOk_acts as (queuesOk_init O ps) hrun) hfin

/-- **C118** (partial; the work comes to an end): under the same assumptions, whenever the controllers have done all they can, in whatever order, nothing is queued anywhere
and only patches of objects that do not exist are left; and they do get there. Missing: evaluations that fail; users that write the field which the controllers patch, or
kinds patched by several controllers (C61); patches of one object in the wrong order (C24); the errors of patches of missing objects (C22). -/
theorem C118_settles_partial {O : ObjOps D} (L : O.Lawful) {P : Patching D} {Good Res : D → Prop} {Fine : GVK → List (Delta D) → Prop} {fld : D → V} {blank : V}
    {ps : List (Pipe D J)} (hP : P.Sound O (ps.map Pipe.target) Good Res fld blank) (hF : ∀ g h δ, Fine g (h ++ [δ]) → Fine g h) (hnd : (ps.map Pipe.target).Nodup)
    (hsp : ∀ p ∈ ps, SelfPatching O (ps.map Pipe.target) Good Fine Res p) {as : List (LoopAct D)}
    (hpol : (PWorld.init ps).PoliteRun O P (ps.map Pipe.target) Good fld blank as) {W : PWorld D J} (hrun : (PWorld.init ps).acts O P as = some W)
    (hfin : W.FineEvents O (ps.map Pipe.target) Fine) :
    (∀ bs W', (∀ b ∈ bs, b.Own) → W.acts O P bs = some W' → (¬ ∃ W'', PatchStep O P W'' W') → W'.Stopped O) ∧
    ∃ bs W', (∀ b ∈ bs, b.Own) ∧ W.acts O P bs = some W' ∧ W'.Stopped O := by
  have hts : ∀ p ∈ ps, p.target ∈ ps.map Pipe.target := fun p hp => List.mem_map.mpr ⟨p, hp, rfl⟩
  have hinv := pinv_acts L hP hF hnd hts hsp as (pinv_init O Good Res fld blank ps) (queuesOk_init O ps) hfin hpol hrun
  have hq := queuesOk_acts as (queuesOk_init O ps) hrun
  have hacc := C118_terminates L hP hF hnd hsp hpol hrun hfin
  have hstop : ∀ bs W', (∀ b ∈ bs, b.Own) → W.acts O P bs = some W' → (¬ ∃ W'', PatchStep O P W'' W') → W'.Stopped O := by
    intro bs W' hbs hW' hno
    obtain ⟨k1, _, k3⟩ := own_run L hP hF hnd hts hsp bs W W' hbs hinv hq hfin hW'
    exact patch_stopped hF hsp k1 k3 hno
  refine ⟨hstop, ?_⟩
  have gen : ∀ W1, Acc (PatchStep O P) W1 → ∀ bs, (∀ b ∈ bs, b.Own) → W.acts O P bs = some W1 →
      ∃ bs W', (∀ b ∈ bs, b.Own) ∧ W.acts O P bs = some W' ∧ W'.Stopped O := by
    intro W1 h1
    induction h1 with
    | intro W1 _ ih =>
      intro bs hbs hW1
      by_cases hno : ∃ W'', PatchStep O P W'' W1
      · obtain ⟨W'', a, hown, hact⟩ := hno
        refine ih W'' ⟨a, hown, hact⟩ (bs ++ [a]) ?_ (pacts_append hW1 ?_)
        · intro b hb
          rcases List.mem_append.mp hb with hb | hb
          · exact hbs b hb
          · cases List.mem_singleton.mp hb; exact hown
        · simp only [PWorld.acts, hact]
      · exact ⟨bs, W1, hbs, hW1, hstop bs W1 hbs hW1 hno⟩
  exact gen W hacc [] (by simp) rfl

theorem patch_at_rest {O : ObjOps D} (L : O.Lawful) {P : Patching D} {Good Res : D → Prop} {Fine : GVK → List (Delta D) → Prop} {fld : D → V} {blank : V}
    {ps : List (Pipe D J)} (hP : P.Sound O (ps.map Pipe.target) Good Res fld blank) (hF : ∀ g h δ, Fine g (h ++ [δ]) → Fine g h) (hnd : (ps.map Pipe.target).Nodup)
    (hsp : ∀ p ∈ ps, SelfPatching O (ps.map Pipe.target) Good Fine Res p) {as : List (LoopAct D)}
    (hpol : (PWorld.init ps).PoliteRun O P (ps.map Pipe.target) Good fld blank as) {W : PWorld D J} (hrun : (PWorld.init ps).acts O P as = some W)
    (hfin : W.FineEvents O (ps.map Pipe.target) Fine) {i : Nat} {p0 : Pipe D J} (hp : ps[i]? = some p0) {cfg : List (PipeOp D J)}
    (hn : (p0.sources.map GVK.kind).Nodup) (hnew : Pipe.new p0.target p0.sources cfg = .ok p0)
    (hset : Settling O (ps.map Pipe.target) Good Fine Res p0.sources p0.target cfg p0) {s : PStation D J} (hs : W.stations[i]? = some s)
    (hpend : ∀ g ∈ s.base.pipe.sources, s.base.pending g = []) (hout : ∀ w ∈ s.base.out, W.store s.base.pipe.target (O.key w.obj) = none) :
    FineHist O (ps.map Pipe.target) Good Fine p0.sources s.base.done ∧
    (∀ g ∈ p0.sources, ∀ d, (O.gvk d = g ∧ LiveAs O (s.base.done.map Prod.snd) g (O.key d) d) ↔ ∃ k y, W.store g k = some y ∧ O.removeUID y = d) ∧
    (∀ g k y, W.store g k = some y → O.gvk y = g ∧ O.key y = k ∧ Good y) ∧
    ∃ ins o, LiveInputs O (s.base.done.map Prod.snd) p0.sources ins ∧ StoreInputs O W.store p0.sources ins ∧ PipelineSpec cfg ins o ∧
      HoldsFields O fld blank (W.store p0.target) p0.target o := by
  have hts : ∀ p ∈ ps, p.target ∈ ps.map Pipe.target := fun p hp => List.mem_map.mpr ⟨p, hp, rfl⟩
  have hinv := pinv_acts L hP hF hnd hts hsp as (pinv_init O Good Res fld blank ps) (queuesOk_init O ps) hfin hpol hrun
  obtain ⟨⟨T, hc⟩, _⟩ := hinv.each i p0 s hp hs
  obtain ⟨_, _, _, hself, _⟩ := (hsp p0 (List.mem_of_getElem? hp)).ex
  have hfine : FineHist O (ps.map Pipe.target) Good Fine p0.sources s.base.done :=
    pcore_fine hc hF (fun g hg hn' => hfin i s hs g (by rw [hc.core.srcs]; exact hg) hn')
  rw [hc.core.srcs] at hpend
  rw [hc.core.tgt] at hout
  obtain ⟨wss, hr⟩ := hset.ok _ hfine
  obtain ⟨ins, o, h1, h2, h3⟩ := C19_view_maintenance_partial L hn hnew hfine.orders hfine.kinds hfine.watch (by
    intro pre hpre ins o
    obtain ⟨u, hu⟩ := hpre
    have e : pre = (s.base.done.take pre.length).map Prod.snd := by
      rw [List.map_take, ← hu]; simp
    rw [e]
    refine hset.one _ (fineHist_prefix hF (b := s.base.done.drop pre.length) ?_) ins o
    rw [List.take_append_drop]; exact hfine) hr
  have hex : expect O p0 s.base = Target.writes O (fun _ => none) wss.flatten := by
    rw [expect, show (runs (evalStep O) p0 s.base.done).2 = wss.map Except.ok from hr, emitted_ok]
  have hTk : ∀ k y, W.store p0.target k = some y → T k = expect O p0 s.base k := by
    intro k y hy
    rw [← hc.track, writes_apart]
    intro v hv hk
    rw [← hk, hout v hv] at hy
    cases hy
  refine ⟨hfine, fun g hg d => core_storeSet L (W := ⟨W.store, []⟩) hinv.store (core_send hc.core []) ⟨by simpa [hc.core.srcs] using hpend, rfl⟩ hg d,
    fun g k y hy => ⟨(hinv.store g k y hy).1, (hinv.store g k y hy).2, hinv.good g k y hy⟩, ins, o, h1, ?_, h2, ?_, ?_⟩
  · exact (storeInputs_iff L (W := ⟨W.store, []⟩) hinv.store (core_send hc.core []) ⟨by simpa [hc.core.srcs] using hpend, rfl⟩ ins).mp h1
  · intro d x hd hx
    have hexp : expect O p0 s.base (O.key x) = some x := by rw [hex]; exact (h3 _ x).mpr ⟨d, hd, hx, rfl⟩
    obtain ⟨y0, hy0⟩ := expect_live L hn hnew hset hF hfine hexp
    cases hS : W.store p0.target (O.key x) with
    | none =>
      obtain ⟨δ, hδ, _⟩ := deleted_pending hS _ _ (hc.core.feeds _ hself) hy0
      rw [hpend _ hself] at hδ
      cases hδ
    | some y =>
      refine ⟨y, rfl, ?_⟩
      rw [← hTk _ y hS] at hexp
      rcases hc.here _ x hexp with ⟨y', hy', hf⟩ | ⟨δ, hδ, _⟩ | ⟨w, hw, hk⟩
      · rw [hS] at hy'
        cases hy'
        exact hf
      · rw [hpend _ hself] at hδ; cases hδ
      · rw [← hk, hout w hw] at hS; cases hS
  · intro k y hy hno
    refine hc.clean k y hy ?_
    rw [hTk k y hy]
    cases he : expect O p0 s.base k with
    | none => rfl
    | some x =>
      rw [hex] at he
      obtain ⟨d, e1, e2, e3⟩ := (h3 k x).mp he
      exact absurd e3.symm (fun e => hno d x e1 e2 e.symm)

/-- **C118** (partial; what the objects look like then): whenever no event is queued at a controller and its patches are sent, except for objects that do not exist, every
object its pipeline computes from what is in the store at that moment has its field in the object of that name, and the field of all other objects of the kind is blank.
Missing: what is missing in `C118_settles_partial` and in `C19_view_maintenance_partial`. -/
theorem C118_at_rest_partial {O : ObjOps D} (L : O.Lawful) {P : Patching D} {Good Res : D → Prop} {Fine : GVK → List (Delta D) → Prop} {fld : D → V} {blank : V}
    {ps : List (Pipe D J)} (hP : P.Sound O (ps.map Pipe.target) Good Res fld blank) (hF : ∀ g h δ, Fine g (h ++ [δ]) → Fine g h) (hnd : (ps.map Pipe.target).Nodup)
    (hsp : ∀ p ∈ ps, SelfPatching O (ps.map Pipe.target) Good Fine Res p) {as : List (LoopAct D)}
    (hpol : (PWorld.init ps).PoliteRun O P (ps.map Pipe.target) Good fld blank as) {W : PWorld D J} (hrun : (PWorld.init ps).acts O P as = some W)
    (hfin : W.FineEvents O (ps.map Pipe.target) Fine) {i : Nat} {p0 : Pipe D J} (hp : ps[i]? = some p0) {cfg : List (PipeOp D J)}
    (hn : (p0.sources.map GVK.kind).Nodup) (hnew : Pipe.new p0.target p0.sources cfg = .ok p0)
    (hset : Settling O (ps.map Pipe.target) Good Fine Res p0.sources p0.target cfg p0) {s : PStation D J} (hs : W.stations[i]? = some s)
    (hpend : ∀ g ∈ s.base.pipe.sources, s.base.pending g = []) (hout : ∀ w ∈ s.base.out, W.store s.base.pipe.target (O.key w.obj) = none) :
    ∃ ins o, StoreInputs O W.store p0.sources ins ∧ PipelineSpec cfg ins o ∧ HoldsFields O fld blank (W.store p0.target) p0.target o := by
  obtain ⟨_, _, _, ins, o, _, h1, h2, h3⟩ := patch_at_rest L hP hF hnd hsp hpol hrun hfin hp hn hnew hset hs hpend hout
  exact ⟨ins, o, h1, h2, h3⟩

/-- Do users leave the field alone? -/
def politeCheck {D J V : Type} [DecidableEq D] [DecidableEq J] [DecidableEq V] (O : ObjOps D) (P : Patching D) (ts : List GVK) (fld : D → V) (blank : V) (W : PWorld D J) :
    List (LoopAct D) → Bool
  | [] => true
  | a :: as =>
    (match a with
      | .user w => decide (O.gvk w.obj ∈ ts → w.type ≠ .deleted → fld w.obj = match W.store (O.gvk w.obj) (O.key w.obj) with | none => blank | some y => fld y)
      | _ => true) &&
    match W.act O P a with
    | none => true
    | some W' => politeCheck O P ts fld blank W' as

theorem politeRun_of_check {D J V : Type} [DecidableEq D] [DecidableEq J] [DecidableEq V] {O : ObjOps D} {P : Patching D} {ts : List GVK} {Good : D → Prop} {fld : D → V}
    {blank : V} : ∀ {as : List (LoopAct D)} {W : PWorld D J}, politeCheck O P ts fld blank W as = true → (∀ w, LoopAct.user w ∈ as → Good w.obj) →
      (∀ i g ω, LoopAct.work i g ω ∈ as → ω.Valid) → W.PoliteRun O P ts Good fld blank as
  | [], _, _, _, _ => trivial
  | a :: as, W, h, h1, h2 => by
    simp only [politeCheck, Bool.and_eq_true] at h
    refine ⟨?_, fun W' hW' => ?_⟩
    · cases a with
      | user w => exact ⟨h1 w (by simp), of_decide_eq_true h.1⟩
      | work i g ω => exact h2 i g ω (by simp)
      | send i n => trivial
    · have := h.2
      rw [hW'] at this
      exact politeRun_of_check this (fun w hw => h1 w (List.mem_cons_of_mem _ hw)) (fun i g ω hw => h2 i g ω (List.mem_cons_of_mem _ hw))

end Dctl
