import Verif.Operator.LoopLemmas
import Verif.Spec.PatchLoop
import Verif.Props.Patcher
/-! Helper lemmas about controllers that patch what they watch. -/
set_option autoImplicit false
set_option linter.unusedSectionVars false
namespace Dctl
variable {D J V : Type} [DecidableEq D] [DecidableEq J]

/-- What holds for one controller that was started as `p0`: `S` are the objects in the store, `T` those it has sent. -/
structure PCore (O : ObjOps D) (Good Res : D → Prop) (fld : D → V) (blank : V) (p0 : Pipe D J) (S : GVK → Target D) (T : Target D) (s : PStation D J) : Prop where
  core : Core O p0 S s.base
  len : s.snaps.length = s.base.out.length
  track : Target.writes O T s.base.out = expect O p0 s.base
  out : ∀ w ∈ s.base.out, (w.type = .upserted ∨ w.type = .deleted) ∧ O.enforce p0.target w.obj = .ok w.obj ∧ Res w.obj
  snapGood : ∀ o ∈ s.snaps, Good o
  pendGood : ∀ g, ∀ δ ∈ s.base.pending g, Good δ.obj
  doneGood : ∀ e ∈ s.base.done, Good e.2.obj
  here : ∀ k x, T k = some x → (∃ y, S p0.target k = some y ∧ fld y = fld x) ∨ (∃ δ ∈ s.base.pending p0.target, δ.type = .deleted ∧ O.key δ.obj = k) ∨
    ∃ w ∈ s.base.out, O.key w.obj = k
  clean : ∀ k y, S p0.target k = some y → T k = none → fld y = blank

theorem notify_pending {O : ObjOps D} {δ : Delta D} {s : Station D J} {g : GVK} {ε : Delta D} (h : ε ∈ (s.notify O δ).pending g) : ε ∈ s.pending g ∨ ε = δ := by
  unfold Station.notify at h
  split at h
  · simp only at h
    split at h
    · rcases List.mem_append.mp h with h | h
      · exact .inl h
      · exact .inr (List.mem_singleton.mp h)
    · exact .inl h
  · exact .inl h

theorem notify_keeps {O : ObjOps D} {δ : Delta D} {s : Station D J} {g : GVK} {ε : Delta D} (h : ε ∈ s.pending g) : ε ∈ (s.notify O δ).pending g := by
  unfold Station.notify
  split
  · simp only
    split
    · exact List.mem_append_left _ h
    · exact h
  · exact h

theorem notify_self {O : ObjOps D} {δ : Delta D} {s : Station D J} (h : O.gvk δ.obj ∈ s.pipe.sources) : δ ∈ (s.notify O δ).pending (O.gvk δ.obj) := by
  unfold Station.notify
  rw [if_pos h]
  simp

/-- An event that somebody else caused. -/
theorem pcore_event {O : ObjOps D} {Good Res : D → Prop} {fld : D → V} {blank : V} {p0 : Pipe D J} {S S' : GVK → Target D} {T : Target D} {s : PStation D J}
    (h : PCore O Good Res fld blank p0 S T s) (hself : p0.target ∈ p0.sources) {δ : Delta D} (hg : Good δ.obj)
    (hoff : ∀ g k, ¬ (g = O.gvk δ.obj ∧ k = O.key δ.obj) → S' g k = S g k)
    (hf : ∀ l, Feed O (O.gvk δ.obj) l (S (O.gvk δ.obj)) → Feed O (O.gvk δ.obj) (l ++ [δ]) (S' (O.gvk δ.obj)))
    (hkeep : O.gvk δ.obj = p0.target → (δ.type = .deleted ∧ S' p0.target (O.key δ.obj) = none) ∨
      ∃ y', S' p0.target (O.key δ.obj) = some y' ∧ fld y' = match S p0.target (O.key δ.obj) with | none => blank | some y => fld y) :
    PCore O Good Res fld blank p0 S' T { s with base := s.base.notify O δ } := by
  obtain ⟨n1, n2, n3⟩ := notify_done O δ s.base
  have hsrc : ∀ g, g ∈ p0.sources → g ∈ s.base.pipe.sources := fun g hg => by rw [h.core.srcs]; exact hg
  refine ⟨core_notify h.core (fun g k hgk => hoff g k (fun e => hgk e.1)) hf, by simp only [n3]; exact h.len, ?_, by simp only [n3]; exact h.out, h.snapGood, ?_,
    by simp only [n1]; exact h.doneGood, ?_, ?_⟩
  · simp only [n3]
    rw [expect_congr n1]
    exact h.track
  · intro g ε hε
    rcases notify_pending hε with h' | rfl
    · exact h.pendGood g ε h'
    · exact hg
  · intro k x hx
    simp only [n3]
    by_cases e : p0.target = O.gvk δ.obj ∧ k = O.key δ.obj
    · obtain ⟨et, rfl⟩ := e
      rcases hkeep et.symm with ⟨hd, _⟩ | ⟨y', hy', hfy⟩
      · refine .inr (.inl ⟨δ, ?_, hd, rfl⟩)
        rw [et]
        exact notify_self (hsrc _ (et ▸ hself))
      · rcases h.here _ x hx with ⟨y, hy, hyx⟩ | ⟨ε, hε, hε'⟩ | hw
        · refine .inl ⟨y', hy', ?_⟩
          rw [hfy, hy]
          exact hyx
        · exact .inr (.inl ⟨ε, notify_keeps hε, hε'⟩)
        · exact .inr (.inr hw)
    · rw [hoff _ _ e]
      rcases h.here _ x hx with hy | ⟨ε, hε, hε'⟩ | hw
      · exact .inl hy
      · exact .inr (.inl ⟨ε, notify_keeps hε, hε'⟩)
      · exact .inr (.inr hw)
  · intro k y hy hT
    by_cases e : p0.target = O.gvk δ.obj ∧ k = O.key δ.obj
    · obtain ⟨et, rfl⟩ := e
      rcases hkeep et.symm with ⟨_, hd⟩ | ⟨y', hy', hfy⟩
      · rw [hd] at hy; cases hy
      · rw [hy'] at hy
        cases hy
        rw [hfy]
        cases hS : S p0.target (O.key δ.obj) with
        | none => rfl
        | some y0 => exact h.clean _ y0 hS hT
    · rw [hoff _ _ e] at hy
      exact h.clean k y hy hT

/-- The history a controller has evaluated is fine. -/
theorem pcore_fine {O : ObjOps D} {ts : List GVK} {Good Res : D → Prop} {Fine : GVK → List (Delta D) → Prop} {fld : D → V} {blank : V} {p0 : Pipe D J} {S : GVK → Target D}
    {T : Target D} {s : PStation D J} (h : PCore O Good Res fld blank p0 S T s) (hF : ∀ g h δ, Fine g (h ++ [δ]) → Fine g h)
    (hfin : ∀ g ∈ p0.sources, g ∉ ts → Fine g (kindEvents O g (s.base.done.map Prod.snd) ++ s.base.pending g)) :
    FineHist O ts Good Fine p0.sources s.base.done := by
  have hpre : ∀ g a b, Fine g (a ++ b) → Fine g a := by
    intro g a b
    refine list_snoc_ind (P := fun b => Fine g (a ++ b) → Fine g a) (by simp) (fun l δ ih hh => ih (hF g _ δ (by rw [List.append_assoc]; exact hh))) b
  exact ⟨fun e he => (h.core.orders e he).1, fun e he => (h.core.orders e he).2, h.doneGood, core_watchOk h.core, fun g hg hn => hpre g _ _ (hfin g hg hn)⟩

theorem fineHist_prefix {O : ObjOps D} {ts : List GVK} {Good : D → Prop} {Fine : GVK → List (Delta D) → Prop} {sources : List GVK}
    (hF : ∀ g h δ, Fine g (h ++ [δ]) → Fine g h) {a b : List (EvalOrder D × Delta D)} (h : FineHist O ts Good Fine sources (a ++ b)) : FineHist O ts Good Fine sources a := by
  revert h
  refine list_snoc_ind (P := fun b => FineHist O ts Good Fine sources (a ++ b) → FineHist O ts Good Fine sources a) (by simp) (fun l e ih hh => ih ?_) b
  rw [← List.append_assoc] at hh
  refine ⟨fun e he => hh.orders e (List.mem_append_left _ he), fun e he => hh.kinds e (List.mem_append_left _ he), fun e he => hh.good e (List.mem_append_left _ he), ?_, fun g hg hn => ?_⟩
  · have := hh.watch
    rw [List.map_append] at this
    exact watchOk_prefix this
  · have := hh.fine g hg hn
    rw [List.map_append] at this
    simp only [List.map_cons, List.map_nil, kindEvents, List.filter_append] at this ⊢
    by_cases e' : O.gvk e.2.obj = g
    · rw [show List.filter (fun δ => decide (O.gvk δ.obj = g)) [e.2] = [e.2] by simp [e']] at this
      exact hF g _ _ this
    · rw [show List.filter (fun δ => decide (O.gvk δ.obj = g)) [e.2] = [] by simp [e'], List.append_nil] at this
      exact this

/-- What the evaluations so far have led to are results for objects that exist. -/
theorem expect_live {O : ObjOps D} (L : O.Lawful) {ts : List GVK} {Good Res : D → Prop} {Fine : GVK → List (Delta D) → Prop} {cfg : List (PipeOp D J)} {p0 : Pipe D J}
    (hn : (p0.sources.map GVK.kind).Nodup) (hnew : Pipe.new p0.target p0.sources cfg = .ok p0) (hset : Settling O ts Good Fine Res p0.sources p0.target cfg p0)
    (hF : ∀ g h δ, Fine g (h ++ [δ]) → Fine g h) {s : Station D J} (hfine : FineHist O ts Good Fine p0.sources s.done) {k : ObjKey} {x : D}
    (hx : expect O p0 s k = some x) : ∃ y, LiveAs O (s.done.map Prod.snd) p0.target k y := by
  obtain ⟨wss, hr⟩ := hset.ok _ hfine
  obtain ⟨ins, o, h1, h2, h3⟩ := C19_view_maintenance_partial L hn hnew hfine.orders hfine.kinds hfine.watch (by
    intro pre hpre ins o
    obtain ⟨u, hu⟩ := hpre
    have hsplit : s.done = s.done.take pre.length ++ s.done.drop pre.length := (List.take_append_drop _ _).symm
    have e : pre = (s.done.take pre.length).map Prod.snd := by
      rw [List.map_take, ← hu]; simp
    rw [e]
    refine hset.one _ (fineHist_prefix hF (b := s.done.drop pre.length) ?_) ins o
    rw [← hsplit]; exact hfine) hr
  rw [expect, show (runs (evalStep O) p0 s.done).2 = wss.map Except.ok from hr, emitted_ok] at hx
  obtain ⟨d, q1, q2, rfl⟩ := (h3 k x).mp hx
  exact (hset.result _ hfine ins o h1 h2 d x q1 q2).2

/-- An object that is live after the events evaluated but not in the store: its deletion is queued. -/
theorem deleted_pending {O : ObjOps D} {g : GVK} {k : ObjKey} {y : D} {T : Target D} (hT : T k = none) (l : List (Delta D)) (q : List (Delta D)) :
    Feed O g (ofKind O g l ++ q) T → LiveAs O l g k y → ∃ δ ∈ q, δ.type = .deleted ∧ O.key δ.obj = k := by
  intro hf hl
  have hlive : ∀ q, (∀ δ ∈ q, ¬ (δ.type = .deleted ∧ O.key δ.obj = k)) → ∃ d, LiveAs O (ofKind O g l ++ q) g k d := by
    intro q
    refine list_snoc_ind (P := fun q => (∀ δ ∈ q, ¬ (δ.type = .deleted ∧ O.key δ.obj = k)) → ∃ d, LiveAs O (ofKind O g l ++ q) g k d) ?_ ?_ q
    · intro _
      rw [List.append_nil]
      exact ⟨y, (liveAs_ofKind O g k y l).mpr hl⟩
    · intro q δ ih hq
      rw [← List.append_assoc]
      by_cases hc : Concerns O g k δ
      · exact ⟨O.removeUID δ.obj, (liveAs_snoc_of hc).mpr ⟨fun hd => hq δ (by simp) ⟨hd, hc.2.1⟩, rfl⟩⟩
      · obtain ⟨d, hd⟩ := ih (fun ε hε => hq ε (by simp [hε]))
        exact ⟨d, (liveAs_snoc_not hc).mpr hd⟩
  refine Classical.byContradiction (fun hno => ?_)
  obtain ⟨d, hd⟩ := hlive q (fun δ hδ hh => hno ⟨δ, hδ, hh⟩)
  obtain ⟨z, hz, _⟩ := (hf.live k d).mp hd
  rw [hT] at hz
  cases hz

/-- What a patch does to the store. -/
theorem patchWrite_spec {O : ObjOps D} {P : Patching D} {ts : List GVK} {Good Res : D → Prop} {fld : D → V} {blank : V} (hP : P.Sound O ts Good Res fld blank) {S : GVK → Target D} {t : GVK}
    (ht : t ∈ ts) {w : Delta D} {o : D} (hS : StoreOk O S) (hgood : ∀ k y, S t k = some y → Good y) (hty : w.type = .upserted ∨ w.type = .deleted) (he : O.enforce t w.obj = .ok w.obj)
    (hres : Res w.obj) (ho : Good o) {S' : GVK → Target D} {ev : Option (Delta D)} (h : patchWrite O P S t w o = some (S', ev)) :
    StoreOk O S' ∧ (∀ g k, ¬ (g = t ∧ k = O.key w.obj) → S' g k = S g k) ∧
    (S t (O.key w.obj) = none → S' t (O.key w.obj) = none) ∧
    (∀ y0, S t (O.key w.obj) = some y0 → ∃ y, S' t (O.key w.obj) = some y ∧ Good y ∧ fld y = if w.type = .deleted then blank else fld w.obj) ∧
    (ev = none → S' = S) ∧
    (∀ δ, ev = some δ → δ.type = .updated ∧ O.gvk δ.obj = t ∧ O.key δ.obj = O.key w.obj ∧ Good δ.obj ∧ (∃ y0, S t (O.key w.obj) = some y0) ∧
      ∀ l, Feed O t l (S t) → Feed O t (l ++ [δ]) (S' t)) := by
  have hbase : ∀ b, patchBase O S t w o = some b → Good b ∧ O.gvk b = t ∧ O.key b = O.key w.obj := by
    intro b hb
    unfold patchBase at hb
    split at hb
    · rename_i hh
      cases hb
      exact ⟨ho, hh.1, hh.2⟩
    · exact ⟨hgood _ _ hb, hS _ _ _ hb⟩
  have key : ∀ y', O.gvk y' = t → O.key y' = O.key w.obj → Good y' → (fld y' = if w.type = .deleted then blank else fld w.obj) →
      storeReplace S t (O.key w.obj) y' = (S', ev) → StoreOk O S' ∧ (∀ g k, ¬ (g = t ∧ k = O.key w.obj) → S' g k = S g k) ∧
        (S t (O.key w.obj) = none → S' t (O.key w.obj) = none) ∧
        (∀ y0, S t (O.key w.obj) = some y0 → ∃ y, S' t (O.key w.obj) = some y ∧ Good y ∧ fld y = if w.type = .deleted then blank else fld w.obj) ∧
        (ev = none → S' = S) ∧
        (∀ δ, ev = some δ → δ.type = .updated ∧ O.gvk δ.obj = t ∧ O.key δ.obj = O.key w.obj ∧ Good δ.obj ∧ (∃ y0, S t (O.key w.obj) = some y0) ∧
          ∀ l, Feed O t l (S t) → Feed O t (l ++ [δ]) (S' t)) := by
    intro y' h1 h2 h3 h4 hr
    unfold storeReplace at hr
    split at hr
    · rename_i hnone
      cases hr
      exact ⟨hS, fun _ _ _ => rfl, fun _ => hnone, fun y0 hy => (by rw [hnone] at hy; cases hy), fun _ => rfl, by simp⟩
    · rename_i y0 hy0
      split at hr
      · rename_i hyy
        cases hr
        exact ⟨hS, fun _ _ _ => rfl, fun hn => hn, fun y hy => ⟨y0, hy0, hyy ▸ h3, hyy ▸ h4⟩, fun _ => rfl, by simp⟩
      · cases hr
        -- like an update by a user
        have hw : storeWrite O (fun _ x => x) S t ⟨.updated, y'⟩ = (storePut S t (O.key w.obj) (some y'), some ⟨.updated, y'⟩) := by
          rw [storeWrite_present (y := y0) (by simpa [h2] using hy0)]
          simp [h2]
        obtain ⟨a1, a2, a3, a4, _⟩ := storeWrite_spec (put := fun _ x => x) (g := t) (w := (⟨.updated, y'⟩ : Delta D)) hS ⟨h1, rfl⟩
        rw [hw] at a1 a2 a3 a4
        simp only [h2] at a2 a3
        refine ⟨a1, a2, fun hn => (by rw [hy0] at hn; cases hn), fun y hy => ⟨y', ?_, h3, h4⟩, by simp, ?_⟩
        · simpa using a3
        · intro δ hδ
          cases hδ
          exact ⟨rfl, h1, h2, h3, ⟨y0, hy0⟩, (a4 _ rfl).2⟩
  unfold patchWrite at h
  rcases hty with e | e
  · rw [e] at h key
    cases hb : patchBase O S t w o with
    | none => rw [hb] at h; cases h
    | some b =>
      rw [hb] at h
      obtain ⟨b1, b2, b3⟩ := hbase b hb
      obtain ⟨u1, u2, u3, u4⟩ := hP.upsert t ht b w.obj he hres b1 b2 b3
      rw [e]
      exact key _ u1 u2 u3 (by simpa using u4) (by simpa using h)
  · rw [e] at h key
    cases hb : patchBase O S t w o with
    | none =>
      rw [hb] at h
      simp only [Option.some.injEq, Prod.mk.injEq] at h
      obtain ⟨rfl, rfl⟩ := h
      have hn : S t (O.key w.obj) = none := by
        unfold patchBase at hb
        split at hb
        · cases hb
        · exact hb
      exact ⟨hS, fun _ _ _ => rfl, fun h => h, fun y0 hy => (by rw [hn] at hy; cases hy), fun _ => rfl, by simp⟩
    | some b =>
      rw [hb] at h
      obtain ⟨b1, b2, b3⟩ := hbase b hb
      obtain ⟨u1, u2, u3, u4⟩ := hP.remove t ht b w.obj he hres b1 b2 b3
      rw [e]
      exact key _ u1 u2 u3 (by simpa using u4) (by simpa using h)

theorem mem_eraseIdx_of {A : Type} {l : List A} {n : Nat} {a b : A} (hn : l[n]? = some a) (hb : b ∈ l) (hne : b ≠ a) : b ∈ l.eraseIdx n := by
  obtain ⟨m, hm⟩ := List.getElem?_of_mem hb
  rw [List.mem_eraseIdx_iff_getElem?]
  refine ⟨m, ?_, hm⟩
  rintro rfl
  rw [hn] at hm
  exact hne (Option.some.inj hm).symm

/-- The controller after the event, if there is one. -/
def PStation.told (O : ObjOps D) (s : PStation D J) : Option (Delta D) → PStation D J
  | none => s
  | some δ => { s with base := s.base.notify O δ }

/-- A controller sends a patch. -/
theorem pcore_send {O : ObjOps D} (L : O.Lawful) {P : Patching D} {ts : List GVK} {Good Res : D → Prop} {Fine : GVK → List (Delta D) → Prop} {fld : D → V} {blank : V}
    (hP : P.Sound O ts Good Res fld blank) (hF : ∀ g h δ, Fine g (h ++ [δ]) → Fine g h) {p0 : Pipe D J} (hsp : SelfPatching O ts Good Fine Res p0) (ht : p0.target ∈ ts) {S S' : GVK → Target D}
    {T : Target D} {s : PStation D J} (h : PCore O Good Res fld blank p0 S T s) (hS : StoreOk O S) (hgood : ∀ k y, S p0.target k = some y → Good y)
    (hfin : ∀ g ∈ p0.sources, g ∉ ts → Fine g (kindEvents O g (s.base.done.map Prod.snd) ++ s.base.pending g)) {n : Nat} {w : Delta D} {o : D} {s1 : PStation D J}
    (hsd : s.send O n = some (w, o, s1)) {ev : Option (Delta D)} (hpw : patchWrite O P S p0.target w o = some (S', ev)) :
    PCore O Good Res fld blank p0 S' (Target.write O T w) (s1.told O ev) := by
  obtain ⟨cfg, hn, hnew, hself, hset⟩ := hsp.ex
  unfold PStation.send at hsd
  split at hsd
  case h_2 => cases hsd
  rename_i w' b o' hb ho'
  cases hsd
  obtain ⟨d1, d2, rfl⟩ := send_some hb
  have hwm := List.mem_of_getElem? d1
  obtain ⟨o1, o2, o3⟩ := h.out w hwm
  obtain ⟨a1, a2, a3, a4, a5, a6⟩ := patchWrite_spec hP ht hS hgood o1 o2 o3 (h.snapGood o (List.mem_of_getElem? ho')) hpw
  have hfine := pcore_fine h hF hfin
  have hnl : n < s.base.out.length := (List.getElem?_eq_some_iff.mp d1).1
  have htr : Target.writes O (Target.write O T w) (s.base.out.eraseIdx n) = expect O p0 s.base := (writes_eraseIdx O _ n T d1 d2).trans h.track
  have hrest : ∀ k x, Target.write O T w k = some x → (∃ y, S' p0.target k = some y ∧ fld y = fld x) ∨
      (∃ δ ∈ s.base.pending p0.target, δ.type = .deleted ∧ O.key δ.obj = k) ∨ ∃ v ∈ s.base.out.eraseIdx n, O.key v.obj = k := by
    intro k x hx
    unfold Target.write at hx
    by_cases e : O.key w.obj = k
    · subst e
      rw [if_pos rfl] at hx
      split at hx
      · cases hx
      · rename_i hnd
        cases hx
        cases hSk : S p0.target (O.key w.obj) with
        | some y0 =>
          obtain ⟨y, hy, _, hfy⟩ := a4 y0 hSk
          exact .inl ⟨y, hy, by rw [hfy, if_neg hnd]⟩
        | none =>
          by_cases hv : ∃ v ∈ s.base.out.eraseIdx n, O.key v.obj = O.key w.obj
          · exact .inr (.inr hv)
          · refine .inr (.inl ?_)
            have hex : expect O p0 s.base (O.key w.obj) = some w.obj := by
              rw [← htr, writes_apart _ _ _ (fun v hv' hk => hv ⟨v, hv', hk⟩), Target.write, if_pos rfl, if_neg hnd]
            obtain ⟨y, hy⟩ := expect_live L hn hnew hset hF hfine hex
            exact deleted_pending hSk _ _ (h.core.feeds _ hself) hy
    · rw [if_neg e] at hx
      rw [a2 _ _ (fun hh => e hh.2.symm)]
      rcases h.here k x hx with hy | hy | ⟨v, hv, hk⟩
      · exact .inl hy
      · exact .inr (.inl hy)
      · exact .inr (.inr ⟨v, mem_eraseIdx_of d1 hv (by rintro rfl; exact e hk), hk⟩)
  have hclean : ∀ k y, S' p0.target k = some y → Target.write O T w k = none → fld y = blank := by
    intro k y hy hT
    unfold Target.write at hT
    by_cases e : O.key w.obj = k
    · subst e
      rw [if_pos rfl] at hT
      split at hT
      · rename_i hd
        cases hSk : S p0.target (O.key w.obj) with
        | none => rw [a3 hSk] at hy; cases hy
        | some y0 =>
          obtain ⟨y', hy', _, hfy⟩ := a4 y0 hSk
          rw [hy'] at hy
          cases hy
          rw [hfy, if_pos hd]
      · cases hT
    · rw [if_neg e] at hT
      rw [a2 _ _ (fun hh => e hh.2.symm)] at hy
      exact h.clean k y hy hT
  have hlen : (s.snaps.eraseIdx n).length = (s.base.out.eraseIdx n).length := by
    rw [List.length_eraseIdx, List.length_eraseIdx, h.len]
  cases ev with
  | none =>
    have hSS : S' = S := a5 rfl
    subst hSS
    simp only [PStation.told]
    exact ⟨core_send h.core _, hlen, by rw [htr]; exact (expect_congr rfl).symm, fun v hv => h.out v (List.mem_of_mem_eraseIdx hv),
      fun v hv => h.snapGood v (List.mem_of_mem_eraseIdx hv), h.pendGood, h.doneGood, hrest, hclean⟩
  | some δ =>
    obtain ⟨e1, e2, e3, e4, _, e6⟩ := a6 δ rfl
    obtain ⟨n1, n2, n3⟩ := notify_done O δ { s.base with out := s.base.out.eraseIdx n }
    simp only [PStation.told]
    refine ⟨core_notify (core_send h.core _) (fun g k hgk => a2 g k (fun hh => hgk (hh.1.trans e2.symm))) (by rw [e2]; exact e6), ?_, ?_, ?_,
      fun v hv => h.snapGood v (List.mem_of_mem_eraseIdx hv), ?_, ?_, ?_, hclean⟩
    · simp only [n3]; exact hlen
    · simp only [n3]; rw [htr, expect_congr n1]; exact (expect_congr rfl).symm
    · simp only [n3]; exact fun v hv => h.out v (List.mem_of_mem_eraseIdx hv)
    · intro g ε hε
      rcases notify_pending hε with h' | rfl
      · exact h.pendGood g ε h'
      · exact e4
    · simp only [n1]; exact h.doneGood
    · intro k x hx
      simp only [n3]
      rcases hrest k x hx with hy | ⟨ε, hε, hε'⟩ | hw
      · exact .inl hy
      · exact .inr (.inl ⟨ε, notify_keeps hε, hε'⟩)
      · exact .inr (.inr hw)

theorem pwork_some {O : ObjOps D} {ω : EvalOrder D} {g : GVK} {s s' : PStation D J} (h : s.work O ω g = some s') :
    g ∈ s.base.pipe.sources ∧ ∃ δ q p' ws, s.base.pending g = δ :: q ∧ s.base.pipe.evaluate O ω δ = (p', .ok ws) ∧ s.base.work O ω g = some s'.base ∧
      s'.base = { pipe := p', pending := fun g' => if g' = g then q else s.base.pending g', out := s.base.out ++ ws, done := s.base.done ++ [(ω, δ)] } ∧
      s'.snaps = s.snaps ++ List.replicate ws.length δ.obj := by
  unfold PStation.work at h
  split at h
  case h_2 => cases h
  rename_i δ0 q0 b hq hb
  cases h
  obtain ⟨hg, δ, q, p', ws, hq', he, rfl⟩ := work_some hb
  rw [hq] at hq'
  cases hq'
  exact ⟨hg, δ0, q0, p', ws, hq, he, hb, rfl, by simp⟩

/-- The history with the next event is fine too. -/
theorem pcore_fine_next {O : ObjOps D} {ts : List GVK} {Good Res : D → Prop} {Fine : GVK → List (Delta D) → Prop} {fld : D → V} {blank : V} {p0 : Pipe D J}
    {S : GVK → Target D} {T : Target D} {s : PStation D J} (h : PCore O Good Res fld blank p0 S T s) (hF : ∀ g h δ, Fine g (h ++ [δ]) → Fine g h)
    (hfin : ∀ g ∈ p0.sources, g ∉ ts → Fine g (kindEvents O g (s.base.done.map Prod.snd) ++ s.base.pending g)) {g : GVK} (hg : g ∈ p0.sources) {δ : Delta D}
    {q : List (Delta D)} (hq : s.base.pending g = δ :: q) {ω : EvalOrder D} (hω : ω.Valid) : FineHist O ts Good Fine p0.sources (s.base.done ++ [(ω, δ)]) := by
  have hfine := pcore_fine h hF hfin
  have hf := h.core.feeds g hg
  have hk : O.gvk δ.obj = g := hf.kind δ (by rw [hq]; simp)
  have hpre : ∀ g a b, Fine g (a ++ b) → Fine g a := by
    intro g a b
    refine list_snoc_ind (P := fun b => Fine g (a ++ b) → Fine g a) (by simp) (fun l δ ih hh => ih (hF g _ δ (by rw [List.append_assoc]; exact hh))) b
  refine ⟨?_, ?_, ?_, ?_, ?_⟩
  · intro e he
    rcases List.mem_append.mp he with he | he
    · exact hfine.orders e he
    · cases List.mem_singleton.mp he; exact hω
  · intro e he
    rcases List.mem_append.mp he with he | he
    · exact hfine.kinds e he
    · cases List.mem_singleton.mp he; exact hk ▸ hg
  · intro e he
    rcases List.mem_append.mp he with he | he
    · exact hfine.good e he
    · cases List.mem_singleton.mp he; exact h.pendGood g δ (by rw [hq]; simp)
  · rw [List.map_append]
    refine watchOk_of_kinds _ (fun g' hg' => ?_)
    rw [List.map_cons, List.map_nil, ofKind_snoc]
    by_cases e : O.gvk δ.obj = g'
    · rw [if_pos e]
      have := hf.ok
      rw [hq, ← hk, e, show δ :: q = [δ] ++ q from rfl, ← List.append_assoc] at this
      exact watchOk_prefix this
    · rw [if_neg e]
      simp only [List.map_append, List.map_map, List.mem_append, List.mem_map, List.map_cons, List.map_nil, List.mem_singleton] at hg'
      rcases hg' with ⟨e', he', rfl⟩ | rfl
      · exact watchOk_prefix (h.core.feeds _ (h.core.orders e' he').2).ok
      · exact absurd rfl e
  · intro g' hg' hn
    have := hfin g' hg' hn
    rw [List.map_append, List.map_cons, List.map_nil]
    rw [show kindEvents O g' (s.base.done.map Prod.snd ++ [δ]) = _ from ofKind_snoc O g' _ δ]
    by_cases e : O.gvk δ.obj = g'
    · rw [if_pos e]
      rw [← e, hk, hq, show δ :: q = [δ] ++ q from rfl, ← List.append_assoc] at this
      rw [← e, hk]
      exact hpre _ _ _ this
    · rw [if_neg e]
      exact hpre _ _ _ this

/-- A controller evaluates an event. -/
theorem pcore_work {O : ObjOps D} (L : O.Lawful) {ts : List GVK} {Good Res : D → Prop} {Fine : GVK → List (Delta D) → Prop} {fld : D → V} {blank : V}
    (hF : ∀ g h δ, Fine g (h ++ [δ]) → Fine g h) {p0 : Pipe D J} (hsp : SelfPatching O ts Good Fine Res p0) {S : GVK → Target D}
    {T : Target D} {s s' : PStation D J} (h : PCore O Good Res fld blank p0 S T s)
    (hfin : ∀ g ∈ p0.sources, g ∉ ts → Fine g (kindEvents O g (s.base.done.map Prod.snd) ++ s.base.pending g)) {g : GVK} {ω : EvalOrder D} (hω : ω.Valid)
    (hwk : s.work O ω g = some s') : PCore O Good Res fld blank p0 S T s' := by
  obtain ⟨cfg, hn, hnew, hself, hset⟩ := hsp.ex
  obtain ⟨hg, δ, q, p', ws, hq, he, hbw, hb, hsn⟩ := pwork_some hwk
  have hgs : g ∈ p0.sources := h.core.srcs ▸ hg
  have hk : O.gvk δ.obj = g := (h.core.feeds g hgs).kind δ (by rw [hq]; simp)
  obtain ⟨c1, ws', c2, c3, c4⟩ := core_work L h.core hω hbw
  have hws : ws' = ws := by
    rw [hb] at c2
    exact (List.append_cancel_left c2).symm
  subst hws
  have hfine := pcore_fine_next h hF hfin hgs hq hω
  have hgood : Good δ.obj := h.pendGood g δ (by rw [hq]; simp)
  have htr : Target.writes O T s'.base.out = expect O p0 s'.base := by rw [c2, Target.writes_append, h.track, c3]
  have hdone : s'.base.done = s.base.done ++ [(ω, δ)] := by rw [hb]
  have hpend : ∀ g', s'.base.pending g' = if g' = g then q else s.base.pending g' := by intro g'; rw [hb]
  refine ⟨c1, ?_, htr, ?_, ?_, ?_, ?_, ?_, h.clean⟩
  · rw [hsn, c2]; simp [h.len]
  · intro w hw
    rw [c2] at hw
    rcases List.mem_append.mp hw with hw | hw
    · exact h.out w hw
    · refine ⟨?_, c4 w hw, ?_⟩
      · have := step_enforced L s.base.pipe (ω, some δ) hω (ws := ws') (by simp only [Pipe.step]; rw [he])
        exact (this w hw).1
      · obtain ⟨wss, hr⟩ := hset.ok _ hfine
        obtain ⟨a, w0, b0, r0, r1, r2, r3⟩ := runs_at _ (h1 := s.base.done) (e := (ω, δ)) (h2 := []) hr
        have hwe : w0 = ws' := by
          have hp : s.base.pipe = (runs (evalStep O) p0 s.base.done).1 := h.core.pipe
          rw [show (runs (fun p (e : EvalOrder D × Delta D) => p.evaluate O e.1 e.2) p0 s.base.done).1 = s.base.pipe from hp.symm] at r2
          simp only at r2
          rw [he] at r2
          cases r2; rfl
        have hal : a.length = s.base.done.length := by
          have := congrArg List.length r1
          rw [runs_length] at this
          simpa using this.symm
        have hone : ∀ pre, pre <+: (s.base.done ++ [(ω, δ)]).map Prod.snd → ∀ ins o, LiveInputs O pre p0.sources ins → PipelineSpec cfg ins o → OnePerName O p0.target o := by
          intro pre hpre ins o
          obtain ⟨u, hu⟩ := hpre
          have e : pre = ((s.base.done ++ [(ω, δ)]).take pre.length).map Prod.snd := by
            rw [List.map_take, ← hu]; simp
          rw [e]
          refine hset.one _ (fineHist_prefix hF (b := (s.base.done ++ [(ω, δ)]).drop pre.length) ?_) ins o
          rw [List.take_append_drop]; exact hfine
        obtain ⟨h', hh', _, ins, o, d, q1, q2, q3, q4⟩ := writes_from_docs L hn hnew (h1 := s.base.done) (h2 := [(ω, δ)]) hfine.orders hfine.kinds hfine.watch hone
          (a := a) (b := w0 :: b0) hal (by rw [hr, r0]) w (by rw [hwe]; simp [hw])
        obtain ⟨u, hu⟩ := hh'
        exact (hset.result (s.base.done ++ h') (fineHist_prefix hF (b := u) (by rw [List.append_assoc, hu]; exact hfine)) ins o q1 q2 d _ q3 q4).1
  · intro o ho
    rw [hsn] at ho
    rcases List.mem_append.mp ho with ho | ho
    · exact h.snapGood o ho
    · rw [(List.mem_replicate.mp ho).2]; exact hgood
  · intro g' ε hε
    rw [hpend] at hε
    split at hε
    · exact h.pendGood g ε (by rw [hq]; exact List.mem_cons_of_mem _ hε)
    · exact h.pendGood g' ε hε
  · intro e he'
    rw [hdone] at he'
    rcases List.mem_append.mp he' with he' | he'
    · exact h.doneGood e he'
    · cases List.mem_singleton.mp he'; exact hgood
  · intro k x hx
    rcases h.here k x hx with hy | ⟨ε, hε, hεd, hεk⟩ | ⟨w, hw, hwk'⟩
    · exact .inl hy
    · rw [hpend]
      by_cases eg : p0.target = g
      · rw [if_pos eg]
        rw [eg, hq] at hε
        rcases List.mem_cons.mp hε with rfl | hε
        · by_cases hv : ∃ w ∈ s'.base.out, O.key w.obj = k
          · exact .inr (.inr hv)
          · exfalso
            have hex : expect O p0 s'.base k = some x := by
              rw [← htr, writes_apart _ _ _ (fun v hv' hk => hv ⟨v, hv', hk⟩)]; exact hx
            obtain ⟨y, hy⟩ := expect_live L hn hnew hset hF (s := s'.base) (by rw [hdone]; exact hfine) hex
            rw [hdone, List.map_append, List.map_cons, List.map_nil] at hy
            have hc : Concerns O p0.target k ε := ⟨by rw [hk, eg], hεk, by rw [hεd]; simp⟩
            exact ((liveAs_snoc_of hc).mp hy).1 hεd
        · exact .inr (.inl ⟨ε, hε, hεd, hεk⟩)
      · rw [if_neg eg]
        exact .inr (.inl ⟨ε, hε, hεd, hεk⟩)
    · exact .inr (.inr ⟨w, by rw [c2]; exact List.mem_append_left _ hw, hwk'⟩)

/-! ### Updates are of objects that exist -/

/-- An update in the streams of a controller is one of an object that exists. -/
def UpdLive (O : ObjOps D) (s : Station D J) : Prop :=
  ∀ g ∈ s.pipe.sources, ∀ pre δ post, ofKind O g (s.done.map Prod.snd) ++ s.pending g = pre ++ δ :: post → δ.type = .updated → ∃ y, LiveAs O pre g (O.key δ.obj) y

theorem updLive_notify {O : ObjOps D} {p0 : Pipe D J} {S : GVK → Target D} {s : Station D J} (hc : Core O p0 S s) (h : UpdLive O s) {δ : Delta D}
    (hδ : δ.type = .updated → ∃ y, S (O.gvk δ.obj) (O.key δ.obj) = some y) : UpdLive O (s.notify O δ) := by
  intro g hg pre ε post he hu
  obtain ⟨n1, n2, n3⟩ := notify_done O δ s
  rw [n2] at hg
  rw [n1] at he
  unfold Station.notify at he
  split at he
  · simp only at he
    by_cases e : g = O.gvk δ.obj
    · rw [if_pos e, ← List.append_assoc] at he
      rcases snoc_split he with ⟨_, rfl, rfl⟩ | ⟨q, _, hq⟩
      · obtain ⟨y, hy⟩ := hδ hu
        exact ⟨_, ((hc.feeds g (hc.srcs ▸ hg)).live (O.key δ.obj) (O.removeUID y)).mpr ⟨y, by rw [e]; exact hy, rfl⟩⟩
      · exact h g hg pre ε q hq hu
    · rw [if_neg e] at he
      exact h g hg pre ε post he hu
  · exact h g hg pre ε post he hu

theorem work_stream {O : ObjOps D} {ω : EvalOrder D} {g : GVK} {s s' : PStation D J} (hk : ∀ δ ∈ s.base.pending g, O.gvk δ.obj = g) (h : s.work O ω g = some s') (g' : GVK) :
    ofKind O g' (s'.base.done.map Prod.snd) ++ s'.base.pending g' = ofKind O g' (s.base.done.map Prod.snd) ++ s.base.pending g' := by
  obtain ⟨hg, δ, q, p', ws, hq, he, hbw, hb, hsn⟩ := pwork_some h
  have hkd : O.gvk δ.obj = g := hk δ (by rw [hq]; simp)
  rw [hb]
  simp only [List.map_append, List.map_cons, List.map_nil]
  rw [ofKind_snoc, hkd]
  by_cases e : g = g'
  · subst e
    simp [hq]
  · rw [if_neg e, if_neg (Ne.symm e)]

theorem work_sources {O : ObjOps D} {ω : EvalOrder D} {g : GVK} {s s' : PStation D J} (h : s.work O ω g = some s') : s'.base.pipe.sources = s.base.pipe.sources := by
  obtain ⟨hg, δ, q, p', ws, hq, he, hbw, hb, hsn⟩ := pwork_some h
  have := (evaluate_same O ω s.base.pipe δ).1
  rw [he] at this
  rw [hb]
  exact this

/-! ### All controllers -/

/-- All controllers, which were started as `ps`. -/
structure PInv (O : ObjOps D) (Good Res : D → Prop) (fld : D → V) (blank : V) (ps : List (Pipe D J)) (W : PWorld D J) : Prop where
  store : StoreOk O W.store
  good : ∀ g k y, W.store g k = some y → Good y
  len : W.stations.length = ps.length
  each : ∀ (i : Nat) p0 s, ps[i]? = some p0 → W.stations[i]? = some s → (∃ T, PCore O Good Res fld blank p0 W.store T s) ∧ UpdLive O s.base

theorem pinv_init (O : ObjOps D) (Good Res : D → Prop) (fld : D → V) (blank : V) (ps : List (Pipe D J)) : PInv O Good Res fld blank ps (PWorld.init ps) := by
  refine ⟨fun g k y hy => (by cases hy), fun g k y hy => (by cases hy), by simp [PWorld.init], fun i p0 s hp hs => ?_⟩
  simp only [PWorld.init, List.getElem?_map, hp, Option.map_some, Option.some.injEq] at hs
  subst hs
  refine ⟨⟨fun _ => none, ⟨⟨rfl, rfl, rfl, by simp [runs], by simp, fun g _ => by simpa [ofKind, PWorld.init] using feed_empty O g⟩, rfl, rfl, by simp, by simp, by simp, by simp,
    by simp, fun k y hy => by cases hy⟩⟩, ?_⟩
  intro g _ pre δ post he
  simp [ofKind] at he

/-- The streams of events of a controller get longer. -/
theorem streams_notify {O : ObjOps D} {s : Station D J} {δ : Delta D} {g : GVK} : (s.notify O δ).done = s.done ∧ (s.notify O δ).pipe.sources = s.pipe.sources ∧
    ((s.notify O δ).pending g = s.pending g ∨ (g = O.gvk δ.obj ∧ (s.notify O δ).pending g = s.pending g ++ [δ])) := by
  obtain ⟨n1, n2, _⟩ := notify_done O δ s
  refine ⟨n1, by rw [n2], ?_⟩
  unfold Station.notify
  split
  · simp only
    split
    · rename_i e; exact .inr ⟨e, rfl⟩
    · exact .inl rfl
  · exact .inl rfl

theorem pact_work {O : ObjOps D} {P : Patching D} {W W' : PWorld D J} {i : Nat} {g : GVK} {ω : EvalOrder D} (h : W.act O P (.work i g ω) = some W') :
    ∃ s s', W.stations[i]? = some s ∧ s.work O ω g = some s' ∧ W' = { W with stations := W.stations.set i s' } := by
  simp only [PWorld.act] at h
  split at h
  · cases h
  · rename_i s hs
    split at h
    · cases h
    · rename_i s' hwk
      cases h
      exact ⟨s, s', hs, hwk, rfl⟩

theorem pact_send {O : ObjOps D} {P : Patching D} {W W' : PWorld D J} {i n : Nat} (h : W.act O P (.send i n) = some W') :
    ∃ s s' w o r, W.stations[i]? = some s ∧ s.send O n = some (w, o, s') ∧ patchWrite O P W.store s.base.pipe.target w o = some r ∧
      W' = PWorld.notify O { W with stations := W.stations.set i s' } r := by
  simp only [PWorld.act] at h
  split at h
  · cases h
  · rename_i s hs
    split at h
    · cases h
    · rename_i w o s' hwk
      split at h
      · cases h
      · rename_i r hr
        cases h
        exact ⟨s, s', w, o, r, hs, hwk, hr, rfl⟩

theorem pnotify_get {O : ObjOps D} {W : PWorld D J} {r : (GVK → Target D) × Option (Delta D)} {j : Nat} {t : PStation D J} (h : (W.notify O r).stations[j]? = some t) :
    ∃ s, W.stations[j]? = some s ∧ t = s.told O r.2 := by
  obtain ⟨S, ev⟩ := r
  cases ev with
  | none => exact ⟨t, h, rfl⟩
  | some δ =>
    simp only [PWorld.notify, List.getElem?_map, Option.map_eq_some_iff] at h
    obtain ⟨s, hs, rfl⟩ := h
    exact ⟨s, hs, rfl⟩

theorem pnotify_store {O : ObjOps D} {W : PWorld D J} {r : (GVK → Target D) × Option (Delta D)} : (W.notify O r).store = r.1 ∧
    (W.notify O r).stations.length = W.stations.length := by
  obtain ⟨S, ev⟩ := r
  cases ev <;> simp [PWorld.notify]

theorem psend_some {O : ObjOps D} {n : Nat} {s s' : PStation D J} {w : Delta D} {o : D} (h : s.send O n = some (w, o, s')) : w ∈ s.base.out ∧ o ∈ s.snaps ∧
    s'.base = { s.base with out := s.base.out.eraseIdx n } := by
  unfold PStation.send at h
  split at h
  case h_2 => cases h
  rename_i w' b o' hb ho'
  cases h
  obtain ⟨d1, d2, rfl⟩ := send_some hb
  exact ⟨List.mem_of_getElem? d1, List.mem_of_getElem? ho', rfl⟩

theorem nodup_targets {ps : List (Pipe D J)} (hnd : (ps.map Pipe.target).Nodup) {i j : Nat} {p q : Pipe D J} (hp : ps[i]? = some p) (hq : ps[j]? = some q)
    (h : p.target = q.target) : i = j := by
  obtain ⟨hi, rfl⟩ := List.getElem?_eq_some_iff.mp hp
  obtain ⟨hj, rfl⟩ := List.getElem?_eq_some_iff.mp hq
  have := List.getElem_inj (i := i) (j := j) (h₀ := by simpa using hi) (h₁ := by simpa using hj) hnd
  exact this.mp (by simpa using h)

/-- What a user's write does. -/
theorem userWrite_event {O : ObjOps D} {S : GVK → Target D} (hS : StoreOk O S) {w δ : Delta D} (h : (storeWrite O (fun _ x => x) S (O.gvk w.obj) w).2 = some δ) :
    O.key δ.obj = O.key w.obj ∧ (δ.type = .updated → ∃ y, S (O.gvk w.obj) (O.key w.obj) = some y) ∧ (w.type = .deleted → δ.type = .deleted) := by
  cases hold : S (O.gvk w.obj) (O.key w.obj) with
  | none =>
    rw [storeWrite_absent hold] at h
    split at h
    · cases h
    · rename_i hn
      simp only [Option.some.injEq] at h
      subst h
      exact ⟨rfl, by simp, fun e => absurd e hn⟩
  | some y =>
    rw [storeWrite_present hold] at h
    split at h
    · simp only [Option.some.injEq] at h
      subst h
      exact ⟨(hS _ _ _ hold).2, by simp, fun _ => rfl⟩
    · rename_i hn
      simp only [Option.some.injEq] at h
      subst h
      exact ⟨rfl, fun _ => ⟨y, rfl⟩, fun e => absurd e hn⟩

theorem pinv_act {O : ObjOps D} (L : O.Lawful) {P : Patching D} {ts : List GVK} {Good Res : D → Prop} {Fine : GVK → List (Delta D) → Prop} {fld : D → V} {blank : V}
    (hP : P.Sound O ts Good Res fld blank) (hF : ∀ g h δ, Fine g (h ++ [δ]) → Fine g h) {ps : List (Pipe D J)} (hnd : (ps.map Pipe.target).Nodup)
    (hts : ∀ p ∈ ps, p.target ∈ ts) (hsp : ∀ p ∈ ps, SelfPatching O ts Good Fine Res p) {W W' : PWorld D J} (h : PInv O Good Res fld blank ps W)
    (hfin : W.FineEvents O ts Fine) {a : LoopAct D} (ha : a.Polite O ts Good fld blank W.store) (hact : W.act O P a = some W') : PInv O Good Res fld blank ps W' := by
  have hfin' : ∀ (i : Nat) p0 s, ps[i]? = some p0 → W.stations[i]? = some s → ∀ g ∈ p0.sources, g ∉ ts →
      Fine g (kindEvents O g (s.base.done.map Prod.snd) ++ s.base.pending g) := by
    intro i p0 s hp hs g hg hn
    obtain ⟨⟨T, hc⟩, _⟩ := h.each i p0 s hp hs
    exact hfin i s hs g (by rw [hc.core.srcs]; exact hg) hn
  have hself : ∀ (i : Nat) p0, ps[i]? = some p0 → p0.target ∈ p0.sources := by
    intro i p0 hp
    obtain ⟨_, _, _, h, _⟩ := (hsp p0 (List.mem_of_getElem? hp)).ex
    exact h
  cases a with
  | user w =>
    simp only [PWorld.act, Option.some.injEq] at hact
    subst hact
    obtain ⟨a1, a2, a3, a4, a5⟩ := storeWrite_spec (put := fun _ x => x) (g := O.gvk w.obj) (w := w) h.store ⟨rfl, rfl⟩
    have hg := storeWrite_good (O := O) (put := fun _ x => x) (Good := Good) (S := W.store) (g := O.gvk w.obj) (w := w) h.good (fun _ _ => ha.1)
    have hu := fun δ => userWrite_event (w := w) (δ := δ) h.store
    generalize hr : storeWrite O (fun _ x => x) W.store (O.gvk w.obj) w = r at *
    obtain ⟨p1, p2⟩ := pnotify_store (O := O) (W := W) (r := r)
    refine ⟨by rw [p1]; exact a1, by rw [p1]; exact hg.1, by rw [p2]; exact h.len, fun j q t hq ht => ?_⟩
    obtain ⟨s, hs, rfl⟩ := pnotify_get ht
    rw [p1]
    obtain ⟨⟨T, hc⟩, hul⟩ := h.each j q s hq hs
    cases hev : r.2 with
    | none => simp only [PStation.told]; rw [a5 hev]; exact ⟨⟨T, hc⟩, hul⟩
    | some δ =>
      simp only [PStation.told]
      obtain ⟨g1, g2⟩ := a4 δ hev
      obtain ⟨u1, u2, u3⟩ := hu δ hev
      refine ⟨⟨T, pcore_event hc (hself j q hq) (hg.2 δ hev) ?_ ?_ ?_⟩, updLive_notify hc.core hul ?_⟩
      · rw [g1, u1]; exact a2
      · rw [g1]; exact g2
      · intro e
        have et : O.gvk w.obj = q.target := by rw [← g1]; exact e
        rw [u1]
        by_cases hd : w.type = .deleted
        · exact .inl ⟨u3 hd, by rw [← et, a3, if_pos hd]⟩
        · refine .inr ⟨w.obj, by rw [← et, a3, if_neg hd], ?_⟩
          have := ha.2 (et ▸ hts q (List.mem_of_getElem? hq)) hd
          rw [et] at this
          exact this
      · rw [g1, u1]; exact u2
  | work i g ω =>
    obtain ⟨s, s', hs, hwk, rfl⟩ := pact_work hact
    have hi : i < ps.length := by rw [← h.len]; exact (List.getElem?_eq_some_iff.mp hs).1
    have hp0 : ps[i]? = some ps[i] := List.getElem?_eq_getElem hi
    refine ⟨h.store, h.good, by simp [h.len], fun j q t hq ht => ?_⟩
    simp only at ht
    by_cases e : i = j
    · subst e
      rw [List.getElem?_set_self (by rw [h.len]; exact hi)] at ht
      cases ht
      obtain ⟨⟨T, hc⟩, hul⟩ := h.each i q s hq hs
      refine ⟨⟨T, pcore_work L hF (hsp q (List.mem_of_getElem? hq)) hc (hfin' i q s hq hs) ha hwk⟩, ?_⟩
      intro g' hg' pre δ post he
      rw [work_stream ?_ hwk] at he
      · exact hul g' (by rw [← work_sources hwk]; exact hg') pre δ post he
      · intro ε hε
        exact (hc.core.feeds g (by rw [← hc.core.srcs]; exact (pwork_some hwk).1)).kind ε (by simp [hε])
    · rw [List.getElem?_set_ne e] at ht
      exact h.each j q t hq ht
  | send i n =>
    obtain ⟨s, s', w, o, r, hs, hsd, hpw, rfl⟩ := pact_send hact
    have hi : i < ps.length := by rw [← h.len]; exact (List.getElem?_eq_some_iff.mp hs).1
    have hp0 : ps[i]? = some ps[i] := List.getElem?_eq_getElem hi
    obtain ⟨⟨T, hc⟩, hul⟩ := h.each i _ s hp0 hs
    rw [hc.core.tgt] at hpw
    obtain ⟨q1, q2, q3⟩ := psend_some hsd
    obtain ⟨o1, o2, o3⟩ := hc.out w q1
    obtain ⟨a1, a2, a3, a4, a5, a6⟩ := patchWrite_spec (S' := r.1) (ev := r.2) hP (hts _ (List.getElem_mem hi)) h.store (h.good _) o1 o2 o3 (hc.snapGood o q2) hpw
    have hci := pcore_send L hP hF (hsp _ (List.getElem_mem hi)) (hts _ (List.getElem_mem hi)) hc h.store (h.good _) (hfin' i _ s hp0 hs) (S' := r.1) (ev := r.2) hsd hpw
    obtain ⟨p1, p2⟩ := pnotify_store (O := O) (W := { W with stations := W.stations.set i s' }) (r := r)
    have hgood' : ∀ g k y, r.1 g k = some y → Good y := by
      intro g k y hy
      by_cases e : g = ps[i].target ∧ k = O.key w.obj
      · obtain ⟨rfl, rfl⟩ := e
        cases hS : W.store ps[i].target (O.key w.obj) with
        | none => rw [a3 hS] at hy; cases hy
        | some y0 =>
          obtain ⟨y', h1, h2, _⟩ := a4 y0 hS
          rw [h1] at hy
          cases hy
          exact h2
      · rw [a2 g k e] at hy
        exact h.good g k y hy
    refine ⟨by rw [p1]; exact a1, by rw [p1]; exact hgood', by rw [p2]; simp [h.len], fun j q t hq ht => ?_⟩
    obtain ⟨s1, hs1, rfl⟩ := pnotify_get ht
    rw [p1]
    simp only at hs1
    have hupd : ∀ δ, r.2 = some δ → δ.type = .updated → ∃ y, W.store (O.gvk δ.obj) (O.key δ.obj) = some y := by
      intro δ hδ _
      obtain ⟨_, b2, b3, _, b5, _⟩ := a6 δ hδ
      rw [b2, b3]
      exact b5
    by_cases e : i = j
    · subst e
      rw [List.getElem?_set_self (by rw [h.len]; exact hi)] at hs1
      cases hs1
      rw [hp0] at hq
      cases hq
      refine ⟨⟨_, hci⟩, ?_⟩
      have hu' : UpdLive O s'.base := by rw [q3]; exact hul
      cases hev : r.2 with
      | none => exact hu'
      | some δ =>
        refine updLive_notify (p0 := ps[i]) (S := W.store) ?_ hu' (hupd δ hev)
        rw [q3]
        exact core_send hc.core _
    · rw [List.getElem?_set_ne e] at hs1
      obtain ⟨⟨T', hc'⟩, hul'⟩ := h.each j q s1 hq hs1
      cases hev : r.2 with
      | none => simp only [PStation.told]; rw [a5 hev]; exact ⟨⟨T', hc'⟩, hul'⟩
      | some δ =>
        simp only [PStation.told]
        obtain ⟨b1, b2, b3, b4, b5, b6⟩ := a6 δ hev
        refine ⟨⟨T', pcore_event hc' (hself j q hq) b4 ?_ ?_ ?_⟩, updLive_notify hc'.core hul' (hupd δ hev)⟩
        · rw [b2, b3]; exact a2
        · rw [b2]; exact b6
        · intro et
          rw [b2] at et
          exact absurd (nodup_targets hnd hp0 hq et) e

end Dctl
