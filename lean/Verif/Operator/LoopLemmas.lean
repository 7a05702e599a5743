import Verif.Spec.Loop
import Verif.Controller.EndLemmas
import Verif.Pipeline.HistLemmas
/-! Helper lemmas about controllers working on a shared store. -/
set_option autoImplicit false
set_option linter.unusedSectionVars false
namespace Dctl
variable {D J : Type} [DecidableEq D] [DecidableEq J]

theorem list_snoc_ind {A : Type} {P : List A → Prop} (h0 : P []) (hs : ∀ l a, P l → P (l ++ [a])) (l : List A) : P l := by
  have : ∀ l : List A, P l.reverse := by
    intro l
    induction l with
    | nil => exact h0
    | cons a l ih => rw [List.reverse_cons]; exact hs _ _ ih
  simpa using this l.reverse

/-- The events of one kind. -/
def ofKind (O : ObjOps D) (g : GVK) (h : List (Delta D)) : List (Delta D) := h.filter (fun δ => O.gvk δ.obj = g)

theorem ofKind_snoc (O : ObjOps D) (g : GVK) (h : List (Delta D)) (δ : Delta D) :
    ofKind O g (h ++ [δ]) = if O.gvk δ.obj = g then ofKind O g h ++ [δ] else ofKind O g h := by
  by_cases e : O.gvk δ.obj = g <;> simp [ofKind, e]

theorem liveAs_ofKind (O : ObjOps D) (g : GVK) (k : ObjKey) (d : D) (h : List (Delta D)) : LiveAs O (ofKind O g h) g k d ↔ LiveAs O h g k d := by
  refine list_snoc_ind (P := fun h => LiveAs O (ofKind O g h) g k d ↔ LiveAs O h g k d) Iff.rfl ?_ h
  intro l δ ih
  rw [ofKind_snoc]
  by_cases e : O.gvk δ.obj = g
  · rw [if_pos e]
    by_cases hc : Concerns O g k δ
    · rw [liveAs_snoc_of hc, liveAs_snoc_of hc]
    · rw [liveAs_snoc_not hc, liveAs_snoc_not hc]; exact ih
  · rw [if_neg e, liveAs_snoc_not (fun hc => e hc.1)]; exact ih

/-- What `WatchOk` says about the last event. -/
def LastOk (O : ObjOps D) (pre : List (Delta D)) (δ : Delta D) : Prop :=
  (δ.type = .added → ∀ d, ¬ LiveAs O pre (O.gvk δ.obj) (O.key δ.obj) d) ∧
  (δ.type = .deleted → LiveAs O pre (O.gvk δ.obj) (O.key δ.obj) (O.removeUID δ.obj)) ∧ δ.type ≠ .sync

theorem watchOk_snoc_iff {O : ObjOps D} {h : List (Delta D)} {δ : Delta D} : WatchOk O (h ++ [δ]) ↔ WatchOk O h ∧ LastOk O h δ := by
  constructor
  · intro hw
    exact ⟨watchOk_prefix hw, hw h δ [] rfl⟩
  · rintro ⟨h1, h2⟩ pre ε post e
    rcases snoc_split e with ⟨_, rfl, rfl⟩ | ⟨post', _, rfl⟩
    · exact h2
    · exact h1 pre ε post' rfl

theorem lastOk_ofKind {O : ObjOps D} {h : List (Delta D)} {δ : Delta D} : LastOk O (ofKind O (O.gvk δ.obj) h) δ ↔ LastOk O h δ := by
  simp only [LastOk, liveAs_ofKind]

theorem watchOk_of_kinds {O : ObjOps D} (h : List (Delta D)) (hk : ∀ g, g ∈ h.map (fun δ => O.gvk δ.obj) → WatchOk O (ofKind O g h)) : WatchOk O h := by
  revert hk
  refine list_snoc_ind (P := fun h => (∀ g, g ∈ h.map (fun δ => O.gvk δ.obj) → WatchOk O (ofKind O g h)) → WatchOk O h) ?_ ?_ h
  · intro _ pre δ post e; simp at e
  · intro l δ ih hk
    refine watchOk_snoc_iff.mpr ⟨ih (fun g hg => ?_), ?_⟩
    · have := hk g (by simp only [List.map_append, List.mem_append]; exact .inl hg)
      rw [ofKind_snoc] at this
      split at this
      · exact (watchOk_snoc_iff.mp this).1
      · exact this
    · have := hk (O.gvk δ.obj) (by simp)
      rw [ofKind_snoc, if_pos rfl] at this
      exact lastOk_ofKind.mp (watchOk_snoc_iff.mp this).2

/-- The events `h` have led to the objects `T` of kind `g`. -/
structure Feed (O : ObjOps D) (g : GVK) (h : List (Delta D)) (T : Target D) : Prop where
  kind : ∀ δ ∈ h, O.gvk δ.obj = g
  ok : WatchOk O h
  live : ∀ k d, LiveAs O h g k d ↔ ∃ y, T k = some y ∧ O.removeUID y = d

theorem feed_empty (O : ObjOps D) (g : GVK) : Feed O g [] (fun _ => none) := by
  refine ⟨by simp, fun pre δ post e => by simp at e, fun k d => ⟨fun h => absurd h liveAs_nil, ?_⟩⟩
  rintro ⟨y, hy, _⟩; cases hy

/-- Objects are stored under their kind and name. -/
def StoreOk (O : ObjOps D) (S : GVK → Target D) : Prop := ∀ g k y, S g k = some y → O.gvk y = g ∧ O.key y = k

theorem storeWrite_absent {O : ObjOps D} {put : Option D → D → D} {S : GVK → Target D} {g : GVK} {w : Delta D} (h : S g (O.key w.obj) = none) :
    storeWrite O put S g w = if w.type = .deleted then (S, none)
      else (storePut S g (O.key w.obj) (some (put none w.obj)), some ⟨.added, put none w.obj⟩) := by
  unfold storeWrite
  rw [h]
  cases w.type <;> rfl

theorem storeWrite_present {O : ObjOps D} {put : Option D → D → D} {S : GVK → Target D} {g : GVK} {w : Delta D} {y : D} (h : S g (O.key w.obj) = some y) :
    storeWrite O put S g w = if w.type = .deleted then (storePut S g (O.key w.obj) none, some ⟨.deleted, y⟩)
      else (storePut S g (O.key w.obj) (some (put (some y) w.obj)), some ⟨.updated, put (some y) w.obj⟩) := by
  unfold storeWrite
  rw [h]
  cases w.type <;> rfl

theorem storeWrite_spec {O : ObjOps D} {put : Option D → D → D} {S : GVK → Target D} {g : GVK} {w : Delta D} (hS : StoreOk O S)
    (hp : O.gvk (put (S g (O.key w.obj)) w.obj) = g ∧ O.key (put (S g (O.key w.obj)) w.obj) = O.key w.obj) :
    StoreOk O (storeWrite O put S g w).1 ∧
    (∀ g' k, ¬ (g' = g ∧ k = O.key w.obj) → (storeWrite O put S g w).1 g' k = S g' k) ∧
    (storeWrite O put S g w).1 g (O.key w.obj) = (if w.type = .deleted then none else some (put (S g (O.key w.obj)) w.obj)) ∧
    (∀ δ, (storeWrite O put S g w).2 = some δ → O.gvk δ.obj = g ∧
      ∀ h, Feed O g h (S g) → Feed O g (h ++ [δ]) ((storeWrite O put S g w).1 g)) ∧
    ((storeWrite O put S g w).2 = none → (storeWrite O put S g w).1 = S) := by
  obtain ⟨hp1, hp2⟩ := hp
  have hput : ∀ v, storePut S g (O.key w.obj) v g (O.key w.obj) = v := by intro v; simp [storePut]
  have hoff : ∀ v g' k, ¬ (g' = g ∧ k = O.key w.obj) → storePut S g (O.key w.obj) v g' k = S g' k := by
    intro v g' k h; simp only [storePut, if_neg h]
  have hok : ∀ v, (∀ y, v = some y → O.gvk y = g ∧ O.key y = O.key w.obj) → StoreOk O (storePut S g (O.key w.obj) v) := by
    intro v hv g' k y hy
    by_cases e : g' = g ∧ k = O.key w.obj
    · obtain ⟨rfl, rfl⟩ := e
      rw [hput] at hy; exact hv y hy
    · rw [hoff v g' k e] at hy; exact hS g' k y hy
  have hfeed : ∀ (δ : Delta D) v, O.gvk δ.obj = g → O.key δ.obj = O.key w.obj → (∀ h, Feed O g h (S g) → LastOk O h δ) →
      (∀ d, (δ.type ≠ .deleted ∧ O.removeUID δ.obj = d) ↔ ∃ y, v = some y ∧ O.removeUID y = d) →
      ∀ h, Feed O g h (S g) → Feed O g (h ++ [δ]) (storePut S g (O.key w.obj) v g) := by
    intro δ v h1 h2 h3 h4 h hf
    refine ⟨?_, watchOk_snoc_iff.mpr ⟨hf.ok, h3 h hf⟩, fun k d => ?_⟩
    · intro ε hε
      rcases List.mem_append.mp hε with hε | hε
      · exact hf.kind ε hε
      · rw [List.mem_singleton.mp hε]; exact h1
    · by_cases e : k = O.key w.obj
      · subst e
        have hc : Concerns O g (O.key w.obj) δ := ⟨h1, h2, (h3 h hf).2.2⟩
        rw [liveAs_snoc_of hc, hput]
        exact h4 d
      · rw [liveAs_snoc_not (fun hc => e (hc.2.1.symm.trans h2)), hf.live, hoff v g k (fun h => e h.2)]
  cases hold : S g (O.key w.obj) with
  | none =>
    rw [hold] at hp1 hp2
    rw [storeWrite_absent hold]
    by_cases hty : w.type = .deleted
    · rw [if_pos hty]
      exact ⟨hS, fun _ _ _ => rfl, by rw [if_pos hty]; exact hold, by simp, fun _ => rfl⟩
    · rw [if_neg hty]
      refine ⟨hok _ (by intro y hy; cases hy; exact ⟨hp1, hp2⟩), hoff _, (hput _).trans (if_neg hty).symm, ?_, by simp⟩
      intro δ hδ
      simp only [Option.some.injEq] at hδ
      subst hδ
      refine ⟨hp1, hfeed _ _ hp1 hp2 ?_ (fun d => by simp)⟩
      intro h hf
      refine ⟨fun _ d hl => ?_, by simp, by simp⟩
      simp only at hl
      rw [hp1, hp2, hf.live, hold] at hl
      obtain ⟨y, hy, _⟩ := hl; cases hy
  | some y0 =>
    rw [hold] at hp1 hp2
    rw [storeWrite_present hold]
    obtain ⟨hy1, hy2⟩ := hS _ _ _ hold
    by_cases hty : w.type = .deleted
    · rw [if_pos hty]
      refine ⟨hok _ (by simp), hoff _, (hput _).trans (if_pos hty).symm, ?_, by simp⟩
      intro δ hδ
      simp only [Option.some.injEq] at hδ
      subst hδ
      refine ⟨hy1, hfeed _ _ hy1 hy2 ?_ (fun d => by simp)⟩
      intro h hf
      refine ⟨by simp, fun _ => ?_, by simp⟩
      simp only
      rw [hy1, hy2, hf.live]
      exact ⟨y0, hold, rfl⟩
    · rw [if_neg hty]
      refine ⟨hok _ (by intro y hy; cases hy; exact ⟨hp1, hp2⟩), hoff _, (hput _).trans (if_neg hty).symm, ?_, by simp⟩
      intro δ hδ
      simp only [Option.some.injEq] at hδ
      subst hδ
      exact ⟨hp1, hfeed _ _ hp1 hp2 (fun h hf => ⟨by simp, by simp, by simp⟩) (fun d => by simp)⟩

/-! ### the invariant -/

/-- Both absent, or an object and its image. -/
def ImgO (Img : D → D → Prop) : Option D → Option D → Prop
  | none, none => True
  | some x, some y => Img x y
  | _, _ => False

/-- Evaluation as a step function. -/
abbrev evalStep (O : ObjOps D) : Pipe D J → EvalOrder D × Delta D → Pipe D J × Except Err (List (Delta D)) := fun p e => p.evaluate O e.1 e.2

/-- The pipeline and the queues of a controller that was started as `p0`, with the objects `S` in the store. -/
structure Core (O : ObjOps D) (p0 : Pipe D J) (S : GVK → Target D) (s : Station D J) : Prop where
  pipe : s.pipe = (runs (evalStep O) p0 s.done).1
  srcs : s.pipe.sources = p0.sources
  tgt : s.pipe.target = p0.target
  oks : ∀ r ∈ (runs (evalStep O) p0 s.done).2, ∃ ws, r = .ok ws
  orders : ∀ e ∈ s.done, e.1.Valid ∧ O.gvk e.2.obj ∈ p0.sources
  feeds : ∀ g ∈ p0.sources, Feed O g (ofKind O g (s.done.map Prod.snd) ++ s.pending g) (S g)

/-- All controllers; `T i` are the objects controller `i` has written. -/
structure WInv (O : ObjOps D) (Img : D → D → Prop) (ps : List (Pipe D J)) (T : Nat → Target D) (W : World D J) : Prop where
  store : StoreOk O W.store
  len : W.stations.length = ps.length
  core : ∀ (i : Nat) p0 s, ps[i]? = some p0 → W.stations[i]? = some s → Core O p0 W.store s
  img : ∀ (i : Nat) p0, ps[i]? = some p0 → ∀ k, ImgO Img (T i k) (W.store p0.target k)

theorem core_notify {O : ObjOps D} {p0 : Pipe D J} {S S' : GVK → Target D} {s : Station D J} (h : Core O p0 S s) {δ : Delta D}
    (hoff : ∀ g k, g ≠ O.gvk δ.obj → S' g k = S g k) (hf : ∀ l, Feed O (O.gvk δ.obj) l (S (O.gvk δ.obj)) → Feed O (O.gvk δ.obj) (l ++ [δ]) (S' (O.gvk δ.obj))) :
    Core O p0 S' (s.notify O δ) := by
  unfold Station.notify
  by_cases e : O.gvk δ.obj ∈ s.pipe.sources
  · rw [if_pos e]
    refine ⟨h.pipe, h.srcs, h.tgt, h.oks, h.orders, fun g hg => ?_⟩
    by_cases eg : g = O.gvk δ.obj
    · subst eg
      simp only [if_true]
      rw [← List.append_assoc]
      exact hf _ (h.feeds _ hg)
    · simp only [if_neg eg]
      rw [show S' g = S g from funext (fun k => hoff g k eg)]
      exact h.feeds g hg
  · rw [if_neg e]
    refine ⟨h.pipe, h.srcs, h.tgt, h.oks, h.orders, fun g hg => ?_⟩
    have eg : g ≠ O.gvk δ.obj := by rintro rfl; exact e (h.srcs ▸ hg)
    rw [show S' g = S g from funext (fun k => hoff g k eg)]
    exact h.feeds g hg

theorem write_inv {O : ObjOps D} {Img : D → D → Prop} {ps : List (Pipe D J)} {T T' : Nat → Target D} {W : World D J} (h : WInv O Img ps T W)
    {put : Option D → D → D} {g : GVK} {w : Delta D}
    (hp : O.gvk (put (W.store g (O.key w.obj)) w.obj) = g ∧ O.key (put (W.store g (O.key w.obj)) w.obj) = O.key w.obj)
    (hT : ∀ (i : Nat) p0, ps[i]? = some p0 → ∀ k, ImgO Img (T' i k) ((storeWrite O put W.store g w).1 p0.target k)) : WInv O Img ps T' (W.write O put g w) := by
  obtain ⟨h1, h2, _, h4, h5⟩ := storeWrite_spec (w := w) h.store hp
  unfold World.write
  cases hsw : storeWrite O put W.store g w with
  | mk S' ev =>
  rw [hsw] at h1 h2 h4 h5 hT
  cases ev with
  | none =>
    have hS : S' = W.store := h5 rfl
    subst hS
    exact ⟨h.store, h.len, h.core, hT⟩
  | some δ =>
    obtain ⟨hg, hf⟩ := h4 δ rfl
    subst hg
    refine ⟨h1, by simp [h.len], fun i p0 s hp0 hs => ?_, hT⟩
    simp only [List.getElem?_map, Option.map_eq_some_iff] at hs
    obtain ⟨s0, hs0, rfl⟩ := hs
    exact core_notify (h.core i p0 s0 hp0 hs0) (fun g k hg => h2 g k (fun e => hg e.1)) hf

theorem imgO_write {O : ObjOps D} {Img : D → D → Prop} {put : Option D → D → D} {t : GVK} (hst : Storing O put t Img) {S : GVK → Target D} {T : Target D}
    (hS : StoreOk O S) (hi : ∀ k, ImgO Img (T k) (S t k)) {w : Delta D} (he : O.enforce t w.obj = .ok w.obj) :
    (O.gvk (put (S t (O.key w.obj)) w.obj) = t ∧ O.key (put (S t (O.key w.obj)) w.obj) = O.key w.obj) ∧
    (∀ k, ImgO Img (Target.write O T w k) ((storeWrite O put S t w).1 t k)) ∧ ∀ g k, g ≠ t → (storeWrite O put S t w).1 g k = S g k := by
  have hold : ∀ y, S t (O.key w.obj) = some y → ∃ x', Img x' y := by
    intro y hy
    have := hi (O.key w.obj)
    rw [hy] at this
    cases hT : T (O.key w.obj) with
    | none => rw [hT] at this; exact this.elim
    | some x => rw [hT] at this; exact ⟨x, this⟩
  obtain ⟨p1, p2, p3⟩ := hst.put (S t (O.key w.obj)) w.obj he hold
  obtain ⟨_, h2, h3, _, _⟩ := storeWrite_spec (put := put) (g := t) (w := w) hS ⟨p1, p2⟩
  refine ⟨⟨p1, p2⟩, fun k => ?_, fun g k hg => h2 g k (fun e => hg e.1)⟩
  by_cases e : O.key w.obj = k
  · subst e
    rw [h3]
    by_cases hd : w.type = .deleted
    · simp [Target.write, hd, ImgO]
    · simp only [Target.write, hd, if_true, if_false, ImgO]; exact p3
  · rw [h2 t k (fun x => e x.2.symm)]
    simp only [Target.write, if_neg e]
    exact hi k

/-- One write of controller `i`. -/
theorem write_one {O : ObjOps D} {Img : D → D → Prop} {ps : List (Pipe D J)} (hnd : (ps.map Pipe.target).Nodup) {i : Nat} {p0 : Pipe D J} (hp0 : ps[i]? = some p0)
    {put : Option D → D → D} (hst : Storing O put p0.target Img) {T : Nat → Target D} {W : World D J} (h : WInv O Img ps T W) {w : Delta D}
    (hw : O.enforce p0.target w.obj = .ok w.obj) :
    WInv O Img ps (fun j => if j = i then Target.write O (T i) w else T j) (W.write O put p0.target w) ∧
    O.gvk (put (W.store p0.target (O.key w.obj)) w.obj) = p0.target ∧ O.key (put (W.store p0.target (O.key w.obj)) w.obj) = O.key w.obj := by
  obtain ⟨h1, h2, h3⟩ := imgO_write hst h.store (h.img i p0 hp0) hw
  refine ⟨write_inv h h1 (fun j q hq k => ?_), h1⟩
  by_cases e : j = i
  · subst e
    rw [hp0] at hq
    cases hq
    simp only [if_true]
    exact h2 k
  · simp only [if_neg e]
    have hne : q.target ≠ p0.target := by
      intro ht
      obtain ⟨hj1, _⟩ := List.getElem?_eq_some_iff.mp hq
      exact e ((List.getElem?_inj (by simpa using hj1) hnd).mp (by simp [hp0, hq, ht]))
    rw [h3 _ _ hne]
    exact h.img j q hq k

/-! ### one step -/

/-- The objects a controller that was started as `p0` has written. -/
def expect (O : ObjOps D) (p0 : Pipe D J) (s : Station D J) : Target D := Target.writes O (fun _ => none) (emitted (runs (evalStep O) p0 s.done).2)

theorem notify_done (O : ObjOps D) (δ : Delta D) (s : Station D J) : (s.notify O δ).done = s.done ∧ (s.notify O δ).pipe = s.pipe ∧ (s.notify O δ).out = s.out := by
  unfold Station.notify
  split <;> exact ⟨rfl, rfl, rfl⟩

theorem write_done (O : ObjOps D) (put : Option D → D → D) (g : GVK) (W : World D J) (w : Delta D) (i : Nat) (s' : Station D J)
    (h : (W.write O put g w).stations[i]? = some s') : ∃ s, W.stations[i]? = some s ∧ s'.done = s.done ∧ s'.pipe = s.pipe ∧ s'.out = s.out := by
  unfold World.write at h
  split at h
  · exact ⟨s', h, rfl, rfl, rfl⟩
  · simp only [List.getElem?_map, Option.map_eq_some_iff] at h
    obtain ⟨s, hs, rfl⟩ := h
    exact ⟨s, hs, notify_done O _ s⟩

theorem target_write_comm (O : ObjOps D) (T : Target D) {v w : Delta D} (h : O.key v.obj ≠ O.key w.obj) :
    Target.write O (Target.write O T w) v = Target.write O (Target.write O T v) w := by
  funext k
  simp only [Target.write]
  grind

/-- A write may be sent before those of other objects. -/
theorem writes_eraseIdx (O : ObjOps D) : ∀ (l : List (Delta D)) (n : Nat) (T : Target D) {w : Delta D}, l[n]? = some w →
    (∀ v ∈ l.take n, O.key v.obj ≠ O.key w.obj) → Target.writes O (Target.write O T w) (l.eraseIdx n) = Target.writes O T l
  | [], n, T, w, h, _ => by simp at h
  | v :: l, 0, T, w, h, _ => by
    simp only [List.getElem?_cons_zero, Option.some.injEq] at h
    subst h; rfl
  | v :: l, n + 1, T, w, h, hn => by
    have hv := hn v (by simp)
    have := writes_eraseIdx O l n (Target.write O T v) (by simpa using h) (fun u hu => hn u (by simp [hu]))
    rw [← target_write_comm O T hv] at this
    exact this

theorem expect_congr {O : ObjOps D} {p0 : Pipe D J} {s s' : Station D J} (h : s'.done = s.done) : expect O p0 s' = expect O p0 s := by
  unfold expect; rw [h]

theorem work_some {O : ObjOps D} {ω : EvalOrder D} {g : GVK} {s s' : Station D J} (h : s.work O ω g = some s') :
    g ∈ s.pipe.sources ∧ ∃ δ q p' ws, s.pending g = δ :: q ∧ s.pipe.evaluate O ω δ = (p', .ok ws) ∧
      s' = { pipe := p', pending := fun g' => if g' = g then q else s.pending g', out := s.out ++ ws, done := s.done ++ [(ω, δ)] } := by
  unfold Station.work at h
  split at h
  · rename_i hg
    split at h
    · cases h
    · rename_i δ q hq
      split at h
      · cases h
      · rename_i p' ws' he
        cases h
        exact ⟨hg, δ, q, p', ws', hq, he, rfl⟩
  · cases h

theorem send_some {O : ObjOps D} {n : Nat} {s s' : Station D J} {w : Delta D} (h : s.send O n = some (w, s')) :
    s.out[n]? = some w ∧ (∀ v ∈ s.out.take n, O.key v.obj ≠ O.key w.obj) ∧ s' = { s with out := s.out.eraseIdx n } := by
  unfold Station.send at h
  split at h
  · cases h
  · rename_i w' hw
    split at h
    · rename_i ha
      cases h
      refine ⟨hw, fun v hv => ?_, rfl⟩
      simpa using List.all_eq_true.mp ha v hv
    · cases h

theorem evaluate_same (O : ObjOps D) (ω : EvalOrder D) (p : Pipe D J) (δ : Delta D) :
    (p.evaluate O ω δ).1.sources = p.sources ∧ (p.evaluate O ω δ).1.target = p.target := by
  simp only [Pipe.evaluate]
  repeat' split
  all_goals exact ⟨rfl, rfl⟩

theorem core_work {O : ObjOps D} (L : O.Lawful) {p0 : Pipe D J} {S : GVK → Target D} {s s' : Station D J} (h : Core O p0 S s) {ω : EvalOrder D} (hω : ω.Valid) {g : GVK}
    (hw : s.work O ω g = some s') : Core O p0 S s' ∧ ∃ ws, s'.out = s.out ++ ws ∧ expect O p0 s' = Target.writes O (expect O p0 s) ws ∧
      ∀ w ∈ ws, O.enforce p0.target w.obj = .ok w.obj := by
  obtain ⟨hg, δ, q, p', ws, hq, he, rfl⟩ := work_some hw
  have hgs : g ∈ p0.sources := h.srcs ▸ hg
  have hk : O.gvk δ.obj = g := (h.feeds g hgs).kind δ (by rw [hq]; simp)
  have hr : runs (evalStep O) p0 (s.done ++ [(ω, δ)]) = (p', (runs (evalStep O) p0 s.done).2 ++ [.ok ws]) := by
    rw [runs_snoc, ← h.pipe]
    simp only [evalStep, he]
  have hsame := evaluate_same O ω s.pipe δ
  rw [he] at hsame
  refine ⟨⟨?_, ?_, ?_, ?_, ?_, ?_⟩, ws, rfl, ?_, ?_⟩
  · simp only [hr]
  · exact hsame.1.trans h.srcs
  · exact hsame.2.trans h.tgt
  · simp only [hr, List.mem_append, List.mem_singleton]
    rintro r (hr | rfl)
    · exact h.oks r hr
    · exact ⟨ws, rfl⟩
  · simp only [List.mem_append, List.mem_singleton]
    rintro e (he | rfl)
    · exact h.orders e he
    · exact ⟨hω, by rw [hk]; exact hgs⟩
  · intro g' hg'
    have hf := h.feeds g' hg'
    simp only [List.map_append, List.map_cons, List.map_nil, ofKind_snoc, hk]
    by_cases e : g = g'
    · subst e
      rw [hq] at hf
      simp only [if_true, List.append_assoc, List.singleton_append]
      exact hf
    · simp only [if_neg e, if_neg (Ne.symm e)]
      exact hf
  · unfold expect
    simp only [hr]
    rw [emitted_append, Target.writes_append]
    simp [emitted]
  · have := step_enforced L s.pipe (ω, some δ) hω (ws := ws) (by simp only [Pipe.step]; rw [he])
    rw [h.tgt] at this
    exact fun w hw => (this w hw).2

theorem core_send {O : ObjOps D} {p0 : Pipe D J} {S : GVK → Target D} {s : Station D J} (h : Core O p0 S s) (l : List (Delta D)) : Core O p0 S { s with out := l } :=
  ⟨h.pipe, h.srcs, h.tgt, h.oks, h.orders, h.feeds⟩

/-- The invariant of all executions: with the writes that are still to be sent, the objects a controller has written are those its evaluations have led to. -/
def LoopInv (O : ObjOps D) (Img : D → D → Prop) (ps : List (Pipe D J)) (W : World D J) : Prop :=
  ∃ T, WInv O Img ps T W ∧ ∀ (i : Nat) p0 s, ps[i]? = some p0 → W.stations[i]? = some s →
    Target.writes O (T i) s.out = expect O p0 s ∧ ∀ w ∈ s.out, O.enforce p0.target w.obj = .ok w.obj

theorem loopInv_init (O : ObjOps D) (Img : D → D → Prop) (ps : List (Pipe D J)) : LoopInv O Img ps (World.init ps) := by
  refine ⟨fun _ _ => none, ⟨?_, by simp [World.init], ?_, ?_⟩, ?_⟩
  · intro g k y hy; cases hy
  · intro i p0 s hp hs
    simp only [World.init, List.getElem?_map, hp, Option.map_some, Option.some.injEq] at hs
    subst hs
    exact ⟨rfl, rfl, rfl, by simp [runs], by simp, fun g _ => by simpa [ofKind, World.init] using feed_empty O g⟩
  · intro i p0 _ k; exact trivial
  · intro i p0 s hp hs
    simp only [World.init, List.getElem?_map, hp, Option.map_some, Option.some.injEq] at hs
    subst hs
    exact ⟨rfl, by simp⟩

/-- A controller replaced by one with the same history. -/
theorem winv_set {O : ObjOps D} {Img : D → D → Prop} {ps : List (Pipe D J)} {T : Nat → Target D} {W : World D J} (hW : WInv O Img ps T W) {i : Nat} {p0 : Pipe D J}
    (hp0 : ps[i]? = some p0) {s' : Station D J} (hc : Core O p0 W.store s') : WInv O Img ps T { W with stations := W.stations.set i s' } := by
  have hi : i < ps.length := (List.getElem?_eq_some_iff.mp hp0).1
  refine ⟨hW.store, by simp [hW.len], fun j q t hq ht => ?_, hW.img⟩
  by_cases e : i = j
  · subst e
    rw [List.getElem?_set_self (by rw [hW.len]; exact hi)] at ht
    cases ht
    rw [hp0] at hq; cases hq
    exact hc
  · rw [List.getElem?_set_ne e] at ht
    exact hW.core j q t hq ht

theorem act_work {O : ObjOps D} {put : GVK → Option D → D → D} {W W' : World D J} {i : Nat} {g : GVK} {ω : EvalOrder D} (h : W.act O put (.work i g ω) = some W') :
    ∃ s s', W.stations[i]? = some s ∧ s.work O ω g = some s' ∧ W' = { W with stations := W.stations.set i s' } := by
  simp only [World.act] at h
  split at h
  · cases h
  · rename_i s hs
    split at h
    · cases h
    · rename_i s' hwk
      cases h
      exact ⟨s, s', hs, hwk, rfl⟩

theorem act_send {O : ObjOps D} {put : GVK → Option D → D → D} {W W' : World D J} {i n : Nat} (h : W.act O put (.send i n) = some W') :
    ∃ s s' w, W.stations[i]? = some s ∧ s.send O n = some (w, s') ∧
      W' = World.write O (put s.pipe.target) s.pipe.target { W with stations := W.stations.set i s' } w := by
  simp only [World.act] at h
  split at h
  · cases h
  · rename_i s hs
    split at h
    · cases h
    · rename_i w s' hwk
      cases h
      exact ⟨s, s', w, hs, hwk, rfl⟩

theorem loopInv_act {O : ObjOps D} (L : O.Lawful) {Img : D → D → Prop} {ps : List (Pipe D J)} (hnd : (ps.map Pipe.target).Nodup) {put : GVK → Option D → D → D}
    (hst : ∀ p ∈ ps, Storing O (put p.target) p.target Img) {W W' : World D J} (h : LoopInv O Img ps W) {a : LoopAct D} (ha : a.Allowed O (ps.map Pipe.target))
    (hact : W.act O put a = some W') : LoopInv O Img ps W' := by
  obtain ⟨T, hW, hT⟩ := h
  cases a with
  | user w =>
    simp only [World.act, Option.some.injEq] at hact
    subst hact
    refine ⟨T, write_inv hW ⟨rfl, rfl⟩ (fun i p0 hp k => ?_), fun i p0 s' hp hs' => ?_⟩
    · obtain ⟨_, h2, _⟩ := storeWrite_spec (put := fun _ x => x) (g := O.gvk w.obj) (w := w) hW.store ⟨rfl, rfl⟩
      rw [h2 _ _ (fun e => ha (List.mem_map.mpr ⟨p0, List.mem_of_getElem? hp, e.1⟩))]
      exact hW.img i p0 hp k
    · obtain ⟨s, h1, h2, _, h4⟩ := write_done _ _ _ _ _ _ _ hs'
      rw [h4, expect_congr h2]
      exact hT i p0 s hp h1
  | work i g ω =>
    obtain ⟨s, s', hs, hwk, rfl⟩ := act_work hact
    have hi : i < ps.length := by rw [← hW.len]; exact (List.getElem?_eq_some_iff.mp hs).1
    have hp0 : ps[i]? = some ps[i] := List.getElem?_eq_getElem hi
    have hc := hW.core i _ s hp0 hs
    obtain ⟨c1, ws, c2, c3, c4⟩ := core_work L hc ha hwk
    refine ⟨T, winv_set hW hp0 c1, fun j q t hq ht => ?_⟩
    by_cases e : i = j
    · subst e
      simp only at ht
      rw [List.getElem?_set_self (by rw [hW.len]; exact hi)] at ht
      cases ht
      rw [hp0] at hq; cases hq
      obtain ⟨t1, t2⟩ := hT i _ s hp0 hs
      rw [c2, Target.writes_append, t1, c3]
      exact ⟨rfl, fun w hw => (List.mem_append.mp hw).elim (t2 w) (c4 w)⟩
    · simp only at ht
      rw [List.getElem?_set_ne e] at ht
      exact hT j q t hq ht
  | send i n =>
    obtain ⟨s, s', w, hs, hsd, rfl⟩ := act_send hact
    have hi : i < ps.length := by rw [← hW.len]; exact (List.getElem?_eq_some_iff.mp hs).1
    have hp0 : ps[i]? = some ps[i] := List.getElem?_eq_getElem hi
    have hc := hW.core i _ s hp0 hs
    obtain ⟨d1, d2, rfl⟩ := send_some hsd
    obtain ⟨t1, t2⟩ := hT i _ s hp0 hs
    rw [hc.tgt]
    refine ⟨_, (write_one hnd hp0 (hst _ (List.getElem_mem hi)) (winv_set hW hp0 (core_send hc (s.out.eraseIdx n))) (t2 w (List.mem_of_getElem? d1))).1,
      fun j q t hq ht => ?_⟩
    obtain ⟨t0, ht0, hd, _, ho⟩ := write_done _ _ _ _ _ _ _ ht
    rw [expect_congr hd, ho]
    by_cases e : i = j
    · subst e
      simp only [if_true]
      simp only at ht0
      rw [List.getElem?_set_self (by rw [hW.len]; exact hi)] at ht0
      cases ht0
      rw [hp0] at hq; cases hq
      refine ⟨(writes_eraseIdx O s.out n (T i) d1 d2).trans t1, fun v hv => t2 v (List.mem_of_mem_eraseIdx hv)⟩
    · simp only [if_neg (Ne.symm e)]
      simp only at ht0
      rw [List.getElem?_set_ne e] at ht0
      exact hT j q t0 hq ht0

theorem loopInv_acts {O : ObjOps D} (L : O.Lawful) {Img : D → D → Prop} {ps : List (Pipe D J)} (hnd : (ps.map Pipe.target).Nodup) {put : GVK → Option D → D → D}
    (hst : ∀ p ∈ ps, Storing O (put p.target) p.target Img) {W W' : World D J} (h : LoopInv O Img ps W) {as : List (LoopAct D)} (ha : ∀ a ∈ as, a.Allowed O (ps.map Pipe.target))
    (hact : W.acts O put as = some W') : LoopInv O Img ps W' := by
  induction as generalizing W with
  | nil => cases hact; exact h
  | cons a as ih =>
    simp only [World.acts] at hact
    split at hact
    · cases hact
    · rename_i W1 h1
      exact ih (loopInv_act L hnd hst h (ha a (by simp)) h1) (fun b hb => ha b (List.mem_cons_of_mem _ hb)) hact

theorem oks_map {A : Type} (l : List (Except Err A)) (h : ∀ r ∈ l, ∃ ws, r = .ok ws) : ∃ wss : List A, l = wss.map Except.ok := by
  induction l with
  | nil => exact ⟨[], rfl⟩
  | cons r l ih =>
    obtain ⟨ws, rfl⟩ := h r (by simp)
    obtain ⟨wss, rfl⟩ := ih (fun r hr => h r (List.mem_cons_of_mem _ hr))
    exact ⟨ws :: wss, rfl⟩

/-- The events a controller has evaluated and those that are waiting are a watch history of its sources. -/
theorem core_watchOk {O : ObjOps D} {p0 : Pipe D J} {S : GVK → Target D} {s : Station D J} (h : Core O p0 S s) : WatchOk O (s.done.map Prod.snd) := by
  refine watchOk_of_kinds _ (fun g hg => ?_)
  obtain ⟨δ, hδ, rfl⟩ := List.mem_map.mp hg
  obtain ⟨e, he, rfl⟩ := List.mem_map.mp hδ
  have := (h.feeds _ (h.orders e he).2).ok
  exact watchOk_prefix this


/-! ### a property of all objects -/

/-- All objects in the store and in events are good. -/
structure GoodW (Good : D → Prop) (W : World D J) : Prop where
  store : ∀ g k y, W.store g k = some y → Good y
  pending : ∀ (i : Nat) s, W.stations[i]? = some s → ∀ g, ∀ δ ∈ s.pending g, Good δ.obj
  done : ∀ (i : Nat) s, W.stations[i]? = some s → ∀ e ∈ s.done, Good e.2.obj

theorem storeWrite_good {O : ObjOps D} {put : Option D → D → D} {Good : D → Prop} {S : GVK → Target D} {g : GVK} {w : Delta D}
    (hS : ∀ g k y, S g k = some y → Good y) (hp : ∀ o, (∀ y, o = some y → Good y) → Good (put o w.obj)) :
    (∀ g' k y, (storeWrite O put S g w).1 g' k = some y → Good y) ∧ ∀ δ, (storeWrite O put S g w).2 = some δ → Good δ.obj := by
  have hput : ∀ v, (∀ y, v = some y → Good y) → ∀ g' k y, storePut S g (O.key w.obj) v g' k = some y → Good y := by
    intro v hv g' k y h
    unfold storePut at h
    split at h
    · exact hv y h
    · exact hS _ _ _ h
  cases ho : S g (O.key w.obj) with
  | none =>
    rw [storeWrite_absent ho]
    have hgood := hp none (by simp)
    split
    · exact ⟨hS, by simp⟩
    · exact ⟨hput _ (fun y hy => by cases hy; exact hgood), fun δ hδ => by cases hδ; exact hgood⟩
  | some y0 =>
    rw [storeWrite_present ho]
    have h0 := hS _ _ _ ho
    have hgood := hp (some y0) (fun y hy => by cases hy; exact h0)
    split
    · exact ⟨hput _ (by simp), fun δ hδ => by cases hδ; exact h0⟩
    · exact ⟨hput _ (fun y hy => by cases hy; exact hgood), fun δ hδ => by cases hδ; exact hgood⟩

theorem write_good {O : ObjOps D} {put : Option D → D → D} {Good : D → Prop} {W : World D J} (h : GoodW Good W) {g : GVK} {w : Delta D}
    (hp : ∀ o, (∀ y, o = some y → Good y) → Good (put o w.obj)) : GoodW Good (W.write O put g w) := by
  obtain ⟨h1, h2⟩ := storeWrite_good (O := O) (g := g) (w := w) h.store hp
  unfold World.write
  cases hsw : storeWrite O put W.store g w with
  | mk S' ev =>
  rw [hsw] at h1 h2
  cases ev with
  | none => exact ⟨h1, h.pending, h.done⟩
  | some δ =>
    refine ⟨h1, fun i s hs g' ε hε => ?_, fun i s hs => ?_⟩
    · simp only [List.getElem?_map, Option.map_eq_some_iff] at hs
      obtain ⟨s0, hs0, rfl⟩ := hs
      unfold Station.notify at hε
      split at hε
      · simp only at hε
        split at hε
        · rcases List.mem_append.mp hε with h' | h'
          · exact h.pending i s0 hs0 g' ε h'
          · exact List.mem_singleton.mp h' ▸ h2 δ rfl
        · exact h.pending i s0 hs0 g' ε hε
      · exact h.pending i s0 hs0 g' ε hε
    · simp only [List.getElem?_map, Option.map_eq_some_iff] at hs
      obtain ⟨s0, hs0, rfl⟩ := hs
      rw [(notify_done O δ s0).1]
      exact h.done i s0 hs0

theorem goodW_init (Good : D → Prop) (ps : List (Pipe D J)) : GoodW Good (World.init ps) := by
  refine ⟨fun g k y hy => (by cases hy), fun i s hs => ?_, fun i s hs => ?_⟩ <;>
  · simp only [World.init, List.getElem?_map, Option.map_eq_some_iff] at hs
    obtain ⟨p, _, rfl⟩ := hs
    simp

/-- Users write good objects, and targets store good ones. -/
def LoopAct.GoodAct (Good : D → Prop) : LoopAct D → Prop
  | .user w => Good w.obj
  | .work _ _ _ => True
  | .send _ _ => True

theorem goodW_act {O : ObjOps D} {Img : D → D → Prop} {Good : D → Prop} {ps : List (Pipe D J)} {put : GVK → Option D → D → D}
    (hput : ∀ p ∈ ps, ∀ o x, O.enforce p.target x = .ok x → (∀ y, o = some y → Good y) → Good (put p.target o x)) {W W' : World D J} (hi : LoopInv O Img ps W)
    (h : GoodW Good W) {a : LoopAct D} (ha : a.Allowed O (ps.map Pipe.target)) (hg : a.GoodAct Good) (hact : W.act O put a = some W') : GoodW Good W' := by
  cases a with
  | user w =>
    simp only [World.act, Option.some.injEq] at hact
    subst hact
    exact write_good h (fun _ _ => hg)
  | work i g ω =>
    obtain ⟨s, s', hs, hwk, rfl⟩ := act_work hact
    obtain ⟨_, δ, q, p', ws, hq, _, rfl⟩ := work_some hwk
    have hlt : i < W.stations.length := (List.getElem?_eq_some_iff.mp hs).1
    refine ⟨h.store, fun j t ht g' ε hε => ?_, fun j t ht => ?_⟩
    · by_cases e : i = j
      · subst e
        simp only at ht
        rw [List.getElem?_set_self hlt] at ht
        cases ht
        simp only at hε
        split at hε
        · rename_i e; subst e
          exact h.pending i s hs g' ε (by rw [hq]; exact List.mem_cons_of_mem _ hε)
        · exact h.pending i s hs g' ε hε
      · simp only at ht
        rw [List.getElem?_set_ne e] at ht
        exact h.pending j t ht g' ε hε
    · by_cases e : i = j
      · subst e
        simp only at ht
        rw [List.getElem?_set_self hlt] at ht
        cases ht
        simp only [List.mem_append, List.mem_singleton]
        rintro e (he | rfl)
        · exact h.done i s hs e he
        · exact h.pending i s hs g δ (by rw [hq]; simp)
      · simp only at ht
        rw [List.getElem?_set_ne e] at ht
        exact h.done j t ht
  | send i n =>
    obtain ⟨s, s', w, hs, hsd, rfl⟩ := act_send hact
    obtain ⟨d1, _, rfl⟩ := send_some hsd
    obtain ⟨T, hW, hT⟩ := hi
    have hlt : i < W.stations.length := (List.getElem?_eq_some_iff.mp hs).1
    have hlt' : i < ps.length := by rw [← hW.len]; exact hlt
    have hp0 : ps[i]? = some ps[i] := List.getElem?_eq_getElem hlt'
    have hc := hW.core i _ s hp0 hs
    rw [hc.tgt]
    refine write_good (W := { W with stations := W.stations.set i { s with out := s.out.eraseIdx n } }) ⟨h.store, fun j t ht => ?_, fun j t ht => ?_⟩
      (fun o ho => hput _ (List.getElem_mem hlt') o w.obj ((hT i _ s hp0 hs).2 w (List.mem_of_getElem? d1)) ho)
    · by_cases e : i = j
      · subst e
        simp only at ht
        rw [List.getElem?_set_self hlt] at ht
        cases ht
        exact h.pending i s hs
      · simp only at ht
        rw [List.getElem?_set_ne e] at ht
        exact h.pending j t ht
    · by_cases e : i = j
      · subst e
        simp only at ht
        rw [List.getElem?_set_self hlt] at ht
        cases ht
        exact h.done i s hs
      · simp only at ht
        rw [List.getElem?_set_ne e] at ht
        exact h.done j t ht

theorem goodW_acts {O : ObjOps D} (L : O.Lawful) {Img : D → D → Prop} {Good : D → Prop} {ps : List (Pipe D J)} (hnd : (ps.map Pipe.target).Nodup)
    {put : GVK → Option D → D → D} (hst : ∀ p ∈ ps, Storing O (put p.target) p.target Img)
    (hput : ∀ p ∈ ps, ∀ o x, O.enforce p.target x = .ok x → (∀ y, o = some y → Good y) → Good (put p.target o x)) {W W' : World D J} (hi : LoopInv O Img ps W)
    (h : GoodW Good W) {as : List (LoopAct D)} (ha : ∀ a ∈ as, a.Allowed O (ps.map Pipe.target)) (hg : ∀ a ∈ as, a.GoodAct Good) (hact : W.acts O put as = some W') :
    GoodW Good W' := by
  induction as generalizing W with
  | nil => cases hact; exact h
  | cons a as ih =>
    simp only [World.acts] at hact
    split at hact
    · cases hact
    · rename_i W1 h1
      exact ih (loopInv_act L hnd hst hi (ha a (by simp)) h1) (goodW_act hput hi h (ha a (by simp)) (hg a (by simp)) h1)
        (fun b hb => ha b (List.mem_cons_of_mem _ hb)) (fun b hb => hg b (List.mem_cons_of_mem _ hb)) hact

/-! ### termination -/

/-- Tuples of `n + 1` numbers. -/
def Tup : Nat → Type
  | 0 => Nat
  | n + 1 => Tup n × Nat

/-- The first `n + 1` values of a function. -/
def tup : (n : Nat) → (Nat → Nat) → Tup n
  | 0, f => f 0
  | n + 1, f => (tup n f, f (n + 1))

/-- The lexicographic order. -/
def tupLt : (n : Nat) → Tup n → Tup n → Prop
  | 0 => fun a b : Nat => a < b
  | n + 1 => Prod.Lex (tupLt n) (fun a b : Nat => a < b)

theorem tupLt_wf : (n : Nat) → WellFounded (tupLt n)
  | 0 => Nat.lt_wfRel.wf
  | n + 1 => (Prod.lex ⟨_, tupLt_wf n⟩ Nat.lt_wfRel).wf

theorem tup_congr : (n : Nat) → {f g : Nat → Nat} → (∀ r ≤ n, f r = g r) → tup n f = tup n g
  | 0, f, g, h => h 0 (Nat.le_refl 0)
  | n + 1, f, g, h => by
    simp only [tup]
    rw [tup_congr n (fun r hr => h r (Nat.le_succ_of_le hr)), h (n + 1) (Nat.le_refl _)]

theorem tup_lt : (n : Nat) → {f g : Nat → Nat} → {r : Nat} → r ≤ n → f r < g r → (∀ q < r, f q = g q) → tupLt n (tup n f) (tup n g)
  | 0, f, g, r, hr, h, _ => by
    have : r = 0 := by omega
    subst this; exact h
  | n + 1, f, g, r, hr, h, he => by
    simp only [tup, tupLt]
    by_cases hrn : r ≤ n
    · exact Prod.Lex.left _ _ (tup_lt n hrn h he)
    · have : r = n + 1 := by omega
      subst this
      rw [tup_congr n (fun q hq => he q (by omega))]
      exact Prod.Lex.right _ h

theorem sum_map_lt {A : Type} {f g : A → Nat} : ∀ {l : List A}, (∀ a ∈ l, f a ≤ g a) → (∃ a ∈ l, f a < g a) → (l.map f).sum < (l.map g).sum
  | [], _, h => by simp at h
  | a :: l, h, hx => by
    have h1 := h a (by simp)
    have h2 : (l.map f).sum ≤ (l.map g).sum := by
      have : ∀ l : List A, (∀ a ∈ l, f a ≤ g a) → (l.map f).sum ≤ (l.map g).sum := by
        intro l
        induction l with
        | nil => simp
        | cons b l ih =>
          intro h
          have a1 := h b (by simp)
          have a2 := ih (fun c hc => h c (List.mem_cons_of_mem _ hc))
          simp only [List.map_cons, List.sum_cons]; omega
      exact this l (fun c hc => h c (List.mem_cons_of_mem _ hc))
    simp only [List.map_cons, List.sum_cons]
    obtain ⟨b, hb, hlt⟩ := hx
    rcases List.mem_cons.mp hb with rfl | hb
    · omega
    · have := sum_map_lt (fun c hc => h c (List.mem_cons_of_mem _ hc)) ⟨b, hb, hlt⟩
      omega

/-- The number of events waiting at a controller. -/
def Station.queued (s : Station D J) : Nat := (s.pipe.sources.map (fun g => (s.pending g).length)).sum

/-- The work waiting at controller `j`: events, or writes. -/
def World.waiting (W : World D J) (b : Bool) (j : Nat) : Nat := (W.stations[j]?.map (fun s => if b then s.out.length else s.queued)).getD 0

/-- The work waiting at controllers of a rank: events at the even places, writes at the odd ones. -/
def World.load (rank : Nat → Nat) (n : Nat) (W : World D J) (r : Nat) : Nat :=
  ((List.range n).map (fun j => if rank j = r / 2 then W.waiting (r % 2 = 1) j else 0)).sum

/-- Writes of a kind leave controllers alone that do not have it as source. -/
theorem write_other {O : ObjOps D} {Img : D → D → Prop} {ps : List (Pipe D J)} {T : Nat → Target D} {W : World D J} (h : WInv O Img ps T W) {put : Option D → D → D}
    {g : GVK} {w : Delta D} (hp : O.gvk (put (W.store g (O.key w.obj)) w.obj) = g ∧ O.key (put (W.store g (O.key w.obj)) w.obj) = O.key w.obj)
    {j : Nat} {q : Pipe D J} (hq : ps[j]? = some q) (hn : g ∉ q.sources) : (W.write O put g w).stations[j]? = W.stations[j]? := by
  obtain ⟨_, _, _, h4, _⟩ := storeWrite_spec (w := w) h.store hp
  unfold World.write
  cases hsw : storeWrite O put W.store g w with
  | mk S' ev =>
  rw [hsw] at h4
  cases ev with
  | none => rfl
  | some δ =>
    obtain ⟨hg, _⟩ := h4 δ rfl
    simp only [List.getElem?_map]
    cases hs : W.stations[j]? with
    | none => rfl
    | some s =>
      simp only [Option.map_some, Option.some.injEq, Station.notify]
      rw [if_neg]
      rw [(h.core j q s hq hs).srcs, hg]
      exact hn

theorem queued_work {O : ObjOps D} {ω : EvalOrder D} {g : GVK} {s s' : Station D J} (h : s.work O ω g = some s') : s'.queued < s.queued := by
  obtain ⟨hg, δ, q, p', ws, hq, he, rfl⟩ := work_some h
  have hsame := (evaluate_same O ω s.pipe δ).1
  rw [he] at hsame
  simp only [Station.queued]
  rw [show p'.sources = s.pipe.sources from hsame]
  refine sum_map_lt (fun a _ => ?_) ⟨g, hg, ?_⟩
  · split
    · rename_i e; subst e; rw [hq]; simp
    · exact Nat.le_refl _
  · simp [hq]

/-- The load goes down at a place, and does not change at the places before it. -/
def LoadDrop (rank : Nat → Nat) (n : Nat) (W' W : World D J) (r : Nat) : Prop :=
  W'.load rank n r < W.load rank n r ∧ ∀ q < r, W'.load rank n q = W.load rank n q

theorem loadDrop_of {rank : Nat → Nat} {n : Nat} {W' W : World D J} {i : Nat} (hi : i < n) (b : Bool) (hlt : W'.waiting b i < W.waiting b i)
    (hb : b = true → W'.waiting false i = W.waiting false i)
    (hoth : ∀ j, j < n → rank j ≤ rank i → j ≠ i → ∀ c, W'.waiting c j = W.waiting c j) : LoadDrop rank n W' W (2 * rank i + if b then 1 else 0) := by
  have hdiv : (2 * rank i + if b then 1 else 0) / 2 = rank i := by cases b <;> simp <;> omega
  have hmod : decide ((2 * rank i + if b then 1 else 0) % 2 = 1) = b := by cases b <;> simp <;> omega
  constructor
  · unfold World.load
    rw [hdiv, hmod]
    refine sum_map_lt (fun j hj => ?_) ⟨i, List.mem_range.mpr hi, by simpa using hlt⟩
    by_cases e : rank j = rank i
    · simp only [if_pos e]
      by_cases ej : j = i
      · subst ej; exact Nat.le_of_lt hlt
      · exact Nat.le_of_eq (hoth j (List.mem_range.mp hj) (Nat.le_of_eq e) ej b)
    · simp only [if_neg e]; exact Nat.le_refl _
  · intro q hq
    unfold World.load
    congr 1
    refine List.map_congr_left (fun j hj => ?_)
    by_cases e : rank j = q / 2
    · simp only [if_pos e]
      have hle : rank j ≤ rank i := by
        cases b <;> simp at hq <;> omega
      by_cases ej : j = i
      · subst ej
        cases b with
        | false => simp at hq; omega
        | true =>
          have : q % 2 = 0 := by simp at hq; omega
          simp only [this]
          exact hb rfl
      · exact hoth j (List.mem_range.mp hj) hle ej _
    · simp only [if_neg e]

/-- What a controller of rank `r` does lowers the load at a place of that rank, and leaves the places before it alone. -/
theorem load_own {O : ObjOps D} {Img : D → D → Prop} {ps : List (Pipe D J)} (hnd : (ps.map Pipe.target).Nodup) {put : GVK → Option D → D → D}
    (hst : ∀ p ∈ ps, Storing O (put p.target) p.target Img) {rank : Nat → Nat}
    (hr : ∀ (i j : Nat) p q, ps[i]? = some p → ps[j]? = some q → p.target ∈ q.sources → rank i < rank j)
    {W W' : World D J} (h : LoopInv O Img ps W) {a : LoopAct D} (ha : a.Own) (hact : W.act O put a = some W') :
    ∃ i < ps.length, ∃ b : Bool, LoadDrop rank ps.length W' W (2 * rank i + if b then 1 else 0) := by
  obtain ⟨T, hW, hT⟩ := h
  cases a with
  | user w => exact ha.elim
  | work i g ω =>
    obtain ⟨s, s', hs, hwk, rfl⟩ := act_work hact
    have hlt : i < W.stations.length := (List.getElem?_eq_some_iff.mp hs).1
    refine ⟨i, by rw [← hW.len]; exact hlt, false, loadDrop_of (by rw [← hW.len]; exact hlt) false ?_ (by simp) (fun j _ _ hne c => ?_)⟩
    · simp only [World.waiting, List.getElem?_set_self hlt, hs]
      exact queued_work hwk
    · simp only [World.waiting, List.getElem?_set_ne (Ne.symm hne)]
  | send i n =>
    obtain ⟨s, s', w, hs, hsd, rfl⟩ := act_send hact
    obtain ⟨d1, _, rfl⟩ := send_some hsd
    have hlt : i < W.stations.length := (List.getElem?_eq_some_iff.mp hs).1
    have hlt' : i < ps.length := by rw [← hW.len]; exact hlt
    have hp0 : ps[i]? = some ps[i] := List.getElem?_eq_getElem hlt'
    have hc := hW.core i _ s hp0 hs
    rw [hc.tgt]
    have hW1 := winv_set hW hp0 (core_send hc (s.out.eraseIdx n))
    have hput := (write_one hnd hp0 (hst _ (List.getElem_mem hlt')) hW1 ((hT i _ s hp0 hs).2 w (List.mem_of_getElem? d1))).2
    have hsame : ∀ j, j < ps.length → rank j ≤ rank i → (World.write O (put ps[i].target) ps[i].target { W with stations := W.stations.set i { s with out := s.out.eraseIdx n } } w).stations[j]? =
        (W.stations.set i { s with out := s.out.eraseIdx n })[j]? := by
      intro j hj hrj
      refine write_other hW1 hput (List.getElem?_eq_getElem hj) (fun hmem => ?_)
      have := hr i j _ _ hp0 (List.getElem?_eq_getElem hj) hmem
      omega
    refine ⟨i, hlt', true, loadDrop_of hlt' true ?_ (fun _ => ?_) (fun j hj hrj hne c => ?_)⟩
    · simp only [World.waiting, hsame i hlt' (Nat.le_refl _), List.getElem?_set_self hlt, hs]
      have := (List.getElem?_eq_some_iff.mp d1).1
      simp [List.length_eraseIdx, this]
      omega
    · simp only [World.waiting, hsame i hlt' (Nat.le_refl _), List.getElem?_set_self hlt, hs]
      rfl
    · simp only [World.waiting, hsame j hj hrj, List.getElem?_set_ne (Ne.symm hne)]

end Dctl
