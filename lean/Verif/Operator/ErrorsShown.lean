import Verif.Operator.ErrorsBase
/-!
# What the status shows, as an invariant
-/
set_option autoImplicit false
set_option linter.unusedSectionVars false
namespace Dctl
namespace Pump

/-- A status that shows all errors `H` up to some that were not signalled. -/
def UpToDate (H : Hist) (ctrls : List String) (v : List CtrlStatus) : Prop :=
  ∃ pre post, H = pre ++ post ∧ signals pre post = [] ∧ v = statusAfter ctrls pre

theorem upToDate_all (H : Hist) (ctrls : List String) : UpToDate H ctrls (statusAfter ctrls H) := ⟨H, [], by simp, rfl, rfl⟩

theorem upToDate_quiet {H : Hist} {ctrls : List String} {v : List CtrlStatus} (h : UpToDate H ctrls v) {x : Nat × Push}
    (hq : (reporterAfter x.1 H).signals x.2 = false) : UpToDate (H ++ [x]) ctrls v := by
  obtain ⟨pre, post, rfl, hs, rfl⟩ := h
  refine ⟨pre, post ++ [x], by simp, ?_, rfl⟩
  rw [signals_append, hs]
  simp [signals, hq]

/-- Something will still lead to a new status of the operator. -/
def Pend (s : St) (n : String) (id : Nat) (i : Inst) : Prop :=
  i.chan ≠ [] ∨ i.slot ≠ none ∨ (∃ x, s.got = some (.sig x) ∧ x.op = n) ∨ s.got = some (.op id) ∨ s.todo = some id

/-- The status of the operator is on its way, or shown. -/
def Shown (es : List Ev) (s : St) (n : String) (id : Nat) (i : Inst) : Prop :=
  Pend s n id i ∨ (∃ a v, s.holds a = some ⟨n, v⟩ ∧ UpToDate (pushesOf id es) i.ctrls v) ∨
  ((∀ a x, s.holds a = some x → x.name ≠ n) ∧ ∃ v, s.shown n = some v ∧ UpToDate (pushesOf id es) i.ctrls v)

structure ShownInv (es : List Ev) (s : St) : Prop where
  base : Base es s
  one : ∀ x y, s.holds .loop = some x → s.holds .worker = some y → x.name ≠ y.name
  opCur : ∀ id i, s.got = some (.op id) → s.insts id = some i → s.current i.name = some id
  main : s.stopped = false → ∀ n id i, s.current n = some id → s.insts id = some i → Shown es s n id i

theorem shown_init : ShownInv [] init := ⟨base_init, by simp [init], by simp [init], by simp [init]⟩

/-- Steps that do not concern the operator. -/
theorem shown_mono {es es' : List Ev} {s s' : St} {n : String} {id : Nat} {i i' : Inst} (h : Shown es s n id i)
    (hp : Pend s n id i → Pend s' n id i') (hh : s'.holds = s.holds) (hsh : s'.shown = s.shown) (hc : i'.ctrls = i.ctrls)
    (hps : pushesOf id es' = pushesOf id es) : Shown es' s' n id i' := by
  unfold Shown at *
  rw [hh, hsh, hc, hps]
  rcases h with h | h
  · exact Or.inl (hp h)
  · exact Or.inr h

theorem pend_same {s s' : St} {n : String} {id : Nat} {i i' : Inst} (h : Pend s n id i) (hc : i'.chan = i.chan) (hsl : i'.slot = i.slot)
    (hg : s'.got = s.got) (ht : s'.todo = s.todo) : Pend s' n id i' := by
  unfold Pend at *
  rw [hc, hsl, hg, ht]
  exact h

theorem entry_of {es : List Ev} {s : St} (h : Base es s) {id : Nat} {i : Inst} (hi : s.insts id = some i) :
    InstOk (pushesOf id es) (handOvers id es) i := by
  have := h.entry id
  rw [hi] at this
  exact this

theorem slot_op {es : List Ev} {s : St} (h : Base es s) {id : Nat} {i : Inst} (hi : s.insts id = some i) {x : Sig} (hx : i.slot = some x) : x.op = i.name := by
  have hio := entry_of h hi
  have hp : i.pumping = true := by
    cases hp : i.pumping with
    | true => rfl
    | false => rw [hio.ended hp] at hx; simp at hx
  obtain ⟨t, ht, _⟩ := hio.queue hp
  have hm : x ∈ (signals [] (pushesOf id es)).map (sigOf i.name) := by rw [ht, hx]; simp
  obtain ⟨y, _, rfl⟩ := List.mem_map.1 hm
  rfl

theorem cur_unique {es : List Ev} {s : St} (h : Base es s) {n m : String} {id : Nat} (h1 : s.current n = some id) (h2 : s.current m = some id) : n = m := by
  obtain ⟨i, hi, hn, _⟩ := h.cur n id h1
  obtain ⟨i', hi', hn', _⟩ := h.cur m id h2
  rw [hi] at hi'
  cases hi'
  rw [← hn, ← hn']

theorem shown_step (es : List Ev) (s : St) (e : Ev) (s' : St) (h : ShownInv es s) (ht : Tame s e) (hs : s.step e = .ok s') : ShownInv (es ++ [e]) s' := by
  have hb := base_step es s e s' h.base hs
  cases e with
  | push id c p =>
    obtain ⟨i, j, hi, hj, rfl⟩ := step_push hs
    have hj' := Inst.push_some hj
    refine ⟨hb, h.one, ?_, ?_⟩
    · intro id' i' hg hi'
      simp only [St.setInst] at hg hi' ⊢
      by_cases he : id' = id
      · subst he
        rw [upd_same] at hi'
        cases hi'
        have := h.opCur id' i hg hi
        rw [hj']
        exact this
      · rw [upd_other _ _ he] at hi'
        exact h.opCur id' i' hg hi'
    · intro hst n id' i' hc hi'
      simp only [St.setInst] at hst hc hi'
      by_cases he : id' = id
      · subst he
        rw [upd_same] at hi'
        cases hi'
        have hm := h.main hst n id' i hc hi
        have hr := (entry_of h.base hi).reps c
        cases hsg : (i.reps c).signals p with
        | true =>
          left; left
          rw [hj']
          simp [hsg]
        | false =>
          have hch : j.chan = i.chan := by rw [hj']; simp [hsg]
          have hsl : j.slot = i.slot := by rw [hj']
          have hct : j.ctrls = i.ctrls := by rw [hj']
          have hps : pushesOf id' (es ++ [.push id' c p]) = pushesOf id' es ++ [(c, p)] := by simp [pushesOf_append, pushesOf]
          have hq : (reporterAfter (c, p).1 (pushesOf id' es)).signals (c, p).2 = false := by
            simp only; rw [← hr]; exact hsg
          unfold Shown at hm ⊢
          rw [hct, hps]
          rcases hm with hm | ⟨a, v, h1, h2⟩ | ⟨h0, v, h1, h2⟩
          · exact Or.inl (pend_same hm hch hsl rfl rfl)
          · exact Or.inr (Or.inl ⟨a, v, h1, upToDate_quiet h2 hq⟩)
          · exact Or.inr (Or.inr ⟨h0, v, h1, upToDate_quiet h2 hq⟩)
      · rw [upd_other _ _ he] at hi'
        exact shown_mono (h.main hst n id' i' hc hi') (fun hp => pend_same hp rfl rfl rfl rfl) rfl rfl rfl
          (by simp [pushesOf_append, pushesOf, Ne.symm he])
  | take id =>
    obtain ⟨i, x, xs, hi, hp, hsl, hch, rfl⟩ := step_take hs
    refine ⟨hb, h.one, ?_, ?_⟩
    · intro id' i' hg hi'
      simp only [St.setInst] at hg hi' ⊢
      by_cases he : id' = id
      · subst he
        rw [upd_same] at hi'
        cases hi'
        exact h.opCur id' i hg hi
      · rw [upd_other _ _ he] at hi'
        exact h.opCur id' i' hg hi'
    · intro hst n id' i' hc hi'
      simp only [St.setInst] at hst hc hi'
      by_cases he : id' = id
      · subst he
        rw [upd_same] at hi'
        cases hi'
        exact Or.inl (Or.inr (Or.inl (by simp)))
      · rw [upd_other _ _ he] at hi'
        exact shown_mono (h.main hst n id' i' hc hi') (fun hp => pend_same hp rfl rfl rfl rfl) rfl rfl rfl
          (by simp [pushesOf_append, pushesOf])
  | handOver id =>
    obtain ⟨i, x, hi, hsl, hcl, hidle, rfl⟩ := step_handOver hs
    rw [loopIdle_iff] at hidle
    refine ⟨hb, h.one, ?_, ?_⟩
    · intro id' i' hg hi'
      simp at hg
    · intro hst n id' i' hc hi'
      simp only [St.setInst] at hst hc hi'
      by_cases he : id' = id
      · subst he
        rw [upd_same] at hi'
        cases hi'
        obtain ⟨k, hk, hkn, _⟩ := h.base.cur n id' hc
        rw [hi] at hk
        cases hk
        exact Or.inl (Or.inr (Or.inr (Or.inl ⟨x, rfl, by rw [slot_op h.base hi hsl, hkn]⟩)))
      · rw [upd_other _ _ he] at hi'
        refine shown_mono (h.main hst n id' i' hc hi') ?_ rfl rfl rfl (by simp [pushesOf_append, pushesOf])
        rintro (hp | hp | ⟨y, hp, _⟩ | hp | hp)
        · exact Or.inl hp
        · exact Or.inr (Or.inl hp)
        · rw [hidle.1] at hp; simp at hp
        · rw [hidle.1] at hp; simp at hp
        · exact Or.inr (Or.inr (Or.inr (Or.inr hp)))
  | pumpEnds id =>
    obtain ⟨i, hi, hp, hl, rfl⟩ := step_pumpEnds hs
    refine ⟨hb, h.one, ?_, ?_⟩
    · intro id' i' hg hi'
      simp only [St.setInst] at hg hi' ⊢
      by_cases he : id' = id
      · subst he
        rw [upd_same] at hi'
        cases hi'
        exact h.opCur id' i hg hi
      · rw [upd_other _ _ he] at hi'
        exact h.opCur id' i' hg hi'
    · intro hst n id' i' hc hi'
      simp only [St.setInst] at hst hc hi'
      by_cases he : id' = id
      · subst he
        obtain ⟨k, hk, hkn, hkl, _⟩ := h.base.cur n id' hc
        rw [hi] at hk
        cases hk
        rcases hl with hl | hl
        · rw [hkl] at hl; simp at hl
        · rw [hst] at hl; simp at hl
      · rw [upd_other _ _ he] at hi'
        exact shown_mono (h.main hst n id' i' hc hi') (fun hp => pend_same hp rfl rfl rfl rfl) rfl rfl rfl
          (by simp [pushesOf_append, pushesOf])
  | opFails id =>
    obtain ⟨hcl, hidle, rfl⟩ := step_opFails hs
    rw [loopIdle_iff] at hidle
    refine ⟨hb, h.one, by simp, ?_⟩
    intro hst n id' i' hc hi'
    refine shown_mono (h.main hst n id' i' hc hi') ?_ rfl rfl rfl (by simp [pushesOf_append, pushesOf])
    rintro (hp | hp | ⟨y, hp, _⟩ | hp | hp)
    · exact Or.inl hp
    · exact Or.inr (Or.inl hp)
    · rw [hidle.1] at hp; simp at hp
    · rw [hidle.1] at hp; simp at hp
    · exact Or.inr (Or.inr (Or.inr (Or.inr hp)))
  | loopFind =>
    rcases step_loopFind hs with ⟨hg, rfl⟩ | ⟨x, hg, rfl⟩
    · refine ⟨hb, h.one, by simp, ?_⟩
      intro hst n id' i' hc hi'
      refine shown_mono (h.main hst n id' i' hc hi') ?_ rfl rfl rfl (by simp [pushesOf_append, pushesOf])
      rintro (hp | hp | ⟨y, hp, _⟩ | hp | hp)
      · exact Or.inl hp
      · exact Or.inr (Or.inl hp)
      · rw [hg] at hp; simp at hp
      · rw [hg] at hp; simp at hp
      · exact Or.inr (Or.inr (Or.inr (Or.inr hp)))
    · refine ⟨hb, h.one, ?_, ?_⟩
      · intro id i hgi hi
        simp only [Option.map_eq_some_iff] at hgi
        obtain ⟨id', hc, he⟩ := hgi
        simp at he
        subst he
        obtain ⟨k, hk, hkn, _⟩ := h.base.cur _ _ hc
        have hi : s.insts id' = some i := hi
        rw [hk] at hi
        cases hi
        rw [hkn]
        exact hc
      · intro hst n id' i' hc hi'
        have hc : s.current n = some id' := hc
        refine shown_mono (h.main hst n id' i' hc hi') ?_ rfl rfl rfl (by simp [pushesOf_append, pushesOf])
        rintro (hp | hp | ⟨y, hp, hy⟩ | hp | hp)
        · exact Or.inl hp
        · exact Or.inr (Or.inl hp)
        · rw [hg] at hp
          cases hp
          refine Or.inr (Or.inr (Or.inr (Or.inl ?_)))
          simp only
          rw [hy, hc]
          rfl
        · rw [hg] at hp; simp at hp
        · exact Or.inr (Or.inr (Or.inr (Or.inr hp)))
  | loopSnap ok =>
    obtain ⟨id, i, hg, hi, rfl⟩ := step_loopSnap hs
    obtain ⟨hok, htw⟩ := ht
    subst hok
    have hnw := htw id i hg hi
    have hcur := h.opCur id i hg hi
    have hl0 := (h.base.gotHold (by rw [hg]; simp)).1
    have hst' : i.status = statusAfter i.ctrls (pushesOf id es) := status_eq i _ (entry_of h.base hi).reps
    refine ⟨hb, ?_, by simp, ?_⟩
    · intro x y hx hy
      simp only [if_true] at hx hy
      rw [upd_same] at hx
      rw [upd_other _ _ (by simp)] at hy
      cases hx
      intro he
      exact hnw ⟨y, hy, he.symm⟩
    · intro hst n id' i' hc hi'
      have hc : s.current n = some id' := hc
      have hi' : s.insts id' = some i' := hi'
      have hps : pushesOf id' (es ++ [.loopSnap true]) = pushesOf id' es := by simp [pushesOf_append, pushesOf]
      by_cases he : id' = id
      · subst he
        rw [hi] at hi'
        cases hi'
        obtain ⟨k, hk, hkn, _⟩ := h.base.cur n id' hc
        rw [hi] at hk
        cases hk
        refine Or.inr (Or.inl ⟨.loop, i.status, ?_, ?_⟩)
        · simp only [if_true]
          rw [upd_same, hkn]
        · rw [hps, hst']
          exact upToDate_all _ _
      · have hnn : i.name ≠ n := by
          intro hn
          rw [hn, hc] at hcur
          exact he (Option.some.inj hcur)
        have hm := h.main hst n id' i' hc hi'
        unfold Shown at hm ⊢
        rw [hps]
        rcases hm with hp | ⟨a, v, h1, h2⟩ | ⟨h0, v, h1, h2⟩
        · left
          rcases hp with hp | hp | ⟨y, hp, _⟩ | hp | hp
          · exact Or.inl hp
          · exact Or.inr (Or.inl hp)
          · rw [hg] at hp; simp at hp
          · rw [hg] at hp; simp at hp; exact absurd hp.symm he
          · exact Or.inr (Or.inr (Or.inr (Or.inr hp)))
        · right; left
          cases a with
          | loop => rw [hl0] at h1; simp at h1
          | worker =>
            refine ⟨.worker, v, ?_, h2⟩
            simp only [if_true]
            rw [upd_other _ _ (by simp)]
            exact h1
        · right; right
          refine ⟨?_, v, h1, h2⟩
          intro a x hx
          simp only [if_true] at hx
          cases a with
          | loop => rw [upd_same] at hx; cases hx; exact hnn
          | worker => rw [upd_other _ _ (by simp)] at hx; exact h0 _ _ hx
  | upsert name ctrls =>
    obtain ⟨hw, rfl⟩ := step_upsert hs
    rw [workerIdle_iff] at hw
    obtain ⟨e1, e2, e3, e4, e5, e6, e7⟩ := cancel_fields s name
    refine ⟨hb, ?_, ?_, ?_⟩
    · intro x y hx hy
      simp only [e4] at hx hy
      exact h.one x y hx hy
    · intro id i hg hi
      simp only [e1, e2] at hg hi ⊢
      have hne : id ≠ s.next := by
        rintro rfl
        exact h.base.gotOp _ hg (h.base.fresh _ (Nat.le_refl _))
      rw [upd_other _ _ hne, cancel_insts] at hi
      cases hk : s.insts id with
      | none => exact absurd hk (h.base.gotOp _ hg)
      | some k =>
        have hkc := h.opCur id k hg hk
        have hkn : k.name ≠ name := by
          intro he
          exact ht (Or.inl ⟨id, k, hg, hk, he⟩)
        have hin : i.name = k.name := by
          rw [hk] at hi
          split at hi
          · simp at hi; rw [← hi]
          · simp at hi; rw [hi]
        rw [hin, upd_other _ _ hkn, cancel_current, if_neg hkn]
        exact hkc
    · intro hst n id i hc hi
      simp only [e1, e6] at hst hc hi
      by_cases hn : n = name
      · subst hn
        rw [upd_same] at hc
        cases hc
        exact Or.inl (Or.inr (Or.inr (Or.inr (Or.inr (by simp only [e1])))))
      · rw [upd_other _ _ hn, cancel_current, if_neg hn] at hc
        obtain ⟨k, hk, h1, h2, h3⟩ := h.base.cur n id hc
        have hlt : id ≠ s.next := by
          rintro rfl
          rw [h.base.fresh _ (Nat.le_refl _)] at hk
          simp at hk
        rw [upd_other _ _ hlt, cancel_insts, if_neg (fun hcn => hn (cur_unique h.base hc hcn))] at hi
        refine shown_mono (h.main hst n id i hc hi) ?_ e4 e5 rfl (by simp [pushesOf_append, pushesOf])
        rintro (hp | hp | hp | hp | hp)
        · exact Or.inl hp
        · exact Or.inr (Or.inl hp)
        · exact Or.inr (Or.inr (Or.inl (by simpa only [e2] using hp)))
        · exact Or.inr (Or.inr (Or.inr (Or.inl (by simpa only [e2] using hp))))
        · rw [hw.1] at hp; simp at hp
  | delete name =>
    obtain ⟨hw, rfl⟩ := step_delete hs
    rw [workerIdle_iff] at hw
    obtain ⟨e1, e2, e3, e4, e5, e6, e7⟩ := cancel_fields s name
    refine ⟨hb, ?_, ?_, ?_⟩
    · intro x y hx hy
      rw [e4] at hx hy
      exact h.one x y hx hy
    · intro id i hg hi
      rw [e2] at hg
      rw [cancel_insts] at hi
      cases hk : s.insts id with
      | none => exact absurd hk (h.base.gotOp _ hg)
      | some k =>
        have hkc := h.opCur id k hg hk
        have hkn : k.name ≠ name := by
          intro he
          exact ht (Or.inl ⟨id, k, hg, hk, he⟩)
        have hin : i.name = k.name := by
          rw [hk] at hi
          split at hi
          · simp at hi; rw [← hi]
          · simp at hi; rw [hi]
        rw [hin, cancel_current, if_neg hkn]
        exact hkc
    · intro hst n id i hc hi
      rw [e6] at hst
      rw [cancel_current] at hc
      split at hc
      · simp at hc
      · rename_i hn
        rw [cancel_insts, if_neg (fun hcn => hn (cur_unique h.base hc hcn))] at hi
        refine shown_mono (h.main hst n id i hc hi) ?_ e4 e5 rfl (by simp [pushesOf_append, pushesOf])
        intro hp
        exact pend_same hp rfl rfl e2 e3
  | workerSnap ok =>
    obtain ⟨id, i, hg, hi, rfl⟩ := step_workerSnap hs
    obtain ⟨hok, htw⟩ := ht
    subst hok
    have hnl := htw id i hg hi
    obtain ⟨hw0, k, hk, hcur⟩ := h.base.todo id hg
    rw [hi] at hk
    cases hk
    have hst' : i.status = statusAfter i.ctrls (pushesOf id es) := status_eq i _ (entry_of h.base hi).reps
    refine ⟨hb, ?_, ?_, ?_⟩
    · intro x y hx hy
      simp only [if_true] at hx hy
      rw [upd_same] at hy
      rw [upd_other _ _ (by simp)] at hx
      cases hy
      intro he
      exact hnl ⟨x, hx, he⟩
    · intro id' i' hg' hi'
      exact h.opCur id' i' hg' hi'
    · intro hst n id' i' hc hi'
      have hc : s.current n = some id' := hc
      have hi' : s.insts id' = some i' := hi'
      have hps : pushesOf id' (es ++ [.workerSnap true]) = pushesOf id' es := by simp [pushesOf_append, pushesOf]
      by_cases he : id' = id
      · subst he
        rw [hi] at hi'
        cases hi'
        obtain ⟨k, hk, hkn, _⟩ := h.base.cur n id' hc
        rw [hi] at hk
        cases hk
        refine Or.inr (Or.inl ⟨.worker, i.status, ?_, ?_⟩)
        · simp only [if_true]
          rw [upd_same, hkn]
        · rw [hps, hst']
          exact upToDate_all _ _
      · have hnn : i.name ≠ n := by
          intro hn
          rw [hn, hc] at hcur
          exact he (Option.some.inj hcur)
        have hm := h.main hst n id' i' hc hi'
        unfold Shown at hm ⊢
        rw [hps]
        rcases hm with hp | ⟨a, v, h1, h2⟩ | ⟨h0, v, h1, h2⟩
        · left
          rcases hp with hp | hp | hp | hp | hp
          · exact Or.inl hp
          · exact Or.inr (Or.inl hp)
          · exact Or.inr (Or.inr (Or.inl hp))
          · exact Or.inr (Or.inr (Or.inr (Or.inl hp)))
          · rw [hg] at hp; simp at hp; exact absurd hp.symm he
        · right; left
          cases a with
          | worker => rw [hw0] at h1; simp at h1
          | loop =>
            refine ⟨.loop, v, ?_, h2⟩
            simp only [if_true]
            rw [upd_other _ _ (by simp)]
            exact h1
        · right; right
          refine ⟨?_, v, h1, h2⟩
          intro a x hx
          simp only [if_true] at hx
          cases a with
          | worker => rw [upd_same] at hx; cases hx; exact hnn
          | loop => rw [upd_other _ _ (by simp)] at hx; exact h0 _ _ hx
  | write a ok =>
    obtain ⟨x, hx, rfl⟩ := step_write hs
    have hok : ok = true := ht
    subst hok
    refine ⟨hb, ?_, ?_, ?_⟩
    · intro y z hy hz
      simp only [upd] at hy hz
      split at hy
      · simp at hy
      · split at hz
        · simp at hz
        · exact h.one y z hy hz
    · intro id i hg hi
      exact h.opCur id i hg hi
    · intro hst n id i hc hi
      have hps : pushesOf id (es ++ [.write a true]) = pushesOf id es := by simp [pushesOf_append, pushesOf]
      have hm := h.main hst n id i hc hi
      unfold Shown at hm ⊢
      rw [hps]
      have hone : ∀ b y, b ≠ a → s.holds b = some y → x.name ≠ y.name := by
        intro b y hba hy
        cases a <;> cases b
        · exact absurd rfl hba
        · exact h.one x y hx hy
        · exact (h.one y x hy hx).symm
        · exact absurd rfl hba
      rcases hm with hp | ⟨b, v, h1, h2⟩ | ⟨h0, v, h1, h2⟩
      · exact Or.inl (pend_same hp rfl rfl rfl rfl)
      · by_cases hba : b = a
        · subst hba
          rw [hx] at h1
          cases h1
          right; right
          refine ⟨?_, v, ?_, h2⟩
          · intro c y hy
            simp only [upd] at hy
            split at hy
            · simp at hy
            · rename_i hcb
              exact (hone c y hcb hy).symm
          · simp [upd]
        · right; left
          refine ⟨b, v, ?_, h2⟩
          simp only
          rw [upd_other _ _ hba]
          exact h1
      · right; right
        refine ⟨?_, v, ?_, h2⟩
        · intro c y hy
          simp only [upd] at hy
          split at hy
          · simp at hy
          · exact h0 c y hy
        · simp only [if_true]
          rw [upd_other _ _ (Ne.symm (h0 a x hx))]
          exact h1
  | stop =>
    have := step_stop hs
    subst this
    exact ⟨hb, h.one, h.opCur, by simp⟩
  | loopEnds =>
    obtain ⟨hst, hidle, rfl⟩ := step_loopEnds hs
    refine ⟨hb, h.one, h.opCur, ?_⟩
    intro hst'
    rw [hst] at hst'
    simp at hst'

theorem shown_run (es : List Ev) (s : St) (ht : Always Tame init es) (hr : init.run es = .ok s) : ShownInv es s :=
  run_induct (P := Tame) shown_init shown_step es s ht hr

end Pump
end Dctl
