import Verif.Operator.ErrorsLemmas
/-!
# Invariants of errors on their way
-/
set_option autoImplicit false
set_option linter.unusedSectionVars false
namespace Dctl
namespace Pump

/-- An operator whose controllers pushed the errors `H`, `k` of which were handed to the loop. -/
structure InstOk (H : Hist) (k : Nat) (i : Inst) : Prop where
  reps : ∀ c, i.reps c = reporterAfter c H
  queue : i.pumping = true → ∃ taken, (signals [] H).map (sigOf i.name) = taken ++ i.slot.toList ++ i.chan ∧ taken.length = k
  ended : i.pumping = false → i.slot = none

/-- What holds of an entry of the table of operators. -/
def EntryOk (H : Hist) (k : Nat) : Option Inst → Prop
  | none => H = [] ∧ k = 0
  | some i => InstOk H k i

/-- What holds in all states. -/
structure Base (es : List Ev) (s : St) : Prop where
  fresh : ∀ id, s.next ≤ id → s.insts id = none
  entry : ∀ id, EntryOk (pushesOf id es) (handOvers id es) (s.insts id)
  cur : ∀ n id, s.current n = some id → ∃ i, s.insts id = some i ∧ i.name = n ∧ i.live = true ∧ (s.stopped = false → i.pumping = true)
  todo : ∀ id, s.todo = some id → s.holds .worker = none ∧ ∃ i, s.insts id = some i ∧ s.current i.name = some id
  gotOp : ∀ id, s.got = some (.op id) → s.insts id ≠ none
  gotHold : s.got ≠ none → s.holds .loop = none ∧ s.closed = false
  closed : s.closed = true → s.stopped = true

theorem base_init : Base [] init :=
  ⟨fun _ _ => rfl, fun _ => ⟨rfl, rfl⟩, by simp [init], by simp [init], by simp [init], by simp [init], by simp [init]⟩

theorem instOk_push {H : Hist} {k : Nat} {i j : Inst} {c : Nat} {p : Push} (h : InstOk H k i) (hj : i.push c p = some j) : InstOk (H ++ [(c, p)]) k j := by
  have := Inst.push_some hj
  subst this
  refine ⟨?_, ?_, h.ended⟩
  · intro c'
    rw [reporterAfter_append]
    simp only [upd]
    by_cases hc : c' = c
    · subst hc; simp [h.reps]
    · simp [hc, Ne.symm hc, h.reps]
  · intro hp
    obtain ⟨t, ht, hk⟩ := h.queue hp
    refine ⟨t, ?_, hk⟩
    rw [signals_append, List.map_append, ht]
    simp only [List.nil_append, signals, List.append_nil, h.reps]
    by_cases hs : (reporterAfter c H).signals p = true
    · simp [hs, sigOf]
    · simp [hs]

/-- Entries other than the one changed. -/
theorem entry_set {s : St} {es es' : List Ev} {id : Nat} {i : Inst} (h : ∀ id, EntryOk (pushesOf id es) (handOvers id es) (s.insts id))
    (hp : ∀ id', id' ≠ id → pushesOf id' es' = pushesOf id' es) (hk : ∀ id', id' ≠ id → handOvers id' es' = handOvers id' es)
    (hi : InstOk (pushesOf id es') (handOvers id es') i) : ∀ id', EntryOk (pushesOf id' es') (handOvers id' es') (upd s.insts id (some i) id') := by
  intro id'
  by_cases he : id' = id
  · subst he; rw [upd_same]; exact hi
  · rw [upd_other _ _ he, hp _ he, hk _ he]; exact h id'

/-- The invariants of the map of operators, after an operator was changed. -/
theorem cur_set {s : St} {id : Nat} {i j : Inst} (hi : s.insts id = some i) (hn : j.name = i.name) (hl : j.live = i.live) (hp : j.pumping = i.pumping)
    (h : ∀ n id, s.current n = some id → ∃ i, s.insts id = some i ∧ i.name = n ∧ i.live = true ∧ (s.stopped = false → i.pumping = true)) :
    ∀ n id', s.current n = some id' → ∃ k, upd s.insts id (some j) id' = some k ∧ k.name = n ∧ k.live = true ∧ (s.stopped = false → k.pumping = true) := by
  intro n id' hc
  obtain ⟨k, hk, h1, h2, h3⟩ := h n id' hc
  by_cases he : id' = id
  · subst he
    rw [hi] at hk
    cases hk
    exact ⟨j, upd_same _ _ _, by rw [hn, h1], by rw [hl, h2], by rw [hp]; exact h3⟩
  · exact ⟨k, by rw [upd_other _ _ he]; exact hk, h1, h2, h3⟩

theorem todo_set {s : St} {id : Nat} {i j : Inst} (hi : s.insts id = some i) (hn : j.name = i.name)
    (h : ∀ id, s.todo = some id → s.holds .worker = none ∧ ∃ i, s.insts id = some i ∧ s.current i.name = some id) :
    ∀ id', s.todo = some id' → s.holds .worker = none ∧ ∃ k, upd s.insts id (some j) id' = some k ∧ s.current k.name = some id' := by
  intro id' ht
  obtain ⟨hw, k, hk, hc⟩ := h id' ht
  refine ⟨hw, ?_⟩
  by_cases he : id' = id
  · subst he
    rw [hi] at hk
    cases hk
    exact ⟨j, upd_same _ _ _, by rw [hn]; exact hc⟩
  · exact ⟨k, by rw [upd_other _ _ he]; exact hk, hc⟩

theorem gotOp_set {s : St} {id : Nat} {j : Inst} (h : ∀ id, s.got = some (.op id) → s.insts id ≠ none) :
    ∀ id', s.got = some (.op id') → upd s.insts id (some j) id' ≠ none := by
  intro id' hg
  by_cases he : id' = id
  · subst he; rw [upd_same]; simp
  · rw [upd_other _ _ he]; exact h id' hg

theorem fresh_set {s : St} {id : Nat} {i j : Inst} (hi : s.insts id = some i) (h : ∀ id, s.next ≤ id → s.insts id = none) :
    ∀ id', s.next ≤ id' → upd s.insts id (some j) id' = none := by
  intro id' hl
  have : id' ≠ id := by
    rintro rfl
    rw [h _ hl] at hi
    simp at hi
  rw [upd_other _ _ this]
  exact h _ hl

theorem loopIdle_iff (s : St) : s.loopIdle = true ↔ s.got = none ∧ s.holds .loop = none ∧ s.closed = false := by
  simp [St.loopIdle, and_assoc]

theorem workerIdle_iff (s : St) : s.workerIdle = true ↔ s.todo = none ∧ s.holds .worker = none := by
  simp [St.workerIdle]

theorem cancel_entry {es : List Ev} {s : St} (h : ∀ id, EntryOk (pushesOf id es) (handOvers id es) (s.insts id)) (name : String) (id : Nat) :
    EntryOk (pushesOf id es) (handOvers id es) ((s.cancel name).insts id) := by
  rw [cancel_insts]
  have := h id
  split
  · cases hi : s.insts id with
    | none => rw [hi] at this; exact this
    | some i =>
      rw [hi] at this
      exact ⟨this.reps, this.queue, this.ended⟩
  · exact this

theorem base_step (es : List Ev) (s : St) (e : Ev) (s' : St) (h : Base es s) (hs : s.step e = .ok s') : Base (es ++ [e]) s' := by
  cases e with
  | push id c p =>
    obtain ⟨i, j, hi, hj, rfl⟩ := step_push hs
    have hj' := Inst.push_some hj
    have hn : j.name = i.name := by rw [hj']
    have hio : InstOk (pushesOf id es) (handOvers id es) i := by have := h.entry id; rw [hi] at this; exact this
    refine ⟨fresh_set hi h.fresh, entry_set h.entry ?_ ?_ ?_, cur_set hi hn (by rw [hj']) (by rw [hj']) h.cur, todo_set hi hn h.todo,
      gotOp_set h.gotOp, h.gotHold, h.closed⟩
    · intro id' hne
      simp [pushesOf_append, pushesOf, Ne.symm hne]
    · intro id' _
      simp [handOvers_append, handOvers]
    · have := instOk_push hio hj
      simpa [pushesOf_append, pushesOf, handOvers_append, handOvers] using this
  | take id =>
    obtain ⟨i, x, xs, hi, hp, hsl, hch, rfl⟩ := step_take hs
    have hio : InstOk (pushesOf id es) (handOvers id es) i := by have := h.entry id; rw [hi] at this; exact this
    refine ⟨fresh_set hi h.fresh, entry_set h.entry ?_ ?_ ?_, cur_set hi rfl rfl rfl h.cur, todo_set hi rfl h.todo,
      gotOp_set h.gotOp, h.gotHold, h.closed⟩
    · intro id' _; simp [pushesOf_append, pushesOf]
    · intro id' _; simp [handOvers_append, handOvers]
    · simp only [pushesOf_append, pushesOf, handOvers_append, handOvers, List.append_nil, Nat.add_zero]
      refine ⟨hio.reps, ?_, ?_⟩
      · intro _
        obtain ⟨t, ht, hk⟩ := hio.queue hp
        exact ⟨t, by rw [ht, hsl, hch]; simp, hk⟩
      · intro hf
        simp [hp] at hf
  | handOver id =>
    obtain ⟨i, x, hi, hsl, hcl, hidle, rfl⟩ := step_handOver hs
    rw [loopIdle_iff] at hidle
    have hio : InstOk (pushesOf id es) (handOvers id es) i := by have := h.entry id; rw [hi] at this; exact this
    refine ⟨fresh_set hi h.fresh, entry_set h.entry ?_ ?_ ?_, cur_set hi rfl rfl rfl h.cur, todo_set hi rfl h.todo,
      ?_, fun _ => ⟨hidle.2.1, hidle.2.2⟩, h.closed⟩
    · intro id' _; simp [pushesOf_append, pushesOf]
    · intro id' hne; simp [handOvers_append, handOvers, Ne.symm hne]
    · simp only [pushesOf_append, pushesOf, handOvers_append, handOvers, List.append_nil, if_true, Nat.add_zero]
      refine ⟨hio.reps, ?_, fun _ => rfl⟩
      intro hp
      obtain ⟨t, ht, hk⟩ := hio.queue hp
      exact ⟨t ++ [x], by rw [ht, hsl]; simp, by simp [hk]⟩
    · intro id' hg; simp at hg
  | pumpEnds id =>
    obtain ⟨i, hi, hp, hl, rfl⟩ := step_pumpEnds hs
    have hio : InstOk (pushesOf id es) (handOvers id es) i := by have := h.entry id; rw [hi] at this; exact this
    refine ⟨fresh_set hi h.fresh, entry_set h.entry ?_ ?_ ?_, ?_, todo_set hi rfl h.todo,
      gotOp_set h.gotOp, h.gotHold, h.closed⟩
    · intro id' _; simp [pushesOf_append, pushesOf]
    · intro id' _; simp [handOvers_append, handOvers]
    · simp only [pushesOf_append, pushesOf, handOvers_append, handOvers, List.append_nil, Nat.add_zero]
      exact ⟨hio.reps, by simp, fun _ => rfl⟩
    · intro n id' hc
      obtain ⟨k, hk, h1, h2, h3⟩ := h.cur n id' hc
      by_cases he : id' = id
      · subst he
        rw [hi] at hk
        cases hk
        refine ⟨_, upd_same _ _ _, h1, h2, ?_⟩
        intro hst
        rcases hl with hl | hl
        · rw [h2] at hl; simp at hl
        · have : s.stopped = false := hst
          rw [this] at hl; simp at hl
      · exact ⟨k, by simp only [St.setInst]; rw [upd_other _ _ he]; exact hk, h1, h2, h3⟩
  | opFails id =>
    obtain ⟨hcl, hidle, rfl⟩ := step_opFails hs
    rw [loopIdle_iff] at hidle
    refine ⟨h.fresh, ?_, h.cur, h.todo, by simp, fun _ => ⟨hidle.2.1, hidle.2.2⟩, h.closed⟩
    intro id'
    simpa [pushesOf_append, pushesOf, handOvers_append, handOvers] using h.entry id'
  | loopFind =>
    have hent : ∀ id', EntryOk (pushesOf id' (es ++ [.loopFind])) (handOvers id' (es ++ [.loopFind])) (s.insts id') := by
      intro id'
      simpa [pushesOf_append, pushesOf, handOvers_append, handOvers] using h.entry id'
    rcases step_loopFind hs with ⟨hg, rfl⟩ | ⟨x, hg, rfl⟩
    · exact ⟨h.fresh, hent, h.cur, h.todo, by simp, by simp, h.closed⟩
    · refine ⟨h.fresh, hent, h.cur, h.todo, ?_, fun _ => h.gotHold (by rw [hg]; simp), h.closed⟩
      intro id hid
      simp only at hid
      cases hc : s.current x.op with
      | none => rw [hc] at hid; simp at hid
      | some id' =>
        rw [hc] at hid
        simp at hid
        subst hid
        obtain ⟨i, hi, _⟩ := h.cur _ _ hc
        simp only
        rw [hi]
        simp
  | loopSnap ok =>
    obtain ⟨id, i, hg, hi, rfl⟩ := step_loopSnap hs
    refine ⟨h.fresh, ?_, h.cur, ?_, by simp, by simp, h.closed⟩
    · intro id'
      simpa [pushesOf_append, pushesOf, handOvers_append, handOvers] using h.entry id'
    · intro id' ht
      obtain ⟨hw, hk⟩ := h.todo id' ht
      refine ⟨?_, hk⟩
      simp only
      split
      · rw [upd_other _ _ (by simp)]; exact hw
      · exact hw
  | upsert name ctrls =>
    obtain ⟨hw, rfl⟩ := step_upsert hs
    rw [workerIdle_iff] at hw
    obtain ⟨e1, e2, e3, e4, e5, e6, e7⟩ := cancel_fields s name
    have hnx : s.insts s.next = none := h.fresh _ (Nat.le_refl _)
    have hcfresh : ∀ id, s.next ≤ id → (s.cancel name).insts id = none := by
      intro id hl
      rw [cancel_insts, h.fresh id hl]
      simp
    refine ⟨?_, ?_, ?_, ?_, ?_, ?_, ?_⟩
    · intro id hl
      simp only [e1] at hl ⊢
      rw [upd_other _ _ (by omega)]
      exact hcfresh id (by omega)
    · intro id
      simp only [pushesOf_append, pushesOf, handOvers_append, handOvers, List.append_nil, Nat.add_zero, e1]
      by_cases he : id = s.next
      · subst he
        rw [upd_same]
        have := h.entry s.next
        rw [hnx] at this
        rw [this.1, this.2]
        exact ⟨fun _ => rfl, fun _ => ⟨[], by simp [signals, freshInst], rfl⟩, fun _ => rfl⟩
      · rw [upd_other _ _ he]
        exact cancel_entry h.entry name id
    · intro n id hc
      simp only [e1, e6] at hc ⊢
      by_cases hn : n = name
      · subst hn
        rw [upd_same] at hc
        cases hc
        exact ⟨_, upd_same _ _ _, rfl, rfl, fun _ => rfl⟩
      · rw [upd_other _ _ hn, cancel_current, if_neg hn] at hc
        obtain ⟨k, hk, h1, h2, h3⟩ := h.cur n id hc
        have hlt : id ≠ s.next := by
          rintro rfl
          rw [hnx] at hk
          simp at hk
        rw [upd_other _ _ hlt, cancel_insts, if_neg ?_]
        · exact ⟨k, hk, h1, h2, h3⟩
        · intro hcn
          obtain ⟨k', hk', h1', _⟩ := h.cur name id hcn
          rw [hk] at hk'
          cases hk'
          exact hn (h1.symm.trans h1')
    · intro id ht
      simp only [e1, e4] at ht ⊢
      cases ht
      exact ⟨hw.2, _, upd_same _ _ _, upd_same _ _ _⟩
    · intro id hg
      simp only [e1, e2] at hg ⊢
      by_cases he : id = s.next
      · subst he; rw [upd_same]; simp
      · rw [upd_other _ _ he, cancel_insts]
        have := h.gotOp id hg
        split
        · intro h0
          rw [Option.map_eq_none_iff] at h0
          exact this h0
        · exact this
    · simp only [e2, e4, e7]
      exact h.gotHold
    · simp only [e6, e7]
      exact h.closed
  | delete name =>
    obtain ⟨hw, rfl⟩ := step_delete hs
    rw [workerIdle_iff] at hw
    obtain ⟨e1, e2, e3, e4, e5, e6, e7⟩ := cancel_fields s name
    refine ⟨?_, ?_, ?_, ?_, ?_, ?_, ?_⟩
    · intro id hl
      rw [e1] at hl
      rw [cancel_insts, h.fresh id hl]
      simp
    · intro id
      simp only [pushesOf_append, pushesOf, handOvers_append, handOvers, List.append_nil, Nat.add_zero]
      exact cancel_entry h.entry name id
    · intro n id hc
      rw [cancel_current] at hc
      split at hc
      · simp at hc
      · rename_i hn
        obtain ⟨k, hk, h1, h2, h3⟩ := h.cur n id hc
        rw [e6, cancel_insts, if_neg ?_]
        · exact ⟨k, hk, h1, h2, h3⟩
        · intro hcn
          obtain ⟨k', hk', h1', _⟩ := h.cur name id hcn
          rw [hk] at hk'
          cases hk'
          exact hn (h1.symm.trans h1')
    · intro id ht
      rw [e3, hw.1] at ht
      simp at ht
    · intro id hg
      rw [e2] at hg
      rw [cancel_insts]
      have := h.gotOp id hg
      split
      · intro h0
        rw [Option.map_eq_none_iff] at h0
        exact this h0
      · exact this
    · rw [e2, e4, e7]; exact h.gotHold
    · rw [e6, e7]; exact h.closed
  | workerSnap ok =>
    obtain ⟨id, i, hg, hi, rfl⟩ := step_workerSnap hs
    refine ⟨h.fresh, ?_, h.cur, by simp, h.gotOp, ?_, h.closed⟩
    · intro id'
      simpa [pushesOf_append, pushesOf, handOvers_append, handOvers] using h.entry id'
    · intro hne
      obtain ⟨hl, hc⟩ := h.gotHold hne
      refine ⟨?_, hc⟩
      simp only
      split
      · rw [upd_other _ _ (by simp)]; exact hl
      · exact hl
  | write a ok =>
    obtain ⟨x, hx, rfl⟩ := step_write hs
    refine ⟨h.fresh, ?_, h.cur, ?_, h.gotOp, ?_, h.closed⟩
    · intro id'
      simpa [pushesOf_append, pushesOf, handOvers_append, handOvers] using h.entry id'
    · intro id ht
      obtain ⟨hw, hk⟩ := h.todo id ht
      refine ⟨?_, hk⟩
      simp only [upd]
      split
      · rfl
      · exact hw
    · intro hne
      obtain ⟨hl, hc⟩ := h.gotHold hne
      refine ⟨?_, hc⟩
      simp only [upd]
      split
      · rfl
      · exact hl
  | stop =>
    have := step_stop hs
    subst this
    refine ⟨h.fresh, ?_, ?_, h.todo, h.gotOp, h.gotHold, fun _ => rfl⟩
    · intro id'
      simpa [pushesOf_append, pushesOf, handOvers_append, handOvers] using h.entry id'
    · intro n id hc
      obtain ⟨k, hk, h1, h2, _⟩ := h.cur n id hc
      exact ⟨k, hk, h1, h2, by simp⟩
  | loopEnds =>
    obtain ⟨hst, hidle, rfl⟩ := step_loopEnds hs
    rw [loopIdle_iff] at hidle
    refine ⟨h.fresh, ?_, h.cur, h.todo, h.gotOp, ?_, fun _ => hst⟩
    · intro id'
      simpa [pushesOf_append, pushesOf, handOvers_append, handOvers] using h.entry id'
    · intro hne
      exact absurd hidle.1 hne

/-- It holds in all states that can be reached. -/
theorem base_run (es : List Ev) (s : St) (hr : init.run es = .ok s) : Base es s :=
  run_induct (P := fun _ _ => True) base_init (fun es s e s' h _ hs => base_step es s e s' h hs) es s (always_true _ _) hr

end Pump
end Dctl
