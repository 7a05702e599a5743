import Verif.Operator.ErrorsShown
/-!
# Errors on their way arrive
-/
set_option autoImplicit false
set_option linter.unusedSectionVars false
namespace Dctl
namespace Pump

/-- The steps an operator's errors still need. -/
def instLoad : Option Inst → Nat
  | none => 0
  | some i => 6 * i.chan.length + (if i.slot.isSome then 5 else 0)

def tot (f : Nat → Option Inst) : Nat → Nat
  | 0 => 0
  | n + 1 => tot f n + instLoad (f n)

theorem tot_upd_ge (f : Nat → Option Inst) (id : Nat) (v : Option Inst) (n : Nat) (h : n ≤ id) : tot (upd f id v) n = tot f n := by
  induction n with
  | zero => rfl
  | succ n ih =>
    simp only [tot]
    rw [ih (by omega), upd_other _ _ (by omega)]

theorem tot_upd (f : Nat → Option Inst) (id : Nat) (v : Option Inst) (n : Nat) (h : id < n) :
    tot (upd f id v) n + instLoad (f id) = tot f n + instLoad v := by
  induction n with
  | zero => omega
  | succ n ih =>
    simp only [tot]
    by_cases he : id = n
    · subst he
      rw [tot_upd_ge _ _ _ _ (Nat.le_refl _), upd_same]
      omega
    · rw [upd_other _ _ (Ne.symm he)]
      have := ih (by omega)
      omega

def gotLoad : Option Got → Nat
  | none => 0
  | some .other => 1
  | some (.op _) => 3
  | some (.sig _) => 4

def holdLoad : Option Snap → Nat
  | none => 0
  | some _ => 1

def todoLoad : Option Nat → Nat
  | none => 0
  | some _ => 3

/-- The steps still needed. -/
def load (s : St) : Nat :=
  tot s.insts s.next + gotLoad s.got + todoLoad s.todo + holdLoad (s.holds .loop) + holdLoad (s.holds .worker)

theorem base_lt {es : List Ev} {s : St} (h : Base es s) {id : Nat} {i : Inst} (hi : s.insts id = some i) : id < s.next := by
  rcases Nat.lt_or_ge id s.next with hl | hl
  · exact hl
  · rw [h.fresh id hl] at hi
    simp at hi

theorem load_step {es : List Ev} {s s' : St} {e : Ev} (h : Base es s) (hi : Internal e) (hs : s.step e = .ok s') : load s' < load s := by
  cases e with
  | take id =>
    obtain ⟨i, x, xs, hii, hp, hsl, hch, rfl⟩ := step_take hs
    have := tot_upd s.insts id (some { i with slot := some x, chan := xs }) s.next (base_lt h hii)
    rw [hii] at this
    simp [instLoad, hsl, hch] at this
    simp only [load, St.setInst]
    omega
  | handOver id =>
    obtain ⟨i, x, hii, hsl, hcl, hidle, rfl⟩ := step_handOver hs
    rw [loopIdle_iff] at hidle
    have := tot_upd s.insts id (some { i with slot := none }) s.next (base_lt h hii)
    rw [hii] at this
    simp [instLoad, hsl] at this
    simp only [load, St.setInst, hidle.1, gotLoad]
    omega
  | loopFind =>
    rcases step_loopFind hs with ⟨hg, rfl⟩ | ⟨x, hg, rfl⟩
    · simp [load, hg, gotLoad]
    · simp only [load, hg]
      cases s.current x.op <;> simp [gotLoad] <;> omega
  | loopSnap ok =>
    cases ok with
    | false => exact hi.elim
    | true =>
      obtain ⟨id, i, hg, hii, rfl⟩ := step_loopSnap hs
      have hl0 := (h.gotHold (by rw [hg]; simp)).1
      simp only [load, if_true]
      rw [upd_same, upd_other _ _ (by simp), hg, hl0]
      simp [gotLoad, holdLoad]
      omega
  | workerSnap ok =>
    cases ok with
    | false => exact hi.elim
    | true =>
      obtain ⟨id, i, hg, hii, rfl⟩ := step_workerSnap hs
      have hl0 := (h.todo id hg).1
      simp only [load, if_true]
      rw [upd_same, upd_other _ _ (by simp), hg, hl0]
      simp [holdLoad, todoLoad]
      omega
  | write a ok =>
    cases ok with
    | false => exact hi.elim
    | true =>
      obtain ⟨x, hx, rfl⟩ := step_write hs
      cases a
      · simp only [load]
        rw [upd_same, upd_other _ _ (by simp), hx]
        simp [holdLoad]
      · simp only [load]
        rw [upd_same, upd_other _ _ (by simp), hx]
        simp [holdLoad]
  | push _ _ _ => exact hi.elim
  | pumpEnds _ => exact hi.elim
  | opFails _ => exact hi.elim
  | upsert _ _ => exact hi.elim
  | delete _ => exact hi.elim
  | stop => exact hi.elim
  | loopEnds => exact hi.elim

theorem load_run {es : List Ev} {s s' : St} (is : List Ev) (h : Base es s) (hi : ∀ e, e ∈ is → Internal e) (hs : s.run is = .ok s') :
    is.length + load s' ≤ load s := by
  induction is generalizing es s with
  | nil =>
    simp [St.run] at hs
    subst hs
    simp
  | cons e is ih =>
    have hs2 : s.run ([e] ++ is) = .ok s' := hs
    obtain ⟨m, h1, h2⟩ := (run_append _ _ _ _).1 hs2
    rw [run_one] at h1
    have hd := load_step h (hi e (by simp)) h1
    have := ih (base_step es s e m h h1) (fun e he => hi e (by simp [he])) h2
    simp
    omega

/-- Nothing is on its way for any operator whose errors are passed on, and neither goroutine is busy. -/
def AllSettled (s : St) : Prop := ∀ id i, s.insts id = some i → i.pumping = true → Settled s i

/-- If something is on its way, some step that passes it on is possible, and does no harm. -/
theorem internal_possible {es : List Ev} {s : St} (h : Base es s) (hst : s.stopped = false) :
    (s.got = none ∧ s.todo = none ∧ (∀ a, s.holds a = none) ∧ AllSettled s) ∨ ∃ e s', Internal e ∧ Tame s e ∧ s.step e = .ok s' ∧ s'.stopped = false := by
  have hcl : s.closed = false := by
    cases hc : s.closed with
    | false => rfl
    | true => rw [h.closed hc] at hst; simp at hst
  cases hl : s.holds .loop with
  | some x => exact Or.inr ⟨.write .loop true, { s with holds := upd s.holds .loop none, shown := upd s.shown x.name (some x.status) }, trivial, rfl, by simp [St.step, hl], hst⟩
  | none =>
    cases hw : s.holds .worker with
    | some x => exact Or.inr ⟨.write .worker true, { s with holds := upd s.holds .worker none, shown := upd s.shown x.name (some x.status) }, trivial, rfl, by simp [St.step, hw], hst⟩
    | none =>
      cases hg : s.got with
      | some g =>
        cases g with
        | sig x => exact Or.inr ⟨.loopFind, { s with got := (s.current x.op).map .op }, trivial, trivial, by simp only [St.step, hg], hst⟩
        | other => exact Or.inr ⟨.loopFind, { s with got := none }, trivial, trivial, by simp only [St.step, hg], hst⟩
        | op id =>
          cases hi : s.insts id with
          | none => exact absurd hi (h.gotOp id hg)
          | some i =>
            refine Or.inr ⟨.loopSnap true, { s with got := none, holds := upd s.holds .loop (some ⟨i.name, i.status⟩) }, trivial, ⟨rfl, ?_⟩, by simp only [St.step, hg, hi, if_true], hst⟩
            rintro _ _ _ _ ⟨x, hx, _⟩
            rw [hw] at hx
            simp at hx
      | none =>
        cases ht : s.todo with
        | some id =>
          obtain ⟨_, i, hi, _⟩ := h.todo id ht
          refine Or.inr ⟨.workerSnap true, { s with todo := none, holds := upd s.holds .worker (some ⟨i.name, i.status⟩) }, trivial, ⟨rfl, ?_⟩, by simp only [St.step, ht, hi, if_true], hst⟩
          rintro _ _ _ _ ⟨x, hx, _⟩
          rw [hl] at hx
          simp at hx
        | none =>
          have hidle : s.loopIdle = true := by simp [St.loopIdle, hg, hl, hcl]
          by_cases hall : ∃ id i, s.insts id = some i ∧ i.pumping = true ∧ ¬ (i.slot = none ∧ i.chan = [])
          · obtain ⟨id, i, hi, hp, hn⟩ := hall
            right
            cases hsl : i.slot with
            | some x =>
              exact ⟨.handOver id, { s.setInst id { i with slot := none } with got := some (.sig x) }, trivial, trivial,
                by simp [St.step, hi, hsl, hcl, hidle], hst⟩
            | none =>
              cases hch : i.chan with
              | nil => exact absurd ⟨hsl, hch⟩ hn
              | cons x xs =>
                exact ⟨.take id, s.setInst id { i with slot := some x, chan := xs }, trivial, trivial,
                  by simp [St.step, hi, hp, hsl, hch], hst⟩
          · left
            have ha : ∀ a, s.holds a = none := by intro a; cases a <;> assumption
            refine ⟨rfl, rfl, ha, ?_⟩
            intro id i hi hp
            have : i.slot = none ∧ i.chan = [] := Decidable.byContradiction fun hn => hall ⟨id, i, hi, hp, hn⟩
            exact ⟨this.2, this.1, hg, ht, ha⟩

/-- From any state, finitely many such steps deliver everything. -/
theorem settle {es : List Ev} {s : St} (h : Base es s) (hst : s.stopped = false) :
    ∃ is s', (∀ e, e ∈ is → Internal e) ∧ Always Tame s is ∧ s.run is = .ok s' ∧ s'.stopped = false ∧ AllSettled s' := by
  generalize hn : load s = n
  induction n using Nat.strongRecOn generalizing es s with
  | ind n ih =>
    rcases internal_possible h hst with ⟨_, _, _, hall⟩ | ⟨e, m, hi, ht, hs, hm⟩
    · exact ⟨[], s, by simp, trivial, rfl, hst, hall⟩
    · have hd := load_step h hi hs
      obtain ⟨is, s', h1, h2, h3, h4, h5⟩ := ih (load m) (by omega) (base_step es s e m h hs) hm rfl
      refine ⟨e :: is, s', ?_, ?_, ?_, h4, h5⟩
      · intro e' he'
        rcases List.mem_cons.1 he' with rfl | he'
        · exact hi
        · exact h1 e' he'
      · refine ⟨ht, ?_⟩
        intro m' hm'
        rw [hs] at hm'
        cases hm'
        exact h2
      · simp only [St.run, hs]
        exact h3

end Pump
end Dctl
