import Verif.Spec.Errors
import Verif.Cache.ViewLemmas
/-!
# Lemmas about errors on their way
-/
set_option autoImplicit false
set_option linter.unusedSectionVars false
namespace Dctl
namespace Pump

theorem pushesOf_append (id : Nat) (a b : List Ev) : pushesOf id (a ++ b) = pushesOf id a ++ pushesOf id b := by
  induction a with
  | nil => rfl
  | cons e a ih =>
    cases e <;> simp only [List.cons_append, pushesOf, ih]
    split <;> simp

theorem handOvers_append (id : Nat) (a b : List Ev) : handOvers id (a ++ b) = handOvers id a + handOvers id b := by
  induction a with
  | nil => simp [handOvers]
  | cons e a ih =>
    cases e <;> simp only [List.cons_append, handOvers, ih]
    omega

theorem reporterAfter_append (c : Nat) (l : Hist) (x : Nat × Push) :
    reporterAfter c (l ++ [x]) = if x.1 = c then (reporterAfter c l).push x.2 else reporterAfter c l := by
  unfold reporterAfter errorsOf
  rw [List.filter_append, List.map_append, List.foldl_append]
  by_cases h : x.1 = c
  · simp [h]
  · have : (x.1 == c) = false := by simpa using h
    simp [h]

theorem signals_append (done a b : Hist) : signals done (a ++ b) = signals done a ++ signals (done ++ a) b := by
  induction a generalizing done with
  | nil => simp [signals]
  | cons x a ih => simp [signals, ih]

theorem operatorStatus_map {α : Type} (l : List α) (f : α → String) (g : α → Reporter) :
    operatorStatus (l.map (fun x => .declarative (f x) (g x))) = l.map (fun x => (g x).status (f x)) := by
  induction l with
  | nil => rfl
  | cons x l ih => simp [operatorStatus, ih]

theorem zipIdx_map_range {α β : Type} (l : List α) (d : α) (f : α → Nat → β) :
    l.zipIdx.map (fun x => f x.1 x.2) = (List.range l.length).map (fun i => f (l.getD i d) i) := by
  apply List.ext_getElem
  · simp
  · intro i h1 h2
    simp at h1
    simp [h1]

/-- The status of an operator whose reporters have got the errors `l`. -/
theorem status_eq (i : Inst) (l : Hist) (h : ∀ c, i.reps c = reporterAfter c l) : i.status = statusAfter i.ctrls l := by
  unfold Inst.status statusAfter
  rw [operatorStatus_map i.ctrls.zipIdx (fun c => c.1) (fun c => i.reps c.2), zipIdx_map_range i.ctrls "" (fun a c => (i.reps c).status a)]
  simp [h]

theorem run_append (s : St) (a b : List Ev) (s' : St) : s.run (a ++ b) = .ok s' ↔ ∃ m, s.run a = .ok m ∧ m.run b = .ok s' := by
  induction a generalizing s with
  | nil => simp [St.run]
  | cons e a ih =>
    simp only [List.cons_append, St.run]
    cases h : s.step e with
    | blocked => simp
    | panics => simp
    | ok m => simpa using ih m

theorem run_one (s : St) (e : Ev) (s' : St) : s.run [e] = .ok s' ↔ s.step e = .ok s' := by
  simp only [St.run]
  cases h : s.step e <;> simp

theorem always_append {P : St → Ev → Prop} (s : St) (a b : List Ev) (m : St) (h : Always P s (a ++ b)) (hm : s.run a = .ok m) :
    Always P s a ∧ Always P m b := by
  induction a generalizing s with
  | nil =>
    simp only [St.run, Res.ok.injEq] at hm
    subst hm
    exact ⟨trivial, h⟩
  | cons e a ih =>
    simp only [List.cons_append, Always] at h
    simp only [St.run] at hm
    cases hs : s.step e with
    | blocked => rw [hs] at hm; simp at hm
    | panics => rw [hs] at hm; simp at hm
    | ok n =>
      rw [hs] at hm
      have := ih n (h.2 n hs) hm
      refine ⟨⟨h.1, ?_⟩, this.2⟩
      intro s' hs'
      rw [hs] at hs'
      cases hs'
      exact this.1

/-- Invariants of all runs, by induction over the last step. -/
theorem run_induct {I : List Ev → St → Prop} {P : St → Ev → Prop} (h0 : I [] init)
    (hs : ∀ es s e s', I es s → P s e → s.step e = .ok s' → I (es ++ [e]) s') (es : List Ev) (s : St) (hP : Always P init es)
    (hr : init.run es = .ok s) : I es s := by
  suffices h : ∀ (l : List Ev) (s : St), Always P init l.reverse → init.run l.reverse = .ok s → I l.reverse s by
    have := h es.reverse s
    rw [List.reverse_reverse] at this
    exact this hP hr
  intro l
  induction l with
  | nil =>
    intro s _ hr
    simp only [List.reverse_nil, St.run, Res.ok.injEq] at hr
    subst hr
    exact h0
  | cons e l ih =>
    intro s hP hr
    rw [List.reverse_cons] at hP hr ⊢
    obtain ⟨m, hm, he⟩ := (run_append _ _ _ _).1 hr
    obtain ⟨hP1, hP2⟩ := always_append _ _ _ m hP hm
    exact hs _ m e s (ih m hP1 hm) hP2.1 ((run_one _ _ _).1 he)

theorem always_true (s : St) (es : List Ev) : Always (fun _ _ => True) s es := by
  induction es generalizing s with
  | nil => trivial
  | cons e es ih => exact ⟨trivial, fun s' _ => ih s'⟩

/-! ### what the steps do -/

theorem Inst.push_some {i j : Inst} {c : Nat} {p : Push} (h : i.push c p = some j) :
    j = { i with reps := upd i.reps c ((i.reps c).push p), chan := if (i.reps c).signals p then i.chan ++ [⟨i.name, c, p.text⟩] else i.chan } := by
  unfold Inst.push at h
  split at h
  · simp at h
  · split at h
    · exact (Option.some.inj h).symm
    · simp at h

theorem step_push {s s' : St} {id c : Nat} {p : Push} (h : s.step (.push id c p) = .ok s') :
    ∃ i j, s.insts id = some i ∧ i.push c p = some j ∧ s' = s.setInst id j := by
  simp only [St.step] at h
  cases hi : s.insts id with
  | none => rw [hi] at h; simp at h
  | some i =>
    rw [hi] at h
    simp only at h
    cases hj : i.push c p with
    | none => rw [hj] at h; simp at h
    | some j => rw [hj] at h; simp at h; exact ⟨i, j, rfl, hj, h.symm⟩

theorem step_take {s s' : St} {id : Nat} (h : s.step (.take id) = .ok s') :
    ∃ i x xs, s.insts id = some i ∧ i.pumping = true ∧ i.slot = none ∧ i.chan = x :: xs ∧ s' = s.setInst id { i with slot := some x, chan := xs } := by
  simp only [St.step] at h
  cases hi : s.insts id with
  | none => rw [hi] at h; simp at h
  | some i =>
    rw [hi] at h
    simp only at h
    split at h
    · rename_i x xs h1 h2 h3
      simp at h
      exact ⟨i, x, xs, rfl, h1, h2, h3, h.symm⟩
    · simp at h

theorem step_handOver {s s' : St} {id : Nat} (h : s.step (.handOver id) = .ok s') :
    ∃ i x, s.insts id = some i ∧ i.slot = some x ∧ s.closed = false ∧ s.loopIdle = true ∧
      s' = { s.setInst id { i with slot := none } with got := some (.sig x) } := by
  simp only [St.step] at h
  cases hi : s.insts id with
  | none => rw [hi] at h; simp at h
  | some i =>
    rw [hi] at h
    simp only at h
    cases hx : i.slot with
    | none => rw [hx] at h; simp at h
    | some x =>
      rw [hx] at h
      simp only at h
      split at h
      · simp at h
      · split at h
        · simp at h
          rename_i hc hl
          exact ⟨i, x, rfl, hx, by simpa using hc, hl, h.symm⟩
        · simp at h

theorem step_pumpEnds {s s' : St} {id : Nat} (h : s.step (.pumpEnds id) = .ok s') :
    ∃ i, s.insts id = some i ∧ i.pumping = true ∧ (i.live = false ∨ s.stopped = true) ∧ s' = s.setInst id { i with slot := none, pumping := false } := by
  simp only [St.step] at h
  cases hi : s.insts id with
  | none => rw [hi] at h; simp at h
  | some i =>
    rw [hi] at h
    simp only at h
    split at h
    · rename_i hc
      simp at h hc
      exact ⟨i, rfl, hc.1, hc.2, h.symm⟩
    · simp at h

theorem step_opFails {s s' : St} {id : Nat} (h : s.step (.opFails id) = .ok s') :
    s.closed = false ∧ s.loopIdle = true ∧ s' = { s with got := some .other } := by
  simp only [St.step] at h
  cases hi : s.insts id with
  | none => rw [hi] at h; simp at h
  | some i =>
    rw [hi] at h
    simp only at h
    split at h
    · simp at h
    · split at h
      · simp at h
        rename_i hc hl
        exact ⟨by simpa using hc, hl, h.symm⟩
      · simp at h

theorem step_loopFind {s s' : St} (h : s.step .loopFind = .ok s') :
    (s.got = some .other ∧ s' = { s with got := none }) ∨ ∃ x, s.got = some (.sig x) ∧ s' = { s with got := (s.current x.op).map .op } := by
  simp only [St.step] at h
  split at h
  · rename_i hg
    simp at h
    exact Or.inl ⟨hg, h.symm⟩
  · rename_i x hg
    simp at h
    exact Or.inr ⟨x, hg, h.symm⟩
  · simp at h

theorem step_loopSnap {s s' : St} {ok : Bool} (h : s.step (.loopSnap ok) = .ok s') :
    ∃ id i, s.got = some (.op id) ∧ s.insts id = some i ∧
      s' = { s with got := none, holds := if ok then upd s.holds .loop (some ⟨i.name, i.status⟩) else s.holds } := by
  simp only [St.step] at h
  split at h
  · rename_i id hg
    cases hi : s.insts id with
    | none => rw [hi] at h; simp at h
    | some i =>
      rw [hi] at h
      simp only at h
      refine ⟨id, i, hg, hi, ?_⟩
      cases ok <;> simp at h <;> simp [← h]
  · simp at h

theorem step_workerSnap {s s' : St} {ok : Bool} (h : s.step (.workerSnap ok) = .ok s') :
    ∃ id i, s.todo = some id ∧ s.insts id = some i ∧
      s' = { s with todo := none, holds := if ok then upd s.holds .worker (some ⟨i.name, i.status⟩) else s.holds } := by
  simp only [St.step] at h
  split at h
  · simp at h
  · rename_i id hg
    cases hi : s.insts id with
    | none => rw [hi] at h; simp at h
    | some i =>
      rw [hi] at h
      simp only at h
      refine ⟨id, i, hg, hi, ?_⟩
      cases ok <;> simp at h <;> simp [← h]

theorem step_write {s s' : St} {a : Agent} {ok : Bool} (h : s.step (.write a ok) = .ok s') :
    ∃ x, s.holds a = some x ∧ s' = { s with holds := upd s.holds a none, shown := if ok then upd s.shown x.name (some x.status) else s.shown } := by
  simp only [St.step] at h
  cases hx : s.holds a with
  | none => rw [hx] at h; simp at h
  | some x =>
    rw [hx] at h
    refine ⟨x, rfl, ?_⟩
    cases ok <;> simp at h <;> simp [← h]

/-- A new operator. -/
def freshInst (name : String) (ctrls : List String) : Inst := ⟨name, ctrls, fun _ => Reporter.init, [], none, true, true⟩

theorem step_upsert {s s' : St} {name : String} {ctrls : List String} (h : s.step (.upsert name ctrls) = .ok s') :
    s.workerIdle = true ∧ s' = { s.cancel name with
      insts := upd (s.cancel name).insts (s.cancel name).next (some (freshInst name ctrls)), next := (s.cancel name).next + 1,
      current := upd (s.cancel name).current name (some (s.cancel name).next), todo := some (s.cancel name).next } := by
  simp only [St.step] at h
  split at h
  · simp at h
    rename_i hw
    exact ⟨hw, h.symm⟩
  · simp at h

theorem step_delete {s s' : St} {name : String} (h : s.step (.delete name) = .ok s') : s.workerIdle = true ∧ s' = s.cancel name := by
  simp only [St.step] at h
  split at h
  · simp at h
    rename_i hw
    exact ⟨hw, h.symm⟩
  · simp at h

theorem step_loopEnds {s s' : St} (h : s.step .loopEnds = .ok s') : s.stopped = true ∧ s.loopIdle = true ∧ s' = { s with closed := true } := by
  simp only [St.step] at h
  split at h
  · simp at h
    rename_i hw
    simp at hw
    exact ⟨hw.1, hw.2, h.symm⟩
  · simp at h

theorem step_stop {s s' : St} (h : s.step .stop = .ok s') : s' = { s with stopped := true } := by
  simp only [St.step, Res.ok.injEq] at h
  exact h.symm

/-- What cancelling changes: the operator called `name` leaves the map. -/
theorem cancel_fields (s : St) (name : String) : (s.cancel name).next = s.next ∧ (s.cancel name).got = s.got ∧ (s.cancel name).todo = s.todo ∧
    (s.cancel name).holds = s.holds ∧ (s.cancel name).shown = s.shown ∧ (s.cancel name).stopped = s.stopped ∧ (s.cancel name).closed = s.closed := by
  unfold St.cancel
  cases s.current name with
  | none => simp
  | some id =>
    simp only
    cases s.insts id with
    | none => simp
    | some i => simp [St.setInst]

theorem cancel_current (s : St) (name n : String) : (s.cancel name).current n = if n = name then none else s.current n := by
  unfold St.cancel
  cases h : s.current name with
  | none =>
    simp only
    split
    · rename_i hn; rw [hn, h]
    · rfl
  | some id =>
    simp only
    have : upd s.current name none n = if n = name then none else s.current n := rfl
    cases s.insts id with
    | none => exact this
    | some i => exact this

theorem cancel_insts (s : St) (name : String) (id : Nat) : (s.cancel name).insts id =
    if s.current name = some id then (s.insts id).map (fun i => { i with live := false }) else s.insts id := by
  unfold St.cancel
  cases h : s.current name with
  | none => simp
  | some id' =>
    simp only [Option.some.injEq]
    cases h' : s.insts id' with
    | none =>
      simp only
      split
      · rename_i e; rw [← e, h']; rfl
      · rfl
    | some i =>
      simp only [St.setInst, upd]
      by_cases he : id = id'
      · subst he; simp [h']
      · simp [he, Ne.symm he]

end Pump
end Dctl
