import Verif.Operator.ErrorsPast
import Verif.Spec.Errors
/-!
# C106: errors of controllers reach the status in the cluster
-/
set_option autoImplicit false
set_option linter.unusedSectionVars false
namespace Dctl
open Pump

/-! ### no error is lost, and none overtakes another -/

/-- C106: in every run, for an operator whose errors are passed on, the errors its rate limiters let through are, in order, those handed to the loop, the one
being handed over, and those in the channel. -/
theorem C106_in_order (es : List Pump.Ev) (s : St) (hr : init.run es = .ok s) (id : Nat) (i : Inst) (hi : s.insts id = some i) (hp : i.pumping = true) :
    ((signals [] (pushesOf id es)).map (sigOf i.name)).drop (handOvers id es) = i.slot.toList ++ i.chan := by
  have hb := base_run es s hr
  obtain ⟨t, ht, hk⟩ := (entry_of hb hi).queue hp
  rw [ht, List.append_assoc, ← hk, List.drop_left]

/-- C106: the error handed to the loop is the next one in that order. -/
theorem C106_handed_over (es : List Pump.Ev) (s s' : St) (hr : init.run es = .ok s) (id : Nat) (hs : s.step (.handOver id) = .ok s') :
    ∃ i x, s.insts id = some i ∧ (signals [] (pushesOf id es))[handOvers id es]? = some x ∧ s'.got = some (.sig (sigOf i.name x)) := by
  have hb := base_run es s hr
  obtain ⟨i, x, hi, hsl, _, _, rfl⟩ := step_handOver hs
  have hio := entry_of hb hi
  have hp : i.pumping = true := by
    cases hp : i.pumping with
    | true => rfl
    | false => rw [hio.ended hp] at hsl; simp at hsl
  obtain ⟨t, ht, hk⟩ := hio.queue hp
  have hx : ((signals [] (pushesOf id es)).map (sigOf i.name))[handOvers id es]? = some x := by
    rw [ht, hsl, ← hk]
    simp
  rw [List.getElem?_map, Option.map_eq_some_iff] at hx
  obtain ⟨y, hy, rfl⟩ := hx
  exact ⟨i, y, hi, hy, rfl⟩

/-- An operator with one controller, its status written. -/
def opC : List Pump.Ev := [.upsert "o" ["c"], .workerSnap true, .write .worker true]
/-- An error at a time. -/
def errAt (t : Int) : Push := ⟨[120], false, t⟩

example : ∃ s i, init.run (opC ++ [.push 0 0 (errAt 0), .push 0 0 (errAt 1), .take 0]) = .ok s ∧ s.insts 0 = some i ∧ i.pumping = true ∧
    i.slot = some ⟨"o", 0, [120]⟩ ∧ i.chan = [⟨"o", 0, [120]⟩] ∧ ∃ s', s.step (.handOver 0) = .ok s' := ⟨_, _, rfl, rfl, rfl, rfl, rfl, _, rfl⟩

/-! ### what is shown was true, and what is true gets shown -/

/-- C106: a status shown was the status of an operator of that name after some of the errors its controllers pushed, the first ones. -/
theorem C106_shown_was_true (es : List Pump.Ev) (s : St) (hr : init.run es = .ok s) (n : String) (v : List CtrlStatus) (hv : s.shown n = some v) :
    ∃ id i pre post, s.insts id = some i ∧ i.name = n ∧ pushesOf id es = pre ++ post ∧ v = statusAfter i.ctrls pre :=
  (past_run es s hr).shown n v hv

example : ∃ s, init.run (opC ++ [.push 0 0 (errAt 0), .take 0, .handOver 0, .loopFind, .loopSnap true, .write .loop true]) = .ok s ∧
    s.shown "o" = some [⟨"c", .failed, [[120]]⟩] := ⟨_, rfl, by decide +kernel⟩

/-- C106, in part: if the two goroutines that write statuses leave each other alone and the cluster can be read and written (`Tame`), then as soon as nothing is
on its way, the status shown of an operator is its status after all errors its controllers pushed, up to errors at the end that the rate limiters dropped.
Without these assumptions it is false (below). -/
theorem C106_shown_partial (es : List Pump.Ev) (s : St) (ht : Always Tame init es) (hr : init.run es = .ok s) (hst : s.stopped = false)
    (n : String) (id : Nat) (i : Inst) (hc : s.current n = some id) (hi : s.insts id = some i) (hs : Settled s i) :
    ∃ pre post, pushesOf id es = pre ++ post ∧ signals pre post = [] ∧ s.shown n = some (statusAfter i.ctrls pre) := by
  obtain ⟨h1, h2, h3, h4, h5⟩ := hs
  rcases (shown_run es s ht hr).main hst n id i hc hi with hp | ⟨a, v, ha, _⟩ | ⟨_, v, hv, pre, post, e1, e2, e3⟩
  · rcases hp with hp | hp | ⟨x, hp, _⟩ | hp | hp
    · exact absurd h1 hp
    · exact absurd h2 hp
    · rw [h3] at hp; simp at hp
    · rw [h3] at hp; simp at hp
    · rw [h4] at hp; simp at hp
  · rw [h5 a] at ha; simp at ha
  · exact ⟨pre, post, e1, e2, by rw [hv, e3]⟩

/-- C106: the steps that pass on errors and update the status come to an end, whatever their order; and when none is possible, nothing is on its way. -/
theorem C106_settles (es : List Pump.Ev) (s : St) (hr : init.run es = .ok s) (hst : s.stopped = false) :
    (∃ N, ∀ is s', (∀ e, e ∈ is → Internal e) → s.run is = .ok s' → is.length ≤ N) ∧
    ((∀ e s', Internal e → s.step e ≠ .ok s') → ∀ id i, s.insts id = some i → i.pumping = true → Settled s i) := by
  have hb := base_run es s hr
  constructor
  · refine ⟨load s, ?_⟩
    intro is s' hi hs
    have := load_run is hb hi hs
    omega
  · intro hn
    rcases internal_possible hb hst with ⟨_, _, _, hall⟩ | ⟨e, s', hi, _, hs, _⟩
    · exact hall
    · exact absurd hs (hn e s' hi)

/-- C106: an operator in the map is one whose errors are passed on, until the context is done. -/
theorem C106_served (es : List Pump.Ev) (s : St) (hr : init.run es = .ok s) (hst : s.stopped = false) (n : String) (id : Nat) (hc : s.current n = some id) :
    ∃ i, s.insts id = some i ∧ i.name = n ∧ i.pumping = true := by
  obtain ⟨i, hi, hn, _, hp⟩ := (base_run es s hr).cur n id hc
  exact ⟨i, hi, hn, hp hst⟩

/-- C106, in part: from any state such a run reaches, some further steps of this kind lead to a state where the statuses of all operators in the map are shown. -/
theorem C106_eventually_partial (es : List Pump.Ev) (s : St) (ht : Always Tame init es) (hr : init.run es = .ok s) (hst : s.stopped = false) :
    ∃ is s', (∀ e, e ∈ is → Internal e) ∧ s.run is = .ok s' ∧ ∀ n id, s'.current n = some id →
      ∃ i pre post, s'.insts id = some i ∧ pushesOf id es = pre ++ post ∧ signals pre post = [] ∧ s'.shown n = some (statusAfter i.ctrls pre) := by
  have hb := base_run es s hr
  obtain ⟨is, s', h1, h2, h3, h4, h5⟩ := settle hb hst
  refine ⟨is, s', h1, h3, ?_⟩
  intro n id hc
  have hr' : init.run (es ++ is) = .ok s' := (run_append _ _ _ _).2 ⟨s, hr, h3⟩
  have ht' : Always Tame init (es ++ is) := always_join ht hr h2
  obtain ⟨i, hi, hn, hp⟩ := C106_served _ _ hr' h4 n id hc
  obtain ⟨pre, post, e1, e2, e3⟩ := C106_shown_partial _ _ ht' hr' h4 n id i hc hi (h5 id i hi hp)
  rw [pushesOf_append, pushesOf_internal h1, List.append_nil] at e1
  exact ⟨i, pre, post, hi, e1, e2, e3⟩

/-- A run in which an error is handled. -/
def errRun : List Pump.Ev := opC ++ [.push 0 0 (errAt 0), .take 0, .handOver 0, .loopFind, .loopSnap true, .write .loop true]

theorem errRun_tame : Always Tame init errRun := alwaysB_tame (by decide +kernel)

example : ∃ s i, Always Tame init errRun ∧ init.run errRun = .ok s ∧ s.stopped = false ∧ s.current "o" = some 0 ∧ s.insts 0 = some i ∧ Settled s i ∧
    pushesOf 0 errRun = [(0, errAt 0)] ∧ s.shown "o" = some [⟨"c", .failed, [[120]]⟩] := by
  refine ⟨_, _, errRun_tame, rfl, rfl, rfl, rfl, ⟨rfl, rfl, rfl, rfl, ?_⟩, rfl, by decide +kernel⟩
  intro a
  cases a <;> rfl

/-- Three errors handled one after the other, then one more within two seconds. -/
def errRuns : List Pump.Ev :=
  errRun ++ [.push 0 0 (errAt 0), .take 0, .handOver 0, .loopFind, .loopSnap true, .write .loop true,
    .push 0 0 (errAt 0), .take 0, .handOver 0, .loopFind, .loopSnap true, .write .loop true, .push 0 0 ⟨[121], true, 1999999999⟩]

/-- C106, the exception in the claim is needed: an error the rate limiter drops is not shown until another one comes, not even if it is critical. -/
theorem C106_dropped : ∃ s i, Always Tame init errRuns ∧ init.run errRuns = .ok s ∧ s.stopped = false ∧ s.current "o" = some 0 ∧ s.insts 0 = some i ∧
    Settled s i ∧ s.shown "o" = some [⟨"c", .failed, [[120], [120], [120]]⟩] ∧ i.status = [⟨"c", .notReady, [[120], [120], [120], [121]]⟩] := by
  refine ⟨_, _, alwaysB_tame (by decide +kernel), rfl, rfl, rfl, rfl, ⟨rfl, rfl, rfl, rfl, ?_⟩, by decide +kernel, by decide +kernel⟩
  intro a
  cases a <;> rfl

/-! ### what can go wrong -/

/-- Neither goroutine is busy and nothing is on its way, the context is not done, but the status shown of the operator `o` is not its status. -/
def Wrong (s : St) : Prop :=
  ∃ id i v, s.stopped = false ∧ s.current "o" = some id ∧ s.insts id = some i ∧ Settled s i ∧ s.shown "o" = some v ∧ v ≠ i.status

/-- C106 is false: the worker takes the status, an error comes, the loop writes the status that shows it, the worker writes the status it took. It stays. -/
theorem C106_older_wins : ∃ s, init.run [.upsert "o" ["c"], .workerSnap true, .push 0 0 (errAt 0), .take 0, .handOver 0, .loopFind, .loopSnap true,
    .write .loop true, .write .worker true] = .ok s ∧ Wrong s ∧ s.shown "o" = some [⟨"c", .ready, []⟩] := by
  refine ⟨_, rfl, ⟨0, _, [⟨"c", .ready, []⟩], rfl, rfl, rfl, ⟨rfl, rfl, rfl, rfl, ?_⟩, by decide +kernel, by decide +kernel⟩, by decide +kernel⟩
  intro a
  cases a <;> rfl

/-- C106 is false: the loop finds the operator, which then is replaced; the status of the operator replaced is written last. It stays. -/
theorem C106_replaced : ∃ s, init.run (opC ++ [.push 0 0 (errAt 0), .take 0, .handOver 0, .loopFind, .upsert "o" ["c"], .workerSnap true,
    .write .worker true, .loopSnap true, .write .loop true]) = .ok s ∧ Wrong s ∧ s.shown "o" = some [⟨"c", .failed, [[120]]⟩] := by
  refine ⟨_, rfl, ⟨1, _, [⟨"c", .failed, [[120]]⟩], rfl, rfl, rfl, ⟨rfl, rfl, rfl, rfl, ?_⟩, by decide +kernel, by decide +kernel⟩, by decide +kernel⟩
  intro a
  cases a <;> rfl

/-- C106 is false: a write that fails is not repeated. -/
theorem C106_failed_write : ∃ s, init.run (opC ++ [.push 0 0 (errAt 0), .take 0, .handOver 0, .loopFind, .loopSnap true, .write .loop false]) = .ok s ∧
    Wrong s ∧ s.shown "o" = some [⟨"c", .ready, []⟩] := by
  refine ⟨_, rfl, ⟨0, _, [⟨"c", .ready, []⟩], rfl, rfl, rfl, ⟨rfl, rfl, rfl, rfl, ?_⟩, by decide +kernel, by decide +kernel⟩, by decide +kernel⟩
  intro a
  cases a <;> rfl

/-- C106, in part: until the context is done nothing panics. -/
theorem C106_no_panic_partial (es : List Pump.Ev) (s : St) (hr : init.run es = .ok s) (hst : s.stopped = false) (e : Pump.Ev) : s.step e ≠ .panics := by
  have hb := base_run es s hr
  have hcl : s.closed = false := by
    cases hc : s.closed with
    | false => rfl
    | true => rw [hb.closed hc] at hst; simp at hst
  cases e <;> simp only [St.step, hcl] <;> grind

/-- C106 is false when the context is done: an error taken from the channel of its operator is sent on a channel that the loop has closed, and the program panics;
so does an operator that stops with an error. -/
theorem C106_panics : init.run (opC ++ [.push 0 0 (errAt 0), .take 0, .stop, .loopEnds, .handOver 0]) = .panics ∧
    init.run (opC ++ [.stop, .loopEnds, .opFails 0]) = .panics := ⟨rfl, rfl⟩

/-- C106: once the goroutine that passes on the errors of an operator has ended, errors that wait for room in the channel wait for ever, and their controllers
with them. -/
theorem C106_waits (es : List Pump.Ev) (s : St) (hr : init.run es = .ok s) (id : Nat) (i : Inst) (hi : s.insts id = some i) (hp : i.pumping = false)
    (x : Sig) (hx : x ∈ i.chan.drop bufSize) (l : List Pump.Ev) (s' : St) (hl : s.run l = .ok s') (p : Push) : s'.step (.push id x.ctrl p) = .blocked := by
  obtain ⟨j, hj, hk⟩ := run_keeps l (base_run es s hr) hl hi
  obtain ⟨_, c, hc⟩ := hk.2.2 hp
  have hmem : x ∈ j.chan.drop bufSize := by
    rw [← hc, List.drop_append]
    exact List.mem_append_left _ hx
  have : j.push x.ctrl p = none := by
    unfold Inst.push
    rw [if_pos (List.any_eq_true.2 ⟨x, hmem, by simp⟩)]
  simp only [St.step, hj, this]

/-- 65 errors, two seconds apart, after the operator was deleted. -/
def afterDelete : List Pump.Ev := opC ++ [.delete "o", .pumpEnds 0] ++ (List.range 65).map (fun k => .push 0 0 (errAt (2000000000 * k)))

/-- C106: this happens to a controller of an operator that was deleted. -/
theorem C106_waits_for_ever : ∃ s, init.run afterDelete = .ok s ∧ ∀ l s', s.run l = .ok s' → ∀ p, s'.step (.push 0 0 p) = .blocked := by
  have h : (match init.run afterDelete with
      | .ok s => match s.insts 0 with
        | some i => !i.pumping && (i.chan.drop bufSize).any (fun x => x == ⟨"o", 0, [120]⟩)
        | none => false
      | _ => false) = true := by decide +kernel
  cases hr : init.run afterDelete with
  | blocked => rw [hr] at h; simp at h
  | panics => rw [hr] at h; simp at h
  | ok s =>
    rw [hr] at h
    simp only at h
    cases hi : s.insts 0 with
    | none => rw [hi] at h; simp at h
    | some i =>
      rw [hi] at h
      simp only [Bool.and_eq_true, Bool.not_eq_true', List.any_eq_true, beq_iff_eq] at h
      obtain ⟨hp, x, hx, rfl⟩ := h
      exact ⟨s, rfl, fun l s' hl p => C106_waits _ s hr 0 i hi hp _ hx l s' hl p⟩

end Dctl
