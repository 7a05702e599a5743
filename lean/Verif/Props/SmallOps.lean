import Verif.Dbsp.SmallOps
import Verif.Dbsp.DeclaredLemmas
/-!
# C109: inputs, constants, sums and differences
-/
set_option autoImplicit false
set_option linter.unusedSectionVars false
namespace Dctl
variable {D : Type} [DecidableEq D]
open ZSet

theorem SmallOp.feed_runs (o : SmallOp D) (h : ∃ z, o = .input z) (hist : List (ZSet D)) : (runs SmallOp.feed o hist).2 = hist.map .ok := by
  induction hist generalizing o with
  | nil => rfl
  | cons z t ih =>
    obtain ⟨w, rfl⟩ := h
    have := ih (.input z) ⟨z, rfl⟩
    simp only [runs, SmallOp.feed, SmallOp.setData, SmallOp.proc, SmallOp.arity, List.length_nil, ne_eq, not_true_eq_false, if_false, List.map_cons] at this ⊢
    rw [this]

/-- **C109**: an input declares itself linear, time invariant and zero preserving, and is: it hands on what is set, whatever was set before. -/
theorem C109_input (z : ZSet D) : (SmallOp.input z).opType = some .linear ∧ (∀ hist, (runs SmallOp.feed (.input z) hist).2 = hist.map .ok) ∧
    StreamLinear SmallOp.feed (.input z) ∧ StreamTimeInvariant SmallOp.feed (.input z) [] ∧ StreamZeroPreserving SmallOp.feed (.input z) [] := by
  have hr : ∀ hist, (runs SmallOp.feed (.input z) hist).2 = hist.map .ok := SmallOp.feed_runs _ ⟨z, rfl⟩
  have ht : StreamTimeInvariant SmallOp.feed (.input z) [] := fun a => by rw [hr, hr]; rfl
  refine ⟨rfl, hr, ?_, ht, ht.zeroPreserving⟩
  intro a b ra rb hlen ha hb h1 h2
  have inj : ∀ l m : List (ZSet D), l.map (Except.ok (ε := Err)) = m.map .ok → l = m := fun l m h => (List.map_inj_right (fun a b h => by simpa using h)).mp h
  rw [hr] at h1 h2
  obtain rfl := inj _ _ h1
  obtain rfl := inj _ _ h2
  refine ⟨_, hr _, by simp [hlen], by simp [hlen], fun i d => ?_⟩
  by_cases hi : i < a.length
  · have hi' : i < b.length := hlen ▸ hi
    simp only [List.getD_eq_getElem?_getD, List.getElem?_eq_getElem hi, List.getElem?_eq_getElem hi',
      List.getElem?_eq_getElem (show i < (List.zipWith ZSet.add a b).length by simp; omega), Option.getD_some, List.getElem_zipWith]
    exact get_add (ha _ (List.getElem_mem hi)) (hb _ (List.getElem_mem hi')) d
  · have hi' : ¬ i < b.length := hlen ▸ hi
    simp [hlen, hi']

/-- **C109**: a new input is an input which nothing was set on: it answers the empty Z-set until the first value is set, then every value set. -/
theorem C109_new_input : (SmallOp.newInput : SmallOp D).proc [] = .ok [] ∧ (SmallOp.newInput : SmallOp D).opType = some .linear ∧
    ∀ hist, (runs SmallOp.feed (SmallOp.newInput : SmallOp D) hist).2 = hist.map .ok :=
  ⟨rfl, rfl, (C109_input []).2.1⟩

/-- **C109**: sums, differences and negations are what they are called, document by document, so each is linear in all its inputs together; and they answer exactly on
the right number of inputs, as inputs and constants do. They declare nothing, which makes them no operators: no graph can contain one. -/
theorem C109_arith (o : SmallOp D) :
    (∀ ins, (∃ r, o.proc ins = .ok r) ↔ ins.length = o.arity) ∧
    (∀ a b, WF a → WF b → ∃ r s n, (SmallOp.add : SmallOp D).proc [a, b] = .ok r ∧ (SmallOp.subtract : SmallOp D).proc [a, b] = .ok s ∧
      (SmallOp.negate : SmallOp D).proc [a] = .ok n ∧ WF r ∧ WF s ∧ WF n ∧
      ∀ d, get r d = get a d + get b d ∧ get s d = get a d - get b d ∧ get n d = - get a d) ∧
    (o.opType = none ↔ ∀ z, o ≠ .input z) := by
  refine ⟨fun ins => ?_, fun a b ha hb => ?_, ?_⟩
  · constructor
    · rintro ⟨r, hr⟩
      refine Classical.byContradiction (fun hn => ?_)
      simp [SmallOp.proc, hn] at hr
    · intro h
      unfold SmallOp.proc
      rw [if_neg (by simpa using h)]
      cases o with
      | input z => exact ⟨z, rfl⟩
      | constant z => exact ⟨z, rfl⟩
      | add => match ins, h with | [a, b], _ => exact ⟨_, rfl⟩
      | subtract => match ins, h with | [a, b], _ => exact ⟨_, rfl⟩
      | negate => match ins, h with | [a], _ => exact ⟨_, rfl⟩
  · refine ⟨_, _, _, rfl, rfl, rfl, ha.add _, ha.sub _, WF.nil.sub _, fun d => ⟨get_add ha hb d, get_sub ha hb d, ?_⟩⟩
    rw [get_sub WF.nil ha]
    simp [ZSet.get]
  · cases o <;> simp [SmallOp.opType]

example : (runs SmallOp.feed (SmallOp.newInput : SmallOp Nat) [[(1, 1)], [], [(2, -1)]]).2 = [[(1, 1)], [], [(2, -1)]].map .ok := rfl
example : WF ([(1, 2)] : ZSet Nat) ∧ WF ([(1, 3), (2, 1)] : ZSet Nat) ∧ (SmallOp.subtract : SmallOp Nat).proc [[(1, 2)], [(1, 3), (2, 1)]] = .ok [(1, -1), (2, -1)] :=
  ⟨⟨by simp, by simp⟩, ⟨by simp, by simp⟩, rfl⟩

/-- **C109**: a constant answers the same value always; it is linear, as a function of what arrives (nothing), for the empty value only. -/
theorem C109_constant (z : ZSet D) (hz : WF z) : (∀ k, (runs (fun (o : SmallOp D) (_ : Unit) => (o, o.proc [])) (.constant z) (List.replicate k ())).2 = List.replicate k (.ok z)) ∧
    (StreamLinear (fun (o : SmallOp D) (_ : ZSet D) => (o, o.proc [])) (.constant z) ↔ z = []) := by
  constructor
  · intro k
    induction k with
    | zero => rfl
    | succ k ih =>
      simp only [List.replicate_succ, runs, ih, List.cons.injEq, and_true]
      rfl
  · have hr : ∀ hist : List (ZSet D), (runs (fun (o : SmallOp D) (_ : ZSet D) => (o, o.proc [])) (.constant z) hist).2 = (List.replicate hist.length z).map .ok := by
      intro hist
      induction hist with
      | nil => rfl
      | cons a t ih =>
        simp only [runs, ih, List.length_cons, List.replicate_succ, List.map_cons, List.cons.injEq, and_true]
        rfl
    have inj : ∀ l m : List (ZSet D), l.map (Except.ok (ε := Err)) = m.map .ok → l = m := fun l m h => (List.map_inj_right (fun a b h => by simpa using h)).mp h
    constructor
    · intro hl
      obtain ⟨rc, h1, -, -, h2⟩ := hl [[]] [[]] [z] [z] rfl (by simp [WF.nil]) (by simp [WF.nil]) (by rw [hr]; rfl) (by rw [hr]; rfl)
      rw [hr] at h1
      obtain rfl := inj _ _ h1
      match z, hz, h2 with
      | [], _, _ => rfl
      | (x, n) :: t, hz, h2 =>
        have := h2 0 x
        have h0 := hz.2 (x, n) (by simp)
        simp [ZSet.get] at this
        exact absurd (show n = 0 by omega) h0
    · rintro rfl
      intro a b ra rb hlen ha hb h1 h2
      rw [hr] at h1 h2
      obtain rfl := inj _ _ h1
      obtain rfl := inj _ _ h2
      refine ⟨_, hr _, by simp [hlen], by simp [hlen], fun i d => ?_⟩
      have : ∀ k, (List.replicate k ([] : ZSet D)).getD i [] = [] := by
        intro k
        rw [List.getD_eq_getElem?_getD, List.getElem?_replicate]
        split <;> rfl
      rw [this, this, this]
      simp [ZSet.get]

end Dctl
