import Verif.Dbsp.Declared
import Verif.Spec.Sum
/-!
# What the declarations mean

An operator with state is a function from streams to streams: from the list of its inputs to the list of its outputs
(`runs`). These are the textbook meanings of the declarations for such functions. None mentions how an operator works.
-/
set_option autoImplicit false
namespace Dctl
variable {D J : Type} [DecidableEq D] [DecidableEq J]
open ZSet

/-- The stream `c` is the sum of the streams `a` and `b`, instant by instant. -/
def StreamSum (a b c : List (ZSet D)) : Prop :=
  c.length = a.length ∧ c.length = b.length ∧ ∀ i d, get (c.getD i []) d = get (a.getD i []) d + get (b.getD i []) d

/-- Where the operator answers two streams without an error, it answers their sum, with the sum of the answers. -/
def StreamLinear {S : Type} (step : S → ZSet D → S × Except Err (ZSet D)) (s : S) : Prop :=
  ∀ a b ra rb : List (ZSet D), a.length = b.length → (∀ z ∈ a, WF z) → (∀ z ∈ b, WF z) →
    (runs step s a).2 = ra.map .ok → (runs step s b).2 = rb.map .ok →
    ∃ rc, (runs step s (List.zipWith ZSet.add a b)).2 = rc.map .ok ∧ StreamSum ra rb rc

/-- Delaying the input by an instant (in which nothing arrives) delays the output by one, and changes nothing else. -/
def StreamTimeInvariant {S I : Type} (step : S → I → S × Except Err (ZSet D)) (s : S) (zero : I) : Prop :=
  ∀ a, (runs step s (zero :: a)).2 = .ok [] :: (runs step s a).2

/-- As long as nothing arrives, nothing comes out. -/
def StreamZeroPreserving {S I : Type} (step : S → I → S × Except Err (ZSet D)) (s : S) (zero : I) : Prop :=
  ∀ k, (runs step s (List.replicate k zero)).2 = List.replicate k (.ok [])

/-- Linear in each of the `n` inputs: with the other inputs fixed, adding up two streams at one input adds up the
answers. An element of `hist` is a row of inputs and the two values at position `i` of it. -/
def StreamMultilinear {S : Type} (step : S → List (ZSet D) → S × Except Err (ZSet D)) (s : S) (n : Nat) : Prop :=
  ∀ (i : Nat) (hist : List (List (ZSet D) × ZSet D × ZSet D)) (ra rb : List (ZSet D)), i < n →
    (∀ h ∈ hist, h.1.length = n ∧ (∀ z ∈ h.1, WF z) ∧ WF h.2.1 ∧ WF h.2.2) →
    (runs step s (hist.map (fun h => h.1.set i h.2.1))).2 = ra.map .ok →
    (runs step s (hist.map (fun h => h.1.set i h.2.2))).2 = rb.map .ok →
    ∃ rc, (runs step s (hist.map (fun h => h.1.set i (h.2.1.add h.2.2)))).2 = rc.map .ok ∧ StreamSum ra rb rc

/-- The operator has not run yet: it is what its constructor returns. -/
def Op.Fresh : Op D J → Prop
  | .integ s => s = []
  | .diff s => s = []
  | .delay s => s = []
  | _ => True

/-- The join has not run yet, and has inputs. -/
def JoinOp.Fresh (j : JoinOp D) : Prop :=
  (∃ ev n, 0 < n ∧ (j = .snap ev n ∨ j = .newIncremental ev n)) ∨
  ∃ ev, j = .snapBin ev ∨ j = .newIncrementalBinary ev

/-- The stream of everything that has arrived so far, from the stream of what arrives. -/
def accumulated (acc : ZSet D) : List (ZSet D) → List (ZSet D)
  | [] => []
  | z :: t => acc.add z :: accumulated (acc.add z) t

/-- Same multiplicities at every instant. -/
def StreamEqv (a b : List (ZSet D)) : Prop := a.length = b.length ∧ ∀ i d, get (a.getD i []) d = get (b.getD i []) d

end Dctl
