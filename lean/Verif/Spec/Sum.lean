import Verif.Dbsp.ZSet
/-!
# Specification: sums of Z-sets, histories

Small definitions used in theorem statements only.
-/
set_option autoImplicit false
namespace Dctl
variable {D : Type} [DecidableEq D]
open ZSet

/-- `z` is a well-formed Z-set holding, for every document, the sum of its multiplicities in `zs`. -/
def SumOf (zs : List (ZSet D)) (z : ZSet D) : Prop :=
  WF z ∧ ∀ d, get z d = (zs.map (fun y => get y d)).sum

/-- `ins` holds the column sums of a history of `n`-tuples of Z-sets. -/
def ColumnSums (n : Nat) (hist : List (List (ZSet D))) (ins : List (ZSet D)) : Prop :=
  ins.length = n ∧ ∀ i, i < n → SumOf (hist.map (fun row => row.getD i [])) (ins.getD i [])

/-- Run a state machine over a list of inputs, collecting all outputs. -/
def runs {S I O : Type} (step : S → I → S × O) : S → List I → S × List O
  | s, [] => (s, [])
  | s, i :: is =>
    let (s', o) := step s i
    let (s'', os) := runs step s' is
    (s'', o :: os)

/-- The inputs of the successful steps of a run. -/
def okInputs {I O E : Type} : List I → List (Except E O) → List I
  | i :: is, .ok _ :: rs => i :: okInputs is rs
  | _ :: is, .error _ :: rs => okInputs is rs
  | _, _ => []

/-- The outputs of the successful steps of a run. -/
def okOutputs {O E : Type} (rs : List (Except E O)) : List O := rs.filterMap Except.toOption

end Dctl
