import Verif.Spec.Pipeline
import Verif.Spec.Expr
import Verif.Json.ObjectLemmas
/-!
# Specifications for pipelines of expressions

What the theorems on `@select`, `@join`, `@project`, `@unwind` and `@gather` use besides `eval`.
-/
set_option autoImplicit false
namespace Dctl

/-- The expression is true of the document. -/
def CondTrue (env : Env) (e : Expr) (d : CDoc) : Prop := eval env e ⟨.map d.1, .null⟩ = .ok (.bool true)

/-- The expression is false of the document. -/
def CondFalse (env : Env) (e : Expr) (d : CDoc) : Prop := eval env e ⟨.map d.1, .null⟩ = .ok (.bool false)

/-- `c` has one field per name, holding the document in the same position, and no other field. -/
def Combines (names : List String) (ds : List CDoc) (c : CDoc) : Prop :=
  ∀ k v, SMap.get c.1 k = some v ↔ ∃ (i : Nat) (d : CDoc), names[i]? = some k ∧ ds[i]? = some d ∧ v = .map d.1

/-- The product of the multiplicities of the documents in the inputs. -/
def mults (ins : List (ZSet CDoc)) (ds : List CDoc) : Int := (List.zipWith ZSet.get ins ds).foldr (· * ·) 1

/-- Plain field names. -/
def Words (p : List String) : Prop := ∀ x ∈ p, x ≠ "" ∧ x.toList.all isWord = true

/-- Neither path is inside the other. -/
def Disjoint (p q : List String) : Prop := ¬ p <+: q ∧ ¬ q <+: p

/-- The document `d'` is `d` with `v` at the path `p`. -/
def SetAt (p : List String) (v : Json) (d d' : SMap Json) : Prop :=
  nested d' p = some v ∧ ∀ q, Disjoint p q → nested d' q = nested d q

/-- The path of the name of an object. -/
abbrev namePath : List String := ["metadata", "name"]

/-- The name of element `i` of an object named `n`. -/
def elemName (n : String) (i : Nat) : String := n ++ "-" ++ toString i

/-- The expression has the value `v` on the document, which is not null. -/
def Yields (env : Env) (e : Expr) (d : CDoc) (v : Json) : Prop := eval env e ⟨.map d.1, .null⟩ = .ok v ∧ v ≠ .null

/-- The values of one entry for the group `key`, as often as the document occurs. -/
def entryVals (env : Env) (keyE valE : Expr) (key : Json) (q : CDoc × Int) : List Json :=
  match eval env keyE ⟨.map q.1.1, .null⟩, eval env valE ⟨.map q.1.1, .null⟩ with
  | .ok k, .ok v => if k = key ∧ v ≠ .null then List.replicate q.2.toNat v else []
  | _, _ => []

/-- All values of the group `key`. -/
def groupVals (env : Env) (keyE valE : Expr) (z : ZSet CDoc) (key : Json) : List Json := z.flatMap (entryVals env keyE valE key)

/-- `c` is a gathered document of the group `key`: one of the documents of the group with the list of all values of the group, in the order `srt` gives them,
at the path. -/
def Gathered (env : Env) (srt : List Json → List Json) (keyE valE : Expr) (path : List String) (z : ZSet CDoc) (key : Json) (c : CDoc) : Prop :=
  ∃ rep ∈ z.map Prod.fst, ∃ vals : List Json, Yields env keyE rep key ∧ (∃ v, Yields env valE rep v) ∧
    vals.Perm (groupVals env keyE valE z key) ∧ SetAt path (.list (srt vals)) rep.1 c.1

/-- `c` is the projection of `d`: the value of the expression, or the merged elements if that is a list of maps. -/
def Projects (env : Env) (e : Expr) (d c : CDoc) : Prop :=
  eval env e ⟨.map d.1, .null⟩ = .ok (.map c.1) ∨
  ∃ us : List (SMap Json), eval env e ⟨.map d.1, .null⟩ = .ok (.list (us.map .map)) ∧ mergeAll .null (us.map .map) = some (.map c.1)

/-- `c` is element `i` of the list at the path in `d`: the list is replaced by its element, the index is added to the name, and all else is unchanged. -/
def UnwindsTo (path : List String) (i : Nat) (d c : CDoc) : Prop :=
  ∃ (l : List Json) (v : Json) (n : String), nested d.1 path = some (.list l) ∧ l[i]? = some v ∧ nested d.1 namePath = some (.str n) ∧
    nested c.1 path = some v ∧ nested c.1 namePath = some (.str (elemName n i)) ∧ ∀ q, Disjoint path q → Disjoint namePath q → nested c.1 q = nested d.1 q

end Dctl
