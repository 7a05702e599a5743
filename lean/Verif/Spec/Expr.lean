import Verif.Expr.Path
import Verif.Expr.Marshal
/-!
# Specifications for expressions

What the theorems on expressions use besides `eval`: building blocks of expressions, a sample environment, and the conditions under which
expressions survive a round trip through JSON.
-/
set_option autoImplicit false
namespace Dctl

/-- The expression `{op: [e1, e2, …]}`. -/
abbrev opList (op : String) (es : List Expr) : Expr := .app op (.exprs "@list" es)

/-- The integer literal. -/
abbrev intE (i : Int) : Expr := .lit "@int" (.int i)

/-- The boolean literal. -/
abbrev boolE (b : Bool) : Expr := .lit "@bool" (.bool b)

/-- The string literal or path. -/
abbrev strE (s : String) : Expr := .lit "@string" (.str s)

/-- A sample environment with field paths, for the examples. -/
def plainEnv : Env := fieldEnv {
  jget := fun _ _ => .error .err
  jset := fun _ _ _ => .error .err
  ftext := fun _ => "f"
  parseFloat := fun _ => none
  ofInt := fun i => i
  fop := fun _ a _ => a
  fabs := id
  fceil := id
  ffloor := id
  md5 := fun _ => "hash"
  now := "2026-01-01T00:00:00Z"
  intn := fun _ => 0
  sprintv := fun _ => "v"
  validKey := fun k => k ≠ ""
  validValue := fun _ => true }

/-- A value is no list. -/
def Json.NotList (v : Json) : Prop := ∀ l, v ≠ .list l

mutual
/-- No part of the expression is one that does not survive being written as JSON: the operators `@any`, `@list`, `@dict` with an argument,
and integral floats. -/
def Expr.Plain : Expr → Prop
  | .lit _ v => ∀ f, v = .float f → floatJson f = .float f
  | .exprs _ es => Expr.PlainL es
  | .dict _ m => Expr.PlainM m
  | .app op a => op ≠ "@any" ∧ op ≠ "@list" ∧ op ≠ "@dict" ∧ a.Plain
termination_by structural e => e
/-- All elements are plain. -/
def Expr.PlainL : List Expr → Prop
  | [] => True
  | e :: es => e.Plain ∧ Expr.PlainL es
/-- All values are plain. -/
def Expr.PlainM : List (String × Expr) → Prop
  | [] => True
  | (_, e) :: m => e.Plain ∧ Expr.PlainM m
end

end Dctl
