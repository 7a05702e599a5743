import Verif.Expr.Basic
/-!
# Reading and writing expressions (`pkg/expression/marshaler.go`, `literal.go`)

JSON texts are represented by the values they denote: an integer literal is an `int`, a literal with fraction or exponent a `float`.
-/
set_option autoImplicit false
namespace Dctl

/-- `marshaler.go:50-66`: an object is an operator if it has a single key that starts with `@`, otherwise a literal map. A single empty key makes
`op[0]` panic. -/
def mkMap (m : List (String × Expr)) : Res Expr :=
  match m with
  | [(op, e)] =>
    match op.toList with
    | [] => .error .panic
    | c :: _ => if c = '@' then .ok (.app op e) else .ok (.dict "@dict" m)
  | m => .ok (.dict "@dict" m)

mutual
/-- `marshaler.go:10-70` `UnmarshalJSON`. A null is read as the boolean false (`json.Unmarshal` leaves the variable unchanged), integers out of range
as floats, and the empty string is rejected. -/
def unmarshalExpr (env : Env) : Json → Res Expr
  | .null => .ok (.lit "@bool" (.bool false))
  | .bool b => .ok (.lit "@bool" (.bool b))
  | .int i => if inInt64 i then .ok (.lit "@int" (.int i)) else .ok (.lit "@float" (.float (env.ofInt i)))
  | .float f => .ok (.lit "@float" (.float f))
  | .str s => if s = "" then .error .err else .ok (.lit "@string" (.str s))
  | .list l =>
    match unmarshalL env l with
    | .ok es => .ok (.exprs "@list" es)
    | .error e => .error e
  | .map m =>
    match unmarshalM env m with
    | .ok es => mkMap es
    | .error e => .error e
termination_by structural j => j
/-- `marshaler.go:42-46`: the elements of a list. -/
def unmarshalL (env : Env) : List Json → Res (List Expr)
  | [] => .ok []
  | j :: l =>
    match unmarshalExpr env j with
    | .error e => .error e
    | .ok x =>
      match unmarshalL env l with
      | .error e => .error e
      | .ok xs => .ok (x :: xs)
/-- `marshaler.go:49-50`: the values of a map. -/
def unmarshalM (env : Env) : List (String × Json) → Res (List (String × Expr))
  | [] => .ok []
  | (k, j) :: m =>
    match unmarshalExpr env j with
    | .error e => .error e
    | .ok x =>
      match unmarshalM env m with
      | .error e => .error e
      | .ok xs => .ok ((k, x) :: xs)
end

/-- How `json.Marshal` writes a float (`marshaler.go:107`): integral values below 10^21 are written without fraction. -/
def floatJson (f : Rat) : Json := if f.den = 1 ∧ f.num.natAbs < 1000000000000000000000 then .int f.num else .float f

mutual
/-- `marshaler.go:73-168` `MarshalJSON`. Where the result is no JSON text, or literals are of a kind the parser never makes for the operator, an error. -/
def marshalExpr (env : Env) : Expr → Res Json
  | .lit op v =>
    if op = "" then .error .err
    else if op = "@any" then .ok v
    else if op = "@bool" then (asBool v).map .bool
    else if op = "@int" then (asInt v).map .int
    else if op = "@float" then (asFloat env v).map floatJson
    else if op = "@string" then (asString env v).map .str
    else if op = "@list" ∨ op = "@dict" then .error .err
    else if op.toList.head? = some '@' then .ok (.map [(op, .null)])
    else .error .err
  | .exprs op es =>
    if op = "@list" ∨ op = "@any" then
      match marshalL env es with
      | .ok js => .ok (.list js)
      | .error e => .error e
    else .error .err
  | .dict op m =>
    if op = "@dict" then
      match marshalM env m with
      | .ok js => .ok (.map js)
      | .error e => .error e
    else .error .err
  | .app op a =>
    if op = "@any" then .ok .null
    else if op = "@list" ∨ op = "@dict" then marshalExpr env a
    else if op.toList.head? = some '@' then
      match marshalExpr env a with
      | .ok j => .ok (.map [(op, j)])
      | .error e => .error e
    else .error .err
termination_by structural e => e
/-- The elements of a list of expressions (`marshaler.go:133`). -/
def marshalL (env : Env) : List Expr → Res (List Json)
  | [] => .ok []
  | e :: es =>
    match marshalExpr env e with
    | .error x => .error x
    | .ok j =>
      match marshalL env es with
      | .error x => .error x
      | .ok js => .ok (j :: js)
/-- The values of a map of expressions (`marshaler.go:141-152`). -/
def marshalM (env : Env) : List (String × Expr) → Res (SMap Json)
  | [] => .ok []
  | (k, e) :: m =>
    match marshalExpr env e with
    | .error x => .error x
    | .ok j =>
      match marshalM env m with
      | .error x => .error x
      | .ok js => .ok (SMap.set js k j)
end

/-- `marshaler.go:183-197` `DeepCopyInto`: write and read; if that fails, a shallow copy. -/
def copyExpr (env : Env) (e : Expr) : Expr :=
  match marshalExpr env e with
  | .error _ => e
  | .ok j =>
    match unmarshalExpr env j with
    | .error _ => e
    | .ok e' => e'

/-- `literal.go:6-23` `NewLiteralExpression`: the operator for floats lacks its `@`. -/
def newLiteral : Json → Res Expr
  | .bool b => .ok (.lit "@bool" (.bool b))
  | .int i => .ok (.lit "@int" (.int i))
  | .str s => .ok (.lit "@string" (.str s))
  | .float f => .ok (.lit "float" (.float f))
  | _ => .error .err

/-- `literal.go:33-39` `NewJSONPathSetExpression`. -/
def newJSONPathSet (key : String) (v : Json) : Res Expr :=
  match newLiteral v with
  | .ok e => .ok (.dict "@dict" [(key, e)])
  | .error e => .error e

end Dctl
