import Verif.Expr.Basic
/-!
# Evaluation of expressions (`pkg/expression/expression.go:60-1163`)

An expression denotes a function from contexts to results. The operators below take the denotations of their operands, so that an operand is
evaluated only where Go calls `Evaluate` on it.
-/
set_option autoImplicit false
namespace Dctl

/-- The denotation of an expression. -/
abbrev Den := Ctx → Res Json

/-- `expression.go:66-153`: what `@bool`, `@int`, `@float`, `@string` do with a value. -/
def convert (env : Env) (ctx : Ctx) (op : String) (v : Json) : Res Json :=
  if op = "@bool" then (asBool v).map .bool
  else if op = "@int" then (asInt v).map .int
  else if op = "@float" then (asFloat env v).map .float
  else
    match asString env v with
    | .error e => .error e
    | .ok s =>
      match getJSONPath env ctx s with
      | .error e => .error e
      | .ok (.str r) => .ok (.str (if r = "@now" then env.now else r))
      | .ok r => .ok r

/-- The operators with `Evaluate`d arguments of `expression.go:66-153`. -/
def isConvert (op : String) : Bool := op = "@bool" || op = "@int" || op = "@float" || op = "@string"

/-- The operators that take the argument as an expression (`expression.go:242-667`), other than `@noop`. -/
def isSpecial (op : String) : Bool :=
  op = "@cond" || op = "@definedOr" || op = "@switch" || op = "@and" || op = "@or" || op = "@filter" || op = "@any" || op = "@none" || op = "@all" || op = "@map"

/-- An expression without argument. `expression.go:66-153` for conversions, `155-192` and `194-237` fail for plain literals, `243-247` `@noop`,
`249-667` dereference the missing argument (`converter.go:298-303`), `703-705` for the others. -/
def evalLit (env : Env) (op : String) (v : Json) : Den := fun ctx =>
  if op = "" then .error .err
  else if isConvert op then convert env ctx op v
  else if op = "@noop" then .ok .null
  else if isSpecial op then .error .panic
  else .error .err

/-- All results in order, stopping at the first error (`expression.go:176-184`). -/
def seqAll (ctx : Ctx) : List Den → Res (List Json)
  | [] => .ok []
  | d :: ds =>
    match d ctx with
    | .error e => .error e
    | .ok v =>
      match seqAll ctx ds with
      | .error e => .error e
      | .ok vs => .ok (v :: vs)

/-- A literal list of expressions: `expression.go:155-192`. With another operator the literal is no plain value. -/
def evalExprs (_env : Env) (op : String) (ds : List Den) : Den := fun ctx =>
  if op = "@list" then
    match seqAll ctx ds with
    | .error e => .error e
    | .ok vs => .ok (.list (unpackList vs))
  else if op = "@noop" then .ok .null
  else if isSpecial op then .error .panic
  else .error .err

/-- `expression.go:219-231`: evaluate and set the fields one after the other. -/
def setFields (env : Env) (ctx : Ctx) (data : SMap Json) : List (String × Den) → Res (SMap Json)
  | [] => .ok data
  | (k, d) :: ds =>
    match d ctx with
    | .error e => .error e
    | .ok v =>
      match setJSONPath env ctx k v data with
      | .error e => .error e
      | .ok data' => setFields env ctx data' ds

/-- A literal map of expressions: `expression.go:194-237`. -/
def evalDict (env : Env) (op : String) (ds : List (String × Den)) : Den := fun ctx =>
  if op = "@dict" then
    match setFields env ctx [] ds with
    | .error e => .error e
    | .ok m => .ok (.map m)
  else if op = "@noop" then .ok .null
  else if isSpecial op then .error .panic
  else .error .err

/-- Evaluate and convert to a boolean, as in `expression.go:397-404`. -/
def evalBool (d : Den) (ctx : Ctx) : Res Bool :=
  match d ctx with
  | .error e => .error e
  | .ok v => asBool v

/-- `expression.go:395-409` the loop of `@and`. -/
def andLoop (ctx : Ctx) : List Den → Res Bool
  | [] => .ok true
  | d :: ds =>
    match evalBool d ctx with
    | .error e => .error e
    | .ok false => .ok false
    | .ok true => andLoop ctx ds

/-- `expression.go:421-435` the loop of `@or`. -/
def orLoop (ctx : Ctx) : List Den → Res Bool
  | [] => .ok false
  | d :: ds =>
    match evalBool d ctx with
    | .error e => .error e
    | .ok true => .ok true
    | .ok false => orLoop ctx ds

/-- `expression.go:465-483` the loop of `@filter`. -/
def filterLoop (p : Den) (ctx : Ctx) : List Json → Res (List Json)
  | [] => .ok []
  | x :: l =>
    match evalBool p ⟨ctx.object, x⟩ with
    | .error e => .error e
    | .ok b =>
      match filterLoop p ctx l with
      | .error e => .error e
      | .ok r => .ok (if b then x :: r else r)

/-- `expression.go:514-533` the loop of `@any`. -/
def anyLoop (p : Den) (ctx : Ctx) : List Json → Res Bool
  | [] => .ok false
  | x :: l =>
    match evalBool p ⟨ctx.object, x⟩ with
    | .error e => .error e
    | .ok true => .ok true
    | .ok false => anyLoop p ctx l

/-- `expression.go:563-582` the loop of `@none`, which starts with false and only ever assigns false. -/
def noneLoop (p : Den) (ctx : Ctx) : List Json → Res Bool
  | [] => .ok false
  | x :: l =>
    match evalBool p ⟨ctx.object, x⟩ with
    | .error e => .error e
    | .ok true => .ok false
    | .ok false => noneLoop p ctx l

/-- `expression.go:610-629` the loop of `@all`. -/
def allLoop (p : Den) (ctx : Ctx) : List Json → Res Bool
  | [] => .ok true
  | x :: l =>
    match evalBool p ⟨ctx.object, x⟩ with
    | .error e => .error e
    | .ok false => .ok false
    | .ok true => allLoop p ctx l

/-- `expression.go:655-663` the loop of `@map`. -/
def mapLoop (p : Den) (ctx : Ctx) : List Json → Res (List Json)
  | [] => .ok []
  | x :: l =>
    match p ⟨ctx.object, x⟩ with
    | .error e => .error e
    | .ok v =>
      match mapLoop p ctx l with
      | .error e => .error e
      | .ok r => .ok (v :: r)

/-- `expression.go:456-463` and the like: the list argument of a list operator. -/
def listArg (d : Den) (ctx : Ctx) : Res (List Json) :=
  match d ctx with
  | .error e => .error e
  | .ok v => asList v

/-- `expression.go:332-370` the loop of `@switch`; `none` for a pair that is no list of expressions. -/
def switchLoop (ctx : Ctx) : List (Option (List Den)) → Res Json
  | [] => .ok .null
  | some [c, a] :: ps =>
    match evalBool c ctx with
    | .error e => .error e
    | .ok true => a ctx
    | .ok false => switchLoop ctx ps
  | _ :: _ => .error .err

/-- `expression.go:249-290` `@cond` with its arguments. -/
def condOp (args : List Den) (ctx : Ctx) : Res Json :=
  match args with
  | [c, t] =>
    match evalBool c ctx with
    | .error e => .error e
    | .ok true => t ctx
    | .ok false => .ok .null
  | [c, t, f] =>
    match evalBool c ctx with
    | .error e => .error e
    | .ok true => t ctx
    | .ok false => f ctx
  | _ => .error .err

/-- `expression.go:292-317` `@definedOr` with its arguments. -/
def definedOrOp (args : List Den) (ctx : Ctx) : Res Json :=
  match args with
  | [a, b] =>
    match a ctx with
    | .error e => .error e
    | .ok .null => b ctx
    | .ok v => .ok v
  | _ => .error .err

/-- `expression.go:441-633`: the list operators other than `@map`, with exactly two arguments. -/
def listOp (op : String) (args : List Den) (ctx : Ctx) : Res Json :=
  match args with
  | [p, d] =>
    match listArg d ctx with
    | .error e => .error e
    | .ok l =>
      if op = "@filter" then (filterLoop p ctx l).map .list
      else if op = "@any" then (anyLoop p ctx l).map .bool
      else if op = "@none" then (noneLoop p ctx l).map .bool
      else (allLoop p ctx l).map .bool
  | _ => .error .err

/-- `expression.go:635-667` `@map`: the arguments are indexed without a check of their number. -/
def mapOp (args : List Den) (ctx : Ctx) : Res Json :=
  match args with
  | p :: d :: _ =>
    match listArg d ctx with
    | .error e => .error e
    | .ok l => (mapLoop p ctx l).map .list
  | _ => .error .panic

/-- `expression.go:242-667`: the operators that evaluate their arguments themselves. `args` is `AsExpOrExpList(e.Arg)`, `pairs` the result of applying
it once more to each of them; `none` for an error. -/
def specialOp (op : String) (args : Option (List Den)) (pairs : List (Option (List Den))) (ctx : Ctx) : Res Json :=
  match args with
  | none => .error .err
  | some args =>
    if op = "@cond" then condOp args ctx
    else if op = "@definedOr" then definedOrOp args ctx
    else if op = "@switch" then (if args = [] then .error .err else switchLoop ctx pairs)
    else if op = "@and" then (andLoop ctx args).map .bool
    else if op = "@or" then (orLoop ctx args).map .bool
    else if op = "@map" then mapOp args ctx
    else listOp op args ctx

/-- `expression.go:750-829`: comparisons. -/
def cmpOp (env : Env) (op : String) (v : Json) : Res Json :=
  match asNum2 env v with
  | .error e => .error e
  | .ok (.ints a b) => .ok (.bool (if op = "@lt" then a < b else if op = "@lte" then a ≤ b else if op = "@gt" then a > b else a ≥ b))
  | .ok (.floats a b) => .ok (.bool (if op = "@lt" then a < b else if op = "@lte" then a ≤ b else if op = "@gt" then a > b else a ≥ b))

/-- `expression.go:903-967`: `@add`, `@sub`, `@mul`. -/
def arithOp (env : Env) (op : String) (v : Json) : Res Json :=
  match asNum2 env v with
  | .error e => .error e
  | .ok (.ints a b) => .ok (.int (wrap64 (if op = "@add" then a + b else if op = "@sub" then a - b else a * b)))
  | .ok (.floats a b) => .ok (.float (env.fop (if op = "@add" then .add else if op = "@sub" then .sub else .mul) a b))

/-- `expression.go:1008-1011` the integer loop of `@sum`. -/
def sumLoop (acc : Int) : List Int → Int
  | [] => acc
  | i :: is => sumLoop (wrap64 (acc + i)) is

/-- `expression.go:1014-1017` the float loop of `@sum`. -/
def sumFloat (env : Env) (acc : Rat) : List Rat → Rat
  | [] => acc
  | f :: fs => sumFloat env (env.fop .add acc f) fs

/-- `slices.Min`, `slices.Max` of a nonempty list (`expression.go:1035,1057`). -/
def extremum {α : Type} (better : α → α → Bool) (acc : α) : List α → α
  | [] => acc
  | x :: l => extremum better (if better x acc then x else acc) l

/-- `expression.go:1026-1068` `@min`, `@max`: nothing for an empty list. -/
def minmaxOp (env : Env) (max : Bool) (v : Json) : Res Json :=
  match asNums env v with
  | .error e => .error e
  | .ok (.ints []) => .ok .null
  | .ok (.ints (i :: is)) => .ok (.int (extremum (fun x acc => if max then x > acc else x < acc) i is))
  | .ok (.floats []) => .ok .null
  | .ok (.floats (f :: fs)) => .ok (.float (extremum (fun x acc => if max then x > acc else x < acc) f fs))

/-- `expression.go:1130-1136`: the integers from `a` on, `n` of them. That `make` panics for more elements than fit into memory is left out. -/
def countUp (a : Int) : Nat → List Json
  | 0 => []
  | n + 1 => .int a :: countUp (a + 1) n

/-- `expression.go:712-1158`: the operators on an evaluated argument. `@rnd` (`745-764`) panics in `rand.Intn` if the difference of the bounds, an `int64`, is
not positive. -/
def strictOp (env : Env) (op : String) (v : Json) : Res Json :=
  if op = "@isnil" then .ok (.bool (v = .null))
  else if op = "@exists" ∨ op = "@has" then .ok (.bool (v ≠ .null))
  else if op = "@not" then (asBool v).map (fun b => .bool (!b))
  else if op = "@eq" then
    match v with
    | .list [a, b] => .ok (.bool (a ≠ .null ∧ b ≠ .null ∧ a = b))
    | _ => .error .err
  else if op = "@rnd" then
    match listOf asInt v with
    | .ok [a, b] => if wrap64 (b - a) ≤ 0 then .error .panic else .ok (.int (wrap64 (env.intn (wrap64 (b - a)) + a)))
    | .ok _ => .error .err
    | .error e => .error e
  else if op = "@lt" ∨ op = "@lte" ∨ op = "@gt" ∨ op = "@gte" then cmpOp env op v
  else if op = "@selector" then
    match v with
    | .list [s, l] =>
      if s = .null ∨ l = .null then .ok (.bool false)
      else
        match s, l with
        | .map sel, .map labels => (matchLabels env labels sel).map .bool
        | _, _ => .error .err
    | _ => .error .err
  else if op = "@abs" then (asFloat env v).map (fun f => .float (env.fabs f))
  else if op = "@ceil" then (asFloat env v).map (fun f => .float (env.fceil f))
  else if op = "@floor" then (asFloat env v).map (fun f => .float (env.ffloor f))
  else if op = "@add" ∨ op = "@sub" ∨ op = "@mul" then arithOp env op v
  else if op = "@div" then
    match v with
    | .list [a, b] =>
      match asNumFloat env a with
      | .error e => .error e
      | .ok x =>
        match asNumFloat env b with
        | .error e => .error e
        | .ok y => .ok (.float (env.fop .div x y))
    | _ => .error .err
  else if op = "@sum" then
    match asNums env v with
    | .error e => .error e
    | .ok (.ints is) => .ok (.int (sumLoop 0 is))
    | .ok (.floats fs) => .ok (.float (sumFloat env 0 fs))
  else if op = "@min" then minmaxOp env false v
  else if op = "@max" then minmaxOp env true v
  else if op = "@len" then (asList v).map (fun l => .int l.length)
  else if op = "@in" then
    match v with
    | .list [x, .list l] => .ok (.bool (l.any (· = x)))
    | _ => .error .err
  else if op = "@concat" then (listOf (asString env) v).map (fun ss => .str (ss.foldl (· ++ ·) ""))
  else if op = "@range" then
    match listOf asInt v with
    | .ok [a, b] => .ok (.list (countUp a (b - a).toNat))
    | .ok _ => .error .err
    | .error e => .error e
  else if op = "@hash" then .ok (.str (env.hash v))
  else .error .err

/-- An expression with an argument. `self` is the denotation of the argument, `args`, `pairs` as in `specialOp`. `expression.go:60-237` for
conversions, `@list` and `@dict`, `242-667` for the operators that evaluate their arguments themselves, `703-1158` for the others, `1160-1162` for
operators without `@`. -/
def evalApp (env : Env) (op : String) (self : Den) (args : Option (List Den)) (pairs : List (Option (List Den))) : Den := fun ctx =>
  if op = "" then .error .err
  else if isConvert op then
    match self ctx with
    | .error e => .error e
    | .ok v => convert env ctx op v
  else if op = "@list" then
    match self ctx with
    | .error e => .error e
    | .ok (.list l) => .ok (.list (unpackList l))
    | .ok _ => .error .err
  else if op = "@dict" then
    match self ctx with
    | .error e => .error e
    | .ok (.map m) => .ok (.map m)
    | .ok _ => .error .err
  else if op = "@noop" then .ok .null
  else if isSpecial op then specialOp op args pairs ctx
  else
    match self ctx with
    | .error e => .error e
    | .ok v => if op.toList.head? = some '@' then strictOp env op v else .ok (.map [(op, v)])

/-- `converter.go:296-319` `AsExpOrExpList`, given the denotation of the expression and of its parts: `none` is the error for a `@list` whose literal is
no list of expressions. -/
def orElems (self : Den) : Option (Option (List Den)) → Option (List Den)
  | some (some ds) => some ds
  | some none => some [self]
  | none => none

mutual
/-- `expression.go:60-1163` `Evaluate`. -/
def Expr.den (env : Env) : Expr → Den
  | .lit op v => evalLit env op v
  | .exprs op es => evalExprs env op (Expr.denL env es)
  | .dict op m => evalDict env op (Expr.denM env m)
  | .app op a => evalApp env op (a.den env) (orElems (a.den env) (a.denElems env)) (a.denPairs env)
termination_by structural e => e
/-- The elements of a list of expressions. -/
def Expr.denL (env : Env) : List Expr → List Den
  | [] => []
  | e :: es => e.den env :: Expr.denL env es
/-- The elements of a map of expressions. -/
def Expr.denM (env : Env) : List (String × Expr) → List (String × Den)
  | [] => []
  | (k, e) :: m => (k, e.den env) :: Expr.denM env m
/-- The parts of a `@list` literal (`converter.go:309-316`): `some none` if the expression is no `@list`, `none` if it is one without a
literal list of expressions. -/
def Expr.denElems (env : Env) : Expr → Option (Option (List Den))
  | .exprs op es => if op = "@list" then some (some (Expr.denL env es)) else some none
  | .lit op _ => if op = "@list" then none else some none
  | .dict op _ => if op = "@list" then none else some none
  | .app op _ => if op = "@list" then none else some none
/-- The pairs of a `@switch` (`expression.go:332-340`). For an argument that is no list the only pair has one element. -/
def Expr.denPairs (env : Env) : Expr → List (Option (List Den))
  | .exprs op es => if op = "@list" then Expr.denPairL env es else [some []]
  | _ => [some []]
/-- The pairs of a list of expressions. -/
def Expr.denPairL (env : Env) : List Expr → List (Option (List Den))
  | [] => []
  | e :: es => orElems (e.den env) (e.denElems env) :: Expr.denPairL env es
end

/-- `expression.go:60-1163` `Evaluate`. -/
def eval (env : Env) (e : Expr) (ctx : Ctx) : Res Json := e.den env ctx

end Dctl
