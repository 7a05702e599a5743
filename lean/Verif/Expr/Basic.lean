import Verif.Json.Object
/-!
# Expressions and conversions (`pkg/expression/expression.go`, `converter.go`, `jsonpath.go`, `selector.go`)
-/
set_option autoImplicit false
namespace Dctl

/-- `expression.go:52-56` `Expression{Op, Arg, Literal}`. Expressions with both an argument and a literal are left out: neither the parser
(`marshaler.go:10-70`) nor the constructors (`literal.go:6-40`) make them. -/
inductive Expr where
  /-- no argument, the literal is a plain value (null if absent) -/
  | lit (op : String) (v : Json)
  /-- no argument, the literal is a list of expressions -/
  | exprs (op : String) (es : List Expr)
  /-- no argument, the literal is a map of expressions; the order of the list is the order in which Go iterates over the map -/
  | dict (op : String) (m : List (String × Expr))
  /-- an argument -/
  | app (op : String) (arg : Expr)

/-- How an evaluation fails: by returning an error or by a Go panic. The error texts are not modelled. -/
inductive EvalErr where
  | err
  | panic
deriving DecidableEq, Repr

/-- Result of an evaluation. -/
abbrev Res (α : Type) := Except EvalErr α

/-- `expression.go:46-49` `EvalCtx`; null stands for Go nil. -/
structure Ctx where
  object : Json
  subject : Json := .null

/-- Go `int64` arithmetic: results are reduced modulo 2^64 (used in `expression.go:905-1010`). -/
def wrap64 (i : Int) : Int := (i + 9223372036854775808) % 18446744073709551616 - 9223372036854775808

/-- The range of `int64`. -/
def inInt64 (i : Int) : Bool := -9223372036854775808 ≤ i ∧ i ≤ 9223372036854775807

/-- The float operations of `expression.go:903-1000`. -/
inductive FOp where
  | add | sub | mul | div
deriving DecidableEq, Repr

/-- What evaluation uses from libraries and from the outside.
* `jget`, `jset`: `jp.ParseString(query).Get(object)[0]` (null if empty) and `.Set` of `github.com/ohler55/ojg/jp` (`jsonpath.go:100-127`)
* `ftext`: the text of a float; `parseFloat`: `strconv.ParseFloat`; `ofInt`: `float64(i)`; `fop`, `fabs`, `fceil`, `ffloor`: float operations
  (infinities and NaN are not modelled)
* `md5`: `base36.Md5Base36` of the JSON text of a value (`expression.go:1140-1145`), a text of ASCII characters
* `now`: `@now`, one arbitrary but fixed outcome; `intn`: `rand.Intn` for a positive argument (`expression.go:762`), the same
* `sprintv`: `fmt.Sprintf("%v", v)` for values other than strings; `validKey`, `validValue`: syntax of labels (`selector.go:15,27`). -/
structure Env where
  jget : String → Json → Res Json
  jset : String → Json → Json → Res Json
  ftext : Rat → String
  parseFloat : String → Option Rat
  ofInt : Int → Rat
  fop : FOp → Rat → Rat → Rat
  fabs : Rat → Rat
  fceil : Rat → Rat
  ffloor : Rat → Rat
  md5 : Json → String
  now : String
  intn : Int → Int
  sprintv : Json → String
  validKey : String → Bool
  validValue : String → Bool

/-- `expression.go:1145-1150`: a text shorter than six characters is filled up with `x`, a longer one is cut. -/
def sixChars (s : String) : String :=
  if s.length < 6 then s ++ String.ofList (List.replicate (6 - s.length) 'x') else String.ofList (s.toList.take 6)

/-- `expression.go:1139-1154` `@hash`. -/
def Env.hash (env : Env) (v : Json) : String := sixChars (env.md5 v)

/-! ## converter.go -/

/-- `converter.go:17-28` `AsList`. -/
def asList : Json → Res (List Json)
  | .list l => .ok l
  | _ => .error .err

/-- `converter.go:30-39` `AsBool`. -/
def asBool : Json → Res Bool
  | .bool b => .ok b
  | _ => .error .err

/-- The decimal digits of an integer, as printed by `%d`. -/
def digit? (c : Char) : Option Nat := if '0' ≤ c ∧ c ≤ '9' then some (c.toNat - 48) else none

/-- Digits to a number, for `strconv.ParseInt` (used in `converter.go:137`). -/
def parseDigits : List Char → Nat → Option Nat
  | [], n => some n
  | c :: cs, n =>
    match digit? c with
    | some d => parseDigits cs (10 * n + d)
    | none => none

/-- `strconv.ParseInt(s, 10, 64)` (used in `converter.go:137`): an optional sign, at least one digit, nothing else, within range. -/
def parseInt (s : String) : Option Int :=
  let r : Option Int := match s.toList with
    | [] => none
    | '-' :: c :: cs => (parseDigits (c :: cs) 0).map (fun n : Nat => -(n : Int))
    | '+' :: c :: cs => (parseDigits (c :: cs) 0).map (fun n : Nat => (n : Int))
    | c :: cs => (parseDigits (c :: cs) 0).map (fun n : Nat => (n : Int))
  r.bind (fun i => if inInt64 i then some i else none)

/-- `converter.go:71-91` `AsString`: numbers are printed with `%d`, which for a float gives an error text. -/
def asString (env : Env) : Json → Res String
  | .str s => .ok s
  | .int i => .ok (toString i)
  | .float f => .ok ("%!d(float64=" ++ env.ftext f ++ ")")
  | _ => .error .err

/-- `converter.go:125-145` `AsInt`. -/
def asInt : Json → Res Int
  | .int i => .ok i
  | .str s =>
    match parseInt s with
    | some i => .ok i
    | none => .error .err
  | _ => .error .err

/-- `converter.go:176-202` `AsFloat`. -/
def asFloat (env : Env) : Json → Res Rat
  | .int i => .ok (env.ofInt i)
  | .float f => .ok f
  | .str s =>
    match env.parseFloat s with
    | some f => .ok f
    | none => .error .err
  | _ => .error .err

/-- All elements, as in the loops of `converter.go:99-106,152-159,209-216`. -/
def mapAll {α : Type} (f : Json → Res α) : List Json → Res (List α)
  | [] => .ok []
  | x :: l =>
    match f x with
    | .error e => .error e
    | .ok y =>
      match mapAll f l with
      | .error e => .error e
      | .ok ys => .ok (y :: ys)

/-- `converter.go:93-108,147-161,204-218`: a list converted element by element. -/
def listOf {α : Type} (f : Json → Res α) (d : Json) : Res (List α) :=
  match asList d with
  | .error e => .error e
  | .ok l => mapAll f l

/-- The outcome of `AsIntOrFloatList` (`converter.go:250-263`). -/
inductive Nums where
  | ints (is : List Int)
  | floats (fs : List Rat)

/-- `converter.go:250-263` `AsIntOrFloatList`: integers if all elements are, otherwise floats. -/
def asNums (env : Env) (d : Json) : Res Nums :=
  match listOf asInt d with
  | .ok is => .ok (.ints is)
  | .error _ =>
    match listOf (asFloat env) d with
    | .ok fs => .ok (.floats fs)
    | .error e => .error e

/-- A pair of numbers. -/
inductive Num2 where
  | ints (a b : Int)
  | floats (a b : Rat)

/-- `converter.go:265-285` `AsBinaryIntOrFloatList`. -/
def asNum2 (env : Env) (d : Json) : Res Num2 :=
  match asNums env d with
  | .ok (.ints [a, b]) => .ok (.ints a b)
  | .ok (.floats [a, b]) => .ok (.floats a b)
  | .ok _ => .error .err
  | .error e => .error e

/-- `converter.go:234-248` `AsIntOrFloat` turned into a float (`expression.go:981-995`). -/
def asNumFloat (env : Env) (d : Json) : Res Rat :=
  match asInt d with
  | .ok i => .ok (env.ofInt i)
  | .error _ => asFloat env d

/-- `converter.go:321-330` `AsObject`. -/
def asObject : Json → Res (SMap Json)
  | .map m => .ok m
  | _ => .error .err

/-- `converter.go:350-361` `AsObjectOrObjectList`. -/
def asObjects : Json → Res (List (SMap Json))
  | .map m => .ok [m]
  | .list l => mapAll asObject l
  | _ => .error .err

/-! ## jsonpath.go -/

/-- `jsonpath.go:11-40` `GetJSONPath`: strings that do not start with a dollar stand for themselves, `$…` is looked up in the object, `$$…` in
the subject of the innermost `@map`, `@filter`, … if there is one. -/
def getJSONPath (env : Env) (ctx : Ctx) (key : String) : Res Json :=
  match key.toList with
  | '$' :: rest =>
    let key := if key = "$." then "$" else if key = "$$." then "$$" else key
    match rest with
    | '$' :: _ => if ctx.subject ≠ .null then env.jget (String.ofList (key.toList.drop 1)) ctx.subject else env.jget key ctx.object
    | _ => env.jget key ctx.object
  | _ => .ok (.str key)

/-- `jsonpath.go:51-58`: a string value is looked up once more before it is set. -/
def derefValue (env : Env) (ctx : Ctx) : Json → Res Json
  | .str s => getJSONPath env ctx s
  | v => .ok v

/-- `jsonpath.go:62-79`: `$.` as a key merges a map into the result. -/
def setRoot (data : SMap Json) : SMap Json → SMap Json
  | [] => data
  | (k, v) :: m => setRoot (SMap.set data k v) m

/-- `jsonpath.go:44-94` `SetJSONPath` on a map. In-place changes become a new value; aliasing between the value and the data is not modelled. -/
def setJSONPath (env : Env) (ctx : Ctx) (key : String) (value : Json) (data : SMap Json) : Res (SMap Json) :=
  if key = "" then .error .err
  else
    match derefValue env ctx value with
    | .error e => .error e
    | .ok v =>
      if key = "$." then
        match v with
        | .map m => .ok (setRoot data m)
        | _ => .error .err
      else if key.toList.head? ≠ some '$' then .ok (SMap.set data key v)
      else
        match env.jset key v (.map data) with
        | .ok (.map r) => .ok r
        | .ok _ => .error .err
        | .error e => .error e

/-- `marshaler.go:200-229` `unpackList`: a list whose first element is a list is replaced by that element. -/
def unpackList : List Json → List Json
  | .list l :: _ => l
  | l => l

/-! ## selector.go -/

/-- `fmt.Sprintf("%v", v)` (`selector.go:15,48,53,80`). -/
def sprint (env : Env) : Json → String
  | .str s => s
  | v => env.sprintv v

/-- A requirement of a label selector: `metav1.LabelSelectorRequirement` (`selector.go:74-83`), with an equality as a set of one value. -/
inductive Req1 where
  | isIn (k : String) (vs : List String)
  | notIn (k : String) (vs : List String)
  | exist (k : String)
  | absent (k : String)
deriving DecidableEq, Repr

/-- `selector.go:77-82`: the values of an element of `matchExpressions`. -/
def reqValues (env : Env) (m : SMap Json) : List String :=
  match SMap.get m "values" with
  | some (.list l) => l.map (sprint env)
  | _ => []

/-- `selector.go:65-83`: one element of `matchExpressions`; `none` means the element is skipped. Values of `Exists` and `DoesNotExist` are rejected by
`labels.NewRequirement`, empty value lists of `In` and `NotIn` too, and invalid label keys and values as well (`selector.go:24`). -/
def parseReq (env : Env) : Json → Res (Option Req1)
  | .map m =>
    let key := nestedString m ["key"]
    let vals := reqValues env m
    let okKey := env.validKey key
    match nestedString m ["operator"] with
    | "In" => if okKey ∧ vals ≠ [] ∧ vals.all env.validValue then .ok (some (.isIn key vals)) else .error .err
    | "NotIn" => if okKey ∧ vals ≠ [] ∧ vals.all env.validValue then .ok (some (.notIn key vals)) else .error .err
    | "Exists" => if okKey ∧ vals = [] then .ok (some (.exist key)) else .error .err
    | "DoesNotExist" => if okKey ∧ vals = [] then .ok (some (.absent key)) else .error .err
    | _ => .error .err
  | _ => .ok none

/-- `selector.go:46-49,52-56` with `LabelSelectorAsSelector`: equality requirements. -/
def eqReqs (env : Env) (m : SMap Json) : Res (List Req1) :=
  if m.all (fun p => env.validKey p.1 && env.validValue (sprint env p.2)) then .ok (m.map (fun p => .isIn p.1 [sprint env p.2])) else .error .err

/-- `selector.go:35-89` `convertToLabelSelector` with `metav1.LabelSelectorAsSelector` (`selector.go:24`). -/
def selectorReqs (env : Env) (sel : SMap Json) : Res (List Req1) :=
  match SMap.get sel "matchLabels", SMap.get sel "matchExpressions" with
  | some (.map ml), some (.list me) =>
    match eqReqs env ml, mapAll (parseReq env) me with
    | .ok a, .ok b => .ok (a ++ b.filterMap id)
    | _, _ => .error .err
  | some (.map ml), _ => eqReqs env ml
  | _, some (.list me) =>
    match mapAll (parseReq env) me with
    | .ok b => .ok (b.filterMap id)
    | .error e => .error e
  | _, _ => eqReqs env sel

/-- `labels.Requirement.Matches` (library, used in `selector.go:31`). -/
def Req1.holds (labels : SMap String) : Req1 → Bool
  | .isIn k vs =>
    match SMap.get labels k with
    | some v => vs.contains v
    | none => false
  | .notIn k vs =>
    match SMap.get labels k with
    | some v => !vs.contains v
    | none => true
  | .exist k => (SMap.get labels k).isSome
  | .absent k => (SMap.get labels k).isNone

/-- `selector.go:11-32` `MatchLabels`. -/
def matchLabels (env : Env) (labels sel : SMap Json) : Res Bool :=
  match selectorReqs env sel with
  | .error e => .error e
  | .ok rs => .ok (rs.all (Req1.holds (SMap.mapVal (sprint env) labels)))

end Dctl
