import Verif.Expr.Eval
/-!
# Field paths (`pkg/expression/jsonpath.go`)

The library `ojg/jp` is modelled for paths of plain field names only, `$.a.b.c`.
-/
set_option autoImplicit false
namespace Dctl

/-- The characters of a plain field name. -/
def isWord (c : Char) : Bool := c.isAlphanum || c == '_'

/-- Split at the dots. -/
def splitDots : List Char → List (List Char)
  | [] => [[]]
  | c :: cs =>
    if c = '.' then [] :: splitDots cs
    else
      match splitDots cs with
      | [] => [[c]]
      | w :: ws => (c :: w) :: ws

/-- `jp.ParseString` (used in `jsonpath.go:101,121`) on paths of plain field names; `none` for other queries. -/
def parsePath (q : String) : Option (List String) :=
  match q.toList with
  | ['$'] => some []
  | '$' :: '.' :: rest => if (splitDots rest).all (fun w => !w.isEmpty && w.all isWord) then some ((splitDots rest).map String.ofList) else none
  | _ => none

/-- `jsonpath.go:100-115` `GetJSONPathRaw` on field paths: the value, or null if there is none. Other queries are left to `base`. -/
def fieldGet (base : Env) (q : String) (j : Json) : Res Json :=
  match parsePath q with
  | some p => .ok ((j.at p).getD .null)
  | none => base.jget q j

/-- `jsonpath.go:120-127` `SetJSONPathRaw` on field paths: missing maps on the way are created; an error if something on the way is no map
(`jp.Expr.Set`), and for the root. -/
def fieldSet (base : Env) (q : String) (v : Json) (j : Json) : Res Json :=
  match parsePath q with
  | some [] => .error .err
  | some p =>
    match j with
    | .map m =>
      match setNested m p v with
      | some r => .ok (.map r)
      | none => .error .err
    | _ => .error .err
  | none => base.jset q v j

/-- An environment in which field paths behave as in `jsonpath.go:100-127`. -/
def fieldEnv (base : Env) : Env := { base with jget := fieldGet base, jset := fieldSet base }

/-- A field path as a string. -/
def pathString (p : List String) : String := String.ofList ('$' :: (p.map (fun k => '.' :: k.toList)).flatten)

end Dctl
