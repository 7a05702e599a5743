import Verif.Json.Basic
import Std.Data.String.ToInt
/-!
# Document identity: the JSON key of a document (`pkg/dbsp/document.go`)

Here a map is a list of entries in any order (the order of a Go map iteration); keys are distinct.
-/
set_option autoImplicit false
namespace Dctl

mutual
/-- `document.go:31-65` `toCanonicalForm` followed by the key sorting of `json.Marshal`: sort the entries of every map. -/
def Json.canon : Json → Json
  | .list l => .list (Json.canonL l)
  | .map m => .map (Json.canonM m)
  | .null => .null
  | .bool b => .bool b
  | .int i => .int i
  | .float f => .float f
  | .str s => .str s
/-- `document.go:46-55`: elements in order. -/
def Json.canonL : List Json → List Json
  | [] => []
  | x :: l => x.canon :: Json.canonL l
/-- `document.go:34-43`: entries one by one. -/
def Json.canonM : List (String × Json) → SMap Json
  | [] => []
  | (k, x) :: m => SMap.set (Json.canonM m) k x.canon
end

/-- Hexadecimal digit. -/
def hexDigit (n : Nat) : Char := if n < 10 then Char.ofNat (48 + n) else Char.ofNat (87 + n)

/-- The characters `json.Marshal` escapes and their codes: quote, backslash, control characters, `<`, `>`, `&`, U+2028, U+2029
(Go `encoding/json`, `appendString` with HTML escaping, used by `document.go:21`). -/
def escTable : List (Char × List Char) :=
  [('"', ['\\', '"']), ('\\', ['\\', '\\']), (Char.ofNat 8, ['\\', 'b']), (Char.ofNat 9, ['\\', 't']), (Char.ofNat 10, ['\\', 'n']),
    (Char.ofNat 12, ['\\', 'f']), (Char.ofNat 13, ['\\', 'r'])] ++
  ((List.range 32).filter (fun n => ¬ n ∈ [8, 9, 10, 12, 13]) ++ [0x26, 0x3c, 0x3e, 0x2028, 0x2029]).map
    (fun n => (Char.ofNat n, ['\\', 'u', hexDigit (n / 4096), hexDigit (n / 256 % 16), hexDigit (n / 16 % 16), hexDigit (n % 16)]))

/-- The code of one character. -/
def escChar (c : Char) : List Char :=
  match escTable.lookup c with
  | some e => e
  | none => [c]

/-- A string literal without the opening quote. -/
def strText (s : String) : List Char := s.toList.flatMap escChar ++ ['"']

mutual
/-- `json.Marshal` of a canonical value (`document.go:21`). `ft` formats a float (Go `strconv.AppendFloat`). -/
def Json.text (ft : Rat → List Char) : Json → List Char
  | .null => "null".toList
  | .bool true => "true".toList
  | .bool false => "false".toList
  | .int i => i.repr.toList
  | .float f => ft f
  | .str s => '"' :: strText s
  | .list [] => ['[', ']']
  | .list (x :: l) => '[' :: (x.text ft ++ Json.textL ft l)
  | .map [] => ['{', '}']
  | .map ((k, x) :: m) => '{' :: '"' :: (strText k ++ ':' :: (x.text ft ++ Json.textM ft m))
/-- Remaining elements and closing bracket. -/
def Json.textL (ft : Rat → List Char) : List Json → List Char
  | [] => [']']
  | x :: l => ',' :: (x.text ft ++ Json.textL ft l)
/-- Remaining entries and closing brace. -/
def Json.textM (ft : Rat → List Char) : List (String × Json) → List Char
  | [] => ['}']
  | (k, x) :: m => ',' :: '"' :: (strText k ++ ':' :: (x.text ft ++ Json.textM ft m))
end

/-- `document.go:14-27` `computeJSONKey`: the identity of a document. -/
def Json.key (ft : Rat → List Char) (j : Json) : List Char := j.canon.text ft

/-- `document.go:68-80` `DeepEqual`. -/
def docDeepEqual (ft : Rat → List Char) (a b : Json) : Bool := decide (a.key ft = b.key ft)

example : (Json.map [("b", .list [.int (-2), .null]), ("a", .str "x\"<")]).key (fun _ => []) = "{\"a\":\"x\\\"\\u003c\",\"b\":[-2,null]}".toList := by decide
end Dctl
