import Verif.Json.Object
/-!
# Authorization (`pkg/auth/rbac.go`, `pkg/auth/authorizer.go`)
-/
set_option autoImplicit false
namespace Dctl

/-- `rbac.go:22`, `authenticator.go:25` `rbacv1.PolicyRule`: library type; the non-resource URLs of a rule are never looked at and left out. A nil slice and
an empty one are not told apart. -/
structure PolicyRule where
  verbs : List String
  apiGroups : List String
  resources : List String
  resourceNames : List String
deriving DecidableEq, Repr

/-- `strings.HasPrefix(s, p)` (`rbac.go:117,125,131`). -/
def hasPrefix (s p : String) : Bool := p.toList.isPrefixOf s.toList

/-- `strings.HasSuffix(s, p)` (`rbac.go:119,123,131`). -/
def hasSuffix (s p : String) : Bool := p.toList.isSuffixOf s.toList

/-- `strings.SplitN(pattern, "*", 2)` (`rbac.go:129`) of a pattern with a '*': what precedes and what follows the first one. -/
def splitStar (p : String) : String × String :=
  (String.ofList (p.toList.takeWhile (· != '*')), String.ofList ((p.toList.dropWhile (· != '*')).drop 1))

/-- `rbac.go:115-135` `matchesWildcard`. -/
def matchesWildcard (pattern value : String) : Bool :=
  if hasPrefix pattern "*" then
    hasSuffix value (String.ofList (pattern.toList.drop 1))
  else if hasSuffix pattern "*" then
    hasPrefix value (String.ofList pattern.toList.dropLast)
  else if '*' ∈ pattern.toList then
    hasPrefix value (splitStar pattern).1 && hasSuffix value (splitStar pattern).2
  else false

/-- `rbac.go:91-111` `matches`. -/
def matchesAny : List String → String → Bool
  | [], _ => false
  | r :: rs, v =>
    if r == "*" then true
    else if r == v then true
    else if '*' ∈ r.toList ∧ matchesWildcard r v = true then true
    else matchesAny rs v

/-- `rbac.go:40-45` `collectionVerbs`. -/
def collectionVerbs : List String := ["list", "watch", "create", "deletecollection"]

/-- `rbac.go:50-83` `ruleMatches`. -/
def ruleMatches (r : PolicyRule) (verb apiGroup resource name : String) : Bool :=
  if !matchesAny r.verbs verb then false
  else if !matchesAny r.apiGroups apiGroup then false
  else if !matchesAny r.resources resource then false
  else if collectionVerbs.contains verb then true
  else if r.resourceNames.length > 0 ∧ name ≠ "" ∧ !matchesAny r.resourceNames name then false
  else true

/-- `json.Unmarshal` into an element of a `[]string` (`rbac.go:23`): library code; null leaves the zero value. -/
def readElem : Json → Option String
  | .str s => some s
  | .null => some ""
  | _ => none

/-- `json.Unmarshal` into a `[]string` field (`rbac.go:23`, `authenticator.go:50`): library code; null leaves the zero value. -/
def readStrings : Option Json → Option (List String)
  | none => some []
  | some .null => some []
  | some (.list l) => l.mapM readElem
  | some _ => none

/-- `json.Unmarshal` into a `PolicyRule` (`rbac.go:23`): library code. Keys are compared exactly (Go also accepts other cases). -/
def readRule : Json → Option PolicyRule
  | .null => some ⟨[], [], [], []⟩
  | .map m => do
    let v ← readStrings (SMap.get m "verbs")
    let g ← readStrings (SMap.get m "apiGroups")
    let r ← readStrings (SMap.get m "resources")
    let n ← readStrings (SMap.get m "resourceNames")
    some ⟨v, g, r, n⟩
  | _ => none

/-- `json.Unmarshal` into a `[]PolicyRule` (`rbac.go:22-23`, `authenticator.go:50`). -/
def readRules : Option Json → Option (List PolicyRule)
  | none => some []
  | some .null => some []
  | some (.list l) => l.mapM readRule
  | some _ => none

/-- `user.Info` with the two `Extra` entries the code uses (`authenticator.go:62-79`). An entry of "rules" is a JSON text, given by the value it denotes,
`none` if it is no JSON text. -/
structure UserInfo where
  name : String
  namespaces : List String
  rules : List (Option Json)
deriving DecidableEq

/-- `rbac.go:13-36` `CheckRBACAccess`. -/
def checkRBAC (u : UserInfo) (verb apiGroup resource name : String) : Bool :=
  match u.rules with
  | [] => true
  | none :: _ => false
  | some j :: _ =>
    match readRules (some j) with
    | none => false
    | some rs => rs.any (fun r => ruleMatches r verb apiGroup resource name)

/-- `authorizer.Attributes` (`authorizer.go:23-41`), as far as the code looks at them; the subresource is not among them. -/
structure Attrs where
  user : Option UserInfo
  isResource : Bool
  verb : String
  apiGroup : String
  resource : String
  name : String
  ns : String

/-- `authorizer.go:23-91` `Authorize`: true for `DecisionAllow`, false for `DecisionDeny`; the reason is left out, the error is always nil. -/
def authorize (a : Attrs) : Bool :=
  match a.user with
  | none => false
  | some u =>
    if !a.isResource then true
    else
      let denied :=
        if u.namespaces.length > 0 then
          let wild := u.namespaces.any (· == "*")
          if a.ns == "" then !wild
          else if !wild then !(u.namespaces.any (· == a.ns))
          else false
        else false
      if denied then false
      else if !checkRBAC u a.verb a.apiGroup a.resource a.name then false
      else true

end Dctl
