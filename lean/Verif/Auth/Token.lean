import Verif.Auth.Rbac
/-!
# Tokens (`pkg/auth/token.go`, `pkg/auth/authenticator.go`)

Times are in nanoseconds.
-/
set_option autoImplicit false
namespace Dctl

/-- A JSON web token: its algorithm, its claims (the JSON value of the second part) and its signature (`authenticator.go:46-50`). -/
structure RawToken (Sig : Type) where
  alg : String
  claims : Json
  sig : Sig

/-- The library `golang-jwt` and the RSA signature scheme (`token.go:44-45`, `authenticator.go:50-55`): how a token is written as a string and read
back, how it is signed and verified. Any functions will do; what theorems ask of them is stated there. -/
structure Jwt (Key Pub Sig : Type) where
  pub : Key → Pub
  sign : Key → String → Json → Sig
  verify : Pub → String → Json → Sig → Bool
  encode : RawToken Sig → String
  decode : String → Option (RawToken Sig)

/-- `authenticator.go:22-27` `Claims`: the registered claims the code sets, with the validity times in whole seconds. The issuer and the issue time are
written but never checked. -/
structure Claims where
  username : String
  namespaces : List String
  rules : List PolicyRule
  exp : Option Int
  nbf : Option Int
deriving DecidableEq, Repr

/-- The JSON list of strings. -/
def strsJson (l : List String) : Json := .list (l.map .str)

/-- `omitempty` (`authenticator.go:24-25`): an empty list is left out. -/
def omitEmpty (k : String) (l : List Json) : SMap Json := if l = [] then [] else [(k, .list l)]

/-- `json.Marshal` of a `PolicyRule` (`authenticator.go:69`, `token.go:44`): library code; verbs are always written (null if there are none), the other
fields unless empty. -/
def ruleJson (r : PolicyRule) : Json :=
  .map (omitEmpty "apiGroups" (r.apiGroups.map .str) ++ omitEmpty "resourceNames" (r.resourceNames.map .str) ++
    omitEmpty "resources" (r.resources.map .str) ++ [("verbs", if r.verbs = [] then .null else strsJson r.verbs)])

/-- `json.Marshal` of `Claims` as `GenerateToken` fills them in (`token.go:32-44`), in key order. -/
def claimsJson (c : Claims) (iat : Int) : Json :=
  .map ((match c.exp with | some t => [("exp", .int t)] | none => []) ++ [("iat", .int iat), ("iss", .str "dcontroller")] ++
    omitEmpty "namespaces" (c.namespaces.map .str) ++ (match c.nbf with | some t => [("nbf", .int t)] | none => []) ++
    omitEmpty "rules" (c.rules.map ruleJson) ++ [("username", .str c.username)])

/-- A date claim (`authenticator.go:50`): library code; a whole number of seconds, rounded down if a fraction is given. -/
def readDate : Option Json → Option (Option Int)
  | none => some none
  | some .null => some none
  | some (.int i) => some (some i)
  | some (.float f) => some (some f.floor)
  | some _ => none

/-- A string field (`authenticator.go:50`). -/
def readString : Option Json → Option String
  | none => some ""
  | some .null => some ""
  | some (.str s) => some s
  | some _ => none

/-- `json.Unmarshal` into `Claims` (`authenticator.go:49-50`): library code. Keys are compared exactly (Go also accepts other cases); issuer, issue time
and the other registered claims are left out. -/
def readClaims : Json → Option Claims
  | .null => some ⟨"", [], [], none, none⟩
  | .map m => do
    let u ← readString (SMap.get m "username")
    let n ← readStrings (SMap.get m "namespaces")
    let r ← readRules (SMap.get m "rules")
    let e ← readDate (SMap.get m "exp")
    let b ← readDate (SMap.get m "nbf")
    some ⟨u, n, r, e, b⟩
  | _ => none

variable {Key Pub Sig : Type}

/-- One second. -/
def second : Int := 1000000000

/-- `token.go:30-46` `GenerateToken` at time `now`: dates are rounded down to seconds (`jwt.NewNumericDate`). Failure of the signature is left out. -/
def generateToken (j : Jwt Key Pub Sig) (k : Key) (now : Int) (username : String) (namespaces : List String) (rules : List PolicyRule) (expiry : Int) :
    String :=
  let claims := claimsJson ⟨username, namespaces, rules, some ((now + expiry) / second), some (now / second)⟩ (now / second)
  j.encode ⟨"RS256", claims, j.sign k "RS256" claims⟩

/-- `*jwt.SigningMethodRSA` (`authenticator.go:51`): the names of the methods of that type. -/
def rsaMethods : List String := ["RS256", "RS384", "RS512"]

/-- `jwt.ParseWithClaims` (`authenticator.go:50-55`): library code: the token is read, the key function accepts RSA methods only, the signature is
verified, and the claims are valid at the time given. -/
def parseToken (j : Jwt Key Pub Sig) (p : Pub) (now : Int) (s : String) : Option Claims := do
  let t ← j.decode s
  let c ← readClaims t.claims
  if !rsaMethods.contains t.alg then none
  else if !j.verify p t.alg t.claims t.sig then none
  else if !(match c.exp with | some e => decide (now < e * second) | none => true) then none
  else if !(match c.nbf with | some b => decide (b * second ≤ now) | none => true) then none
  else some c

/-- The outcomes of `AuthenticateRequest` (`authenticator.go:35`): no identity, an error, or a user. -/
inductive AuthnResult where
  | none
  | error
  | user (u : UserInfo)
deriving DecidableEq

/-- `authenticator.go:62-79`: the user made from the claims. -/
def userOf (c : Claims) : UserInfo where
  name := c.username
  namespaces := if c.namespaces.length > 0 then c.namespaces else []
  rules := if c.rules.length > 0 then [some (.list (c.rules.map ruleJson))] else []

/-- `authenticator.go:35-84` `AuthenticateRequest` on the value of the `Authorization` header. -/
def authenticate (j : Jwt Key Pub Sig) (p : Pub) (now : Int) (header : String) : AuthnResult :=
  if header == "" then .none
  else if !hasPrefix header "Bearer " then .error
  else
    match parseToken j p now (String.ofList (header.toList.drop 7)) with
    | none => .error
    | some c => .user (userOf c)

/-- The handler chain `apiserver/builder.go:144-163` with authentication and authorization configured: `WithAuthentication` answers 401 unless there is
a user, `WithAuthorization` answers 403 unless the request is allowed (library code); true if the request gets through. -/
def admitted (j : Jwt Key Pub Sig) (p : Pub) (now : Int) (header : String) (a : Attrs) : Bool :=
  match authenticate j p now header with
  | .user u => authorize { a with user := some u }
  | _ => false

end Dctl
