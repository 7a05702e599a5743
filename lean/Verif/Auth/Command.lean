import Verif.Auth.Token
import Verif.Json.Basic
import Verif.Util.Assoc
/-!
# Making and reading kubeconfigs (`main.go` `generate-config`, `pkg/auth/kubeconfig.go`)
-/
set_option autoImplicit false
namespace Dctl

/-- `strings.Split(s, ",")` (`main.go:725`). -/
def splitCommas : List Char → List (List Char)
  | [] => [[]]
  | c :: cs =>
    if c = ',' then [] :: splitCommas cs
    else
      match splitCommas cs with
      | [] => [[c]]
      | x :: xs => (c :: x) :: xs

/-- `unicode.IsSpace` (used by `strings.TrimSpace`, `main.go:726`): library code. -/
def isUniSpace (c : Char) : Bool :=
  let n := c.toNat
  (9 ≤ n && n ≤ 13) || n == 32 || n == 0x85 || n == 0xa0 || n == 0x1680 || (0x2000 ≤ n && n ≤ 0x200a) || n == 0x2028 || n == 0x2029 || n == 0x202f ||
    n == 0x205f || n == 0x3000

/-- `strings.TrimSpace` (`main.go:726`): library code. -/
def trimSpace (l : List Char) : List Char := ((l.dropWhile isUniSpace).reverse.dropWhile isUniSpace).reverse

/-- `main.go:720-732` `parseCommaSeparated`; nil and the empty list are not told apart. -/
def parseCommaSeparated (s : String) : List String :=
  if s = "" then []
  else (((splitCommas s.toList).map trimSpace).filter (fun t => !t.isEmpty)).map String.ofList

/-- `main.go:323-335` `generateConfigConfig`: the flags. The two flags for rules are given by what they denote: nothing if the flag is empty; a JSON text
by its value, `none` if it is no JSON text; a file by its content, `none` if it cannot be read. The output and the key file are left out: the key is given to the
command, and what is printed besides the kubeconfig is not modelled. -/
structure GenFlags where
  username : String
  namespaces : String
  rules : Option (Option Json)
  rulesFile : Option (Option (Option Json))
  resourceNames : String
  expiry : Int
  serverAddress : String
  defaultNamespace : String
  insecure : Bool
  httpMode : Bool

/-- `clientcmdapi.Cluster`, as far as `kubeconfig.go:45-48` fills it in. -/
structure KubeCluster where
  server : String
  insecure : Bool
deriving DecidableEq, Repr

/-- `clientcmdapi.Context`, as far as `kubeconfig.go:56-60` fills it in. -/
structure KubeContext where
  cluster : String
  authInfo : String
  ns : String
deriving DecidableEq, Repr

/-- `clientcmdapi.Config`, as far as `kubeconfig.go:36-61` fills it in; of a user only the token. -/
structure Kubeconfig where
  clusters : AMap String KubeCluster
  authInfos : AMap String String
  contexts : AMap String KubeContext
  current : String
deriving DecidableEq, Repr

/-- `kubeconfig.go:31-64` `GenerateKubeconfig`; `server.String()` (line 46) is the scheme, "://" and the address, for addresses without characters that
need escaping. -/
def generateKubeconfig (addr username token clusterName contextName defaultNamespace : String) (insecure httpMode : Bool) : Kubeconfig where
  clusters := AMap.set [] clusterName ⟨(if httpMode then "http" else "https") ++ "://" ++ addr, insecure⟩
  authInfos := AMap.set [] username token
  contexts := AMap.set [] contextName ⟨clusterName, username, defaultNamespace⟩
  current := contextName

/-- `kubeconfig.go:68-93` `ExtractTokenFromKubeconfig` on a file that could be read; `none` is the error. Writing a kubeconfig to a file and reading it back
is library code and taken to give the same configuration. -/
def extractToken (k : Kubeconfig) : Option String :=
  if k.current = "" then none
  else
    match k.contexts.get k.current with
    | none => none
    | some c =>
      match k.authInfos.get c.authInfo with
      | none => none
      | some t => if t = "" then none else some t

/-- `main.go:408-423`: the rules given by the flags; `none` is the error. -/
def flagRules (f : GenFlags) : Option (List PolicyRule) :=
  match f.rulesFile with
  | some none => none
  | some (some none) => none
  | some (some (some j)) => readRules (some j)
  | none =>
    match f.rules with
    | some none => none
    | some (some j) => readRules (some j)
    | none => some []

/-- `main.go:428-431`: the names of the last rule are replaced. -/
def replaceLastNames (names : List String) : List PolicyRule → List PolicyRule
  | [] => []
  | [r] => [{ r with resourceNames := names }]
  | r :: r' :: rs => r :: replaceLastNames names (r' :: rs)

variable {Key Pub Sig : Type}

/-- `main.go:400-507` `runGenerateConfig` at time `now`, with the private key read from the key file (`none` if that fails, lines 443-447). The warnings of
lines 433-440 are left out. -/
def runGenerateConfig (j : Jwt Key Pub Sig) (key : Option Key) (now : Int) (f : GenFlags) : Option Kubeconfig := do
  let nss := if f.namespaces ≠ "" then parseCommaSeparated f.namespaces else []
  let rs ← flagRules f
  let rs' := if f.resourceNames ≠ "" ∧ rs.length > 0 then replaceLastNames (parseCommaSeparated f.resourceNames) rs else rs
  let k ← key
  let token := generateToken j k now f.username nss rs' f.expiry
  some (generateKubeconfig f.serverAddress f.username token "dcontroller" "dcontroller" f.defaultNamespace f.insecure f.httpMode)

/-- The methods whose signatures can be verified with an RSA key (`main.go:565-567`, where the method is not looked at): library code. -/
def rsaKeyMethods : List String := rsaMethods ++ ["PS256", "PS384", "PS512"]

/-- What `get-config` makes of a kubeconfig. -/
inductive GetConfigResult where
  | error
  | panics
  | shows (c : Claims)
deriving DecidableEq

/-- `main.go:541-612` `runGetConfig` at time `now` on a kubeconfig that could be read, with the public key read from the certificate: the claims
shown as those of a valid token. A date claim that is missing is dereferenced (lines 595-597). The check of lines 600-603 repeats one of the library. -/
def runGetConfig (j : Jwt Key Pub Sig) (p : Pub) (now : Int) (k : Kubeconfig) : GetConfigResult :=
  match extractToken k with
  | none => .error
  | some s =>
    match j.decode s with
    | none => .error
    | some t =>
      match readClaims t.claims, readDate (t.claims.field "iat") with
      | some c, some iat =>
        if !rsaKeyMethods.contains t.alg then .error
        else if !j.verify p t.alg t.claims t.sig then .error
        else if !(match c.exp with | some e => decide (now < e * second) | none => true) then .error
        else if !(match c.nbf with | some b => decide (b * second ≤ now) | none => true) then .error
        else if iat = none ∨ c.exp = none ∨ c.nbf = none then .panics
        else .shows c
      | _, _ => .error

end Dctl
