import Verif.Auth.Command
/-!
# Key files (`pkg/auth/token.go:48-193`, `main.go:107-163`, `main.go:734-771`)

Files are given by what `pem.Decode` finds in them. DER encodings, certificates, keys and network addresses are arbitrary types; what theorems ask of the
libraries that work on them is stated there.
-/
set_option autoImplicit false
namespace Dctl

/-- `pem.Block`, as far as `token.go:91-104` fills it in and `token.go:115-120`, `main.go:759-760` look at it. -/
structure PemBlock (Der : Type) where
  type : String
  der : Der
deriving DecidableEq, Repr

/-- A file with its permission bits and the blocks in it (`token.go:145`, `token.go:157-161`): text between the blocks is left out. -/
structure KeyFile (Der : Type) where
  mode : Nat
  blocks : List (PemBlock Der)
deriving DecidableEq, Repr

/-- The files that exist and can be read (`token.go:157`, `token.go:171`, `main.go:738-746`). -/
abbrev Files (Der : Type) := AMap String (KeyFile Der)

/-- A private key, as `tls.X509KeyPair` reads it (`main.go:751`): RSA or of another kind. -/
inductive PrivKey (Key Other : Type) where
  | rsa (k : Key)
  | other (o : Other)
deriving DecidableEq

/-- The public key of a certificate (`token.go:136`, `token.go:187`): RSA or of another kind. -/
inductive CertKey (Pub OtherPub : Type) where
  | rsa (p : Pub)
  | other (q : OtherPub)
deriving DecidableEq

/-- `x509.Certificate` as `token.go:65-89` fills it in; the serial number and the usages are constants, the two calls of `time.Now` are taken to give the
same time. -/
structure CertTemplate (Ip : Type) where
  commonName : String
  notBefore : Int
  notAfter : Int
  ips : List Ip
  dns : List String
deriving DecidableEq, Repr

/-- The libraries `crypto/x509`, `crypto/rsa` and `net` as used in `token.go:57-193` and `main.go:751-760`. -/
structure X509 (Der Cert Key Pub Other OtherPub Ip : Type) where
  parseCert : Der → Option Cert
  certKey : Cert → CertKey Pub OtherPub
  parsePKCS1 : Der → Option Key
  marshalPKCS1 : Key → Der
  parseOther : Der → Option (PrivKey Key Other)
  pub : Key → Pub
  otherPub : Other → OtherPub
  create : CertTemplate Ip → Key → Option Der
  parseIP : String → Option Ip

section
variable {Der Cert Key Pub Other OtherPub Ip : Type}

/-- `token.go:83-89`: host names that are addresses go to the addresses, the others to the names. -/
def addSans (parseIP : String → Option Ip) : List String → CertTemplate Ip → CertTemplate Ip
  | [], t => t
  | h :: hs, t =>
    match parseIP h with
    | some ip => addSans parseIP hs { t with ips := t.ips ++ [ip] }
    | none => addSans parseIP hs { t with dns := t.dns ++ [h] }

/-- One year (`token.go:76`), in nanoseconds. -/
def certYear : Int := 365 * 24 * 3600 * 1000000000

/-- `token.go:57-111` `GenerateSelfSignedCertWithSANs` at time `now` with the key the random source gives (`none` if that fails): the blocks of the
certificate and of the key; `none` is the error. -/
def generateSelfSigned (x : X509 Der Cert Key Pub Other OtherPub Ip) (key : Option Key) (now : Int) (hostnames : List String) :
    Option (List (PemBlock Der) × List (PemBlock Der)) := do
  let k ← key
  let t := addSans x.parseIP hostnames ⟨hostnames.head?.getD "localhost", now, now + certYear, [], []⟩
  let c ← x.create t k
  some ([⟨"CERTIFICATE", c⟩], [⟨"RSA PRIVATE KEY", x.marshalPKCS1 k⟩])

/-- `os.WriteFile` (`token.go:145`, `token.go:148`): library code: the permissions are those of a file that exists, else those given as far as the file mode
mask of the process leaves them. `none` if the file cannot be written. -/
def writeFile (umask : Nat) (denied : String → Bool) (fs : Files Der) (path : String) (data : List (PemBlock Der)) (perm : Nat) : Option (Files Der) :=
  if denied path then none
  else some (fs.set path ⟨match fs.get path with | some f => f.mode | none => perm &&& (0o777 ^^^ umask), data⟩)

/-- `token.go:144-152` `WriteCertAndKey`: the files afterwards and whether there was no error. -/
def writeCertAndKey (umask : Nat) (denied : String → Bool) (fs : Files Der) (certFile keyFile : String) (certPEM keyPEM : List (PemBlock Der)) :
    Files Der × Bool :=
  match writeFile umask denied fs certFile certPEM 0o644 with
  | none => (fs, false)
  | some fs1 =>
    match writeFile umask denied fs1 keyFile keyPEM 0o600 with
    | none => (fs1, false)
    | some fs2 => (fs2, true)

/-- `main.go:144-162` `runGenerateKeys` with the arguments in the order in which line 152 gives them. -/
def runGenerateKeys (x : X509 Der Cert Key Pub Other OtherPub Ip) (key : Option Key) (now : Int) (umask : Nat) (denied : String → Bool) (fs : Files Der)
    (hostnames : List String) (keyFile certFile : String) : Files Der × Bool :=
  match generateSelfSigned x key now hostnames with
  | none => (fs, false)
  | some (cert, key) => writeCertAndKey umask denied fs keyFile certFile key cert

/-- `token.go:114-120` `ParsePrivateKey`. -/
def parsePrivateKeyPem (x : X509 Der Cert Key Pub Other OtherPub Ip) (pem : List (PemBlock Der)) : Option Key :=
  match pem with
  | [] => none
  | b :: _ => x.parsePKCS1 b.der

/-- `token.go:124-141` `ParsePublicKey`. -/
def parsePublicKeyPem (x : X509 Der Cert Key Pub Other OtherPub Ip) (pem : List (PemBlock Der)) : Option Pub :=
  match pem with
  | [] => none
  | b :: _ =>
    match x.parseCert b.der with
    | none => none
    | some c =>
      match x.certKey c with
      | .rsa p => some p
      | .other _ => none

/-- `token.go:156-166` `LoadPrivateKey`: the code of `ParsePrivateKey` on the content of a file. -/
def loadPrivateKey (x : X509 Der Cert Key Pub Other OtherPub Ip) (fs : Files Der) (keyFile : String) : Option Key :=
  match fs.get keyFile with
  | none => none
  | some f => parsePrivateKeyPem x f.blocks

/-- `token.go:170-193` `LoadPublicKey`: the code of `ParsePublicKey` on the content of a file. -/
def loadPublicKey (x : X509 Der Cert Key Pub Other OtherPub Ip) (fs : Files Der) (certFile : String) : Option Pub :=
  match fs.get certFile with
  | none => none
  | some f => parsePublicKeyPem x f.blocks

/-- `parsePrivateKey` of `crypto/tls` (`main.go:751`): library code. -/
def tlsPrivateKey (x : X509 Der Cert Key Pub Other OtherPub Ip) (d : Der) : Option (PrivKey Key Other) :=
  match x.parsePKCS1 d with
  | some k => some (.rsa k)
  | none => x.parseOther d

/-- `tls.X509KeyPair` (`main.go:751`): library code: blocks of other types are skipped, in both texts; the key has to be that of the first certificate. -/
def x509KeyPair [DecidableEq Pub] [DecidableEq OtherPub] (x : X509 Der Cert Key Pub Other OtherPub Ip) (certPEM keyPEM : List (PemBlock Der)) : Bool :=
  match certPEM.find? (fun b => b.type == "CERTIFICATE") with
  | none => false
  | some leaf =>
    match keyPEM.find? (fun b => b.type == "PRIVATE KEY" || hasSuffix b.type " PRIVATE KEY") with
    | none => false
    | some kb =>
      match x.parseCert leaf.der, tlsPrivateKey x kb.der with
      | some c, some k =>
        match x.certKey c, k with
        | .rsa p, .rsa k => decide (p = x.pub k)
        | .other q, .other o => decide (q = x.otherPub o)
        | _, _ => false
      | _, _ => false

/-- The outcomes of `checkCert` (`main.go:736`). -/
inductive CheckResult where
  | ok
  | error
  | panics
deriving DecidableEq, Repr

/-- `main.go:736-771` `checkCert`: lines 759-760 take the first block of the file and ignore errors, line 762 dereferences the result. -/
def checkCert [DecidableEq Pub] [DecidableEq OtherPub] (x : X509 Der Cert Key Pub Other OtherPub Ip) (fs : Files Der) (certFile keyFile : String) :
    CheckResult :=
  match fs.get certFile with
  | none => .error
  | some c =>
    match fs.get keyFile with
    | none => .error
    | some k =>
      if x509KeyPair x c.blocks k.blocks then
        match c.blocks with
        | [] => .panics
        | b :: _ =>
          match x.parseCert b.der with
          | none => .panics
          | some _ => .ok
      else .error

end
end Dctl
