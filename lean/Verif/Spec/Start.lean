import Verif.Apiserver.Start
/-!
# What starting the API server and its keys are supposed to do: specifications (C115, C116, C117)
-/
set_option autoImplicit false
namespace Dctl

section
variable {Der Cert Key Pub Other OtherPub Ip Sig : Type}

/-- What is asked of the libraries for one RSA key: it survives writing and reading, certificates made for it can be read and carry its public key, and are
no private keys; and both libraries agree on its public key. -/
structure X509.SoundFor (x : X509 Der Cert Key Pub Other OtherPub Ip) (j : Jwt Key Pub Sig) (k : Key) : Prop where
  pub : x.pub k = j.pub k
  pkcs1 : x.parsePKCS1 (x.marshalPKCS1 k) = some k
  created : ∀ t c, x.create t k = some c → ∃ cert, x.parseCert c = some cert ∧ x.certKey cert = .rsa (x.pub k)
  noKey : ∀ t c, x.create t k = some c → x.parsePKCS1 c = none

/-- Someone other than the owner of a file may read it. -/
def OthersRead (mode : Nat) : Prop := mode &&& 0o044 ≠ 0

instance (mode : Nat) : Decidable (OthersRead mode) := by unfold OthersRead; infer_instance

/-- The flags of `start` that say that there is no access control. -/
def StartFlags.Open (f : StartFlags) : Prop := f.httpMode = true ∨ f.disableAuthentication = true

/-- The first block of a file with certificates is labelled as a certificate. -/
def CertFirst (fs : Files Der) (certFile : String) : Prop :=
  ∃ f b bs, fs.get certFile = some f ∧ f.blocks = b :: bs ∧ b.type = "CERTIFICATE"

/-- The private key that a TLS server uses from a key file: that of the first block labelled as a private key, in any format. -/
def TlsKey (x : X509 Der Cert Key Pub Other OtherPub Ip) (fs : Files Der) (keyFile : String) (k : PrivKey Key Other) : Prop :=
  ∃ f b pre post, fs.get keyFile = some f ∧ f.blocks = pre ++ b :: post ∧ (b.type = "PRIVATE KEY" ∨ ∃ p, b.type = p ++ " PRIVATE KEY") ∧
    (∀ b' ∈ pre, b'.type ≠ "PRIVATE KEY" ∧ ∀ p, b'.type ≠ p ++ " PRIVATE KEY") ∧
    (x.parsePKCS1 b.der).elim (x.parseOther b.der = some k) (fun k' => k = .rsa k')

end

/-- A history of an API server in which every call of `Start` sets the flag before anything else happens. -/
inductive WholeCall where
  | start
  | cancel (i : Nat)
deriving DecidableEq, Repr

/-- The steps of such a history: `n` calls have been made before. -/
def wholeCalls : Nat → List WholeCall → List LifeEvent
  | _, [] => []
  | n, .start :: t => .call :: .serve n :: wholeCalls (n + 1) t
  | n, .cancel i :: t => .cancel i :: wholeCalls n t

/-- The state after a history. -/
def ApiLife.run (s : ApiLife) (es : List LifeEvent) : ApiLife := es.foldl ApiLife.step s

/-- How many calls of `Start` are serving. -/
def ApiLife.instances (s : ApiLife) : Nat := (s.calls.filter (· == .serving)).length

end Dctl
