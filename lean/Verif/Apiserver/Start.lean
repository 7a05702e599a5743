import Verif.Auth.Keys
/-!
# Starting the API server (`main.go:169-314`, `pkg/apiserver/config.go:61-97`, `pkg/apiserver/builder.go:99-180`, `pkg/apiserver/apiserver.go:133-179`)
-/
set_option autoImplicit false
namespace Dctl

/-- `main.go:169-175` `apiServerConfig` with the defaults of lines 206-216. The configuration file, which nothing reads, leader election and the addresses of
metrics and health probes are left out. -/
structure StartFlags where
  addr : String := "localhost"
  port : Nat := 8443
  httpMode : Bool := false
  insecure : Bool := false
  disableAPIServer : Bool := false
  disableAuthentication : Bool := false
  certFile : String := "apiserver.crt"
  keyFile : String := "apiserver.key"
deriving DecidableEq, Repr

/-- `net.TCPAddr` (`config.go:29`). -/
structure TcpAddr where
  ip : String
  port : Nat
deriving DecidableEq, Repr

/-- `config.go:25-56` `Config`; the authenticator is given by its public key, of the authorizer only whether there is one. The client, the logger and the
configuration of the library are left out, of the loopback client the address and whether it verifies certificates are kept. -/
structure ServerConfig (Pub : Type) where
  addr : TcpAddr
  httpMode : Bool
  insecure : Bool
  loopbackScheme : String
  loopbackAddr : TcpAddr
  loopbackSkipVerify : Bool
  authenticator : Option Pub := none
  authorizer : Bool := false
  certFile : String := ""
  keyFile : String := ""
deriving DecidableEq, Repr

section
variable {Der Cert Key Pub Other OtherPub Ip Sig : Type}

/-- `config.go:61-97` `NewDefaultConfig`; `resolve` is `net.ResolveTCPAddr` on the host (library code), `none` is the error. -/
def newDefaultConfig (resolve : String → Option String) (addr : String) (port : Nat) (httpMode insecure : Bool) : Option (ServerConfig Pub) :=
  let addr := if addr = "" then "localhost" else addr
  match resolve addr with
  | none => none
  | some ip => some {
      addr := ⟨ip, port⟩, httpMode := httpMode, insecure := insecure, loopbackScheme := if httpMode then "http" else "https",
      loopbackAddr := ⟨ip, port⟩, loopbackSkipVerify := if httpMode then false else insecure }

/-- `main.go:57` `APIServerPort`. -/
def apiServerPort : Nat := 8443

/-- What becomes of `dctl start` (`main.go:226`): the process exits, the command returns an error, it panics, or it runs, with the API server or without. -/
inductive StartResult (Pub : Type) where
  | exits
  | error
  | panics
  | runs (server : Option (ServerConfig Pub))
deriving DecidableEq

/-- `main.go:226-314` `runStartServer`, with the cluster reachable and the listeners free: lines 233-257 and 289-293 do not fail. -/
def runStart [DecidableEq Pub] [DecidableEq OtherPub] (x : X509 Der Cert Key Pub Other OtherPub Ip) (fs : Files Der) (resolve : String → Option String)
    (f : StartFlags) : StartResult Pub :=
  if f.disableAPIServer then .runs none
  else
    match (newDefaultConfig resolve "0.0.0.0" apiServerPort f.httpMode f.insecure : Option (ServerConfig Pub)) with
    | none => .exits
    | some cfg =>
      if f.httpMode || f.disableAuthentication then .runs (some cfg)
      else
        match checkCert x fs f.certFile f.keyFile with
        | .panics => .panics
        | .error => .error
        | .ok =>
          match loadPublicKey x fs f.certFile with
          | none => .error
          | some p => .runs (some { cfg with authenticator := some p, authorizer := true, certFile := f.certFile, keyFile := f.keyFile })

/-- A socket the API server listens on: its address, and the certificate and key file if it uses TLS. -/
structure Listener where
  addr : TcpAddr
  tls : Option (String × String)
deriving DecidableEq, Repr

/-- `builder.go:103-125` and `builder.go:183-193`: the sockets, with the random number of line 110. -/
def listeners (rnd : Nat) (c : ServerConfig Pub) : List Listener :=
  if c.httpMode then [⟨⟨"127.0.0.1", rnd + 16383⟩, some (c.certFile, c.keyFile)⟩, ⟨c.addr, none⟩]
  else [⟨c.addr, some (c.certFile, c.keyFile)⟩]

/-- `builder.go:127-180`: whether a request gets through the handler chain, which is the same for all sockets (`apiserver.go:165`); an authenticator or an
authorizer that is not configured is left out of the chain. -/
def getsThrough (j : Jwt Key Pub Sig) (c : ServerConfig Pub) (now : Int) (header : String) (a : Attrs) : Bool :=
  match c.authenticator with
  | some p =>
    match authenticate j p now header with
    | .user u => if c.authorizer then authorize { a with user := some u } else true
    | _ => false
  | none => if c.authorizer then authorize { a with user := none } else true

end

/-- How far a call of `Start` has come (`apiserver.go:133-179`): it has passed the check of line 138, it serves, it has been refused, it has returned. -/
inductive StartCall where
  | checked
  | serving
  | refused
  | returned
deriving DecidableEq, Repr

/-- `apiserver.go:44-79` `APIServer`, as far as its life cycle is concerned: the flag `running`, whether the sockets are open, and the calls of `Start`. -/
structure ApiLife where
  running : Bool := false
  sockets : Bool := true
  calls : List StartCall := []
deriving DecidableEq, Repr

/-- What can happen to an API server: a new call of `Start` looks at the flag (`apiserver.go:134-140`), a call sets the flag and serves
(`apiserver.go:150-153`), the context of a call is cancelled: the sockets are closed by the libraries (`apiserver.go:172-174`, `apiserver.go:178-179`) and the flag
is cleared (`apiserver.go:154-158`). -/
inductive LifeEvent where
  | call
  | serve (i : Nat)
  | cancel (i : Nat)
deriving DecidableEq, Repr

/-- One step (`apiserver.go:133-179`). -/
def ApiLife.step (s : ApiLife) : LifeEvent → ApiLife
  | .call => { s with calls := s.calls ++ [if s.running then .refused else .checked] }
  | .serve i => if s.calls[i]? = some .checked then { s with running := true, calls := s.calls.set i .serving } else s
  | .cancel i => if s.calls[i]? = some .serving then { running := false, sockets := false, calls := s.calls.set i .returned } else s

/-- The server answers requests (`apiserver.go:165-169`, `apiserver.go:178-179`). -/
def ApiLife.answers (s : ApiLife) : Bool := s.sockets && s.calls.any (· == .serving)

end Dctl
