import Verif.Spec.Start
import Verif.Props.Command
/-!
# Keys, the flags of `start`, and the life of the API server (C115, C116, C117)
-/
set_option autoImplicit false
set_option linter.unusedSectionVars false
namespace Dctl

section
variable {Der Cert Key Pub Other OtherPub Ip Sig : Type} [DecidableEq Pub] [DecidableEq OtherPub]

theorem addSans_eq (p : String → Option Ip) (hs : List String) (t : CertTemplate Ip) :
    addSans p hs t = { t with ips := t.ips ++ hs.filterMap p, dns := t.dns ++ hs.filter (fun h => (p h).isNone) } := by
  induction hs generalizing t with
  | nil => simp [addSans]
  | cons h hs ih =>
    unfold addSans
    cases hp : p h with
    | none => simp [ih, hp]
    | some ip => simp [ih, hp]

/-- The files after keys have been generated. -/
theorem generated_files (x : X509 Der Cert Key Pub Other OtherPub Ip) (k : Key) (now : Int) (umask : Nat) (denied : String → Bool) (fs fs' : Files Der)
    (hosts : List String) (keyFile certFile : String) (h : runGenerateKeys x (some k) now umask denied fs hosts keyFile certFile = (fs', true)) :
    ∃ t c, x.create t k = some c ∧ t.ips = hosts.filterMap x.parseIP ∧ t.dns = hosts.filter (fun h => (x.parseIP h).isNone) ∧
      t.commonName = hosts.head?.getD "localhost" ∧ t.notBefore = now ∧ t.notAfter = now + certYear ∧
      fs' = (fs.set keyFile ⟨match fs.get keyFile with | some f => f.mode | none => 0o644 &&& (0o777 ^^^ umask), [⟨"RSA PRIVATE KEY", x.marshalPKCS1 k⟩]⟩).set
        certFile ⟨match (fs.set keyFile ⟨match fs.get keyFile with | some f => f.mode | none => 0o644 &&& (0o777 ^^^ umask),
            [⟨"RSA PRIVATE KEY", x.marshalPKCS1 k⟩]⟩).get certFile with | some f => f.mode | none => 0o600 &&& (0o777 ^^^ umask), [⟨"CERTIFICATE", c⟩]⟩ := by
  unfold runGenerateKeys generateSelfSigned at h
  simp only [Option.bind_eq_bind, Option.bind_some] at h
  cases hc : x.create (addSans x.parseIP hosts ⟨hosts.head?.getD "localhost", now, now + certYear, [], []⟩) k with
  | none => rw [hc] at h; simp at h
  | some c =>
    rw [hc] at h
    simp only [Option.bind_some, writeCertAndKey, writeFile] at h
    split at h
    · simp at h
    · rename_i fs1 h1
      split at h1
      · simp at h1
      · cases h1
        split at h
        · simp at h
        · rename_i fs2 h2
          split at h2
          · simp at h2
          · cases h2
            cases h
            rw [addSans_eq] at hc
            exact ⟨_, c, hc, by simp, by simp, rfl, rfl, rfl, rfl⟩

/-- **C115.** The pair of files written by `generate-keys` is what `generate-config` and `start` need: the one can load the private key, the other the public key
belonging to it, and its check of the pair succeeds. The certificate is for exactly the hosts given, valid for a year. -/
theorem C115_pair (x : X509 Der Cert Key Pub Other OtherPub Ip) (j : Jwt Key Pub Sig) (k : Key) (hx : x.SoundFor j k) (now : Int) (umask : Nat)
    (denied : String → Bool) (fs fs' : Files Der) (hosts : List String) (keyFile certFile : String) (hne : keyFile ≠ certFile)
    (h : runGenerateKeys x (some k) now umask denied fs hosts keyFile certFile = (fs', true)) :
    loadPrivateKey x fs' keyFile = some k ∧ loadPublicKey x fs' certFile = some (j.pub k) ∧ checkCert x fs' certFile keyFile = .ok ∧
    ∃ t c m, fs'.get certFile = some ⟨m, [⟨"CERTIFICATE", c⟩]⟩ ∧ x.create t k = some c ∧
      t.notAfter = t.notBefore + 365 * 24 * 3600 * 1000000000 ∧ t.notBefore = now ∧
      (∀ ip, ip ∈ t.ips ↔ ∃ h ∈ hosts, x.parseIP h = some ip) ∧ (∀ n, n ∈ t.dns ↔ n ∈ hosts ∧ x.parseIP n = none) := by
  obtain ⟨t, c, hc, h1, h2, h3, h4, h5, rfl⟩ := generated_files x k now umask denied fs fs' hosts keyFile certFile h
  obtain ⟨cert, hp, hk⟩ := hx.created t c hc
  have g1 : ∀ (m1 m2 : KeyFile Der), ((fs.set keyFile m1).set certFile m2).get keyFile = some m1 := by
    intro m1 m2
    rw [AMap.get_set, if_neg (fun e => hne e.symm), AMap.get_set, if_pos rfl]
  have g2 : ∀ (m1 m2 : KeyFile Der), ((fs.set keyFile m1).set certFile m2).get certFile = some m2 := by
    intro m1 m2
    rw [AMap.get_set, if_pos rfl]
  refine ⟨?_, ?_, ?_, t, c, _, g2 _ _, hc, ?_, h4, ?_, ?_⟩
  · simp only [loadPrivateKey, g1, parsePrivateKeyPem, hx.pkcs1]
  · simp only [loadPublicKey, g2, parsePublicKeyPem, hp, hk, hx.pub]
  · have hs : hasSuffix "RSA PRIVATE KEY" " PRIVATE KEY" = true := by decide
    simp [checkCert, g1, g2, x509KeyPair, hp, hk, tlsPrivateKey, hx.pkcs1, hs]
  · rw [h5, h4]; rfl
  · intro ip; rw [h1]; simp
  · intro n; rw [h2]; simp

/-- **C115, the permissions.** Of a file that is new, the key file gets the permissions meant for the certificate: everyone may read the private key unless the
mask of the process forbids it. Files that exist keep their permissions. -/
theorem C115_permissions (x : X509 Der Cert Key Pub Other OtherPub Ip) (k : Key) (now : Int) (umask : Nat)
    (denied : String → Bool) (fs fs' : Files Der) (hosts : List String) (keyFile certFile : String) (hne : keyFile ≠ certFile)
    (h : runGenerateKeys x (some k) now umask denied fs hosts keyFile certFile = (fs', true)) :
    ∃ f, fs'.get keyFile = some f ∧ f.blocks = [⟨"RSA PRIVATE KEY", x.marshalPKCS1 k⟩] ∧
      (fs.get keyFile = none → f.mode = 0o644 &&& (0o777 ^^^ umask)) ∧ (∀ old, fs.get keyFile = some old → f.mode = old.mode) := by
  obtain ⟨t, c, -, -, -, -, -, -, rfl⟩ := generated_files x k now umask denied fs fs' hosts keyFile certFile h
  refine ⟨_, by rw [AMap.get_set, if_neg (fun e => hne e.symm), AMap.get_set, if_pos rfl], rfl, ?_, ?_⟩
  · intro h0; simp [h0]
  · intro old h0; simp [h0]

/-- **C115, negation.** With the usual mask, a new private key can be read by everyone, and the certificate, which is public, by its owner only. -/
theorem C115_key_readable (x : X509 Der Cert Key Pub Other OtherPub Ip) (k : Key) (now : Int)
    (denied : String → Bool) (fs fs' : Files Der) (hosts : List String) (keyFile certFile : String) (hne : keyFile ≠ certFile)
    (hnew : fs.get keyFile = none) (hnew' : fs.get certFile = none)
    (h : runGenerateKeys x (some k) now 0o022 denied fs hosts keyFile certFile = (fs', true)) :
    (∃ f, fs'.get keyFile = some f ∧ OthersRead f.mode) ∧ (∃ f, fs'.get certFile = some f ∧ ¬ OthersRead f.mode) := by
  obtain ⟨t, c, -, -, -, -, -, -, rfl⟩ := generated_files x k now _ denied fs fs' hosts keyFile certFile h
  refine ⟨⟨_, by rw [AMap.get_set, if_neg (fun e => hne e.symm), AMap.get_set, if_pos rfl], ?_⟩, ⟨_, by rw [AMap.get_set, if_pos rfl], ?_⟩⟩
  · simp only [hnew]; decide
  · rw [AMap.get_set, if_neg hne]
    simp only [hnew']; decide

/-- **C115, partial.** The private key is kept from others if the key file was there before and was kept from them, or if the mask forbids it. Missing: new files
with the usual mask (`C115_key_readable`). -/
theorem C115_key_private_partial (x : X509 Der Cert Key Pub Other OtherPub Ip) (k : Key) (now : Int) (umask : Nat)
    (denied : String → Bool) (fs fs' : Files Der) (hosts : List String) (keyFile certFile : String) (hne : keyFile ≠ certFile)
    (hp : (∃ old, fs.get keyFile = some old ∧ ¬ OthersRead old.mode) ∨ (fs.get keyFile = none ∧ ∃ u, umask = u ||| 0o077 ∧ umask < 0o1000))
    (h : runGenerateKeys x (some k) now umask denied fs hosts keyFile certFile = (fs', true)) :
    ∃ f, fs'.get keyFile = some f ∧ ¬ OthersRead f.mode := by
  obtain ⟨f, hf, -, hn, ho⟩ := C115_permissions x k now umask denied fs fs' hosts keyFile certFile hne h
  refine ⟨f, hf, ?_⟩
  rcases hp with ⟨old, h0, h1⟩ | ⟨h0, u, hu, hlt⟩
  · rw [ho old h0]; exact h1
  · rw [hn h0]
    unfold OthersRead
    simp only [ne_eq, Decidable.not_not]
    have key : ∀ m < 512, m &&& 0o077 = 0o077 → (0o644 &&& (0o777 ^^^ m)) &&& 0o044 = 0 := by decide +kernel
    apply key umask hlt
    rw [hu, Nat.and_or_distrib_right]
    apply Nat.eq_of_testBit_eq
    intro i
    simp only [Nat.testBit_or, Nat.testBit_and]
    cases u.testBit i <;> cases (0o077 : Nat).testBit i <;> rfl

/-- **C115.** If both files are the same one, the private key is lost: the file holds the certificate, and `generate-config` cannot load a key from it. -/
theorem C115_same_file (x : X509 Der Cert Key Pub Other OtherPub Ip) (j : Jwt Key Pub Sig) (k : Key) (hx : x.SoundFor j k) (now : Int) (umask : Nat)
    (denied : String → Bool) (fs fs' : Files Der) (hosts : List String) (file : String)
    (h : runGenerateKeys x (some k) now umask denied fs hosts file file = (fs', true)) :
    loadPrivateKey x fs' file = none ∧ checkCert x fs' file file = .error := by
  obtain ⟨t, c, hc, -, -, -, -, -, rfl⟩ := generated_files x k now umask denied fs fs' hosts file file h
  have hs : hasSuffix "CERTIFICATE" " PRIVATE KEY" = false := by decide
  constructor
  · simp only [loadPrivateKey, AMap.get_set, if_true, parsePrivateKeyPem, hx.noKey t c hc]
  · simp [checkCert, AMap.get_set, x509KeyPair, hs]

/-- **C115.** If the certificate cannot be written, the new private key has been written already and the old certificate stays: `start` refuses the pair, unless the
old certificate is for the same key. -/
theorem C115_half_written (x : X509 Der Cert Key Pub Other OtherPub Ip) (j : Jwt Key Pub Sig) (k : Key) (hx : x.SoundFor j k) (now : Int) (umask : Nat)
    (denied : String → Bool) (fs fs' : Files Der) (hosts : List String) (keyFile certFile : String) (hne : keyFile ≠ certFile)
    (hcert : ∀ t, (x.create t k).isSome) (hw : denied keyFile = false) (hd : denied certFile = true) (p : Pub)
    (hold : loadPublicKey x fs certFile = some p) (hfirst : CertFirst fs certFile) (hp : p ≠ j.pub k)
    (h : runGenerateKeys x (some k) now umask denied fs hosts keyFile certFile = (fs', false)) :
    loadPrivateKey x fs' keyFile = some k ∧ loadPublicKey x fs' certFile = some p ∧ checkCert x fs' certFile keyFile = .error := by
  have hs : hasSuffix "RSA PRIVATE KEY" " PRIVATE KEY" = true := by decide
  unfold runGenerateKeys generateSelfSigned at h
  simp only [Option.bind_eq_bind, Option.bind_some] at h
  cases hc : x.create (addSans x.parseIP hosts ⟨hosts.head?.getD "localhost", now, now + certYear, [], []⟩) k with
  | none => have := hcert (addSans x.parseIP hosts ⟨hosts.head?.getD "localhost", now, now + certYear, [], []⟩); rw [hc] at this; simp at this
  | some c =>
    rw [hc] at h
    simp only [Option.bind_some, writeCertAndKey, writeFile, hw, hd] at h
    simp at h
    subst h
    obtain ⟨f, b, bs, hf, hb, hbt⟩ := hfirst
    have g : ∀ m : KeyFile Der, (fs.set keyFile m).get certFile = some f := by
      intro m; rw [AMap.get_set, if_neg hne, hf]
    refine ⟨?_, ?_, ?_⟩
    · simp only [loadPrivateKey, AMap.get_set, if_true, parsePrivateKeyPem, hx.pkcs1]
    · rw [← hold]; unfold loadPublicKey; rw [g, hf]
    · unfold loadPublicKey parsePublicKeyPem at hold
      rw [hf] at hold
      simp only [hb] at hold
      unfold checkCert
      rw [g]
      simp only [AMap.get_set, if_true]
      rw [if_neg]
      unfold x509KeyPair
      rw [hb]
      cases hpc : x.parseCert b.der with
      | none => rw [hpc] at hold; simp at hold
      | some cert =>
        rw [hpc] at hold
        cases hk : x.certKey cert with
        | other q => simp [hk] at hold
        | rsa p' =>
          simp only [hk] at hold
          cases hold
          simp [hbt, hs, hpc, hk, tlsPrivateKey, hx.pkcs1, hx.pub, hp]


/-! ## The flags of `start` -/

/-- A server that runs, by the flags. -/
theorem runStart_iff (x : X509 Der Cert Key Pub Other OtherPub Ip) (fs : Files Der) (resolve : String → Option String) (f : StartFlags)
    (c : ServerConfig Pub) :
    runStart x fs resolve f = .runs (some c) ↔ f.disableAPIServer = false ∧ ∃ ip, resolve "0.0.0.0" = some ip ∧
      ((f.Open ∧ c = ⟨⟨ip, 8443⟩, f.httpMode, f.insecure, if f.httpMode then "http" else "https", ⟨ip, 8443⟩, if f.httpMode then false else f.insecure,
          none, false, "", ""⟩) ∨
       (¬ f.Open ∧ checkCert x fs f.certFile f.keyFile = .ok ∧ ∃ p, loadPublicKey x fs f.certFile = some p ∧
         c = ⟨⟨ip, 8443⟩, f.httpMode, f.insecure, if f.httpMode then "http" else "https", ⟨ip, 8443⟩, if f.httpMode then false else f.insecure,
          some p, true, f.certFile, f.keyFile⟩)) := by
  unfold runStart newDefaultConfig StartFlags.Open apiServerPort
  cases h1 : f.disableAPIServer with
  | true => simp
  | false =>
    simp only [Bool.false_eq_true, if_false, true_and]
    rw [if_neg (show ¬ ("0.0.0.0" = "") by decide)]
    cases h2 : resolve "0.0.0.0" with
    | none => simp
    | some ip =>
      simp only [Option.some.injEq, exists_eq_left']
      by_cases ho : f.httpMode = true ∨ f.disableAuthentication = true
      · rw [if_pos (by simpa using ho)]
        constructor
        · intro h; cases h; exact Or.inl ⟨ho, rfl⟩
        · rintro (⟨-, rfl⟩ | ⟨hn, -⟩)
          · rfl
          · exact absurd ho hn
      · rw [if_neg (by simpa using ho)]
        cases hcc : checkCert x fs f.certFile f.keyFile with
        | ok =>
          cases hlp : loadPublicKey x fs f.certFile with
          | none => simp [ho]
          | some p =>
            constructor
            · intro h; cases h; exact Or.inr ⟨ho, rfl, p, rfl, rfl⟩
            · rintro (⟨hn, -⟩ | ⟨-, -, p', hp, rfl⟩)
              · exact absurd hn ho
              · cases hp; rfl
        | error => simp [ho]
        | panics => simp [ho]

/-- **C116.** The operators run without the API server exactly with `--disable-api-server`, whatever the files; if the address cannot be resolved, the process exits, unless
that flag is given. -/
theorem C116_without_server (x : X509 Der Cert Key Pub Other OtherPub Ip) (fs : Files Der) (resolve : String → Option String) (f : StartFlags) :
    (runStart x fs resolve f = .runs none ↔ f.disableAPIServer = true) ∧
    (runStart x fs resolve f = .exits ↔ f.disableAPIServer = false ∧ resolve "0.0.0.0" = none) := by
  unfold runStart newDefaultConfig
  cases f.disableAPIServer with
  | true => simp
  | false =>
    simp only [Bool.false_eq_true, if_false, true_and, iff_false]
    rw [if_neg (show ¬ ("0.0.0.0" = "") by decide)]
    cases resolve "0.0.0.0" with
    | none => simp
    | some ip =>
      simp only [reduceCtorEq, iff_false]
      split
      · simp
      · cases checkCert x fs f.certFile f.keyFile with
        | ok => cases loadPublicKey x fs f.certFile <;> simp
        | error => simp
        | panics => simp

/-- **C116.** A request without a token is let through exactly if a flag says so: `--http` or `--disable-authentication`; then every request is. -/
theorem C116_open_iff (x : X509 Der Cert Key Pub Other OtherPub Ip) (j : Jwt Key Pub Sig) (fs : Files Der) (resolve : String → Option String) (f : StartFlags)
    (c : ServerConfig Pub) (h : runStart x fs resolve f = .runs (some c)) (now : Int) (a : Attrs) :
    (getsThrough j c now "" a = true ↔ f.Open) ∧ (f.Open → ∀ header, getsThrough j c now header a = true) := by
  obtain ⟨-, ip, -, ⟨ho, rfl⟩ | ⟨ho, -, p, -, rfl⟩⟩ := (runStart_iff x fs resolve f c).1 h
  · simp [getsThrough, ho]
  · simp [getsThrough, ho, authenticate]

/-- **C116.** Without these flags, a request is let through exactly if its token and the rights in it allow it (see C49 to C52): the tokens accepted are those
signed for the public key in the certificate file. -/
theorem C116_enforced (x : X509 Der Cert Key Pub Other OtherPub Ip) (j : Jwt Key Pub Sig) (fs : Files Der) (resolve : String → Option String) (f : StartFlags)
    (c : ServerConfig Pub) (h : runStart x fs resolve f = .runs (some c)) (hf : ¬ f.Open) :
    ∃ p, loadPublicKey x fs f.certFile = some p ∧ ∀ now header a, getsThrough j c now header a = admitted j p now header a := by
  obtain ⟨-, ip, -, ⟨ho, rfl⟩ | ⟨ho, -, p, hp, rfl⟩⟩ := (runStart_iff x fs resolve f c).1 h
  · exact absurd ho hf
  · refine ⟨p, hp, fun now header a => ?_⟩
    unfold getsThrough admitted
    simp only
    generalize authenticate j p now header = r
    cases r <;> rfl

theorem hasSuffix_of (p s : String) : hasSuffix (p ++ s) s = true := by
  unfold hasSuffix
  rw [String.toList_append, List.isSuffixOf_iff_suffix]
  exact List.suffix_append _ _

theorem of_hasSuffix (t s : String) (h : hasSuffix t s = true) : ∃ p, t = p ++ s := by
  unfold hasSuffix at h
  rw [List.isSuffixOf_iff_suffix] at h
  obtain ⟨p, hp⟩ := h
  refine ⟨String.ofList p, ?_⟩
  apply String.toList_inj.1
  rw [String.toList_append, String.toList_ofList, hp]

/-- What the check of the pair of files establishes. -/
theorem checkCert_ok (x : X509 Der Cert Key Pub Other OtherPub Ip) (fs : Files Der) (certFile keyFile : String)
    (h : checkCert x fs certFile keyFile = .ok) :
    ∃ fc leaf cert k, fs.get certFile = some fc ∧ fc.blocks.find? (fun b => b.type == "CERTIFICATE") = some leaf ∧ x.parseCert leaf.der = some cert ∧
      TlsKey x fs keyFile k ∧ ((∃ r, k = .rsa r ∧ x.certKey cert = .rsa (x.pub r)) ∨ (∃ o, k = .other o ∧ x.certKey cert = .other (x.otherPub o))) := by
  unfold checkCert at h
  cases hc : fs.get certFile with
  | none => rw [hc] at h; simp at h
  | some fc =>
    cases hk : fs.get keyFile with
    | none => rw [hc, hk] at h; simp at h
    | some fk =>
      rw [hc, hk] at h
      simp only at h
      split at h
      · rename_i hpair
        unfold x509KeyPair at hpair
        cases hl : fc.blocks.find? (fun b => b.type == "CERTIFICATE") with
        | none => rw [hl] at hpair; simp at hpair
        | some leaf =>
          rw [hl] at hpair
          simp only at hpair
          cases hb : fk.blocks.find? (fun b => b.type == "PRIVATE KEY" || hasSuffix b.type " PRIVATE KEY") with
          | none => rw [hb] at hpair; simp at hpair
          | some kb =>
            rw [hb] at hpair
            simp only at hpair
            cases hpc : x.parseCert leaf.der with
            | none => rw [hpc] at hpair; simp at hpair
            | some cert =>
              cases hpk : tlsPrivateKey x kb.der with
              | none => rw [hpc, hpk] at hpair; simp at hpair
              | some k =>
                rw [hpc, hpk] at hpair
                simp only at hpair
                refine ⟨fc, leaf, cert, k, rfl, hl, hpc, ?_, ?_⟩
                · obtain ⟨hkb, pre, post, hsplit, hpre⟩ := List.find?_eq_some_iff_append.1 hb
                  refine ⟨fk, kb, pre, post, hk, hsplit, ?_, ?_, ?_⟩
                  · simp only [Bool.or_eq_true, beq_iff_eq] at hkb
                    rcases hkb with h1 | h1
                    · exact Or.inl h1
                    · exact Or.inr (of_hasSuffix _ _ h1)
                  · intro b' hb'
                    have := hpre b' hb'
                    simp only [Bool.not_eq_true', Bool.or_eq_false_iff, beq_eq_false_iff_ne] at this
                    refine ⟨this.1, fun p hp => ?_⟩
                    rw [hp, hasSuffix_of] at this
                    simp at this
                  · unfold tlsPrivateKey at hpk
                    cases hp1 : x.parsePKCS1 kb.der with
                    | none => rw [hp1] at hpk; simpa using hpk
                    | some r => rw [hp1] at hpk; simp at hpk; simp [hpk]
                · cases hck : x.certKey cert with
                  | rsa p =>
                    cases k with
                    | rsa r => rw [hck] at hpair; simp at hpair; exact Or.inl ⟨r, rfl, by rw [hpair]⟩
                    | other o => rw [hck] at hpair; simp at hpair
                  | other q =>
                    cases k with
                    | rsa r => rw [hck] at hpair; simp at hpair
                    | other o => rw [hck] at hpair; simp at hpair; exact Or.inr ⟨o, rfl, by rw [hpair]⟩
      · simp at h

/-- **C116, partial.** A server that enforces access accepts tokens signed with the very key it uses for TLS, which is an RSA key, provided the certificate file
begins with a block labelled as a certificate. Missing: other files (`C116_other_pair`). -/
theorem C116_pair_partial (x : X509 Der Cert Key Pub Other OtherPub Ip) (j : Jwt Key Pub Sig) (fs : Files Der) (resolve : String → Option String)
    (f : StartFlags) (c : ServerConfig Pub) (h : runStart x fs resolve f = .runs (some c)) (hf : ¬ f.Open) (hfirst : CertFirst fs f.certFile) :
    ∃ k, TlsKey x fs f.keyFile (.rsa k) ∧ ∀ now header a, getsThrough j c now header a = admitted j (x.pub k) now header a := by
  obtain ⟨p, hp, hpass⟩ := C116_enforced x j fs resolve f c h hf
  obtain ⟨-, ip, -, ⟨ho, -⟩ | ⟨-, hcc, -⟩⟩ := (runStart_iff x fs resolve f c).1 h
  · exact absurd ho hf
  · obtain ⟨fc, leaf, cert, k, hfc, hl, hpc, hk, hcase⟩ := checkCert_ok x fs f.certFile f.keyFile hcc
    obtain ⟨fc', b, bs, hfc', hb, hbt⟩ := hfirst
    rw [hfc] at hfc'
    cases hfc'
    rw [hb] at hl
    simp [hbt] at hl
    subst hl
    unfold loadPublicKey parsePublicKeyPem at hp
    rw [hfc] at hp
    simp only [hb, hpc] at hp
    rcases hcase with ⟨r, rfl, hck⟩ | ⟨o, rfl, hck⟩
    · rw [hck] at hp
      cases hp
      exact ⟨r, hk, hpass⟩
    · rw [hck] at hp
      simp at hp

/-- **C116.** `start` panics exactly if access is to be enforced, the two files are a pair for the TLS library, but the first block of the certificate file is no
certificate: the library skips blocks with other labels, the code that prints the certificate does not. -/
theorem C116_panics_iff (x : X509 Der Cert Key Pub Other OtherPub Ip) (fs : Files Der) (resolve : String → Option String) (f : StartFlags) :
    runStart x fs resolve f = .panics ↔ f.disableAPIServer = false ∧ ¬ f.Open ∧ (resolve "0.0.0.0").isSome ∧
      ∃ fc fk b bs, fs.get f.certFile = some fc ∧ fs.get f.keyFile = some fk ∧ x509KeyPair x fc.blocks fk.blocks = true ∧ fc.blocks = b :: bs ∧
        x.parseCert b.der = none := by
  unfold runStart newDefaultConfig StartFlags.Open
  cases h1 : f.disableAPIServer with
  | true => simp
  | false =>
    simp only [Bool.false_eq_true, if_false, true_and]
    rw [if_neg (show ¬ ("0.0.0.0" = "") by decide)]
    cases h2 : resolve "0.0.0.0" with
    | none => simp
    | some ip =>
      simp only [Option.isSome_some, true_and]
      by_cases ho : f.httpMode = true ∨ f.disableAuthentication = true
      · rw [if_pos (by simpa using ho)]
        simp [ho]
      · rw [if_neg (by simpa using ho)]
        simp only [ho, not_false_eq_true, true_and]
        have key : checkCert x fs f.certFile f.keyFile = .panics ↔ ∃ fc fk b bs, fs.get f.certFile = some fc ∧ fs.get f.keyFile = some fk ∧
            x509KeyPair x fc.blocks fk.blocks = true ∧ fc.blocks = b :: bs ∧ x.parseCert b.der = none := by
          unfold checkCert
          cases hc : fs.get f.certFile with
          | none => simp
          | some fc =>
            cases hk : fs.get f.keyFile with
            | none => simp
            | some fk =>
              simp only [Option.some.injEq, exists_and_left, exists_eq_left']
              by_cases hpair : x509KeyPair x fc.blocks fk.blocks = true
              · rw [if_pos hpair]
                simp only [hpair, true_and]
                cases hb : fc.blocks with
                | nil => rw [hb] at hpair; simp [x509KeyPair] at hpair
                | cons b bs =>
                  cases hp : x.parseCert b.der with
                  | none => simp [hp]
                  | some cert => simp [hp]
              · rw [if_neg hpair]
                simp [hpair]
        rw [← key]
        cases checkCert x fs f.certFile f.keyFile with
        | ok => cases loadPublicKey x fs f.certFile <;> simp
        | error => simp
        | panics => simp

/-- **C116, negation for the address.** The flags for the address and the port have no effect: the server listens on all addresses, on port 8443. -/
theorem C116_address_ignored (x : X509 Der Cert Key Pub Other OtherPub Ip) (fs : Files Der) (resolve : String → Option String)
    (hr : resolve "0.0.0.0" = some "0.0.0.0") (f : StartFlags) :
    (∀ c : ServerConfig Pub, runStart x fs resolve f = .runs (some c) → ∀ rnd, ∃ l ∈ listeners rnd c, l.addr = ⟨"0.0.0.0", 8443⟩) ∧
    ∀ (addr : String) (port : Nat), runStart x fs resolve { f with addr := addr, port := port } = runStart x fs resolve f := by
  constructor
  · intro c h rnd
    obtain ⟨-, ip, hip, hc⟩ := (runStart_iff x fs resolve f c).1 h
    rw [hr] at hip
    cases hip
    have hc' : c.addr = ⟨"0.0.0.0", 8443⟩ := by
      rcases hc with ⟨-, rfl⟩ | ⟨-, -, p, -, rfl⟩ <;> rfl
    unfold listeners
    cases c.httpMode with
    | true => exact ⟨_, by rw [if_pos rfl]; exact List.mem_cons_of_mem _ (List.mem_singleton.2 rfl), hc'⟩
    | false => exact ⟨_, by rw [if_neg (by simp)]; exact List.mem_singleton.2 rfl, hc'⟩
  · intro addr port
    rfl

/-- **C116, negation.** `dctl start --http`, whose help says that the address is localhost, gives every request from everywhere unrestricted access, without TLS. -/
theorem C116_localhost_exposed (x : X509 Der Cert Key Pub Other OtherPub Ip) (j : Jwt Key Pub Sig) (fs : Files Der) (resolve : String → Option String)
    (hr : resolve "0.0.0.0" = some "0.0.0.0") :
    ∃ c : ServerConfig Pub, runStart x fs resolve { httpMode := true } = .runs (some c) ∧ (∀ rnd, ⟨⟨"0.0.0.0", 8443⟩, none⟩ ∈ listeners rnd c) ∧
      ∀ now header a, getsThrough j c now header a = true := by
  have hf : ∀ f : StartFlags, f.httpMode = true → f.disableAPIServer = false → ∃ c : ServerConfig Pub, runStart x fs resolve f = .runs (some c) ∧
      c.httpMode = true ∧ c.addr = ⟨"0.0.0.0", 8443⟩ := by
    intro f h1 h2
    exact ⟨_, (runStart_iff x fs resolve f _).2 ⟨h2, "0.0.0.0", hr, Or.inl ⟨Or.inl h1, rfl⟩⟩, h1, rfl⟩
  obtain ⟨c, hc, h1, h2⟩ := hf { httpMode := true } rfl rfl
  refine ⟨c, hc, ?_, ?_⟩
  · intro rnd
    unfold listeners
    rw [h1, if_pos rfl, h2]
    exact List.mem_cons_of_mem _ (List.mem_singleton.2 rfl)
  · intro now header a
    exact (C116_open_iff x j fs resolve _ c hc now a).2 (Or.inl rfl) header

/-- **C116.** The certificate given is used exactly if access is enforced: with `--disable-authentication` the TLS socket is left without a certificate, although
the flags name one. -/
theorem C116_certificate (x : X509 Der Cert Key Pub Other OtherPub Ip) (fs : Files Der) (resolve : String → Option String) (f : StartFlags)
    (c : ServerConfig Pub) (h : runStart x fs resolve f = .runs (some c)) (rnd : Nat) (l : Listener) (hl : l ∈ listeners rnd c) (files : String × String)
    (ht : l.tls = some files) : files = if f.httpMode || f.disableAuthentication then ("", "") else (f.certFile, f.keyFile) := by
  obtain ⟨-, ip, -, ⟨ho, rfl⟩ | ⟨ho, -, p, -, rfl⟩⟩ := (runStart_iff x fs resolve f c).1 h
  · rw [if_pos (by simpa [StartFlags.Open] using ho)]
    unfold listeners at hl
    split at hl
    · simp at hl
      rcases hl with rfl | rfl <;> simp at ht
      exact ht.symm
    · simp at hl
      subst hl
      simp at ht
      exact ht.symm
  · rw [if_neg (by simpa [StartFlags.Open] using ho)]
    unfold listeners at hl
    split at hl
    · simp at hl
      rcases hl with rfl | rfl <;> simp at ht
      exact ht.symm
    · simp at hl
      subst hl
      simp at ht
      exact ht.symm

/-- **C116.** Without TLS is served exactly with `--http`; the TLS socket the library insists on is then on the loopback address only, and never takes the port of
the other one. -/
theorem C116_http (x : X509 Der Cert Key Pub Other OtherPub Ip) (fs : Files Der) (resolve : String → Option String) (f : StartFlags)
    (c : ServerConfig Pub) (h : runStart x fs resolve f = .runs (some c)) (rnd : Nat) (hrnd : rnd < 16384) :
    ((∃ l ∈ listeners rnd c, l.tls = none) ↔ f.httpMode = true) ∧
    (f.httpMode = true → ∀ l ∈ listeners rnd c, l.tls ≠ none → l.addr.ip = "127.0.0.1" ∧ l.addr.port ≠ 8443 ∧ l.addr.port < 65536) ∧
    ((listeners rnd c).map (·.addr)).Nodup := by
  have hc : c.httpMode = f.httpMode ∧ c.addr.port = 8443 := by
    obtain ⟨-, ip, -, ⟨ho, rfl⟩ | ⟨ho, -, p, -, rfl⟩⟩ := (runStart_iff x fs resolve f c).1 h <;> exact ⟨rfl, rfl⟩
  obtain ⟨h1, h2⟩ := hc
  unfold listeners
  rw [h1]
  cases f.httpMode with
  | true =>
    refine ⟨by simp, ?_, ?_⟩
    · intro _ l hl ht
      simp at hl
      rcases hl with rfl | rfl
      · refine ⟨rfl, ?_, ?_⟩ <;> simp <;> omega
      · simp at ht
    · simp only [if_true, List.map_cons, List.map_nil, List.nodup_cons, List.mem_singleton, List.not_mem_nil, not_false_eq_true, List.nodup_nil, and_true]
      intro he
      have := congrArg TcpAddr.port he
      rw [h2] at this
      simp at this
  | false => simp

/-- **C115, partial, end to end.** Keys are generated, a kubeconfig is made with the key file, the server is started with both files: the server runs, and a request
with the token of the kubeconfig is let through exactly if the rights asked for cover it, while the token is valid. Missing: what C105 misses. -/
theorem C115_end_to_end_partial (x : X509 Der Cert Key Pub Other OtherPub Ip) (j : Jwt Key Pub Sig) (k : Key) (hx : x.SoundFor j k) (t0 : Int) (umask : Nat)
    (denied : String → Bool) (fs fs' : Files Der) (hosts : List String) (f : StartFlags) (hne : f.keyFile ≠ f.certFile)
    (hkeys : runGenerateKeys x (some k) t0 umask denied fs hosts f.keyFile f.certFile = (fs', true))
    (resolve : String → Option String) (hr : (resolve "0.0.0.0").isSome) (hf : ¬ f.Open) (hs : f.disableAPIServer = false)
    (made now : Int) (g : GenFlags) (kc : Kubeconfig) (rs : List PolicyRule)
    (hgen : runGenerateConfig j (loadPrivateKey x fs' f.keyFile) made g = some kc) (hrs : GivenRules g rs)
    (hnr : rs = [] → g.rules = none ∧ g.rulesFile = none) (hns : SaysSomething g.namespaces) (hnm : SaysSomething g.resourceNames)
    (hj : j.WorksFor k made g (tokenNamespaces g) (tokenRules g rs))
    (h1 : made / second * second ≤ now) (h2 : now < (made + g.expiry) / second * second) :
    ∃ c t, runStart x fs' resolve f = .runs (some c) ∧ extractToken kc = some t ∧
      ∀ a : Attrs, getsThrough j c now ("Bearer " ++ t) a = true ↔ a.isResource = false ∨ (AskedNamespace g a.ns ∧ AskedRules g rs a) := by
  obtain ⟨e1, e2, e3, -⟩ := C115_pair x j k hx t0 umask denied fs fs' hosts f.keyFile f.certFile hne hkeys
  rw [e1] at hgen
  obtain ⟨t, ht, -, had⟩ := C105_granted_partial j k made now g kc rs hgen hrs hnr hns hnm hj h1 h2
  cases hip : resolve "0.0.0.0" with
  | none => rw [hip] at hr; simp at hr
  | some ip =>
    have hrun := (runStart_iff x fs' resolve f _).2 ⟨hs, ip, hip, Or.inr ⟨hf, e3, j.pub k, e2, rfl⟩⟩
    refine ⟨_, t, hrun, ht, ?_⟩
    intro a
    obtain ⟨p, hp, hpass⟩ := C116_enforced x j fs' resolve f _ hrun hf
    rw [e2] at hp
    cases hp
    rw [hpass, had]

end

/-! ## Files to try this on -/

/-- Encodings for the examples: a certificate with its public key, private keys in two formats, something else. -/
inductive ToyDer where
  | cert (p : Nat) (ips dns : List String)
  | ecCert (p : Nat)
  | pkcs1 (k : Nat)
  | pkcs8 (k : Nat)
  | junk
deriving DecidableEq

/-- Libraries for the examples: the public key of a key is its double. -/
def toyX509 : X509 ToyDer ToyDer Nat Nat Unit Nat String where
  parseCert d := match d with | .cert .. => some d | .ecCert _ => some d | _ => none
  certKey c := match c with | .cert p _ _ => .rsa p | .ecCert p => .other p | _ => .other 0
  parsePKCS1 d := match d with | .pkcs1 k => some k | _ => none
  marshalPKCS1 := .pkcs1
  parseOther d := match d with | .pkcs8 k => some (.rsa k) | _ => none
  pub k := 2 * k
  otherPub _ := 0
  create t k := some (.cert (2 * k) t.ips t.dns)
  parseIP s := if s = "127.0.0.1" then some s else none

/-- Tokens for the examples: the library knows one token, with given claims, signed with key 7. -/
def toyKeyJwt (c : Json) : Jwt Nat Nat Nat where
  pub k := 2 * k
  sign k _ _ := 2 * k
  verify p _ _ s := p == s
  encode _ := "t"
  decode _ := some ⟨"RS256", c, 14⟩

theorem toyX509_sound (c : Json) (k : Nat) : toyX509.SoundFor (toyKeyJwt c) k where
  pub := rfl
  pkcs1 := rfl
  created := by
    intro t c h
    cases h
    exact ⟨_, rfl, rfl⟩
  noKey := by
    intro t c h
    cases h
    rfl

/-- The hypotheses of the theorems on `generate-keys` are met: new files in an empty directory. -/
example : (runGenerateKeys toyX509 (some 7) 0 0o022 (fun _ => false) [] ["localhost", "127.0.0.1"] "apiserver.key" "apiserver.crt") =
    ([("apiserver.key", ⟨0o644, [⟨"RSA PRIVATE KEY", .pkcs1 7⟩]⟩), ("apiserver.crt", ⟨0o600, [⟨"CERTIFICATE", .cert 14 ["127.0.0.1"] ["localhost"]⟩]⟩)], true) := by
  decide +kernel

/-- The hypotheses of the theorem from end to end are met. -/
example : let c := claimsJson (expectedClaims 0 demoFlags.expiry demoFlags.username (tokenNamespaces demoFlags) (tokenRules demoFlags [demoGiven])) 0
    (runGenerateKeys toyX509 (some 7) 0 0o022 (fun _ => false) [] ["localhost"] "apiserver.key" "apiserver.crt").2 = true ∧
    ({} : StartFlags).keyFile ≠ ({} : StartFlags).certFile ∧ GivenRules demoFlags [demoGiven] ∧ SaysSomething demoFlags.namespaces ∧
    SaysSomething demoFlags.resourceNames ∧ (toyKeyJwt c).WorksFor 7 0 demoFlags (tokenNamespaces demoFlags) (tokenRules demoFlags [demoGiven]) ∧
    (runGenerateConfig (toyKeyJwt c) (loadPrivateKey toyX509
      (runGenerateKeys toyX509 (some 7) 0 0o022 (fun _ => false) [] ["localhost"] "apiserver.key" "apiserver.crt").1 "apiserver.key") 0 demoFlags).isSome := by
  refine ⟨by decide +kernel, by decide, ?_, ?_, ?_, ⟨⟨rfl, by decide +kernel⟩, fun t => by simp [toyKeyJwt]⟩, by decide +kernel⟩
  · exact Or.inr ⟨demoRuleText, Or.inr ⟨rfl, rfl⟩, rfl⟩
  · exact Or.inr ⟨"default", (C105_lists _ _).1 (by decide +kernel)⟩
  · exact Or.inr ⟨"pod-1", (C105_lists _ _).1 (by decide +kernel)⟩

/-- A key file that was there and was private stays private. -/
example : ((runGenerateKeys toyX509 (some 7) 0 0o022 (fun _ => false) [("apiserver.key", ⟨0o600, []⟩)] [] "apiserver.key" "apiserver.crt").1.get
    "apiserver.key").map (·.mode) = some 0o600 := by decide +kernel

/-- The certificate cannot be written. -/
example : loadPublicKey toyX509 [("c", ⟨0o444, [⟨"CERTIFICATE", .cert 4 [] []⟩]⟩)] "c" = some 4 ∧
    (runGenerateKeys toyX509 (some 7) 0 0o022 (fun f => f == "c") [("c", ⟨0o444, [⟨"CERTIFICATE", .cert 4 [] []⟩]⟩)] [] "k" "c").2 = false := by decide +kernel

/-- The usual files. -/
def toyFiles : Files ToyDer :=
  [("apiserver.key", ⟨0o600, [⟨"RSA PRIVATE KEY", .pkcs1 7⟩]⟩), ("apiserver.crt", ⟨0o644, [⟨"CERTIFICATE", .cert 14 [] ["localhost"]⟩]⟩)]

/-- The server enforces access with the usual files. -/
example : ∃ c, runStart toyX509 toyFiles some {} = .runs (some c) ∧ c.authenticator = some 14 ∧ CertFirst toyFiles "apiserver.crt" ∧
    ¬ StartFlags.Open {} := by
  refine ⟨⟨⟨"0.0.0.0", 8443⟩, false, false, "https", ⟨"0.0.0.0", 8443⟩, false, some 14, true, "apiserver.crt", "apiserver.key"⟩, by decide +kernel, rfl,
    ⟨_, _, _, rfl, rfl, rfl⟩, ?_⟩
  unfold StartFlags.Open
  decide

/-- A certificate file in which the key comes first. -/
def toyKeyFirst : Files ToyDer :=
  [("both.pem", ⟨0o600, [⟨"RSA PRIVATE KEY", .pkcs1 7⟩, ⟨"CERTIFICATE", .cert 14 [] []⟩]⟩)]

/-- **C116, a panic.** One file with the key and the certificate, the key first, is a pair for the TLS library and makes `start` panic; with the certificate first
it starts. -/
theorem C116_panics : runStart toyX509 toyKeyFirst some { certFile := "both.pem", keyFile := "both.pem" } = .panics ∧
    (∃ c, runStart toyX509 [("both.pem", ⟨0o600, [⟨"CERTIFICATE", .cert 14 [] []⟩, ⟨"RSA PRIVATE KEY", .pkcs1 7⟩]⟩)] some
      { certFile := "both.pem", keyFile := "both.pem" } = .runs (some c)) := by
  refine ⟨by decide +kernel, ⟨⟨"0.0.0.0", 8443⟩, false, false, "https", ⟨"0.0.0.0", 8443⟩, false, some 14, true, "both.pem", "both.pem"⟩, ?_⟩
  decide +kernel

/-- **C116, negation for the pair.** If the certificate file begins with a certificate under another label, the tokens accepted are those of that certificate, while
TLS is served with the one labelled as usual: tokens made with the key of the server are refused. -/
theorem C116_other_pair : ∃ (fs : Files ToyDer) (c : ServerConfig Nat), runStart toyX509 fs some {} = .runs (some c) ∧
    TlsKey toyX509 fs "apiserver.key" (.rsa 7) ∧ c.authenticator = some 10 ∧ toyX509.pub 7 ≠ 10 := by
  refine ⟨[("apiserver.key", ⟨0o600, [⟨"RSA PRIVATE KEY", .pkcs1 7⟩]⟩),
      ("apiserver.crt", ⟨0o644, [⟨"X509 CERTIFICATE", .cert 10 [] []⟩, ⟨"CERTIFICATE", .cert 14 [] []⟩]⟩)],
    ⟨⟨"0.0.0.0", 8443⟩, false, false, "https", ⟨"0.0.0.0", 8443⟩, false, some 10, true, "apiserver.crt", "apiserver.key"⟩, by decide +kernel, ?_, rfl, by decide⟩
  exact ⟨_, _, [], [], rfl, rfl, Or.inr ⟨"RSA", by decide⟩, by simp, rfl⟩

/-- **C116, key formats.** `start` accepts RSA keys in the newer format and then accepts their tokens, but `generate-config` cannot load them: no tokens can be made. -/
theorem C116_newer_format : ∃ (fs : Files ToyDer) (c : ServerConfig Nat), runStart toyX509 fs some {} = .runs (some c) ∧
    TlsKey toyX509 fs "apiserver.key" (.rsa 7) ∧ c.authenticator = some (toyX509.pub 7) ∧ loadPrivateKey toyX509 fs "apiserver.key" = none := by
  refine ⟨[("apiserver.key", ⟨0o600, [⟨"PRIVATE KEY", .pkcs8 7⟩]⟩), ("apiserver.crt", ⟨0o644, [⟨"CERTIFICATE", .cert 14 [] []⟩]⟩)],
    ⟨⟨"0.0.0.0", 8443⟩, false, false, "https", ⟨"0.0.0.0", 8443⟩, false, some 14, true, "apiserver.crt", "apiserver.key"⟩, by decide +kernel, ?_, rfl, rfl⟩
  exact ⟨_, _, [], [], rfl, rfl, Or.inl rfl, by simp, rfl⟩

/-- With `--disable-authentication` there is a TLS socket without a certificate. -/
example : ∃ c, runStart toyX509 toyFiles some { disableAuthentication := true } = .runs (some c) ∧
    listeners 0 c = [⟨⟨"0.0.0.0", 8443⟩, some ("", "")⟩] := by
  refine ⟨⟨⟨"0.0.0.0", 8443⟩, false, false, "https", ⟨"0.0.0.0", 8443⟩, false, none, false, "", ""⟩, by decide +kernel, by decide⟩

/-! ## The life of the server -/

theorem life_append (s : ApiLife) (a b : List LifeEvent) : s.run (a ++ b) = (s.run a).run b := by
  simp [ApiLife.run]

theorem count_set (l : List StartCall) (i : Nat) (a b : StartCall) (h : l[i]? = some a) :
    ((l.set i b).filter (· == .serving)).length + (if a = .serving then 1 else 0) = (l.filter (· == .serving)).length + (if b = .serving then 1 else 0) := by
  induction l generalizing i with
  | nil => simp at h
  | cons c l ih =>
    cases i with
    | zero =>
      simp only [List.getElem?_cons_zero, Option.some.injEq] at h
      subst h
      cases c <;> cases b <;> simp
    | succ i =>
      simp only [List.getElem?_cons_succ] at h
      have := ih i h
      cases c <;> simp <;> omega

/-- The state in a history of whole calls. -/
structure WholeInv (s : ApiLife) (n : Nat) : Prop where
  calls : s.calls.length = n
  settled : ∀ c ∈ s.calls, c ≠ .checked
  count : s.instances = if s.running then 1 else 0

theorem wholeInv_run (n : Nat) (es : List WholeCall) (s : ApiLife) (h : WholeInv s n) : ∃ m, WholeInv (s.run (wholeCalls n es)) m := by
  induction es generalizing n s with
  | nil => exact ⟨n, h⟩
  | cons e es ih =>
    obtain ⟨h1, h2, h3⟩ := h
    unfold ApiLife.instances at h3
    cases e with
    | start =>
      have e1 : s.run (wholeCalls n (.start :: es)) = ((s.step .call).step (.serve n)).run (wholeCalls (n + 1) es) := rfl
      rw [e1]
      apply ih
      cases hr : s.running with
      | true =>
        rw [hr] at h3
        have e2 : (s.step .call).step (.serve n) = { s with calls := s.calls ++ [.refused] } := by
          simp [ApiLife.step, hr, ← h1]
        rw [e2]
        refine ⟨by simp [h1], ?_, ?_⟩
        · intro c hc
          simp at hc
          rcases hc with hc | rfl
          · exact h2 c hc
          · simp
        · simp [ApiLife.instances, hr, h3]
      | false =>
        rw [hr] at h3
        have e2 : (s.step .call).step (.serve n) = { s with running := true, calls := s.calls ++ [.serving] } := by
          simp [ApiLife.step, hr, ← h1]
        rw [e2]
        refine ⟨by simp [h1], ?_, ?_⟩
        · intro c hc
          simp at hc
          rcases hc with hc | rfl
          · exact h2 c hc
          · simp
        · simp [ApiLife.instances] at h3 ⊢
          exact h3
    | cancel i =>
      have e1 : s.run (wholeCalls n (.cancel i :: es)) = (s.step (.cancel i)).run (wholeCalls n es) := rfl
      rw [e1]
      apply ih
      simp only [ApiLife.step]
      split
      · rename_i hi
        have hc := count_set s.calls i .serving .returned hi
        refine ⟨by simp [h1], ?_, ?_⟩
        · intro c hc
          rcases List.mem_or_eq_of_mem_set hc with hc | rfl
          · exact h2 c hc
          · simp
        · rw [if_pos rfl, if_neg (by decide)] at hc
          have : (s.calls.filter (· == .serving)).length ≤ 1 := by
            rw [h3]; split <;> omega
          show ((s.calls.set i .returned).filter (· == .serving)).length = 0
          omega
      · exact ⟨h1, h2, h3⟩

/-- **C117, partial.** If calls of `Start` do not overlap between the look at the flag and its being set, at most one instance of the server runs at any time, and the
flag says whether one does. Missing: overlapping calls (`C117_race`). -/
theorem C117_one_partial (es : List WholeCall) : (({} : ApiLife).run (wholeCalls 0 es)).instances ≤ 1 ∧
    ((({} : ApiLife).run (wholeCalls 0 es)).running = true ↔ (({} : ApiLife).run (wholeCalls 0 es)).instances = 1) := by
  obtain ⟨m, h⟩ := wholeInv_run 0 es {} ⟨rfl, by simp, rfl⟩
  rw [h.count]
  cases (({} : ApiLife).run (wholeCalls 0 es)).running <;> simp

/-- A start, a refused start, a stop. -/
example : (({} : ApiLife).run (wholeCalls 0 [.start, .start, .cancel 0])).calls = [.returned, .refused] := by decide

/-- **C117, negation.** Two calls of `Start` can both look at the flag before either sets it: both run. When the first ends, the flag says that nothing runs. -/
theorem C117_race : (({} : ApiLife).run [.call, .call, .serve 0, .serve 1]).instances = 2 ∧
    (({} : ApiLife).run [.call, .call, .serve 0, .serve 1, .cancel 0]).running = false ∧
    (({} : ApiLife).run [.call, .call, .serve 0, .serve 1, .cancel 0]).instances = 1 := by decide

/-- **C117.** In every history: while the flag is set, an instance runs, and further calls are refused. -/
theorem C117_flag (es : List LifeEvent) (h : (({} : ApiLife).run es).running = true) : 0 < (({} : ApiLife).run es).instances ∧
    ((({} : ApiLife).run es).step .call).calls = (({} : ApiLife).run es).calls ++ [.refused] := by
  constructor
  · have key : ∀ (es : List LifeEvent) (s : ApiLife), (s.running = true → 0 < s.instances) → ((s.run es).running = true → 0 < (s.run es).instances) := by
      intro es
      induction es with
      | nil => intro s hs; exact hs
      | cons e es ih =>
        intro s hs
        apply ih (s.step e)
        cases e with
        | call =>
          intro hr
          have := hs hr
          simp only [ApiLife.step, ApiLife.instances, List.filter_append, List.length_append] at this ⊢
          omega
        | serve i =>
          simp only [ApiLife.step]
          split
          · rename_i hi
            intro _
            have := count_set s.calls i .checked .serving hi
            rw [if_neg (by decide), if_pos rfl] at this
            show 0 < ((s.calls.set i .serving).filter (· == .serving)).length
            omega
          · exact hs
        | cancel i =>
          simp only [ApiLife.step]
          split
          · simp
          · exact hs
    exact key es {} (by simp) h
  · simp [ApiLife.step, h]

/-- **C117, no restart.** Once an instance has ended, the server never answers again: its sockets are closed and nothing opens them. -/
theorem C117_no_restart (es es' : List LifeEvent) (i : Nat) (h : (({} : ApiLife).run es).calls[i]? = some .serving) :
    (({} : ApiLife).run (es ++ .cancel i :: es')).answers = false := by
  have key : ∀ (es : List LifeEvent) (s : ApiLife), s.sockets = false → (s.run es).sockets = false := by
    intro es
    induction es with
    | nil => intro s hs; exact hs
    | cons e es ih =>
      intro s hs
      apply ih (s.step e)
      cases e with
      | call => exact hs
      | serve j => simp only [ApiLife.step]; split <;> exact hs
      | cancel j =>
        simp only [ApiLife.step]
        split
        · rfl
        · exact hs
  have e1 : ({} : ApiLife).run (es ++ .cancel i :: es') = ((({} : ApiLife).run es).step (.cancel i)).run es' := by
    rw [life_append]; rfl
  rw [e1]
  unfold ApiLife.answers
  rw [key es' _ (by simp only [ApiLife.step]; rw [if_pos h])]
  rfl

/-- **C117, negation for restarts.** A new call is accepted all the same: it sets the flag and answers nothing. -/
theorem C117_deaf : (({} : ApiLife).run [.call, .serve 0]).answers = true ∧
    (({} : ApiLife).run [.call, .serve 0, .cancel 0, .call, .serve 1]).running = true ∧
    (({} : ApiLife).run [.call, .serve 0, .cancel 0, .call, .serve 1]).answers = false := by decide

end Dctl
