import Verif.Spec.Command
import Verif.Auth.CommandLemmas
import Verif.Props.Auth
/-!
# Kubeconfigs made on the command line (C105)
-/
set_option autoImplicit false
set_option linter.unusedSectionVars false
namespace Dctl

/-- **C105.** A list on the command line is read as its items. -/
theorem C105_lists (s x : String) : x ∈ parseCommaSeparated s ↔ Listed s x := by
  unfold parseCommaSeparated
  constructor
  · intro h
    split at h
    · simp at h
    · rw [List.mem_map] at h
      obtain ⟨t, ht, rfl⟩ := h
      rw [List.mem_filter, List.mem_map] at ht
      obtain ⟨⟨i, hi, hti⟩, hne⟩ := ht
      have hne' : t ≠ [] := by rintro rfl; simp at hne
      obtain ⟨hci, pre, post, hs, hpre, hpost⟩ := (mem_splitCommas _ _).1 hi
      obtain ⟨a, b, rfl, ha, hb, hh, hl⟩ := (trimSpace_iff i t hne').1 hti
      refine ⟨pre, a, b, post, ?_, hpre, hpost, ha, hb, ?_, ?_, ?_, ?_⟩
      · rw [hs, String.toList_ofList]; simp
      · intro h0
        exact hne' (by have := congrArg String.toList h0; simpa using this)
      · rw [String.toList_ofList]
        intro hm
        exact hci (by simp [hm])
      · rw [String.toList_ofList]; exact hh
      · rw [String.toList_ofList]; exact hl
  · rintro ⟨pre, a, b, post, hs, hpre, hpost, ha, hb, hx, hcx, hh, hl⟩
    have hx' : x.toList ≠ [] := by
      intro h0
      exact hx (String.toList_inj.1 (by simpa using h0))
    rw [if_neg (by
      rintro rfl
      have : pre ++ a ++ x.toList ++ b ++ post = [] := by rw [← hs]; rfl
      simp at this
      exact hx' (by simpa using this.2.2.1)), List.mem_map]
    refine ⟨x.toList, ?_, by simp⟩
    rw [List.mem_filter, List.mem_map]
    refine ⟨⟨a ++ x.toList ++ b, ?_, ?_⟩, ?_⟩
    · rw [mem_splitCommas]
      refine ⟨?_, pre, post, by rw [hs]; simp, hpre, hpost⟩
      intro hm
      rcases List.mem_append.1 hm with hm | hm
      · rcases List.mem_append.1 hm with hm | hm
        · have := ha _ hm; rw [comma_not_space] at this; simp at this
        · exact hcx hm
      · have := hb _ hm; rw [comma_not_space] at this; simp at this
    · exact (trimSpace_iff _ _ hx').2 ⟨a, b, rfl, ha, hb, hh, hl⟩
    · cases h0 : x.toList with
      | nil => exact absurd h0 hx'
      | cons c l => rfl


/-- Items of a list with spaces. -/
example : Listed "team-a, team-b ,," "team-b" := ⟨"team-a,".toList, " ".toList, " ".toList, ",,".toList, by decide, by decide, by decide, by decide, by decide,
  by decide, by decide, by decide, by decide⟩

variable {Key Pub Sig : Type}

/-- The token library works for the claims put into a token (see `Jwt.SoundFor`), and writes no token as the empty text. -/
def Jwt.WorksFor (j : Jwt Key Pub Sig) (k : Key) (made : Int) (f : GenFlags) (nss : List String) (rs : List PolicyRule) : Prop :=
  j.SoundFor k (claimsJson (expectedClaims made f.expiry f.username nss rs) (made / second)) ∧ ∀ t, j.encode t ≠ ""

/-- The namespaces put into a token. -/
def tokenNamespaces (f : GenFlags) : List String := parseCommaSeparated f.namespaces

/-- The rules put into a token. -/
def tokenRules (f : GenFlags) (rs : List PolicyRule) : List PolicyRule :=
  if f.resourceNames = "" then rs else replaceLastNames (parseCommaSeparated f.resourceNames) rs

theorem replaceLastNames_append (n : List String) (init : List PolicyRule) (last : PolicyRule) :
    replaceLastNames n (init ++ [last]) = init ++ [{ last with resourceNames := n }] := by
  induction init with
  | nil => rfl
  | cons r init ih =>
    cases init with
    | nil => rfl
    | cons r' init => simpa [replaceLastNames] using ih

theorem flagRules_iff (f : GenFlags) (rs : List PolicyRule) : flagRules f = some rs ↔ GivenRules f rs := by
  unfold flagRules GivenRules
  rcases h1 : f.rulesFile with _ | _ | _ | v
  · rcases h2 : f.rules with _ | _ | w
    · simp [eq_comm]
    · simp
    · simp
  · simp
  · simp
  · simp

theorem run_eq (j : Jwt Key Pub Sig) (k : Key) (made : Int) (f : GenFlags) (rs : List PolicyRule) (hrs : GivenRules f rs) :
    runGenerateConfig j (some k) made f = some (generateKubeconfig f.serverAddress f.username
      (generateToken j k made f.username (tokenNamespaces f) (tokenRules f rs) f.expiry) "dcontroller" "dcontroller" f.defaultNamespace f.insecure f.httpMode) := by
  unfold runGenerateConfig
  rw [(flagRules_iff f rs).2 hrs]
  have e1 : (if f.namespaces ≠ "" then parseCommaSeparated f.namespaces else []) = tokenNamespaces f := by
    unfold tokenNamespaces
    split
    · rfl
    · rename_i h
      have : f.namespaces = "" := by simpa using h
      rw [this]; rfl
  have e2 : (if f.resourceNames ≠ "" ∧ rs.length > 0 then replaceLastNames (parseCommaSeparated f.resourceNames) rs else rs) = tokenRules f rs := by
    unfold tokenRules
    by_cases h : f.resourceNames = ""
    · simp [h]
    · cases rs <;> simp [h, replaceLastNames]
  simp only [Option.bind_eq_bind, Option.bind_some]
  rw [e1, e2]

theorem extract_generated (addr u t cn dn : String) (i h : Bool) (ht : t ≠ "") :
    extractToken (generateKubeconfig addr u t cn "dcontroller" dn i h) = some t := by
  simp [extractToken, generateKubeconfig, AMap.set, AMap.get, ht]

/-- What the token of a kubeconfig is good for, whatever the flags. -/
theorem granted (j : Jwt Key Pub Sig) (k : Key) (made now : Int) (f : GenFlags) (kc : Kubeconfig) (rs : List PolicyRule)
    (hgen : runGenerateConfig j (some k) made f = some kc) (hrs : GivenRules f rs)
    (hj : j.WorksFor k made f (tokenNamespaces f) (tokenRules f rs))
    (h1 : made / second * second ≤ now) (h2 : now < (made + f.expiry) / second * second) :
    ∃ t, extractToken kc = some t ∧ (∃ info, authenticate j (j.pub k) now ("Bearer " ++ t) = .user info ∧ info.name = f.username) ∧
      ∀ a : Attrs, admitted j (j.pub k) now ("Bearer " ++ t) a = true ↔
        a.isResource = false ∨ (InNamespaces (tokenNamespaces f) a.ns ∧
          (tokenRules f rs = [] ∨ ∃ r ∈ tokenRules f rs, Covers Reads r a.verb a.apiGroup a.resource a.name)) := by
  rw [run_eq j k made f rs hrs] at hgen
  cases hgen
  obtain ⟨info, ha, hn, had⟩ := token_enforced j k made now f.expiry f.username (tokenNamespaces f) (tokenRules f rs) hj.1 h1 h2
  exact ⟨_, extract_generated _ _ _ _ _ _ _ (hj.2 _), ⟨info, ha, hn⟩, had⟩

theorem inNamespaces_asked (f : GenFlags) (h : SaysSomething f.namespaces) (ns : String) : InNamespaces (tokenNamespaces f) ns ↔ AskedNamespace f ns := by
  unfold InNamespaces AskedNamespace tokenNamespaces
  rw [C105_lists, C105_lists]
  have : parseCommaSeparated f.namespaces = [] ↔ f.namespaces = "" := by
    constructor
    · intro h0
      rcases h with h | ⟨x, hx⟩
      · exact h
      · rw [← C105_lists, h0] at hx
        simp at hx
    · intro h0
      rw [h0]; rfl
  rw [this]

theorem covers_named (n : List String) (hn : n ≠ []) (r : PolicyRule) (v g res name : String) :
    Covers Reads { r with resourceNames := n } v g res name ↔ Covers Reads { r with resourceNames := [] } v g res name ∧
      (name ≠ "" → v ∉ ["list", "watch", "create", "deletecollection"] → ∃ p, p ∈ n ∧ Reads p name) := by
  unfold Covers
  constructor
  · rintro ⟨h1, h2, h3, h4⟩
    exact ⟨⟨h1, h2, h3, fun _ _ h => absurd rfl h⟩, fun a b => h4 a b hn⟩
  · rintro ⟨⟨h1, h2, h3, _⟩, h4⟩
    exact ⟨h1, h2, h3, fun a b _ => h4 a b⟩

/-- **C105, partial.** A kubeconfig made on the command line gives exactly the rights asked for, while the token is valid: the namespaces listed, and what
the rules cover, the last one with the names listed. Missing: lists without items, an empty list of rules, and names without rules (see below: each gives
more than was asked for). -/
theorem C105_granted_partial (j : Jwt Key Pub Sig) (k : Key) (made now : Int) (f : GenFlags) (kc : Kubeconfig) (rs : List PolicyRule)
    (hgen : runGenerateConfig j (some k) made f = some kc) (hrs : GivenRules f rs)
    (hne : rs = [] → f.rules = none ∧ f.rulesFile = none) (hns : SaysSomething f.namespaces) (hnm : SaysSomething f.resourceNames)
    (hj : j.WorksFor k made f (tokenNamespaces f) (tokenRules f rs))
    (h1 : made / second * second ≤ now) (h2 : now < (made + f.expiry) / second * second) :
    ∃ t, extractToken kc = some t ∧ (∃ info, authenticate j (j.pub k) now ("Bearer " ++ t) = .user info ∧ info.name = f.username) ∧
      ∀ a : Attrs, admitted j (j.pub k) now ("Bearer " ++ t) a = true ↔ a.isResource = false ∨ (AskedNamespace f a.ns ∧ AskedRules f rs a) := by
  obtain ⟨t, ht, hi, had⟩ := granted j k made now f kc rs hgen hrs hj h1 h2
  refine ⟨t, ht, hi, ?_⟩
  intro a
  rw [had, inNamespaces_asked f hns]
  have : (tokenRules f rs = [] ∨ ∃ r ∈ tokenRules f rs, Covers Reads r a.verb a.apiGroup a.resource a.name) ↔ AskedRules f rs a := by
    unfold AskedRules
    rcases List.eq_nil_or_concat rs with rfl | ⟨init, last, rfl⟩
    · have : tokenRules f [] = [] := by unfold tokenRules; split <;> rfl
      rw [this]
      exact ⟨fun _ => Or.inl (hne rfl), fun _ => Or.inl rfl⟩
    · have hnr : ¬ (f.rules = none ∧ f.rulesFile = none) := by
        rintro ⟨e1, e2⟩
        rcases hrs with ⟨_, _, h⟩ | ⟨v, h | h, _⟩
        · simp at h
        · rw [e2] at h; simp at h
        · rw [e1] at h; simp at h
      rw [List.concat_eq_append]
      have hL : (∃ init' last', init ++ [last] = init' ++ [last'] ∧
          ((∃ r ∈ init', Covers Reads r a.verb a.apiGroup a.resource a.name) ∨ CoversNamed f last' a)) ↔
          ((∃ r ∈ init, Covers Reads r a.verb a.apiGroup a.resource a.name) ∨ CoversNamed f last a) := by
        constructor
        · rintro ⟨i', l', he, h⟩
          have := List.append_inj' he rfl
          rw [this.1]
          simp at this
          rw [this.2]
          exact h
        · intro h
          exact ⟨init, last, rfl, h⟩
      rw [hL]
      unfold tokenRules CoversNamed
      by_cases h0 : f.resourceNames = ""
      · rw [if_pos h0, if_pos h0]
        simp only [hnr, false_or, List.mem_append, List.mem_singleton]
        simp only [List.append_eq_nil_iff, List.cons_ne_nil, and_false, false_or]
        constructor
        · rintro ⟨r, h | rfl, hc⟩
          · exact Or.inl ⟨r, h, hc⟩
          · exact Or.inr hc
        · rintro (⟨r, h, hc⟩ | hc)
          · exact ⟨r, Or.inl h, hc⟩
          · exact ⟨_, Or.inr rfl, hc⟩
      · rw [if_neg h0, if_neg h0, replaceLastNames_append]
        have hnn : parseCommaSeparated f.resourceNames ≠ [] := by
          rcases hnm with h | ⟨x, hx⟩
          · exact absurd h h0
          · intro he
            rw [← C105_lists, he] at hx
            simp at hx
        simp only [hnr, false_or, List.mem_append, List.mem_singleton]
        simp only [List.append_eq_nil_iff, List.cons_ne_nil, and_false, false_or]
        have hcn := covers_named _ hnn last a.verb a.apiGroup a.resource a.name
        simp only [C105_lists] at hcn
        rw [← hcn]
        constructor
        · rintro ⟨r, h | rfl, hc⟩
          · exact Or.inl ⟨r, h, hc⟩
          · exact Or.inr hc
        · rintro (⟨r, h, hc⟩ | hc)
          · exact ⟨r, Or.inl h, hc⟩
          · exact ⟨_, Or.inr rfl, hc⟩
  rw [this]

/-- **C105.** Outside that time it gives no rights at all. -/
theorem C105_expires (j : Jwt Key Pub Sig) (k : Key) (made now : Int) (f : GenFlags) (kc : Kubeconfig) (rs : List PolicyRule)
    (hgen : runGenerateConfig j (some k) made f = some kc) (hrs : GivenRules f rs)
    (hj : j.WorksFor k made f (tokenNamespaces f) (tokenRules f rs))
    (h : now < made / second * second ∨ (made + f.expiry) / second * second ≤ now) :
    ∃ t, extractToken kc = some t ∧ ∀ a : Attrs, admitted j (j.pub k) now ("Bearer " ++ t) a = false := by
  rw [run_eq j k made f rs hrs] at hgen
  cases hgen
  exact ⟨_, extract_generated _ _ _ _ _ _ _ (hj.2 _), fun a => token_expires j k made now f.expiry f.username _ _ hj.1 h a⟩

/-- **C105.** A kubeconfig is made if and only if there is a key and the rules can be read: rules that cannot be read make none, rather than one without
restrictions. -/
theorem C105_refused (j : Jwt Key Pub Sig) (key : Option Key) (made : Int) (f : GenFlags) :
    (∃ kc, runGenerateConfig j key made f = some kc) ↔ key ≠ none ∧ ∃ rs, GivenRules f rs := by
  constructor
  · rintro ⟨kc, h⟩
    unfold runGenerateConfig at h
    cases hf : flagRules f with
    | none => rw [hf] at h; simp at h
    | some rs =>
      refine ⟨?_, rs, (flagRules_iff f rs).1 hf⟩
      rintro rfl
      rw [hf] at h
      simp at h
  · rintro ⟨hk, rs, hrs⟩
    cases key with
    | none => exact absurd rfl hk
    | some k => exact ⟨_, run_eq j k made f rs hrs⟩

/-- **C105, failure.** A list of namespaces without items, such as "," or " ", is no restriction: every namespace is granted. -/
theorem C105_blank_namespaces (j : Jwt Key Pub Sig) (k : Key) (made now : Int) (f : GenFlags) (kc : Kubeconfig) (rs : List PolicyRule)
    (hgen : runGenerateConfig j (some k) made f = some kc) (hrs : GivenRules f rs) (hrs0 : rs = [])
    (hblank : ∀ x, ¬ Listed f.namespaces x) (hj : j.WorksFor k made f (tokenNamespaces f) (tokenRules f rs))
    (h1 : made / second * second ≤ now) (h2 : now < (made + f.expiry) / second * second) :
    ∃ t, extractToken kc = some t ∧ ∀ a : Attrs, admitted j (j.pub k) now ("Bearer " ++ t) a = true := by
  obtain ⟨t, ht, _, had⟩ := granted j k made now f kc rs hgen hrs hj h1 h2
  refine ⟨t, ht, fun a => (had a).2 (Or.inr ⟨Or.inl ?_, Or.inl ?_⟩)⟩
  · unfold tokenNamespaces
    rw [List.eq_nil_iff_forall_not_mem]
    intro x hx
    exact hblank x ((C105_lists _ _).1 hx)
  · subst hrs0
    unfold tokenRules
    split <;> rfl

/-- **C105, failure.** Names without rules, or with an empty list of rules, are no restriction: everything in the namespaces is granted. -/
theorem C105_names_without_rules (j : Jwt Key Pub Sig) (k : Key) (made now : Int) (f : GenFlags) (kc : Kubeconfig) (rs : List PolicyRule)
    (hgen : runGenerateConfig j (some k) made f = some kc) (hrs : GivenRules f rs) (hrs0 : rs = []) (hns : SaysSomething f.namespaces)
    (hj : j.WorksFor k made f (tokenNamespaces f) (tokenRules f rs))
    (h1 : made / second * second ≤ now) (h2 : now < (made + f.expiry) / second * second) :
    ∃ t, extractToken kc = some t ∧ ∀ a : Attrs, AskedNamespace f a.ns → admitted j (j.pub k) now ("Bearer " ++ t) a = true := by
  obtain ⟨t, ht, _, had⟩ := granted j k made now f kc rs hgen hrs hj h1 h2
  refine ⟨t, ht, fun a ha => (had a).2 (Or.inr ⟨(inNamespaces_asked f hns _).2 ha, Or.inl ?_⟩)⟩
  subst hrs0
  unfold tokenRules
  split <;> rfl

/-- **C105.** The kubeconfig leads to the server asked for, with its certificate checked unless asked otherwise, in the namespace asked for, as the user asked for. -/
theorem C105_connects (j : Jwt Key Pub Sig) (key : Option Key) (made : Int) (f : GenFlags) (kc : Kubeconfig) (hgen : runGenerateConfig j key made f = some kc) :
    ∃ ctx cl, kc.contexts.get kc.current = some ctx ∧ kc.clusters.get ctx.cluster = some cl ∧ ctx.ns = f.defaultNamespace ∧ ctx.authInfo = f.username ∧
      (f.httpMode = true → cl.server = "http://" ++ f.serverAddress) ∧ (f.httpMode = false → cl.server = "https://" ++ f.serverAddress) ∧
      cl.insecure = f.insecure := by
  unfold runGenerateConfig at hgen
  cases hf : flagRules f with
  | none => rw [hf] at hgen; simp at hgen
  | some rs =>
    cases key with
    | none => rw [hf] at hgen; simp at hgen
    | some k =>
      rw [hf] at hgen
      simp only [Option.bind_eq_bind, Option.bind_some, Option.some.injEq] at hgen
      subst hgen
      refine ⟨⟨"dcontroller", f.username, f.defaultNamespace⟩, _, by simp [generateKubeconfig, AMap.get, AMap.set], by simp [generateKubeconfig, AMap.get, AMap.set]; rfl,
        rfl, rfl, ?_, ?_, rfl⟩ <;> intro h <;> simp [h] <;> rfl

/-- **C105.** What is taken from a kubeconfig is a token, that of the user of its current context. -/
theorem C105_extracted (kc : Kubeconfig) (t : String) (h : extractToken kc = some t) :
    t ≠ "" ∧ ∃ ctx, kc.contexts.get kc.current = some ctx ∧ kc.authInfos.get ctx.authInfo = some t := by
  unfold extractToken at h
  split at h
  · simp at h
  · split at h
    · simp at h
    · rename_i c hc
      split at h
      · simp at h
      · rename_i t' ht
        split at h
        · simp at h
        · rename_i hne
          cases h
          exact ⟨hne, c, hc, ht⟩

/-- **C105, failure.** A list of names without items removes the names the last rule was restricted to. -/
theorem C105_blank_names (j : Jwt Key Pub Sig) (k : Key) (made now : Int) (f : GenFlags) (kc : Kubeconfig) (init : List PolicyRule) (last : PolicyRule)
    (hgen : runGenerateConfig j (some k) made f = some kc) (hrs : GivenRules f (init ++ [last])) (hns : SaysSomething f.namespaces)
    (hne : f.resourceNames ≠ "") (hblank : ∀ x, ¬ Listed f.resourceNames x)
    (hj : j.WorksFor k made f (tokenNamespaces f) (tokenRules f (init ++ [last])))
    (h1 : made / second * second ≤ now) (h2 : now < (made + f.expiry) / second * second) :
    ∃ t, extractToken kc = some t ∧ ∀ a : Attrs, AskedNamespace f a.ns →
      Covers Reads { last with resourceNames := [] } a.verb a.apiGroup a.resource a.name → admitted j (j.pub k) now ("Bearer " ++ t) a = true := by
  obtain ⟨t, ht, _, had⟩ := granted j k made now f kc _ hgen hrs hj h1 h2
  refine ⟨t, ht, fun a ha hc => (had a).2 (Or.inr ⟨(inNamespaces_asked f hns _).2 ha, Or.inr ⟨{ last with resourceNames := [] }, ?_, hc⟩⟩)⟩
  have : parseCommaSeparated f.resourceNames = [] := by
    rw [List.eq_nil_iff_forall_not_mem]
    intro x hx
    exact hblank x ((C105_lists _ _).1 hx)
  unfold tokenRules
  rw [if_neg hne, this, replaceLastNames_append]
  simp

/-! ### what `get-config` shows -/

/-- **C105.** For a kubeconfig just made, `get-config` shows the user, the namespaces and the rules put into the token. -/
theorem C105_shown (j : Jwt Key Pub Sig) (k : Key) (made now : Int) (f : GenFlags) (kc : Kubeconfig) (rs : List PolicyRule)
    (hgen : runGenerateConfig j (some k) made f = some kc) (hrs : GivenRules f rs)
    (hj : j.WorksFor k made f (tokenNamespaces f) (tokenRules f rs))
    (h1 : made / second * second ≤ now) (h2 : now < (made + f.expiry) / second * second) :
    ∃ c, runGetConfig j (j.pub k) now kc = .shows c ∧ c.username = f.username ∧ (∀ ns, ns ∈ c.namespaces ↔ Listed f.namespaces ns) ∧
      (f.resourceNames = "" → c.rules = rs) := by
  rw [run_eq j k made f rs hrs] at hgen
  cases hgen
  obtain ⟨⟨hr, hs⟩, he⟩ := hj
  refine ⟨expectedClaims made f.expiry f.username (tokenNamespaces f) (tokenRules f rs), ?_, rfl, fun ns => C105_lists _ _, ?_⟩
  · unfold runGetConfig
    have hx : generateToken j k made f.username (tokenNamespaces f) (tokenRules f rs) f.expiry ≠ "" := he _
    rw [extract_generated _ _ _ _ _ _ _ hx]
    unfold expectedClaims at *
    have hm : "RS256" ∈ rsaKeyMethods := by decide
    have hi : readDate ((claimsJson ⟨f.username, tokenNamespaces f, tokenRules f rs, some ((made + f.expiry) / second), some (made / second)⟩
        (made / second)).field "iat") = some (some (made / second)) := by
      simp [claimsJson, Json.field, SMap.get, readDate]
    unfold generateToken
    simp only [hr, readClaims_claimsJson, hi, hs]
    simp [hm, h1, h2]
  · intro h
    simp [expectedClaims, tokenRules, h]

/-- **C105, partial.** What `get-config` shows for a token signed with one of the methods the API server accepts is what the server enforces. Missing: the
other methods for RSA keys, which `get-config` accepts and the server does not (see below). -/
theorem C105_shows_enforced_partial (j : Jwt Key Pub Sig) (p : Pub) (now : Int) (kc : Kubeconfig) (t : String) (c : Claims)
    (ht : extractToken kc = some t) (hs : runGetConfig j p now kc = .shows c)
    (halg : ∀ r, j.decode t = some r → r.alg ∈ ["RS256", "RS384", "RS512"]) :
    (∃ info, authenticate j p now ("Bearer " ++ t) = .user info ∧ info.name = c.username) ∧
    ∀ a : Attrs, admitted j p now ("Bearer " ++ t) a = true ↔
      a.isResource = false ∨ (InNamespaces c.namespaces a.ns ∧ (c.rules = [] ∨ ∃ r ∈ c.rules, Covers Reads r a.verb a.apiGroup a.resource a.name)) := by
  have hp : parseToken j p now t = some c := by
    unfold runGetConfig at hs
    rw [ht] at hs
    simp only at hs
    cases hd : j.decode t with
    | none => rw [hd] at hs; simp at hs
    | some r =>
      rw [hd] at hs
      simp only at hs
      have ha := halg r hd
      have ha' : rsaMethods.contains r.alg = true := by simpa [rsaMethods] using ha
      cases hc : readClaims r.claims with
      | none => rw [hc] at hs; simp at hs
      | some c' =>
        rw [hc] at hs
        cases hi : readDate (r.claims.field "iat") with
        | none => rw [hi] at hs; simp at hs
        | some iat =>
          rw [hi] at hs
          simp only at hs
          unfold parseToken
          simp only [hd, Option.bind_eq_bind, Option.bind_some, hc]
          rw [if_neg (by rw [ha']; simp)]
          obtain ⟨u, n, rr, e, b⟩ := c'
          cases e <;> cases b <;> grind
  have ha : authenticate j p now ("Bearer " ++ t) = .user (userOf c) := by
    unfold authenticate
    rw [bearer_ne, bearer_prefix, bearer_drop, hp]
    rfl
  refine ⟨⟨_, ha, rfl⟩, ?_⟩
  intro a
  unfold admitted
  rw [ha]
  simp only
  rw [authorize_iff _ _ rfl, checkRBAC_userOf]
  have : (userOf c).namespaces = c.namespaces := by
    unfold userOf
    cases c.namespaces <;> simp
  rw [this]

/-! ### examples -/

/-- A token library that knows one token, with the method and the claims given. -/
def oneJwt (alg : String) (c : Json) : Jwt Unit Unit (String × Json) where
  pub := id
  sign := fun _ alg c => (alg, c)
  verify := fun _ alg c s => decide (s = (alg, c))
  encode := fun t => if t.claims = c then "token" else "other"
  decode := fun s => if s = "token" then some ⟨alg, c, (alg, c)⟩ else none

/-- It works for the claims it knows: the hypotheses on the library can be met for all flags. -/
theorem oneJwt_works (made : Int) (f : GenFlags) (nss : List String) (rs : List PolicyRule) :
    (oneJwt "RS256" (claimsJson (expectedClaims made f.expiry f.username nss rs) (made / second))).WorksFor () made f nss rs := by
  refine ⟨⟨?_, ?_⟩, ?_⟩
  · simp [oneJwt]
  · simp [oneJwt]
  · intro t
    unfold oneJwt
    simp only
    split <;> decide

/-- The rule of the examples, as written on the command line. -/
def demoRuleText : Json := .list [.map [("apiGroups", .list [.str ""]), ("resourceNames", .list [.str "pod-0"]), ("resources", .list [.str "pods"]),
  ("verbs", .list [.str "get", .str "update"])]]

/-- Flags much as in the examples of `main.go:356-360`. -/
def demoFlags : GenFlags := ⟨"restricted", "default, dev", some (some demoRuleText), none, "pod-1,pod-2", 3600 * second, "localhost:8443", "", false, false⟩

/-- The rule they give. -/
def demoGiven : PolicyRule := ⟨["get", "update"], [""], ["pods"], ["pod-0"]⟩

/-- The hypotheses of `C105_granted_partial` hold of them. -/
example : GivenRules demoFlags [demoGiven] ∧ SaysSomething demoFlags.namespaces ∧ SaysSomething demoFlags.resourceNames ∧
    (500000000 : Int) / second * second ≤ 600000000 ∧ (600000000 : Int) < (500000000 + demoFlags.expiry) / second * second :=
  ⟨Or.inr ⟨demoRuleText, Or.inr ⟨rfl, rfl⟩, by decide⟩, Or.inr ⟨"dev", (C105_lists _ _).1 (by decide)⟩, Or.inr ⟨"pod-1", (C105_lists _ _).1 (by decide)⟩,
    by decide, by decide⟩

/-- What is granted with them. -/
example : tokenNamespaces demoFlags = ["default", "dev"] ∧ tokenRules demoFlags [demoGiven] = [⟨["get", "update"], [""], ["pods"], ["pod-1", "pod-2"]⟩] := by
  decide

/-- Flags for `C105_blank_namespaces`, `C105_names_without_rules` and `C105_blank_names`. -/
example : (∀ x, ¬ Listed { demoFlags with namespaces := " ," }.namespaces x) ∧
    GivenRules { demoFlags with namespaces := " ,", rules := none } [] ∧ GivenRules { demoFlags with rules := some (some (.list [])) } [] ∧
    GivenRules { demoFlags with rules := some (some .null) } [] ∧
    (∀ x, ¬ Listed { demoFlags with resourceNames := "," }.resourceNames x) ∧ GivenRules { demoFlags with resourceNames := "," } ([] ++ [demoGiven]) := by
  refine ⟨?_, Or.inl ⟨rfl, rfl, rfl⟩, Or.inr ⟨_, Or.inr ⟨rfl, rfl⟩, by decide⟩, Or.inr ⟨_, Or.inr ⟨rfl, rfl⟩, by decide⟩, ?_,
    Or.inr ⟨demoRuleText, Or.inr ⟨rfl, rfl⟩, by decide⟩⟩
  · intro x hx
    have : x ∈ parseCommaSeparated " ," := (C105_lists _ _).2 hx
    rw [show parseCommaSeparated " ," = [] from by decide] at this
    simp at this
  · intro x hx
    have : x ∈ parseCommaSeparated "," := (C105_lists _ _).2 hx
    rw [show parseCommaSeparated "," = [] from by decide] at this
    simp at this

/-- Rules that cannot be read: `C105_refused` says no kubeconfig is made. -/
example : ¬ ∃ rs, GivenRules { demoFlags with rules := some none } rs := by
  rintro ⟨rs, h⟩
  have := (flagRules_iff _ _).2 h
  simp [flagRules, demoFlags] at this

/-- The claims of a token with the dates given. -/
def demoClaimsWith (dates : SMap Json) : Json := .map (dates ++ [("username", .str "alice")])

/-- A kubeconfig with that token. -/
def demoKube : Kubeconfig := generateKubeconfig "localhost:8443" "alice" "token" "dcontroller" "dcontroller" "" false false

/-- **C105, failure.** `get-config` shows a token as valid that the API server refuses: one signed with the same key by another method. -/
theorem C105_shown_refused : ∃ (j : Jwt Unit Unit (String × Json)) (p : Unit) (now : Int) (kc : Kubeconfig) (t : String) (c : Claims),
    extractToken kc = some t ∧ runGetConfig j p now kc = .shows c ∧ ∀ a : Attrs, admitted j p now ("Bearer " ++ t) a = false := by
  refine ⟨oneJwt "PS256" (demoClaimsWith [("exp", .int 10), ("iat", .int 0), ("nbf", .int 0)]), (), 0, demoKube, "token",
    ⟨"alice", [], [], some 10, some 0⟩, by decide, by decide +kernel, ?_⟩
  intro a
  have : authenticate (oneJwt "PS256" (demoClaimsWith [("exp", .int 10), ("iat", .int 0), ("nbf", .int 0)])) () 0 ("Bearer " ++ "token") = .error := by
    decide +kernel
  unfold admitted
  rw [this]

/-- **C105, failure.** `get-config` panics for a token the API server accepts: one without a date. -/
theorem C105_shown_panics : ∃ (j : Jwt Unit Unit (String × Json)) (p : Unit) (now : Int) (kc : Kubeconfig) (t : String),
    extractToken kc = some t ∧ runGetConfig j p now kc = .panics ∧ ∃ info, authenticate j p now ("Bearer " ++ t) = .user info :=
  ⟨oneJwt "RS256" (demoClaimsWith []), (), 0, demoKube, "token", by decide, by decide +kernel, ⟨"alice", [], []⟩, by decide +kernel⟩

/-- A token for `C105_shows_enforced_partial`. -/
example : extractToken demoKube = some "token" ∧
    runGetConfig (oneJwt "RS256" (demoClaimsWith [("exp", .int 10), ("iat", .int 0), ("nbf", .int 0)])) () 5 demoKube =
      .shows ⟨"alice", [], [], some 10, some 0⟩ := by
  decide +kernel

end Dctl
