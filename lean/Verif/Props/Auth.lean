import Verif.Auth.Lemmas
/-!
# Authorization, tokens (C49–C52, C69)
-/
set_option autoImplicit false
namespace Dctl

/-! ## C49: namespace restriction -/

/-- **C49.** A user granted some namespaces, not all of them, is only allowed resource requests in these: not in another namespace, and not across all
namespaces (the empty one). -/
theorem namespace_restricted (u : UserInfo) (a : Attrs) (hu : a.user = some u) (hr : a.isResource = true) (hn : u.namespaces ≠ [])
    (hw : "*" ∉ u.namespaces) (ha : authorize a = true) : a.ns ∈ u.namespaces ∧ a.ns ≠ "" := by
  rcases (authorize_iff u a hu).1 ha with h | ⟨h | h | h, -⟩
  · simp [hr] at h
  · exact absurd h hn
  · exact absurd h hw
  · exact ⟨h.2, h.1⟩

/-- A user with one namespace. -/
def oneNs : UserInfo := ⟨"alice", ["team-a"], []⟩

/-- The request is allowed. -/
example : authorize ⟨some oneNs, true, "get", "op.view.dcontroller.io", "pod", "p", "team-a"⟩ = true := by decide

/-- Requests elsewhere or everywhere are not. -/
example : authorize ⟨some oneNs, true, "get", "op.view.dcontroller.io", "pod", "p", "team-b"⟩ = false ∧
    authorize ⟨some oneNs, true, "list", "op.view.dcontroller.io", "pod", "", ""⟩ = false := by decide

/-- **C49.** The restriction takes nothing else away: within the namespaces granted, with all of them granted, or without restriction, the rules alone
decide. -/
theorem namespace_no_more (u : UserInfo) (a : Attrs) (hu : a.user = some u) (hr : a.isResource = true)
    (h : u.namespaces = [] ∨ "*" ∈ u.namespaces ∨ (a.ns ≠ "" ∧ a.ns ∈ u.namespaces)) :
    authorize a = checkRBAC u a.verb a.apiGroup a.resource a.name := by
  have := authorize_iff u a hu
  rw [Bool.eq_iff_iff, this]
  simp only [hr, Bool.true_eq_false, false_or]
  exact ⟨fun h => h.2, fun h' => ⟨h, h'⟩⟩

/-- Its hypotheses hold of the user above. -/
example : oneNs.namespaces = [] ∨ "*" ∈ oneNs.namespaces ∨ ("team-a" ≠ "" ∧ "team-a" ∈ oneNs.namespaces) := by decide

/-- **C49.** Without a user nothing is allowed. -/
theorem no_user_denied (a : Attrs) (h : a.user = none) : authorize a = false := by
  simp [authorize, h]

/-- Such a request. -/
example : (⟨none, false, "get", "", "", "", ""⟩ : Attrs).user = none := rfl

/-! ## C51: wildcard patterns -/

/-- **C51.** A pattern without '*' matches itself only. -/
theorem plain_pattern (p v : String) (h : '*' ∉ p.toList) : matchesAny [p] v = true ↔ p = v := by
  rw [matchesAny_iff]
  simp only [List.mem_singleton, exists_eq_left]
  constructor
  · rintro (h1 | ⟨b, x, hb, -⟩ | ⟨a, x, ha, -⟩ | ⟨a, b, x, y, ha, -⟩)
    · exact h1
    · exact absurd (by rw [hb]; simp) h
    · exact absurd (by rw [ha]; simp) h
    · exact absurd (by rw [ha]; simp) h
  · exact Or.inl

/-- Such a pattern. -/
example : '*' ∉ ("pods" : String).toList ∧ matchesAny ["pods"] "pods" = true ∧ matchesAny ["pods"] "pod" = false := by decide +kernel

/-- **C51.** A pattern with one '*' matches every string obtained by replacing the '*'. -/
theorem wildcard_complete (a b x : String) (ha : '*' ∉ a.toList) (hb : '*' ∉ b.toList) : matchesAny [a ++ "*" ++ b] (a ++ x ++ b) = true := by
  rw [matchesAny_iff]
  refine ⟨_, List.mem_singleton.2 rfl, ?_⟩
  by_cases h1 : a = ""
  · subst h1
    exact Or.inr (Or.inl ⟨b, x, by simp, by simp⟩)
  · by_cases h2 : b = ""
    · subst h2
      refine Or.inr (Or.inr (Or.inl ⟨a, x, by simp, ?_, by simp⟩))
      intro e
      exact ha (List.mem_of_mem_head? (by simp [e]))
    · refine Or.inr (Or.inr (Or.inr ⟨a, b, x ++ b, a ++ x, rfl, h1, ?_, h2, ha, by simp [String.append_assoc], rfl⟩))
      intro e
      exact hb (List.mem_of_getLast? e)

/-- Such a pattern and such a string. -/
example : matchesAny ["kube-" ++ "*" ++ "-view"] ("kube-" ++ "foo" ++ "-view") = true := by decide +kernel

/-- **C51, partial.** A pattern with one '*' matches exactly the strings obtained by replacing it, among the strings that are at least as long as the rest
of the pattern. Missing: shorter strings, see `wildcard_overlap`; for a '*' at an end nothing is missing, see `end_wildcard_exact`. -/
theorem wildcard_exact_partial (a b v : String) (ha : '*' ∉ a.toList) (hb : '*' ∉ b.toList)
    (hlen : a.toList.length + b.toList.length ≤ v.toList.length) : matchesAny [a ++ "*" ++ b] v = true ↔ ∃ x, v = a ++ x ++ b := by
  constructor
  · intro h
    rw [matchesAny_iff] at h
    simp only [List.mem_singleton, exists_eq_left] at h
    have key : (∃ x, v = a ++ x) ∧ (∃ y, v = y ++ b) := by
      rcases h with h1 | ⟨b', x, hb', hx⟩ | ⟨a', x, ha', hne, hx⟩ | ⟨a', b', x, y, he, -, -, -, hn, hx, hy⟩
      · subst h1
        exact ⟨⟨"*" ++ b, by simp [String.append_assoc]⟩, ⟨a ++ "*", rfl⟩⟩
      · have he := congrArg String.toList hb'
        simp only [String.toList_append, List.append_assoc] at he
        obtain ⟨e1, e2⟩ := split_unique a.toList b.toList [] b'.toList ha (by simp) (by simpa using he)
        have : a = "" := String.toList_injective (by simp [e1])
        rw [String.toList_injective e2]
        exact ⟨⟨v, by simp [this]⟩, ⟨x, hx⟩⟩
      · have he := congrArg String.toList ha'
        simp only [String.toList_append] at he
        have hb0 : b.toList = [] := by
          cases hb1 : b.toList with
          | nil => rfl
          | cons c t =>
            exfalso
            have h1 := congrArg List.getLast? he
            rw [List.getLast?_append, List.getLast?_append, hb1] at h1
            rw [hb1] at hb
            apply hb
            apply List.mem_of_getLast?
            rw [List.getLast?_eq_some_getLast (by simp)] at h1 ⊢
            simpa using h1
        rw [hb0] at he
        have ha1 : a = a' := String.toList_injective (by simpa using he)
        have hb2 : b = "" := String.toList_injective (by simp [hb0])
        rw [ha1, hb2]
        exact ⟨⟨x, hx⟩, ⟨v, by simp⟩⟩
      · have he' := congrArg String.toList he
        simp only [String.toList_append, List.append_assoc] at he'
        obtain ⟨e1, e2⟩ := split_unique _ _ _ _ ha hn (by simpa using he')
        rw [String.toList_injective e1, String.toList_injective e2]
        exact ⟨⟨x, hx⟩, ⟨y, hy⟩⟩
    obtain ⟨⟨x, hx⟩, ⟨y, hy⟩⟩ := key
    -- the suffix lies in what follows the prefix
    have h1 : v.toList = a.toList ++ x.toList := by rw [hx]; simp
    have h2 : v.toList = y.toList ++ b.toList := by rw [hy]; simp
    have hx' : x.toList.length = v.toList.length - a.toList.length := by rw [h1]; simp
    have hbx : b.toList = x.toList.drop (x.toList.length - b.toList.length) := by
      have h3 : b.toList = v.toList.drop (v.toList.length - b.toList.length) := by rw [h2]; simp
      rw [h3, h1, List.drop_append]
      have h4 : a.toList.length ≤ v.toList.length - b.toList.length := by omega
      have h5 : (a.toList ++ x.toList).length = v.toList.length := by rw [h1]
      have h6 : List.drop (v.toList.length - b.toList.length) a.toList = [] := List.drop_eq_nil_of_le h4
      rw [h5, h6, List.nil_append]
      have h7 : (List.drop (v.toList.length - b.toList.length - a.toList.length) x.toList).length = b.toList.length := by
        rw [List.length_drop]; omega
      rw [h7]
      congr 1
      omega
    refine ⟨String.ofList (x.toList.take (x.toList.length - b.toList.length)), String.toList_injective ?_⟩
    rw [h1]
    simp only [String.toList_append, String.toList_ofList, List.append_assoc]
    conv => rhs; rw [hbx]
    have : x.toList.length - (List.drop (x.toList.length - b.toList.length) x.toList).length = x.toList.length - b.toList.length := by
      rw [List.length_drop]; omega
    rw [this, List.take_append_drop]
  · rintro ⟨x, rfl⟩
    exact wildcard_complete a b x ha hb

/-- Its hypotheses hold of a pattern with a '*' in the middle, one that matches and one that does not. -/
example : '*' ∉ "ab".toList ∧ '*' ∉ "ba".toList ∧ "ab".toList.length + "ba".toList.length ≤ "abxba".toList.length ∧
    matchesAny ["ab" ++ "*" ++ "ba"] "abxba" = true ∧ matchesAny ["ab" ++ "*" ++ "ba"] "abxxx" = false := by decide +kernel

/-- **C51, not as stated.** The two ends of a pattern may overlap in the string matched: "ab*ba" matches "aba", which is not obtained by replacing the
'*'. -/
theorem wildcard_overlap : matchesAny ["ab*ba"] "aba" = true ∧ ¬ ∃ x, "aba" = "ab" ++ x ++ "ba" := by
  refine ⟨by decide +kernel, ?_⟩
  rintro ⟨x, hx⟩
  have := congrArg (fun s => s.toList.length) hx
  simp at this

/-- **C51.** A pattern with its '*' at an end matches exactly the strings obtained by replacing it. -/
theorem end_wildcard_exact (a v : String) (ha : '*' ∉ a.toList) :
    (matchesAny ["*" ++ a] v = true ↔ ∃ x, v = x ++ a) ∧ (matchesAny [a ++ "*"] v = true ↔ ∃ x, v = a ++ x) := by
  constructor
  · constructor
    · intro h
      by_cases hl : a.toList.length ≤ v.toList.length
      · have := (wildcard_exact_partial "" a v (by simp) ha (by simpa using hl)).1 (by simpa using h)
        simpa using this
      · rw [matchesAny_iff] at h
        simp only [List.mem_singleton, exists_eq_left] at h
        rcases h with h1 | ⟨b', x, hb', hx⟩ | ⟨a', x, ha', hne, hx⟩ | ⟨a', b', x, y, he, -, -, -, hn, hx, hy⟩
        · exact ⟨"*", h1.symm⟩
        · have : a = b' := String.toList_injective (by simpa using congrArg String.toList hb')
          exact ⟨x, by rw [this]; exact hx⟩
        · have hm : a'.toList = [] := by
            cases h' : a'.toList with
            | nil => rfl
            | cons c t =>
              have := congrArg String.toList ha'
              simp [h'] at this hne
              exact absurd this.1.symm hne
          have : a = "" := String.toList_injective (by have := congrArg String.toList ha'; simpa [hm] using this)
          exact ⟨v, by simp [this]⟩
        · have hm : a'.toList = [] := by
            cases h' : a'.toList with
            | nil => rfl
            | cons c t =>
              have := congrArg String.toList he
              simp [h'] at this hn
              exact absurd this.1 hn.1
          have : a = b' := String.toList_injective (by have := congrArg String.toList he; simpa [hm] using this)
          exact ⟨y, by rw [this]; exact hy⟩
    · rintro ⟨x, rfl⟩
      simpa using wildcard_complete "" a x (by simp) ha
  · constructor
    · intro h
      by_cases hl : a.toList.length ≤ v.toList.length
      · have := (wildcard_exact_partial a "" v ha (by simp) (by simpa using hl)).1 (by simpa using h)
        simpa using this
      · exfalso
        apply hl
        rw [matchesAny_iff] at h
        simp only [List.mem_singleton, exists_eq_left] at h
        rcases h with h1 | ⟨b', x, hb', hx⟩ | ⟨a', x, ha', hne, hx⟩ | ⟨a', b', x, y, he, -, hbl, hbe, -⟩
        · rw [← h1]; simp
        · have hm : a.toList = [] := by
            cases h' : a.toList with
            | nil => rfl
            | cons c t =>
              have := congrArg String.toList hb'
              simp [h'] at this ha
              exact absurd this.1.symm ha.1
          simp [hm]
        · have : a = a' := String.toList_injective (by simpa using congrArg String.toList ha')
          rw [hx, this]; simp
        · have hm := congrArg (fun s => s.toList.getLast?) he
          simp only [String.toList_append] at hm
          have hbn : b'.toList ≠ [] := fun e => hbe (String.toList_injective (by simp [e]))
          rw [getLast_append _ _ hbn] at hm
          simp at hm
          exact absurd hm.symm hbl
    · rintro ⟨x, rfl⟩
      simpa using wildcard_complete a "" x ha (by simp)

/-- Such a pattern, matching and not. -/
example : '*' ∉ "kube-".toList ∧ matchesAny ["kube-" ++ "*"] "kube-system" = true ∧ matchesAny ["*" ++ "kube-"] "kube-system" = false := by decide +kernel

/-- **C51.** What any pattern means, also with several '*'s. -/
theorem pattern_reads (p v : String) : matchesAny [p] v = true ↔ Reads p v := by
  simp [matchesAny_iff]

/-- With several '*'s only one of them is a wildcard. -/
example : matchesAny ["*a*"] "xay" = false ∧ matchesAny ["*a*"] "xa*" = true ∧ matchesAny ["**"] "x" = false := by decide +kernel

/-! ## C50: the decision about rules -/

/-- **C50.** A request is allowed exactly if the user has no rules, or its rules can be read and one of them covers the request. -/
theorem rbac_exact (u : UserInfo) (verb g res name : String) : checkRBAC u verb g res name = true ↔
    u.rules = [] ∨ ∃ t ts j rs, u.rules = t :: ts ∧ t = some j ∧ readRules (some j) = some rs ∧ ∃ r ∈ rs, Covers Reads r verb g res name := by
  unfold checkRBAC
  cases hu : u.rules with
  | nil => simp
  | cons t ts =>
    cases t with
    | none => simp
    | some j =>
      cases hr : readRules (some j) with
      | none => simp [hr]
      | some rs => simp [hr, ruleMatches_iff]

/-- **C50.** For rules whose patterns have their '*' at an end the patterns mean what they say: a user given a non-empty list of rules is allowed exactly
what one of them covers. -/
theorem rbac_rules (name' : String) (nss : List String) (rs : List PolicyRule) (e b : Option Int) (hrs : rs ≠ []) (hend : ∀ r ∈ rs, EndStars r)
    (verb g res name : String) : checkRBAC (userOf ⟨name', nss, rs, e, b⟩) verb g res name = true ↔ ∃ r ∈ rs, Covers Denotes r verb g res name := by
  rw [checkRBAC_userOf]
  have hsem : ∀ p v : String, (∃ a : String, '*' ∉ a.toList ∧ (p = a ∨ p = "*" ++ a ∨ p = a ++ "*")) → (Reads p v ↔ Denotes p v) := by
    rintro p v ⟨a, ha, hp⟩
    rw [← pattern_reads]
    rcases hp with rfl | rfl | rfl
    · rw [plain_pattern _ _ ha]
      constructor
      · exact Or.inl
      · rintro (h | ⟨a', x, b', hf, -⟩)
        · exact h
        · exact absurd (by rw [hf]; simp) ha
    · rw [(end_wildcard_exact a v ha).1]
      constructor
      · rintro ⟨x, rfl⟩; exact Or.inr ⟨"", x, a, by simp, by simp⟩
      · rintro (h | ⟨a', x, b', hf, hv⟩)
        · exact ⟨"*", h.symm⟩
        · have hf' := congrArg String.toList hf
          simp only [String.toList_append, List.append_assoc] at hf'
          have ha' : a'.toList = [] := by
            cases h' : a'.toList with
            | nil => rfl
            | cons c t =>
              simp [h'] at hf'
              exact absurd (by rw [hf'.2]; simp) ha
          have : a = b' := String.toList_injective (by simpa [ha'] using hf')
          have h0 : a' = "" := String.toList_injective (by simp [ha'])
          exact ⟨x, by rw [hv, this, h0]; simp⟩
    · rw [(end_wildcard_exact a v ha).2]
      constructor
      · rintro ⟨x, rfl⟩; exact Or.inr ⟨a, x, "", by simp, by simp⟩
      · rintro (h | ⟨a', x, b', hf, hv⟩)
        · exact ⟨"*", h.symm⟩
        · have hf' := congrArg String.toList hf
          simp only [String.toList_append, List.append_assoc] at hf'
          have hna' : '*' ∉ a'.toList := by
            intro hm
            obtain ⟨l1, l2, hl⟩ := List.append_of_mem hm
            rw [hl] at hf'
            have h1 := congrArg List.dropLast hf'
            have h2 : a.toList = (l1 ++ '*' :: (l2 ++ '*' :: b'.toList)).dropLast := by simpa using h1
            apply ha
            rw [h2, List.dropLast_append_of_ne_nil (by simp)]
            simp [List.dropLast_cons_of_ne_nil]
          obtain ⟨e1, e2⟩ := split_unique a.toList [] a'.toList b'.toList ha hna' (by simpa using hf')
          rw [hv, ← String.toList_injective e1]
          exact ⟨x ++ b', by simp [String.append_assoc]⟩
  simp only [hrs, false_or]
  have hcov : ∀ r, EndStars r → (Covers Reads r verb g res name ↔ Covers Denotes r verb g res name) := by
    intro r hr
    have hl : ∀ (l : List String) (v : String), (∀ p ∈ l, p ∈ r.verbs ++ r.apiGroups ++ r.resources ++ r.resourceNames) →
        ((∃ p ∈ l, Reads p v) ↔ (∃ p ∈ l, Denotes p v)) := by
      intro l v h
      constructor
      · rintro ⟨p, hp, h'⟩; exact ⟨p, hp, (hsem p v (hr p (h p hp))).1 h'⟩
      · rintro ⟨p, hp, h'⟩; exact ⟨p, hp, (hsem p v (hr p (h p hp))).2 h'⟩
    unfold Covers
    rw [hl r.verbs verb (by simp +contextual), hl r.apiGroups g (by simp +contextual), hl r.resources res (by simp +contextual),
      hl r.resourceNames name (by simp +contextual)]
  constructor
  · rintro ⟨r, hr, h⟩; exact ⟨r, hr, (hcov r (hend r hr)).1 h⟩
  · rintro ⟨r, hr, h⟩; exact ⟨r, hr, (hcov r (hend r hr)).2 h⟩

/-- A rule with patterns of all kinds. -/
def demoRule : PolicyRule := ⟨["get", "list"], ["*.view.dcontroller.io"], ["pod"], ["web-*"]⟩

/-- It meets the hypothesis. -/
example : EndStars demoRule := by
  intro p hp
  simp only [demoRule, List.cons_append, List.nil_append, List.mem_cons, List.not_mem_nil, or_false] at hp
  rcases hp with rfl | rfl | rfl | rfl | rfl
  · exact ⟨"get", by decide +kernel, Or.inl rfl⟩
  · exact ⟨"list", by decide +kernel, Or.inl rfl⟩
  · exact ⟨".view.dcontroller.io", by decide +kernel, Or.inr (Or.inl (by decide +kernel))⟩
  · exact ⟨"pod", by decide +kernel, Or.inl rfl⟩
  · exact ⟨"web-", by decide +kernel, Or.inr (Or.inr (by decide +kernel))⟩

/-- What it allows and what not. -/
example : checkRBAC (userOf ⟨"u", [], [demoRule], none, none⟩) "get" "op.view.dcontroller.io" "pod" "web-1" = true ∧
    checkRBAC (userOf ⟨"u", [], [demoRule], none, none⟩) "get" "op.view.dcontroller.io" "pod" "db-1" = false ∧
    checkRBAC (userOf ⟨"u", [], [demoRule], none, none⟩) "delete" "op.view.dcontroller.io" "pod" "web-1" = false := by decide +kernel

/-- **C50, partial.** Adding rules to a user who has some never removes a permission. Missing: users without rules, see `first_rule_removes`. -/
theorem rbac_monotone_partial (n : String) (nss : List String) (rs rs' : List PolicyRule) (e b : Option Int) (hrs : rs ≠ []) (hsub : ∀ r ∈ rs, r ∈ rs')
    (verb g res name : String) (h : checkRBAC (userOf ⟨n, nss, rs, e, b⟩) verb g res name = true) :
    checkRBAC (userOf ⟨n, nss, rs', e, b⟩) verb g res name = true := by
  rw [checkRBAC_userOf] at h ⊢
  rcases h with h | ⟨r, hr, h⟩
  · exact absurd h hrs
  · exact Or.inr ⟨r, hsub r hr, h⟩

/-- Its hypotheses hold. -/
example : checkRBAC (userOf ⟨"u", [], [demoRule], none, none⟩) "list" "op.view.dcontroller.io" "pod" "" = true ∧ demoRule ∈ [⟨[], [], [], []⟩, demoRule] := by
  decide +kernel

/-- **C50, not as stated.** The first rule given to a user without rules removes permissions: no rules is full access. -/
theorem first_rule_removes : ∃ (r : PolicyRule) (verb g res name : String),
    checkRBAC (userOf ⟨"u", [], [], none, none⟩) verb g res name = true ∧ checkRBAC (userOf ⟨"u", [], [r], none, none⟩) verb g res name = false :=
  ⟨demoRule, "delete", "op.view.dcontroller.io", "pod", "web-1", by decide +kernel⟩

theorem readElems_from {l : List Json} {rs : List String} (h : l.mapM readElem = some rs) {p : String} (hp : p ∈ rs) (hne : p ≠ "") : Json.str p ∈ l := by
  induction l generalizing rs with
  | nil =>
    simp only [List.mapM_nil, Option.pure_def, Option.some.injEq] at h
    subst h; cases hp
  | cons x l ih =>
    simp only [List.mapM_cons, Option.pure_def, Option.bind_eq_bind, Option.bind_eq_some_iff, Option.some.injEq] at h
    obtain ⟨y, hy, ys, hys, rfl⟩ := h
    rcases List.mem_cons.mp hp with rfl | hp
    · cases x with
      | str z => simp only [readElem, Option.some.injEq] at hy; subst hy; simp
      | null => simp only [readElem, Option.some.injEq] at hy; exact absurd hy.symm hne
      | _ => simp [readElem] at hy
    · exact List.mem_cons_of_mem _ (ih hys hp)

theorem readStrings_from {v : Option Json} {rs : List String} (h : readStrings v = some rs) {p : String} (hp : p ∈ rs) (hne : p ≠ "") :
    ∃ l, v = some (.list l) ∧ Json.str p ∈ l := by
  cases v with
  | none => simp only [readStrings, Option.some.injEq] at h; subst h; cases hp
  | some j =>
    cases j with
    | null => simp only [readStrings, Option.some.injEq] at h; subst h; cases hp
    | list l => exact ⟨l, rfl, readElems_from h hp hne⟩
    | _ => simp [readStrings] at h

/-- **C50.** A rule read from a token has no patterns of its own: each non-empty pattern is a text in the field it is read from. -/
theorem patterns_from_token {m : SMap Json} {r : PolicyRule} (h : readRule (.map m) = some r) {p : String} (hne : p ≠ "") :
    (p ∈ r.verbs → ∃ l, SMap.get m "verbs" = some (.list l) ∧ Json.str p ∈ l) ∧ (p ∈ r.apiGroups → ∃ l, SMap.get m "apiGroups" = some (.list l) ∧ Json.str p ∈ l) ∧
    (p ∈ r.resources → ∃ l, SMap.get m "resources" = some (.list l) ∧ Json.str p ∈ l) ∧
    (p ∈ r.resourceNames → ∃ l, SMap.get m "resourceNames" = some (.list l) ∧ Json.str p ∈ l) := by
  simp only [readRule, Option.bind_eq_bind, Option.bind_eq_some_iff, Option.some.injEq] at h
  obtain ⟨v, hv, g, hg, s, hs, n, hn, rfl⟩ := h
  exact ⟨fun hp => readStrings_from hv hp hne, fun hp => readStrings_from hg hp hne, fun hp => readStrings_from hs hp hne, fun hp => readStrings_from hn hp hne⟩

example : readRule (.map [("apiGroups", .list [.str "*"]), ("resources", .null), ("verbs", .list [.null, .str "get"])]) = some ⟨["", "get"], ["*"], [], []⟩ := by decide

/-- **C50.** An unreadable rule set denies everything: a text that is no JSON, a value that is neither null nor a list, a list with an element that is
neither null nor an object, or one with an object with a field of a rule that is neither null nor a list. -/
theorem unreadable_denies (u : UserInfo) (t : Option Json) (ts : List (Option Json)) (hu : u.rules = t :: ts)
    (h : t = none ∨ (∃ j, t = some j ∧ j ≠ .null ∧ ∀ l, j ≠ .list l) ∨
      (∃ l x, t = some (.list l) ∧ x ∈ l ∧ x ≠ .null ∧ ∀ m, x ≠ .map m) ∨
      (∃ l m k v, t = some (.list l) ∧ Json.map m ∈ l ∧ k ∈ ["verbs", "apiGroups", "resources", "resourceNames"] ∧ SMap.get m k = some v ∧ v ≠ .null ∧
        ∀ l', v ≠ .list l'))
    (verb g res name : String) : checkRBAC u verb g res name = false := by
  have hmap : ∀ (l : List Json) (x : Json), x ∈ l → readRule x = none → l.mapM readRule = none := by
    intro l x hx hr
    induction l with
    | nil => simp at hx
    | cons y l ih =>
      rw [List.mapM_cons]
      rcases List.mem_cons.1 hx with rfl | hx
      · simp [hr]
      · cases readRule y <;> simp [ih hx]
  have hfield : ∀ v : Json, v ≠ .null → (∀ l', v ≠ .list l') → readStrings (some v) = none := by
    intro v h1 h2
    cases v <;> simp_all [readStrings]
  unfold checkRBAC
  rw [hu]
  cases t with
  | none => rfl
  | some j =>
    have hnone : readRules (some j) = none := by
      rcases h with h | ⟨j', hj, h1, h2⟩ | ⟨l, x, hj, hx, h1, h2⟩ | ⟨l, m, k, v, hj, hm, hk, hv, h1, h2⟩
      · simp at h
      · simp only [Option.some.injEq] at hj
        subst hj
        cases j <;> simp_all [readRules]
      · simp only [Option.some.injEq] at hj
        subst hj
        refine hmap l x hx ?_
        cases x <;> simp_all [readRule]
      · simp only [Option.some.injEq] at hj
        subst hj
        refine hmap l _ hm ?_
        have hf := hfield v h1 h2
        rw [← hv] at hf
        simp only [List.mem_cons, List.not_mem_nil, or_false] at hk
        simp only [readRule]
        rcases hk with rfl | rfl | rfl | rfl
        · simp [hf]
        · cases readStrings (SMap.get m "verbs") <;> simp [hf]
        · cases readStrings (SMap.get m "verbs") <;> cases readStrings (SMap.get m "apiGroups") <;> simp [hf]
        · cases readStrings (SMap.get m "verbs") <;> cases readStrings (SMap.get m "apiGroups") <;> cases readStrings (SMap.get m "resources") <;> simp [hf]
    simp [hnone]

/-- A rule set with a verb instead of a list of verbs. -/
example : checkRBAC ⟨"u", [], [some (.list [.map [("verbs", .str "*")]])]⟩ "get" "g" "r" "n" = false :=
  unreadable_denies _ _ _ rfl (Or.inr (Or.inr (Or.inr ⟨_, [("verbs", .str "*")], "verbs", .str "*", rfl, by simp, by simp, by simp [SMap.get], by simp,
    by simp⟩))) _ _ _ _

/-! ## C69: rules that name objects -/

/-- **C69, partial.** A user all of whose rules name objects is only allowed requests for objects of these names, if the request names an object and
its verb is not one about collections. Missing: the collection verbs, see `names_bypassed`. -/
theorem names_restricted_partial (n : String) (nss : List String) (rs : List PolicyRule) (e b : Option Int) (hrs : rs ≠ [])
    (hnames : ∀ r ∈ rs, r.resourceNames ≠ []) (verb g res name : String) (hname : name ≠ "")
    (hverb : verb ∉ ["list", "watch", "create", "deletecollection"])
    (h : checkRBAC (userOf ⟨n, nss, rs, e, b⟩) verb g res name = true) : ∃ r ∈ rs, ∃ p ∈ r.resourceNames, Reads p name := by
  rw [checkRBAC_userOf] at h
  rcases h with h | ⟨r, hr, -, -, -, h⟩
  · exact absurd h hrs
  · exact ⟨r, hr, h hname hverb (hnames r hr)⟩

/-- Its hypotheses hold. -/
example : demoRule.resourceNames ≠ [] ∧ "get" ∉ ["list", "watch", "create", "deletecollection"] ∧
    checkRBAC (userOf ⟨"u", [], [demoRule], none, none⟩) "get" "op.view.dcontroller.io" "pod" "web-1" = true := by decide +kernel

/-- **C69, not as stated.** A user whose only rule allows everything on the one object "mine" may delete all the others: the verb for deleting a
collection is not restricted by names. (Kubernetes denies such requests.) -/
theorem names_bypassed : ∃ r : PolicyRule, r.resourceNames = ["mine"] ∧
    checkRBAC (userOf ⟨"u", [], [r], none, none⟩) "delete" "op.view.dcontroller.io" "pod" "other" = false ∧
    checkRBAC (userOf ⟨"u", [], [r], none, none⟩) "deletecollection" "op.view.dcontroller.io" "pod" "" = true :=
  ⟨⟨["*"], ["*"], ["*"], ["mine"]⟩, rfl, by decide +kernel, by decide +kernel⟩

/-! ## C52: tokens -/

variable {Key Pub Sig : Type}

theorem bearer_prefix (t : String) : hasPrefix ("Bearer " ++ t) "Bearer " = true := (hasPrefix_iff _ _).2 ⟨t, rfl⟩

theorem bearer_drop (t : String) : String.ofList (("Bearer " ++ t).toList.drop 7) = t := by
  apply String.toList_injective
  rw [String.toList_ofList, String.toList_append]
  have : ("Bearer " : String).toList.length = 7 := by decide
  rw [← this, List.drop_left]

theorem bearer_ne (t : String) : ("Bearer " ++ t == "") = false := by
  rw [beq_eq_false_iff_ne]
  intro h
  have := congrArg String.toList h
  simp at this

/-- What is read from a token just made, at any time. -/
theorem parse_generated (j : Jwt Key Pub Sig) (k : Key) (made now expiry : Int) (u : String) (nss : List String) (rs : List PolicyRule)
    (hj : j.SoundFor k (claimsJson (expectedClaims made expiry u nss rs) (made / second))) :
    parseToken j (j.pub k) now (generateToken j k made u nss rs expiry) =
      if made / second * second ≤ now ∧ now < (made + expiry) / second * second then some (expectedClaims made expiry u nss rs) else none := by
  obtain ⟨hr, hs⟩ := hj
  have hm : "RS256" ∈ rsaMethods := by decide
  unfold expectedClaims at *
  unfold parseToken generateToken
  simp only [hr, Option.bind_eq_bind, Option.bind_some, readClaims_claimsJson, hs]
  by_cases h2 : now < (made + expiry) / second * second <;> by_cases h1 : made / second * second ≤ now
  · simp [hm, h1, h2]
  · have h1' : now < made / second * second := by omega
    simp [hm, h1, h2]
  · simp [hm, h1, h2]
  · simp [hm, h2]

/-- **C52.** A token is accepted from the second it was made in until the second it expires in begins (times are in nanoseconds), and then the user, the namespaces and the rules put
into it are the ones enforced. -/
theorem token_enforced (j : Jwt Key Pub Sig) (k : Key) (made now expiry : Int) (u : String) (nss : List String) (rs : List PolicyRule)
    (hj : j.SoundFor k (claimsJson (expectedClaims made expiry u nss rs) (made / second)))
    (h1 : made / 1000000000 * 1000000000 ≤ now) (h2 : now < (made + expiry) / 1000000000 * 1000000000) :
    ∃ info, authenticate j (j.pub k) now ("Bearer " ++ generateToken j k made u nss rs expiry) = .user info ∧ info.name = u ∧
      ∀ a : Attrs, admitted j (j.pub k) now ("Bearer " ++ generateToken j k made u nss rs expiry) a = true ↔
        a.isResource = false ∨ (InNamespaces nss a.ns ∧ (rs = [] ∨ ∃ r ∈ rs, Covers Reads r a.verb a.apiGroup a.resource a.name)) := by
  have hp := parse_generated j k made now expiry u nss rs hj
  rw [if_pos ⟨h1, h2⟩] at hp
  have ha : authenticate j (j.pub k) now ("Bearer " ++ generateToken j k made u nss rs expiry) = .user (userOf (expectedClaims made expiry u nss rs)) := by
    unfold authenticate
    rw [bearer_ne, bearer_prefix, bearer_drop, hp]
    rfl
  refine ⟨_, ha, rfl, ?_⟩
  intro a
  unfold admitted
  rw [ha]
  simp only
  rw [authorize_iff _ _ rfl, checkRBAC_userOf]
  have : (userOf (expectedClaims made expiry u nss rs)).namespaces = nss := by
    unfold userOf expectedClaims
    cases nss <;> simp
  rw [this]
  rfl

/-- The claims of a token made half a second after time 0, for an hour. -/
def demoClaims : Json := claimsJson (expectedClaims 500000000 (3600 * second) "alice" ["team-a"] [demoRule]) 0

/-- A token library that knows one token. -/
def toyJwt : Jwt Unit Unit (String × Json) where
  pub := id
  sign := fun _ alg c => (alg, c)
  verify := fun _ alg c s => decide (s = (alg, c))
  encode := fun t => if t.claims = demoClaims then "token" else "other"
  decode := fun s => if s = "token" then some ⟨"RS256", demoClaims, ("RS256", demoClaims)⟩ else none

/-- The hypotheses hold of it. -/
example : toyJwt.SoundFor () (claimsJson (expectedClaims 500000000 (3600 * second) "alice" ["team-a"] [demoRule]) (500000000 / second)) ∧
    (500000000 : Int) / second * second ≤ 600000000 ∧ (600000000 : Int) < (500000000 + 3600 * second) / second * second := by
  refine ⟨⟨?_, ?_⟩, by decide, by decide⟩
  · have : claimsJson (expectedClaims 500000000 (3600 * second) "alice" ["team-a"] [demoRule]) (500000000 / second) = demoClaims := by
      decide +kernel
    rw [this]
    simp [toyJwt]
  · simp [toyJwt]

/-- What is enforced for it. -/
example : admitted toyJwt () 600000000 "Bearer token" ⟨none, true, "get", "op.view.dcontroller.io", "pod", "web-1", "team-a"⟩ = true ∧
    admitted toyJwt () 600000000 "Bearer token" ⟨none, true, "get", "op.view.dcontroller.io", "pod", "web-1", "team-b"⟩ = false := by
  decide +kernel

/-- **C52.** Outside that time the token gives no identity. -/
theorem token_expires (j : Jwt Key Pub Sig) (k : Key) (made now expiry : Int) (u : String) (nss : List String) (rs : List PolicyRule)
    (hj : j.SoundFor k (claimsJson (expectedClaims made expiry u nss rs) (made / second)))
    (h : now < made / 1000000000 * 1000000000 ∨ (made + expiry) / 1000000000 * 1000000000 ≤ now) (a : Attrs) :
    admitted j (j.pub k) now ("Bearer " ++ generateToken j k made u nss rs expiry) a = false := by
  have hsec : second = 1000000000 := rfl
  have hp := parse_generated j k made now expiry u nss rs hj
  rw [if_neg (by rw [hsec]; omega)] at hp
  unfold admitted authenticate
  rw [bearer_ne, bearer_prefix, bearer_drop, hp]
  rfl

/-- The token above, one hour later. -/
example : (500000000 + 3600 * second) / second * second ≤ 3600500000000 := by decide

/-- **C52.** A request is only let through with a header bearing a token that can be read, is signed by an RSA method with a signature that verifies, is
valid at the time, and whose claims give the user: without a token or with an invalid one there is no identity and nothing is allowed. -/
theorem only_with_token (j : Jwt Key Pub Sig) (p : Pub) (now : Int) (header : String) (a : Attrs) (h : admitted j p now header a = true) :
    ∃ tok t c, header = "Bearer " ++ tok ∧ j.decode tok = some t ∧ t.alg ∈ ["RS256", "RS384", "RS512"] ∧ j.verify p t.alg t.claims t.sig = true ∧
      readClaims t.claims = some c ∧ (∀ e, c.exp = some e → now < e * second) ∧ (∀ b, c.nbf = some b → b * second ≤ now) ∧
      authenticate j p now header = .user (userOf c) ∧ (userOf c).name = c.username := by
  unfold admitted at h
  cases ha : authenticate j p now header with
  | none => simp [ha] at h
  | error => simp [ha] at h
  | user u =>
    unfold authenticate at ha
    by_cases h1 : (header == "") = true
    · simp [h1] at ha
    · by_cases h2 : hasPrefix header "Bearer " = true
      · simp only [h1, h2, Bool.not_true, Bool.false_eq_true, if_false] at ha
        obtain ⟨tok, rfl⟩ := (hasPrefix_iff _ _).1 h2
        rw [bearer_drop] at ha
        cases hp : parseToken j p now tok with
        | none => simp [hp] at ha
        | some c =>
          simp only [hp, AuthnResult.user.injEq] at ha
          subst ha
          unfold parseToken at hp
          cases hd : j.decode tok with
          | none => simp [hd] at hp
          | some t =>
            cases hc : readClaims t.claims with
            | none => simp [hd, hc] at hp
            | some c' =>
              simp [hd, hc] at hp
              obtain ⟨g1, g2, g3, g4, rfl⟩ := hp
              refine ⟨tok, t, c', rfl, hd, by simpa [rsaMethods] using g1, g2, hc, ?_, ?_, rfl, rfl⟩
              · intro e he; simpa [he] using g3
              · intro b hb; simpa [hb] using g4
      · simp [h1, h2] at ha

/-- A token signed with the public key as a shared secret, or not at all, is refused. -/
example : (("HS256" : String) ∉ ["RS256", "RS384", "RS512"]) ∧ (("none" : String) ∉ ["RS256", "RS384", "RS512"]) := by decide

/-- The hypothesis holds of the token above. -/
example : admitted toyJwt () 600000000 "Bearer token" ⟨none, true, "get", "op.view.dcontroller.io", "pod", "web-1", "team-a"⟩ = true := by decide +kernel

end Dctl
