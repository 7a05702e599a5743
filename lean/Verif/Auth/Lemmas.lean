import Verif.Spec.Auth
/-!
# Lemmas about authorization
-/
set_option autoImplicit false
set_option linter.unusedSectionVars false
namespace Dctl

theorem hasPrefix_iff (s p : String) : hasPrefix s p = true ↔ ∃ x, s = p ++ x := by
  simp only [hasPrefix, List.isPrefixOf_iff_prefix]
  constructor
  · rintro ⟨t, ht⟩
    exact ⟨String.ofList t, String.toList_injective (by simp [ht])⟩
  · rintro ⟨x, rfl⟩
    exact ⟨x.toList, by simp⟩

theorem hasSuffix_iff (s p : String) : hasSuffix s p = true ↔ ∃ x, s = x ++ p := by
  simp only [hasSuffix, List.isSuffixOf_iff_suffix]
  constructor
  · rintro ⟨t, ht⟩
    exact ⟨String.ofList t, String.toList_injective (by simp [ht])⟩
  · rintro ⟨x, rfl⟩
    exact ⟨x.toList, by simp⟩

theorem takeWhile_dropWhile_star (l : List Char) (h : '*' ∈ l) :
    l = l.takeWhile (· != '*') ++ '*' :: (l.dropWhile (· != '*')).drop 1 ∧ '*' ∉ l.takeWhile (· != '*') := by
  induction l with
  | nil => simp at h
  | cons c t ih =>
    by_cases hc : c = '*'
    · subst hc; simp
    · have : '*' ∈ t := by simpa [Ne.symm hc] using h
      obtain ⟨h1, h2⟩ := ih this
      have hb : (c != '*') = true := by simp [hc]
      simp only [List.takeWhile_cons, hb, if_true, List.dropWhile_cons, List.cons_append, List.mem_cons, not_or]
      exact ⟨by rw [← h1], Ne.symm hc, h2⟩

theorem splitStar_spec (p : String) (h : '*' ∈ p.toList) : p = (splitStar p).1 ++ "*" ++ (splitStar p).2 ∧ '*' ∉ (splitStar p).1.toList := by
  obtain ⟨h1, h2⟩ := takeWhile_dropWhile_star p.toList h
  constructor
  · apply String.toList_injective
    simp only [splitStar, String.toList_append, String.toList_ofList, List.append_assoc]
    exact h1
  · simpa [splitStar] using h2

/-- Two ways to split at a first '*' agree. -/
theorem split_unique (a b c d : List Char) (ha : '*' ∉ a) (hc : '*' ∉ c) (h : a ++ '*' :: b = c ++ '*' :: d) : a = c ∧ b = d := by
  induction a generalizing c with
  | nil =>
    cases c with
    | nil => simpa using h
    | cons x c => simp at h; simp [← h.1] at hc
  | cons x a ih =>
    cases c with
    | nil => simp at h; simp [h.1] at ha
    | cons y c =>
      simp only [List.cons_append, List.cons.injEq] at h
      simp only [List.mem_cons, not_or] at ha hc
      obtain ⟨h1, h2⟩ := ih c ha.2 hc.2 h.2
      exact ⟨by rw [h.1, h1], h2⟩

theorem star_mem (a b : String) : '*' ∈ (a ++ "*" ++ b).toList := by simp

theorem getLast_split (l : List Char) (h : l.getLast? = some '*') : l = l.dropLast ++ ['*'] := by
  have hne : l ≠ [] := by intro e; simp [e] at h
  rw [List.getLast?_eq_some_getLast hne] at h
  have h' : l.getLast hne = '*' := by simpa using h
  have := List.dropLast_concat_getLast hne
  rw [h'] at this
  exact this.symm

theorem getLast_append (a b : List Char) (h : b ≠ []) : (a ++ b).getLast? = b.getLast? := by
  rw [List.getLast?_append, List.getLast?_eq_some_getLast h]; simp

theorem hasPrefix_star (p : String) : hasPrefix p "*" = true ↔ p.toList.head? = some '*' := by
  simp only [hasPrefix, List.isPrefixOf_iff_prefix]
  cases hp : p.toList with
  | nil => simp
  | cons c t => simp [List.cons_prefix_cons, eq_comm]

theorem hasSuffix_star (p : String) : hasSuffix p "*" = true ↔ p.toList.getLast? = some '*' := by
  simp only [hasSuffix, List.isSuffixOf_iff_suffix]
  constructor
  · rintro ⟨t, ht⟩
    rw [← ht]; simp
  · intro h
    exact ⟨p.toList.dropLast, (getLast_split _ h).symm⟩

theorem matchesWildcard_iff (p v : String) : (('*' ∈ p.toList) ∧ matchesWildcard p v = true) ↔
    (∃ b x : String, p = "*" ++ b ∧ v = x ++ b) ∨
    (∃ a x : String, p = a ++ "*" ∧ a.toList.head? ≠ some '*' ∧ v = a ++ x) ∨
    (∃ a b x y : String, p = a ++ "*" ++ b ∧ a ≠ "" ∧ b.toList.getLast? ≠ some '*' ∧ b ≠ "" ∧ '*' ∉ a.toList ∧ v = a ++ x ∧ v = y ++ b) := by
  by_cases h1 : hasPrefix p "*" = true
  · -- a leading star
    have hh := (hasPrefix_star p).1 h1
    obtain ⟨t, ht⟩ : ∃ t, p.toList = '*' :: t := by
      cases hp : p.toList with
      | nil => simp [hp] at hh
      | cons c t => simp [hp] at hh; exact ⟨t, by rw [hh]⟩
    have hp : p = "*" ++ String.ofList t := String.toList_injective (by simp [ht])
    simp only [matchesWildcard, h1, if_true, hasSuffix_iff, ht, List.drop_one, List.tail_cons, List.mem_cons, true_or, true_and]
    constructor
    · rintro ⟨x, hx⟩
      exact Or.inl ⟨_, x, hp, hx⟩
    · rintro (⟨b, x, hb, hx⟩ | ⟨a, x, ha, hne, hx⟩ | ⟨a, b, x, y, ha, hne, -, -, hs, -, hx⟩)
      · refine ⟨x, ?_⟩
        have : b = String.ofList t := by
          apply String.toList_injective
          have := congrArg String.toList (hb.symm.trans hp)
          simpa using this
        rw [hx, this]
      · have : a = "" := by
          apply String.toList_injective
          have := congrArg String.toList (ha.symm.trans hp)
          simp only [String.toList_append] at this
          cases hal : a.toList with
          | nil => rfl
          | cons c u => rw [hal] at this hne; simp at this hne; exact absurd this.1 hne
        subst this
        have ht' : t = [] := by
          have := congrArg String.toList (ha.symm.trans hp)
          simpa using this
        exact ⟨v, by simp [ht']⟩
      · exfalso
        have := congrArg String.toList (ha.symm.trans hp)
        simp only [String.toList_append] at this
        cases hal : a.toList with
        | nil => exact hne (String.toList_injective (by simp [hal]))
        | cons c u => rw [hal] at this hs; simp at this hs; exact hs.1 this.1.symm
  · have hh : p.toList.head? ≠ some '*' := fun e => h1 ((hasPrefix_star p).2 e)
    by_cases h2 : hasSuffix p "*" = true
    · have hl := getLast_split _ ((hasSuffix_star p).1 h2)
      have hp : p = String.ofList p.toList.dropLast ++ "*" := String.toList_injective (by simpa using hl)
      have hhead : p.toList.dropLast.head? ≠ some '*' := by
        intro e
        apply hh
        rw [hl]
        cases hd : p.toList.dropLast with
        | nil => rw [hd] at e; simp at e
        | cons c u => rw [hd] at e; simpa using e
      have hmem : '*' ∈ p.toList := by rw [hl]; simp
      simp only [matchesWildcard, h1, h2, if_true, hasPrefix_iff, hmem, true_and, Bool.false_eq_true, if_false]
      constructor
      · rintro ⟨x, hx⟩
        exact Or.inr (Or.inl ⟨_, x, hp, by simpa using hhead, hx⟩)
      · rintro (⟨b, x, hb, hx⟩ | ⟨a, x, ha, hne, hx⟩ | ⟨a, b, x, y, ha, hne, hbl, hbe, -⟩)
        · exfalso; apply hh; rw [hb]; simp
        · refine ⟨x, ?_⟩
          have : a = String.ofList p.toList.dropLast := by
            apply String.toList_injective
            rw [ha]; simp
          rw [hx, this]
        · exfalso
          have hL := (hasSuffix_star p).1 h2
          rw [ha] at hL
          simp only [String.toList_append] at hL
          have hbne : b.toList ≠ [] := fun e => hbe (String.toList_injective (by simp [e]))
          rw [getLast_append _ _ hbne] at hL
          exact hbl hL
    · have hl : p.toList.getLast? ≠ some '*' := fun e => h2 ((hasSuffix_star p).2 e)
      by_cases h3 : '*' ∈ p.toList
      · obtain ⟨hs, hn⟩ := splitStar_spec p h3
        simp only [matchesWildcard, h1, h2, h3, if_true, Bool.and_eq_true, hasPrefix_iff, hasSuffix_iff, true_and, Bool.false_eq_true, if_false]
        constructor
        · rintro ⟨⟨x, hx⟩, y, hy⟩
          refine Or.inr (Or.inr ⟨_, _, x, y, hs, ?_, ?_, ?_, hn, hx, hy⟩)
          · intro e; apply hh; rw [hs, e]; simp
          · intro e
            apply hl
            rw [hs]
            have hne : (splitStar p).2.toList ≠ [] := fun e' => by simp [e'] at e
            simp only [String.toList_append]
            rw [getLast_append _ _ hne]; exact e
          · intro e; apply hl; rw [hs, e]; simp
        · rintro (⟨b, x, hb, hx⟩ | ⟨a, x, ha, hne, hx⟩ | ⟨a, b, x, y, ha, hne, hbl, hbe, hna, hx, hy⟩)
          · exfalso; apply hh; rw [hb]; simp
          · exfalso; apply hl; rw [ha]; simp
          · have := congrArg String.toList (ha.symm.trans hs)
            simp only [String.toList_append, List.append_assoc] at this
            obtain ⟨e1, e2⟩ := split_unique _ _ _ _ hna hn (by simpa using this)
            rw [← String.toList_injective e1, ← String.toList_injective e2]
            exact ⟨⟨x, hx⟩, y, hy⟩
      · constructor
        · rintro ⟨h, -⟩; exact absurd h h3
        · rintro (⟨b, x, hb, hx⟩ | ⟨a, x, ha, hne, hx⟩ | ⟨a, b, x, y, ha, -⟩)
          · exact absurd (by rw [hb]; simp) h3
          · exact absurd (by rw [ha]; simp) h3
          · exact absurd (by rw [ha]; simp) h3

theorem matchesAny_iff (l : List String) (v : String) : matchesAny l v = true ↔ ∃ p ∈ l, Reads p v := by
  induction l with
  | nil => simp [matchesAny]
  | cons p l ih =>
    have hstep : matchesAny (p :: l) v = true ↔ Reads p v ∨ matchesAny l v = true := by
      rw [matchesAny]
      by_cases h0 : p = "*"
      · simp only [h0, beq_self_eq_true, if_true, true_iff]
        exact Or.inl (Or.inr (Or.inl ⟨"", v, by decide, by simp⟩))
      · by_cases h1 : p = v
        · simp [h1, Reads]
        · have hw := matchesWildcard_iff p v
          have hr : Reads p v ↔ ('*' ∈ p.toList ∧ matchesWildcard p v = true) := by
            unfold Reads; rw [hw]; simp [h1]
          rw [hr]
          simp only [beq_iff_eq, h0, h1, if_false]
          by_cases h2 : '*' ∈ p.toList ∧ matchesWildcard p v = true
          · simp [h2]
          · simp only [h2, if_false, false_or]
    rw [hstep, ih]
    simp

theorem ruleMatches_iff (r : PolicyRule) (verb g res name : String) : ruleMatches r verb g res name = true ↔ Covers Reads r verb g res name := by
  unfold ruleMatches Covers
  rw [← matchesAny_iff, ← matchesAny_iff, ← matchesAny_iff, ← matchesAny_iff]
  have hc : collectionVerbs.contains verb = true ↔ verb ∈ ["list", "watch", "create", "deletecollection"] := by simp [collectionVerbs]
  by_cases h1 : matchesAny r.verbs verb = false
  · simp [h1]
  by_cases h2 : matchesAny r.apiGroups g = false
  · simp [h2]
  by_cases h3 : matchesAny r.resources res = false
  · simp [h3]
  simp only [Bool.not_eq_false] at h1 h2 h3
  simp only [h1, h2, h3, Bool.not_true, Bool.false_eq_true, if_false, true_and]
  by_cases h4 : verb ∈ ["list", "watch", "create", "deletecollection"]
  · simp only [hc.2 h4, if_true, true_iff]
    exact fun _ h => absurd h4 h
  · simp only [hc, h4, if_false, not_false_eq_true, true_implies]
    by_cases h5 : r.resourceNames = [] <;> by_cases h6 : name = "" <;> by_cases h7 : matchesAny r.resourceNames name = true <;>
      simp [h5, h6, h7, List.length_pos_iff]

/-! ### Reading back what was written -/

theorem readStrings_strs (l : List String) : readStrings (some (.list (l.map .str))) = some l := by
  simp only [readStrings]
  induction l with
  | nil => rfl
  | cons s l ih => rw [List.map_cons, List.mapM_cons, ih]; rfl

theorem get_append (a b : SMap Json) (k : String) : SMap.get (a ++ b) k = (SMap.get a k).or (SMap.get b k) := by
  induction a with
  | nil => rfl
  | cons e a ih =>
    obtain ⟨k', v⟩ := e
    by_cases h : k' = k
    · simp [SMap.get, h]
    · simp [SMap.get, h, ih]

theorem get_omit (k k' : String) (l : List Json) : SMap.get (omitEmpty k l) k' = if k = k' ∧ l ≠ [] then some (.list l) else none := by
  unfold omitEmpty
  by_cases h : l = [] <;> by_cases hk : k = k' <;> simp [h, hk, SMap.get]

theorem readStrings_omit (k : String) (l : List String) : readStrings (SMap.get (omitEmpty k (l.map .str)) k) = some l := by
  rw [get_omit]
  by_cases h : l = []
  · simp [h, readStrings]
  · simp only [List.map_eq_nil_iff, ne_eq, h, not_false_eq_true, and_self, if_true]
    exact readStrings_strs l

theorem readRule_ruleJson (r : PolicyRule) : readRule (ruleJson r) = some r := by
  obtain ⟨v, g, res, n⟩ := r
  have hv : readStrings (some (if v = [] then Json.null else strsJson v)) = some v := by
    by_cases h : v = []
    · simp [h, readStrings]
    · simp only [h, if_false]; exact readStrings_strs v
  have hg := readStrings_omit "apiGroups" g
  have hr := readStrings_omit "resources" res
  have hn := readStrings_omit "resourceNames" n
  rw [get_omit] at hg hr hn
  simp only [readRule, ruleJson, get_append, get_omit, SMap.get]
  simp [hv]
  simp only [ne_eq, List.map_eq_nil_iff] at hg hr hn
  simp at hg hr hn
  simp [hg, hr, hn]

theorem readRules_map (rs : List PolicyRule) : readRules (some (.list (rs.map ruleJson))) = some rs := by
  simp only [readRules]
  induction rs with
  | nil => rfl
  | cons r rs ih => rw [List.map_cons, List.mapM_cons, readRule_ruleJson, ih]; rfl

theorem readRules_omit (k : String) (l : List PolicyRule) : readRules (SMap.get (omitEmpty k (l.map ruleJson)) k) = some l := by
  rw [get_omit]
  by_cases h : l = []
  · simp [h, readRules]
  · simp only [List.map_eq_nil_iff, ne_eq, h, not_false_eq_true, and_self, if_true]
    exact readRules_map l

theorem readClaims_claimsJson (u : String) (n : List String) (r : List PolicyRule) (e b iat : Int) :
    readClaims (claimsJson ⟨u, n, r, some e, some b⟩ iat) = some ⟨u, n, r, some e, some b⟩ := by
  have hn := readStrings_omit "namespaces" n
  have hr := readRules_omit "rules" r
  rw [get_omit] at hn hr
  simp only [readClaims, claimsJson, get_append, get_omit, SMap.get]
  simp [readString, readDate]
  simp at hn hr
  simp [hn, hr]

/-- What the user made from claims may do. -/
theorem checkRBAC_userOf (c : Claims) (verb g res name : String) :
    checkRBAC (userOf c) verb g res name = true ↔ c.rules = [] ∨ ∃ r ∈ c.rules, Covers Reads r verb g res name := by
  unfold checkRBAC userOf
  cases h : c.rules with
  | nil => simp
  | cons r rs =>
    have := readRules_map (r :: rs)
    simp only [List.length_cons, Nat.zero_lt_succ, gt_iff_lt, if_true, this, List.any_eq_true, ruleMatches_iff, reduceCtorEq, false_or]

theorem authorize_iff (u : UserInfo) (a : Attrs) (h : a.user = some u) :
    authorize a = true ↔ a.isResource = false ∨ (InNamespaces u.namespaces a.ns ∧ checkRBAC u a.verb a.apiGroup a.resource a.name = true) := by
  unfold authorize
  simp only [h]
  cases hr : a.isResource with
  | false => simp
  | true =>
    simp only [Bool.not_true, Bool.false_eq_true, if_false, false_or, InNamespaces, reduceCtorEq]
    by_cases h0 : u.namespaces = []
    · simp [h0]
    · have hl : u.namespaces.length > 0 := List.length_pos_iff.2 h0
      have hw : (u.namespaces.any (· == "*")) = true ↔ "*" ∈ u.namespaces := by simp
      have hm : (u.namespaces.any (· == a.ns)) = true ↔ a.ns ∈ u.namespaces := by simp
      by_cases h1 : "*" ∈ u.namespaces
      · rw [← hw] at h1
        simp only [hl, if_true, h1, Bool.not_true, Bool.false_eq_true, if_false, hw.1 h1, true_or, or_true, true_and]
        simp
      · by_cases h2 : a.ns = ""
        · simp [hl, h0, h1, h2]
        · by_cases h3 : a.ns ∈ u.namespaces
          · have : ¬ (∀ x ∈ u.namespaces, ¬ x = a.ns) := fun hh => hh _ h3 rfl
            simp [hl, h0, h1, h2, h3]
          · simp [hl, h0, h1, h2, h3]

end Dctl
