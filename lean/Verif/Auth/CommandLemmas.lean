import Verif.Auth.Command
/-!
# Lists on the command line
-/
set_option autoImplicit false
set_option linter.unusedSectionVars false
namespace Dctl

/-! ### comma-separated lists -/

theorem mem_takeWhile_holds {α : Type} {p : α → Bool} {l : List α} {c : α} (h : c ∈ l.takeWhile p) : p c = true := by
  induction l with
  | nil => simp at h
  | cons d l ih =>
    rw [List.takeWhile_cons] at h
    split at h
    · rcases List.mem_cons.1 h with rfl | h
      · assumption
      · exact ih h
    · simp at h

theorem head_dropWhile_fails {α : Type} {p : α → Bool} {l : List α} {c : α} (h : (l.dropWhile p).head? = some c) : p c = false := by
  induction l with
  | nil => simp at h
  | cons d l ih =>
    rw [List.dropWhile_cons] at h
    split at h
    · exact ih h
    · rename_i hd
      simp at h
      subst h
      simpa using hd

/-- The first piece, and the pieces after a comma. -/
theorem splitCommas_spec (s : List Char) : ∃ t, splitCommas s = s.takeWhile (· ≠ ',') :: t ∧
    ∀ i, i ∈ t ↔ ',' ∉ i ∧ ∃ pre post, s = pre ++ ',' :: (i ++ post) ∧ (post = [] ∨ post.head? = some ',') := by
  induction s with
  | nil => exact ⟨[], rfl, by simp⟩
  | cons c cs ih =>
    obtain ⟨t, ht, hi⟩ := ih
    by_cases hc : c = ','
    · subst hc
      refine ⟨splitCommas cs, by simp [splitCommas], ?_⟩
      intro i
      rw [ht, List.mem_cons, hi]
      constructor
      · rintro (rfl | ⟨h, pre, post, rfl, hp⟩)
        · refine ⟨?_, [], cs.dropWhile (· ≠ ','), ?_, ?_⟩
          · intro hm
            have := mem_takeWhile_holds hm
            simp at this
          · simp [List.takeWhile_append_dropWhile]
          · cases hd : cs.dropWhile (· ≠ ',') with
            | nil => exact Or.inl rfl
            | cons d ds =>
              right
              have := head_dropWhile_fails (p := fun x : Char => decide (x ≠ ',')) (l := cs) (c := d) (by rw [hd]; rfl)
              simpa using this
        · exact ⟨h, ',' :: pre, post, by simp, hp⟩
      · rintro ⟨h, pre, post, he, hp⟩
        cases pre with
        | nil =>
          left
          simp only [List.nil_append, List.cons.injEq, true_and] at he
          subst he
          symm
          rw [List.takeWhile_append_of_pos (by intro a ha; simp; rintro rfl; exact h ha)]
          rcases hp with rfl | hp
          · simp
          · cases post with
            | nil => simp
            | cons d ds => simp at hp; subst hp; simp
        | cons d pre =>
          right
          simp only [List.cons_append, List.cons.injEq] at he
          exact ⟨h, pre, post, he.2, hp⟩
    · refine ⟨t, by simp [splitCommas, hc, ht], ?_⟩
      intro i
      rw [hi]
      constructor
      · rintro ⟨h, pre, post, rfl, hp⟩
        exact ⟨h, c :: pre, post, by simp, hp⟩
      · rintro ⟨h, pre, post, he, hp⟩
        cases pre with
        | nil => simp at he; exact absurd he.1 hc
        | cons d pre =>
          simp only [List.cons_append, List.cons.injEq] at he
          exact ⟨h, pre, post, he.2, hp⟩

/-- The pieces between commas. -/
theorem mem_splitCommas (s i : List Char) : i ∈ splitCommas s ↔ ',' ∉ i ∧ ∃ pre post, s = pre ++ i ++ post ∧
    (pre = [] ∨ pre.getLast? = some ',') ∧ (post = [] ∨ post.head? = some ',') := by
  obtain ⟨t, ht, hi⟩ := splitCommas_spec s
  rw [ht, List.mem_cons, hi]
  constructor
  · rintro (rfl | ⟨h, pre, post, rfl, hp⟩)
    · refine ⟨?_, [], s.dropWhile (· ≠ ','), by simp [List.takeWhile_append_dropWhile], Or.inl rfl, ?_⟩
      · intro hm
        have := mem_takeWhile_holds hm
        simp at this
      · cases hd : s.dropWhile (· ≠ ',') with
        | nil => exact Or.inl rfl
        | cons d ds =>
          right
          have := head_dropWhile_fails (p := fun x : Char => decide (x ≠ ',')) (l := s) (c := d) (by rw [hd]; rfl)
          simpa using this
    · exact ⟨h, pre ++ [','], post, by simp, Or.inr (by simp), hp⟩
  · rintro ⟨h, pre, post, he, hpre, hp⟩
    rcases hpre with rfl | hpre
    · left
      subst he
      symm
      rw [List.nil_append, List.takeWhile_append_of_pos (by intro a ha; simp; rintro rfl; exact h ha)]
      rcases hp with rfl | hp
      · simp
      · cases post with
        | nil => simp
        | cons d ds => simp at hp; subst hp; simp
    · right
      obtain ⟨p, rfl⟩ := List.getLast?_eq_some_iff.1 hpre
      exact ⟨h, p, post, by simp [he], hp⟩

/-- Dropping from the front what a predicate holds of. -/
theorem dropWhile_all_append {α : Type} (p : α → Bool) (a l : List α) (ha : ∀ c ∈ a, p c = true) (hl : ∀ c, l.head? = some c → p c = false) :
    (a ++ l).dropWhile p = l := by
  induction a with
  | nil =>
    cases l with
    | nil => rfl
    | cons c l => simp [hl c rfl]
  | cons c a ih =>
    simp only [List.cons_append, List.dropWhile_cons, ha c (by simp)]
    simpa using ih (fun c hc => ha c (by simp [hc]))

/-- What is left of a piece. -/
theorem trimSpace_iff (l x : List Char) (hx : x ≠ []) : trimSpace l = x ↔ ∃ a b, l = a ++ x ++ b ∧ (∀ c ∈ a, isUniSpace c = true) ∧ (∀ c ∈ b, isUniSpace c = true) ∧
    (∀ c, x.head? = some c → isUniSpace c = false) ∧ (∀ c, x.getLast? = some c → isUniSpace c = false) := by
  constructor
  · intro h
    unfold trimSpace at h
    have e1 := List.takeWhile_append_dropWhile (p := isUniSpace) (l := l)
    generalize hm : l.dropWhile isUniSpace = m at h e1
    have e2 := List.takeWhile_append_dropWhile (p := isUniSpace) (l := m.reverse)
    have h' : m.reverse.dropWhile isUniSpace = x.reverse := by rw [← h, List.reverse_reverse]
    rw [h'] at e2
    have e3 : m = x ++ (m.reverse.takeWhile isUniSpace).reverse := by
      have := congrArg List.reverse e2
      simpa using this.symm
    refine ⟨l.takeWhile isUniSpace, (m.reverse.takeWhile isUniSpace).reverse, ?_, ?_, ?_, ?_, ?_⟩
    · rw [List.append_assoc, ← e3, e1]
    · intro c hc
      exact mem_takeWhile_holds hc
    · intro c hc
      exact mem_takeWhile_holds (List.mem_reverse.1 hc)
    · intro c hc
      have hmh : m.head? = some c := by
        rw [e3]
        cases x with
        | nil => exact absurd rfl hx
        | cons d x => simpa using hc
      exact head_dropWhile_fails (l := l) (by rw [hm]; exact hmh)
    · intro c hc
      have hrh : (m.reverse.dropWhile isUniSpace).head? = some c := by
        rw [h', List.head?_reverse]; exact hc
      exact head_dropWhile_fails hrh
  · rintro ⟨a, b, rfl, ha, hb, hh, hl⟩
    unfold trimSpace
    rw [List.append_assoc, dropWhile_all_append isUniSpace a (x ++ b) ha, List.reverse_append,
      dropWhile_all_append isUniSpace b.reverse x.reverse (fun c hc => hb c (List.mem_reverse.1 hc)), List.reverse_reverse]
    · intro c hc
      rw [List.head?_reverse] at hc
      exact hl c hc
    · intro c hc
      cases x with
      | nil => exact absurd rfl hx
      | cons d x => exact hh c (by simpa using hc)

/-- White space is no comma. -/
theorem comma_not_space : isUniSpace ',' = false := by decide

end Dctl
