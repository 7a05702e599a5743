import Verif.Spec.Periodic
/-! # Lemmas about durations and tickers -/
set_option autoImplicit false
set_option linter.unusedSectionVars false
namespace Dctl

/-- The decimal digits of `l` appended to the number `x`. -/
def decAcc (x : Nat) (l : List Char) : Nat := l.foldl (fun n c => n * 10 + (c.toNat - 48)) x

theorem decAcc_cons (x : Nat) (c : Char) (l : List Char) : decAcc x (c :: l) = decAcc (x * 10 + (c.toNat - 48)) l := by unfold decAcc; exact List.foldl_cons ..

theorem decAcc_ge (l : List Char) : ∀ x, x ≤ decAcc x l := by
  induction l with
  | nil => intro x; exact Nat.le_refl _
  | cons c l ih => intro x; rw [decAcc_cons]; have := ih (x * 10 + (c.toNat - 48)); omega

theorem isDigit_le {c : Char} (h : c.isDigit = true) : c.toNat - 48 ≤ 9 := by
  simp only [Char.isDigit, Bool.and_eq_true, decide_eq_true_eq] at h
  have h2 := UInt32.le_iff_toNat_le.mp h.2
  have : c.toNat ≤ 57 := h2
  omega

theorem decAcc_lt (l : List Char) (h : ∀ c ∈ l, c.isDigit = true) : ∀ x, decAcc x l < (x + 1) * 10 ^ l.length := by
  induction l with
  | nil => intro x; simp [decAcc]
  | cons c l ih =>
    intro x
    rw [decAcc_cons]
    have h1 := ih (fun d hd => h d (by simp [hd])) (x * 10 + (c.toNat - 48))
    have h2 := isDigit_le (h c (by simp))
    have h3 : (x * 10 + (c.toNat - 48) + 1) * 10 ^ l.length ≤ (x + 1) * 10 * 10 ^ l.length := Nat.mul_le_mul_right _ (by omega)
    have h4 : (x + 1) * 10 ^ (c :: l).length = (x + 1) * 10 * 10 ^ l.length := by
      rw [List.length_cons, Nat.pow_succ, Nat.mul_assoc, Nat.mul_comm 10]
    omega

/-- A text after digits: it is empty or begins with no digit. -/
def NoDigit (r : List Char) : Prop := ∀ c t, r = c :: t → c.isDigit = false

theorem leadingInt_digits (l r : List Char) (h : ∀ c ∈ l, c.isDigit = true) (hr : NoDigit r) :
    ∀ x, decAcc x l ≤ 2 ^ 63 → leadingInt x (l ++ r) = some (decAcc x l, r) := by
  induction l with
  | nil =>
    intro x _
    cases r with
    | nil => rfl
    | cons c t => simp [leadingInt, hr c t rfl, decAcc]
  | cons c l ih =>
    intro x hx
    rw [decAcc_cons] at hx
    have hg := decAcc_ge l (x * 10 + (c.toNat - 48))
    rw [List.cons_append, leadingInt, if_pos (h c (by simp)), if_neg (by omega), if_neg (by omega), decAcc_cons]
    exact ih (fun d hd => h d (by simp [hd])) _ hx

theorem leadingInt_form : ∀ (s : List Char) (x v : Nat) (r : List Char), leadingInt x s = some (v, r) →
    ∃ l, s = l ++ r ∧ (∀ c ∈ l, c.isDigit = true) ∧ NoDigit r ∧ v = decAcc x l := by
  intro s
  induction s with
  | nil =>
    intro x v r h
    simp only [leadingInt, Option.some.injEq, Prod.mk.injEq] at h
    obtain ⟨rfl, rfl⟩ := h
    exact ⟨[], rfl, by simp, by intro c t h; simp at h, rfl⟩
  | cons c s ih =>
    intro x v r h
    rw [leadingInt] at h
    split at h
    · rename_i hc
      split at h
      · simp at h
      · split at h
        · simp at h
        · obtain ⟨l, h1, h2, h3, h4⟩ := ih _ _ _ h
          refine ⟨c :: l, by rw [h1]; rfl, ?_, h3, by rw [decAcc_cons]; exact h4⟩
          intro d hd
          rcases List.mem_cons.mp hd with rfl | hd
          · exact hc
          · exact h2 d hd
    · rename_i hc
      simp only [Option.some.injEq, Prod.mk.injEq] at h
      obtain ⟨rfl, rfl⟩ := h
      refine ⟨[], rfl, by simp, ?_, rfl⟩
      intro d t hd
      simp only [List.cons.injEq] at hd
      rw [← hd.1]
      simpa using hc

theorem leadingFraction_digits (l r : List Char) (h : ∀ c ∈ l, c.isDigit = true) (hr : NoDigit r) :
    ∀ x k, decAcc x l ≤ 2 ^ 63 - 1 → leadingFraction false x k (l ++ r) = (decAcc x l, k + l.length, r) := by
  induction l with
  | nil =>
    intro x k _
    cases r with
    | nil => rfl
    | cons c t => simp [leadingFraction, hr c t rfl, decAcc]
  | cons c l ih =>
    intro x k hx
    rw [decAcc_cons] at hx
    have hg := decAcc_ge l (x * 10 + (c.toNat - 48))
    rw [List.cons_append, leadingFraction, if_pos (h c (by simp)), if_neg (by simp), if_neg (by omega), if_neg (by omega), decAcc_cons,
      ih (fun d hd => h d (by simp [hd])) _ _ hx, List.length_cons, Nat.add_assoc, Nat.add_comm 1]

theorem leadingFraction_form : ∀ (s : List Char) (o : Bool) (x k : Nat),
    ∃ l, s = l ++ (leadingFraction o x k s).2.2 ∧ (∀ c ∈ l, c.isDigit = true) := by
  intro s
  induction s with
  | nil => intro o x k; exact ⟨[], by cases o <;> rfl, by simp⟩
  | cons c s ih =>
    intro o x k
    rw [leadingFraction]
    split
    · rename_i hc
      have key : ∀ (o : Bool) (x k : Nat), ∃ l, c :: s = l ++ (leadingFraction o x k s).2.2 ∧ (∀ c ∈ l, c.isDigit = true) := by
        intro o x k
        obtain ⟨l, h1, h2⟩ := ih o x k
        refine ⟨c :: l, by rw [List.cons_append, ← h1], ?_⟩
        intro d hd
        rcases List.mem_cons.mp hd with rfl | hd
        · exact hc
        · exact h2 d hd
      split
      · exact key _ _ _
      · split
        · exact key _ _ _
        · split
          · exact key _ _ _
          · exact key _ _ _
    · exact ⟨[], rfl, by simp⟩

theorem durUnit_some (u : List Char) (n : Nat) : durUnit u = some n ↔ ∃ s, (s, n) ∈ durUnits ∧ u = s.toList := by
  constructor
  · intro h
    unfold durUnit at h
    simp only [durUnits]
    repeat' split at h
    all_goals simp only [Option.some.injEq, reduceCtorEq] at h
    all_goals subst h
    · exact ⟨"ns", by simp, by simp_all⟩
    · exact ⟨"us", by simp, by simp_all⟩
    · exact ⟨"µs", by simp, by simp_all⟩
    · exact ⟨"μs", by simp, by simp_all⟩
    · exact ⟨"ms", by simp, by simp_all⟩
    · exact ⟨"s", by simp, by simp_all⟩
    · exact ⟨"m", by simp, by simp_all⟩
    · exact ⟨"h", by simp, by simp_all⟩
  · rintro ⟨s, h, rfl⟩
    simp only [durUnits, List.mem_cons, List.not_mem_nil, or_false, Prod.mk.injEq] at h
    rcases h with ⟨rfl, rfl⟩ | ⟨rfl, rfl⟩ | ⟨rfl, rfl⟩ | ⟨rfl, rfl⟩ | ⟨rfl, rfl⟩ | ⟨rfl, rfl⟩ | ⟨rfl, rfl⟩ | ⟨rfl, rfl⟩ <;> rfl

theorem durUnits_chars (s : String) (n : Nat) (h : (s, n) ∈ durUnits) : s.toList ≠ [] ∧ (∀ c ∈ s.toList, durStop c = false) ∧ 0 < n := by
  simp only [durUnits, List.mem_cons, List.not_mem_nil, or_false, Prod.mk.injEq] at h
  rcases h with ⟨rfl, rfl⟩ | ⟨rfl, rfl⟩ | ⟨rfl, rfl⟩ | ⟨rfl, rfl⟩ | ⟨rfl, rfl⟩ | ⟨rfl, rfl⟩ | ⟨rfl, rfl⟩ | ⟨rfl, rfl⟩ <;> decide

theorem take_unit (u r : List Char) (hu : ∀ c ∈ u, durStop c = false) (hr : ∀ c t, r = c :: t → durStop c = true) :
    (u ++ r).takeWhile (fun c => !durStop c) = u ∧ (u ++ r).dropWhile (fun c => !durStop c) = r := by
  induction u with
  | nil =>
    cases r with
    | nil => exact ⟨rfl, rfl⟩
    | cons c t => have := hr c t rfl; simp [this]
  | cons c u ih =>
    have h1 := hu c (by simp)
    have h2 := ih (fun d hd => hu d (by simp [hd]))
    simp [h1, h2]

/-- Fractions of at most 18 digits. -/
def DurPart.Short (p : DurPart) : Prop := ∀ f, p.frac = some f → f.length ≤ 18

theorem noDigit_of_stop {u r : List Char} (hu : ∀ c ∈ u, durStop c = false) (hn : u ≠ []) : NoDigit (u ++ r) := by
  intro c t h
  cases u with
  | nil => exact absurd rfl hn
  | cons d u =>
    simp only [List.cons_append, List.cons.injEq] at h
    have := hu d (by simp)
    rw [h.1] at this
    simp only [durStop, Bool.or_eq_false_iff] at this
    exact this.2

theorem durFraction_dot (t : List Char) : durFraction ('.' :: t) = ((leadingFraction false 0 0 t).1, (leadingFraction false 0 0 t).2.1,
    decide ((leadingFraction false 0 0 t).2.2.length ≠ t.length), (leadingFraction false 0 0 t).2.2) := rfl

theorem durFraction_other (s : List Char) (h : ∀ t, s ≠ '.' :: t) : durFraction s = (0, 0, false, s) := by
  unfold durFraction
  split
  · rename_i t; exact absurd rfl (h t)
  · rfl

theorem DurPart.text_first {p : DurPart} (hp : p.Ok) : ∃ c t, p.text = c :: t ∧ durStop c = true := by
  obtain ⟨h1, h2, h3, _⟩ := hp
  unfold DurPart.text
  cases hi : p.int with
  | cons c t => exact ⟨c, _, rfl, by simp [durStop, h1 c (by simp [hi])]⟩
  | nil =>
    rcases h3 with h3 | ⟨c, f, h3⟩
    · exact absurd hi h3
    · rw [h3]
      exact ⟨'.', _, rfl, rfl⟩

theorem durText_first {l : List DurPart} (hl : ∀ p ∈ l, p.Ok) : ∀ c t, durText l = c :: t → durStop c = true := by
  intro c t h
  cases l with
  | nil => simp [durText] at h
  | cons p l =>
    obtain ⟨d, s, h1, h2⟩ := DurPart.text_first (hl p (by simp))
    simp only [durText, List.flatMap_cons, h1, List.cons_append, List.cons.injEq] at h
    rw [← h.1]
    exact h2

theorem durLoop_part (fr : Nat → Nat → Nat → Nat) (p : DurPart) (a d n : Nat) (r : List Char) (hp : p.Ok) (hs : p.Short) (ha : p.Is fr a)
    (hd : d + a ≤ 2 ^ 63) (hr : ∀ c t, r = c :: t → durStop c = true) : durLoop fr (n + 1) (p.text ++ r) d = durLoop fr n r (d + a) := by
  obtain ⟨c, t, ht, hc⟩ := DurPart.text_first hp
  obtain ⟨h1, h2, h3, _⟩ := hp
  obtain ⟨un, u, hu, hun, ha⟩ := ha
  obtain ⟨u1, u2, u3⟩ := durUnits_chars u un hu
  rw [← hun] at u1 u2
  have htx : p.text = p.int ++ (fracText p.frac ++ p.unit) := by
    unfold DurPart.text; rw [List.append_assoc]
  obtain ⟨v, hv⟩ : ∃ v, v = digitsNat p.int := ⟨_, rfl⟩
  have hv1 : digitsNat p.int * un ≤ 2 ^ 63 := by omega
  have hvle : digitsNat p.int ≤ 2 ^ 63 := Nat.le_trans (Nat.le_mul_of_pos_right _ u3) hv1
  have hlead : leadingInt 0 (p.text ++ r) = some (digitsNat p.int, fracText p.frac ++ p.unit ++ r) := by
    have hn : NoDigit (fracText p.frac ++ p.unit ++ r) := by
      cases hf : p.frac with
      | none => exact noDigit_of_stop u2 u1
      | some f =>
        intro c t h
        simp only [fracText, List.cons_append, List.cons.injEq] at h
        rw [← h.1]; rfl
    have := leadingInt_digits p.int _ h1 hn 0 hvle
    rw [htx, List.append_assoc]
    exact this
  rw [ht, List.cons_append] at hlead ⊢
  rw [durLoop, if_pos hc, hlead]
  have hlen : (c :: (t ++ r)).length = p.int.length + (fracText p.frac ++ p.unit ++ r).length := by
    rw [← List.cons_append, ← ht, htx]
    simp
  have hf : durFraction (fracText p.frac ++ p.unit ++ r) =
      (match p.frac with
        | none => (0, 0, false, p.unit ++ r)
        | some f => (digitsNat f, f.length, decide (f ≠ []), p.unit ++ r)) := by
    cases hf : p.frac with
    | none =>
      refine durFraction_other _ ?_
      intro t ht
      cases hpu : p.unit with
      | nil => exact u1 hpu
      | cons x y =>
        simp only [hpu, fracText, List.nil_append, List.cons_append, List.cons.injEq] at ht
        have := u2 x (by simp [hpu])
        rw [ht.1] at this
        exact absurd this (by decide)
    | some f =>
      have hlt := decAcc_lt f (h2 f hf) 0
      have hpow : 10 ^ f.length ≤ 10 ^ 18 := Nat.pow_le_pow_right (by omega) (hs f hf)
      have hq := leadingFraction_digits f (p.unit ++ r) (h2 f hf) (noDigit_of_stop u2 u1) 0 0 (by omega)
      simp only [fracText, List.cons_append, List.append_assoc]
      rw [durFraction_dot, hq]
      have : decide (((p.unit ++ r).length ≠ (f ++ (p.unit ++ r)).length)) = decide (f ≠ []) := by
        cases f <;> simp <;> omega
      simp only [Nat.zero_add]
      rw [this]
      rfl
  simp only [hf]
  have htake := take_unit p.unit r u2 hr
  have hunit : durUnit p.unit = some un := (durUnit_some _ _).mpr ⟨u, hu, hun⟩
  have hmul : ¬ (digitsNat p.int > 2 ^ 63 / un) := by
    have := (Nat.le_div_iff_mul_le u3).mpr hv1
    omega
  have hcond : ¬ ((fracText p.frac ++ p.unit ++ r).length = (c :: (t ++ r)).length ∧
      (match p.frac with
        | none => (0, 0, false, p.unit ++ r)
        | some f => (digitsNat f, f.length, decide (f ≠ []), p.unit ++ r) : Nat × Nat × Bool × List Char).2.2.1 = false) := by
    rintro ⟨q1, q2⟩
    rw [hlen] at q1
    rcases h3 with h3 | ⟨x, f, h3⟩
    · have : 0 < p.int.length := List.length_pos_iff.mpr h3
      omega
    · rw [h3] at q2
      simp at q2
  rw [if_neg hcond]
  cases hfr : p.frac with
  | none =>
    rw [hfr] at ha
    simp only [htake, if_neg u1, hunit]
    have e : a = digitsNat p.int * un := by simpa using ha
    subst e
    rw [if_neg hmul]
    simp only [Nat.lt_irrefl, gt_iff_lt, if_false]
    have em : (d + digitsNat p.int * un) % 2 ^ 64 = d + digitsNat p.int * un := Nat.mod_eq_of_lt (by omega)
    rw [em, if_neg (by omega), if_neg (by omega)]
  | some f =>
    rw [hfr] at ha
    simp only [htake, if_neg u1, hunit]
    have e : (if digitsNat f > 0 then digitsNat p.int * un + fr (digitsNat f) f.length un else digitsNat p.int * un) = a := by
      rw [ha]
      simp only
      by_cases hz : digitsNat f = 0
      · simp [hz]
      · rw [if_pos (by omega), if_neg hz]
    rw [if_neg hmul, e]
    have em : (d + a) % 2 ^ 64 = d + a := Nat.mod_eq_of_lt (by omega)
    rw [em, if_neg (by omega), if_neg (by omega)]

theorem durLoop_parts (fr : Nat → Nat → Nat → Nat) (l : List DurPart) : ∀ (a d n : Nat), (∀ p ∈ l, p.Ok) → (∀ p ∈ l, p.Short) → DurTotal fr l a →
    d + a ≤ 2 ^ 63 → l.length ≤ n → durLoop fr n (durText l) d = some (d + a) := by
  induction l with
  | nil =>
    intro a d n _ _ ht _ _
    cases ht
    cases n <;> simp [durText, durLoop]
  | cons p l ih =>
    intro a d n hok hsh ht hd hn
    cases ht with
    | cons h1 h2 =>
      rename_i x y
      cases n with
      | zero => simp at hn
      | succ n =>
        have hl : ∀ q ∈ l, q.Ok := fun q hq => hok q (by simp [hq])
        have : durText (p :: l) = p.text ++ durText l := by simp [durText]
        rw [this, durLoop_part fr p x d n _ (hok p (by simp)) (hsh p (by simp)) h1 (by omega) (durText_first hl),
          ih y (d + x) n hl (fun q hq => hsh q (by simp [hq])) h2 (by omega) (by simpa using hn), Nat.add_assoc]

theorem durText_length {l : List DurPart} (hl : ∀ p ∈ l, p.Ok) : l.length ≤ (durText l).length := by
  induction l with
  | nil => simp
  | cons p l ih =>
    obtain ⟨c, t, h, _⟩ := DurPart.text_first (hl p (by simp))
    have := ih (fun q hq => hl q (by simp [hq]))
    simp only [durText, List.flatMap_cons, h, List.length_append, List.length_cons] at this ⊢
    omega

theorem durLoop_form (fr : Nat → Nat → Nat → Nat) : ∀ (n : Nat) (s : List Char) (d v : Nat), durLoop fr n s d = some v →
    ∃ l : List DurPart, (∀ p ∈ l, p.Ok) ∧ s = durText l := by
  intro n
  induction n with
  | zero =>
    intro s d v h
    cases s with
    | nil => exact ⟨[], by simp, rfl⟩
    | cons c s => simp [durLoop] at h
  | succ n ih =>
    intro s d v h
    cases s with
    | nil => exact ⟨[], by simp, rfl⟩
    | cons c s =>
      rw [durLoop] at h
      split at h
      · split at h
        · simp at h
        · rename_i v1 s1 hl
          obtain ⟨l, e1, e2, e3, e4⟩ := leadingInt_form _ _ _ _ hl
          simp only at h
          split at h
          · simp at h
          · rename_i hcond
            split at h
            · simp at h
            · rename_i hu
              split at h
              · simp at h
              · rename_i un hun
                obtain ⟨u, q1, q2⟩ := (durUnit_some _ _).mp hun
                have hrest : ∃ w, durLoop fr n ((durFraction s1).2.2.2.dropWhile (fun c => !durStop c)) w = some v := by
                  repeat' split at h
                  all_goals first | simp at h; done | exact ⟨_, h⟩
                obtain ⟨w, hw⟩ := hrest
                obtain ⟨ps, p1, p2⟩ := ih _ _ _ hw
                have hfrac : ∃ fo : Option (List Char), s1 = fracText fo ++ (durFraction s1).2.2.2 ∧
                    (∀ f, fo = some f → ∀ c ∈ f, c.isDigit = true) ∧ ((durFraction s1).2.2.1 = true → ∃ x f, fo = some (x :: f)) := by
                  by_cases hdot : ∃ t, s1 = '.' :: t
                  · obtain ⟨t, rfl⟩ := hdot
                    obtain ⟨f, f1, f2⟩ := leadingFraction_form t false 0 0
                    refine ⟨some f, ?_, ?_, ?_⟩
                    · rw [durFraction_dot]
                      simp only [fracText, List.cons_append]
                      rw [← f1]
                    · intro g hg; cases hg; exact f2
                    · intro hb
                      rw [durFraction_dot] at hb
                      cases f with
                      | nil =>
                        rw [List.nil_append] at f1
                        simp [← f1] at hb
                      | cons x f => exact ⟨x, f, rfl⟩
                  · rw [durFraction_other s1 (fun t ht => hdot ⟨t, ht⟩)]
                    exact ⟨none, rfl, by simp, by simp⟩
                obtain ⟨fo, f1, f2, f3⟩ := hfrac
                have htd := List.takeWhile_append_dropWhile (p := fun c => !durStop c) (l := (durFraction s1).2.2.2)
                refine ⟨⟨l, fo, (durFraction s1).2.2.2.takeWhile (fun c => !durStop c)⟩ :: ps, ?_, ?_⟩
                · intro p hp
                  rcases List.mem_cons.mp hp with rfl | hp
                  · refine ⟨e2, f2, ?_, un, u, q1, q2⟩
                    by_cases hb : (durFraction s1).2.2.1 = true
                    · exact .inr (f3 hb)
                    · left
                      intro hl0
                      simp only at hl0
                      rw [hl0, List.nil_append] at e1
                      exact hcond ⟨by rw [e1], by simpa using hb⟩
                  · exact p1 p hp
                · rw [e1]
                  have e5 : durText (⟨l, fo, (durFraction s1).2.2.2.takeWhile (fun c => !durStop c)⟩ :: ps) =
                      l ++ fracText fo ++ (durFraction s1).2.2.2.takeWhile (fun c => !durStop c) ++ durText ps := by
                    simp only [durText, List.flatMap_cons, DurPart.text]
                  rw [e5, ← p2, List.append_assoc, htd, List.append_assoc, ← f1]
      · simp at h

end Dctl
