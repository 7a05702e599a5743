import Verif.Pipeline.JsonOp
import Verif.Json.KeyLemmas
import Verif.Spec.JsonPipeline
/-!
# Lemmas on sorting values (`pkg/dbsp/op_nonlinear.go:146-175`)
-/
set_option autoImplicit false
set_option linter.unusedSectionVars false
namespace Dctl

/-- A strict total order given as a test. -/
structure StrictTotal {α : Type} (lt : α → α → Bool) : Prop where
  irrefl : ∀ a, lt a a = false
  asymm : ∀ a b, lt a b = true → lt b a = false
  trans : ∀ a b c, lt a b = true → lt b c = true → lt a c = true
  total : ∀ a b, lt a b = false → lt b a = false → a = b

theorem cmpBy_swap {α : Type} {lt : α → α → Bool} (h : StrictTotal lt) (a b : α) : cmpBy lt a b = (cmpBy lt b a).swap := by
  unfold cmpBy
  cases h1 : lt a b <;> cases h2 : lt b a <;> simp
  have := h.asymm a b h1
  rw [h2] at this
  cases this

theorem cmpBy_eq {α : Type} {lt : α → α → Bool} (h : StrictTotal lt) (a b : α) : cmpBy lt a b = .eq ↔ a = b := by
  unfold cmpBy
  constructor
  · intro hc
    cases h1 : lt a b <;> cases h2 : lt b a <;> simp [h1, h2] at hc
    exact h.total a b h1 h2
  · rintro rfl; simp [h.irrefl]

theorem cmpBy_ne_gt {α : Type} {lt : α → α → Bool} (h : StrictTotal lt) (a b : α) : cmpBy lt a b ≠ .gt ↔ lt b a = false := by
  unfold cmpBy
  cases h1 : lt a b <;> cases h2 : lt b a <;> simp
  have := h.asymm a b h1
  rw [h2] at this
  cases this

theorem cmpBy_trans {α : Type} {lt : α → α → Bool} (h : StrictTotal lt) (a b c : α) (h1 : cmpBy lt a b ≠ .gt) (h2 : cmpBy lt b c ≠ .gt) :
    cmpBy lt a c ≠ .gt := by
  rw [cmpBy_ne_gt h] at *
  cases h3 : lt c a with
  | false => rfl
  | true =>
    cases h4 : lt a b with
    | true => rw [h.trans c a b h3 h4] at h2; cases h2
    | false => rw [h.total a b h4 h1] at h3; rw [h2] at h3; cases h3

theorem intLt_total : StrictTotal (fun x y : Int => decide (x < y)) := by
  refine ⟨?_, ?_, ?_, ?_⟩ <;> intros <;> simp_all <;> omega

theorem ratLt_total : StrictTotal (fun x y : Rat => decide (x < y)) := by
  refine ⟨?_, ?_, ?_, ?_⟩
  · intro a; simp [Rat.lt_irrefl]
  · intro a b h; simp only [decide_eq_true_eq, decide_eq_false_iff_not] at *; grind
  · intro a b c h h'; simp only [decide_eq_true_eq] at *; grind
  · intro a b h h'; simp only [decide_eq_false_iff_not] at *; grind

theorem strLt_total : StrictTotal (fun x y : String => decide (x < y)) := by
  refine ⟨?_, ?_, ?_, ?_⟩
  · intro a; simp [String.lt_irrefl]
  · intro a b h; simp only [decide_eq_true_eq, decide_eq_false_iff_not] at *; exact String.lt_asymm h
  · intro a b c h h'; simp only [decide_eq_true_eq] at *; exact String.lt_trans h h'
  · intro a b h h'; simp only [decide_eq_false_iff_not] at *; exact String.le_antisymm (String.not_lt.mp h') (String.not_lt.mp h)

/-- Compare by texts. -/
def cmpText (ft : Rat → List Char) (a b : Json) : Ordering :=
  cmpBy (fun x y => decide (x < y)) (String.ofList (a.text ft)) (String.ofList (b.text ft))

/-- Strings, then numbers, then the rest: the order of the first characters of the texts. -/
def Json.rank : Json → Nat
  | .str _ => 0
  | .int _ | .float _ => 1
  | _ => 2

/-- Not both an int and a float. -/
def NoMixPair : Json → Json → Prop
  | .int _, .float _ => False
  | .float _, .int _ => False
  | _, _ => True

theorem headOk_lt {a b : Json} (h : a.rank < b.rank) {c d : Char} (hc : a.headOk c) (hd : b.headOk d) : c < d := by
  have num : ∀ c : Char, (c.isDigit = true ∨ c = '-') → c.val < 91 ∧ 34 < c.val := by
    rintro c (h | rfl)
    · simp only [Char.isDigit, Bool.and_eq_true, decide_eq_true_eq] at h
      have h1 : c.val.toNat ≤ 57 := h.2
      have h2 : 48 ≤ c.val.toNat := h.1
      constructor
      · show c.val.toNat < 91; omega
      · show 34 < c.val.toNat; omega
    · decide
  have fin : ∀ d : Char, (d = 'n' ∨ d = 't' ∨ d = 'f' ∨ d = '[' ∨ d = '{') → 91 ≤ d.val := by
    rintro d (rfl | rfl | rfl | rfl | rfl) <;> decide
  have key : ∀ (a : Json), (a.rank = 0 → ∀ c, a.headOk c → c.val = 34) ∧ (a.rank = 1 → ∀ c, a.headOk c → c.val < 91 ∧ 34 < c.val) ∧
      (a.rank = 2 → ∀ c, a.headOk c → 91 ≤ c.val) := by
    intro a
    refine ⟨?_, ?_, ?_⟩ <;> intro hr c hc
    · cases a <;> simp [Json.rank] at hr
      simp only [Json.headOk] at hc
      subst hc; decide
    · cases a <;> simp [Json.rank] at hr <;> exact num c hc
    · apply fin
      cases a with
      | null => exact .inl hc
      | bool b =>
        cases b
        · exact .inr (.inr (.inl hc))
        · exact .inr (.inl hc)
      | int i => simp [Json.rank] at hr
      | float f => simp [Json.rank] at hr
      | str s => simp [Json.rank] at hr
      | list l => exact .inr (.inr (.inr (.inl hc)))
      | map m => exact .inr (.inr (.inr (.inr hc)))
  have hr : ∀ a : Json, a.rank = 0 ∨ a.rank = 1 ∨ a.rank = 2 := by intro a; cases a <;> simp [Json.rank]
  obtain ⟨a0, a1, a2⟩ := key a
  obtain ⟨b0, b1, b2⟩ := key b
  have goal : c.val.toNat < d.val.toNat := by
    rcases hr a with ha | ha | ha <;> rcases hr b with hb | hb | hb <;> rw [ha, hb] at h <;> try omega
    · have x := a0 ha c hc; have y := (b1 hb d hd).2
      rw [x]; exact y
    · have x := a0 ha c hc; have y : (91 : Nat) ≤ d.val.toNat := b2 hb d hd
      rw [x]; exact Nat.lt_of_lt_of_le (by decide) y
    · have x : c.val.toNat < 91 := (a1 ha c hc).1; have y : (91 : Nat) ≤ d.val.toNat := b2 hb d hd
      omega
  exact goal

variable {E : Rat → Prop} {ft : Rat → List Char}

theorem cmpText_rank (F : FloatText E ft) {a b : Json} (ha : a.Doc E) (hb : b.Doc E) (h : a.rank < b.rank) : cmpText ft a b = .lt := by
  obtain ⟨c, t, h1, h2⟩ := text_head F ha
  obtain ⟨d, s, h3, h4⟩ := text_head F hb
  have : String.ofList (a.text ft) < String.ofList (b.text ft) := by
    rw [h1, h3, String.lt_iff, String.toList_ofList, String.toList_ofList]
    exact List.Lex.rel (headOk_lt h h2 h4)
  simp [cmpText, cmpBy, this]

theorem cmpVal_rank (F : FloatText E ft) {a b : Json} (ha : a.Doc E) (hb : b.Doc E) (h : a.rank < b.rank) : cmpVal ft a b = .lt := by
  have e : cmpVal ft a b = cmpText ft a b := by cases a <;> cases b <;> simp [Json.rank] at h <;> rfl
  rw [e, cmpText_rank F ha hb h]

theorem cmpVal_rank' (F : FloatText E ft) {a b : Json} (ha : a.Doc E) (hb : b.Doc E) (h : b.rank < a.rank) : cmpVal ft a b = .gt := by
  have e : cmpVal ft a b = cmpText ft a b := by cases a <;> cases b <;> simp [Json.rank] at h <;> rfl
  rw [e, cmpText, cmpBy_swap strLt_total, ← cmpText, cmpText_rank F hb ha h]; rfl

theorem cls_cases (ft : Rat → List Char) (a b : Json) : (∃ x y, a = .int x ∧ b = .int y) ∨ (∃ x y, a = .float x ∧ b = .float y) ∨ (∃ x y, a = .str x ∧ b = .str y) ∨
    (cmpVal ft a b = cmpText ft a b ∧ cmpVal ft b a = cmpText ft b a) := by
  cases a <;> cases b <;> first
    | exact .inl ⟨_, _, rfl, rfl⟩
    | exact .inr (.inl ⟨_, _, rfl, rfl⟩)
    | exact .inr (.inr (.inl ⟨_, _, rfl, rfl⟩))
    | exact .inr (.inr (.inr ⟨rfl, rfl⟩))

theorem cmpVal_int (x y : Int) : cmpVal ft (.int x) (.int y) = cmpBy (fun x y => decide (x < y)) x y := rfl
theorem cmpVal_float (x y : Rat) : cmpVal ft (.float x) (.float y) = cmpBy (fun x y => decide (x < y)) x y := rfl
theorem cmpVal_str (x y : String) : cmpVal ft (.str x) (.str y) = cmpBy (fun x y => decide (x < y)) x y := rfl

theorem cmpVal_swap (a b : Json) : cmpVal ft a b = (cmpVal ft b a).swap := by
  rcases cls_cases ft a b with ⟨x, y, rfl, rfl⟩ | ⟨x, y, rfl, rfl⟩ | ⟨x, y, rfl, rfl⟩ | ⟨h1, h2⟩
  · rw [cmpVal_int, cmpVal_int]; exact cmpBy_swap intLt_total _ _
  · rw [cmpVal_float, cmpVal_float]; exact cmpBy_swap ratLt_total _ _
  · rw [cmpVal_str, cmpVal_str]; exact cmpBy_swap strLt_total _ _
  · rw [h1, h2]; exact cmpBy_swap strLt_total _ _

theorem cmpVal_other {a : Json} (h : a.rank = 2) (b : Json) : cmpVal ft a b = cmpText ft a b := by
  rcases cls_cases ft a b with ⟨x, y, rfl, rfl⟩ | ⟨x, y, rfl, rfl⟩ | ⟨x, y, rfl, rfl⟩ | ⟨h1, h2⟩
  · simp [Json.rank] at h
  · simp [Json.rank] at h
  · simp [Json.rank] at h
  · exact h1

theorem rank_cases (a : Json) : (∃ s, a = .str s) ∨ (∃ i, a = .int i) ∨ (∃ f, a = .float f) ∨ a.rank = 2 := by
  cases a <;> simp [Json.rank]

theorem cmpVal_trans (F : FloatText E ft) {a b c : Json} (ha : a.Doc E) (hb : b.Doc E) (hc : c.Doc E) (hab : NoMixPair a b) (hbc : NoMixPair b c)
    (h1 : cmpVal ft a b ≠ .gt) (h2 : cmpVal ft b c ≠ .gt) : cmpVal ft a c ≠ .gt := by
  have r1 : a.rank ≤ b.rank := by
    apply Nat.le_of_not_lt; intro h; exact h1 (cmpVal_rank' F ha hb h)
  have r2 : b.rank ≤ c.rank := by
    apply Nat.le_of_not_lt; intro h; exact h2 (cmpVal_rank' F hb hc h)
  by_cases r3 : a.rank < c.rank
  · rw [cmpVal_rank F ha hc r3]; simp
  have e1 : a.rank = b.rank := by omega
  have e2 : b.rank = c.rank := by omega
  rcases rank_cases b with ⟨y, rfl⟩ | ⟨y, rfl⟩ | ⟨y, rfl⟩ | hr
  · obtain ⟨x, rfl⟩ : ∃ x, a = .str x := by cases a <;> simp [Json.rank] at e1; exact ⟨_, rfl⟩
    obtain ⟨z, rfl⟩ : ∃ x, c = .str x := by cases c <;> simp [Json.rank] at e2; exact ⟨_, rfl⟩
    rw [cmpVal_str] at *
    exact cmpBy_trans strLt_total _ _ _ h1 h2
  · obtain ⟨x, rfl⟩ : ∃ x, a = .int x := by cases a <;> simp [Json.rank, NoMixPair] at e1 hab; exact ⟨_, rfl⟩
    obtain ⟨z, rfl⟩ : ∃ x, c = .int x := by cases c <;> simp [Json.rank, NoMixPair] at e2 hbc; exact ⟨_, rfl⟩
    rw [cmpVal_int] at *
    exact cmpBy_trans intLt_total _ _ _ h1 h2
  · obtain ⟨x, rfl⟩ : ∃ x, a = .float x := by cases a <;> simp [Json.rank, NoMixPair] at e1 hab; exact ⟨_, rfl⟩
    obtain ⟨z, rfl⟩ : ∃ x, c = .float x := by cases c <;> simp [Json.rank, NoMixPair] at e2 hbc; exact ⟨_, rfl⟩
    rw [cmpVal_float] at *
    exact cmpBy_trans ratLt_total _ _ _ h1 h2
  · rw [cmpVal_other (e1.trans hr)] at *
    rw [cmpVal_other hr] at h2
    exact cmpBy_trans strLt_total _ _ _ h1 h2

theorem cmpVal_eq_text {a b : Json} (h : cmpVal ft a b = .eq) : a.text ft = b.text ft := by
  rcases cls_cases ft a b with ⟨x, y, rfl, rfl⟩ | ⟨x, y, rfl, rfl⟩ | ⟨x, y, rfl, rfl⟩ | ⟨h1, h2⟩
  · rw [cmpVal_int, cmpBy_eq intLt_total] at h; rw [h]
  · rw [cmpVal_float, cmpBy_eq ratLt_total] at h; rw [h]
  · rw [cmpVal_str, cmpBy_eq strLt_total] at h; rw [h]
  · rw [h1, cmpText, cmpBy_eq strLt_total] at h; exact String.ofList_injective h

/-- Values with the same text compare alike. -/
theorem cmpVal_text_congr (F : FloatText E ft) {a b : Json} (ha : a.Doc E) (hb : b.Doc E) (h : NoMixPair a b) (ht : a.text ft = b.text ft) (x : Json) :
    cmpVal ft a x = cmpVal ft b x := by
  obtain ⟨h1, _⟩ := text_split F a ha b hb [] [] (.inl rfl) (.inl rfl) (by rw [ht])
  rcases rank_cases a with ⟨y, rfl⟩ | ⟨y, rfl⟩ | ⟨y, rfl⟩ | hr
  · cases b <;> simp only [Json.TEq] at h1
    rw [h1]
  · cases b <;> simp only [Json.TEq] at h1
    · rw [h1]
    · exact h.elim
  · cases b <;> simp only [Json.TEq] at h1
    · exact h.elim
    · rw [F.inj _ _ ha hb h1]
  · have hr' : b.rank = 2 := by cases a <;> simp [Json.rank] at hr <;> cases b <;> simp only [Json.TEq] at h1 <;> rfl
    rw [cmpVal_other hr, cmpVal_other hr', cmpText, cmpText, ht]

/-- Numbers in the list are all ints or all floats. -/
def NoMix (l : List Json) : Prop := ∀ a ∈ l, ∀ b ∈ l, NoMixPair a b

theorem orders_of_noMix (F : FloatText E ft) {l : List Json} (hd : ∀ a ∈ l, a.Doc E) (h : NoMix l) : Orders (cmpVal ft) l :=
  ⟨fun a _ b _ => cmpVal_swap a b, fun a ha b hb c hc => cmpVal_trans F (hd a ha) (hd b hb) (hd c hc) (h a ha b hb) (h b hb c hc)⟩

/-- Sorted lists with the same texts, as multisets, have the same texts in order. -/
theorem sorted_texts (F : FloatText E ft) {S : List Json} (hd : ∀ a ∈ S, a.Doc E) (hm : NoMix S) : ∀ (l1 l2 : List Json), (∀ a ∈ l1, a ∈ S) → (∀ a ∈ l2, a ∈ S) →
    (l1.map (Json.text ft)).Perm (l2.map (Json.text ft)) → l1.Pairwise (fun a b => cmpVal ft a b ≠ .gt) → l2.Pairwise (fun a b => cmpVal ft a b ≠ .gt) →
    l1.map (Json.text ft) = l2.map (Json.text ft)
  | [], l2, _, _, hp, _, _ => by
    have := hp.length_eq
    simp only [List.map_nil, List.length_nil, List.length_map] at this
    rw [List.length_eq_zero_iff.mp this.symm]
  | a :: l1, [], _, _, hp, _, _ => by have := hp.length_eq; simp at this
  | a :: l1, b :: l2, h1, h2, hp, s1, s2 => by
    have refl : ∀ x, cmpVal ft x x ≠ .gt := by
      intro x hx
      have := cmpVal_swap (ft := ft) x x
      rw [hx] at this
      cases this
    have hmin : ∀ (x y : Json) (xs ys : List Json), (∀ z ∈ x :: xs, z ∈ S) → (∀ z ∈ y :: ys, z ∈ S) →
        ((x :: xs).map (Json.text ft)).Perm ((y :: ys).map (Json.text ft)) → (y :: ys).Pairwise (fun a b => cmpVal ft a b ≠ .gt) → cmpVal ft y x ≠ .gt := by
      intro x y xs ys hx hy hp hs
      have : x.text ft ∈ (y :: ys).map (Json.text ft) := hp.mem_iff.mp (by simp)
      obtain ⟨w, hw, hwt⟩ := List.mem_map.mp this
      have hle : cmpVal ft y w ≠ .gt := by
        rcases List.mem_cons.mp hw with rfl | hw
        · exact refl _
        · exact (List.pairwise_cons.mp hs).1 w hw
      rw [cmpVal_swap] at hle ⊢
      rw [← cmpVal_text_congr F (hd w (hy w hw)) (hd x (hx x (by simp))) (hm w (hy w hw) x (hx x (by simp))) hwt y]
      exact hle
    have hba := hmin a b l1 l2 h1 h2 hp s2
    have hab := hmin b a l2 l1 h2 h1 hp.symm s1
    have he : cmpVal ft a b = .eq := by
      have := cmpVal_swap (ft := ft) a b
      cases h3 : cmpVal ft a b with
      | eq => rfl
      | gt => exact absurd h3 hab
      | lt => rw [h3] at this; cases h4 : cmpVal ft b a with
        | gt => exact absurd h4 hba
        | lt => rw [h4] at this; cases this
        | eq => rw [h4] at this; cases this
    have ht := cmpVal_eq_text he
    rw [List.map_cons, List.map_cons, ht]
    congr 1
    refine sorted_texts F hd hm l1 l2 (fun x hx => h1 x (List.mem_cons_of_mem _ hx)) (fun x hx => h2 x (List.mem_cons_of_mem _ hx)) ?_
      (List.pairwise_cons.mp s1).2 (List.pairwise_cons.mp s2).2
    rw [List.map_cons, List.map_cons, ht] at hp
    exact List.Perm.cons_inv hp

theorem insertRev_perm (cmp : Json → Json → Ordering) (x : Json) : ∀ l, (insertRev cmp x l).Perm (x :: l)
  | [] => List.Perm.refl _
  | y :: l => by
    rw [insertRev]
    split
    · exact ((insertRev_perm cmp x l).cons y).trans (List.Perm.swap x y l)
    · exact List.Perm.refl _

theorem insertFold_perm (cmp : Json → Json → Ordering) : ∀ (l acc : List Json), (l.foldl (fun acc x => insertRev cmp x acc) acc).Perm (l ++ acc)
  | [], acc => List.Perm.refl _
  | x :: l, acc => by
    rw [List.foldl_cons]
    exact (insertFold_perm cmp l _).trans (((insertRev_perm cmp x acc).append_left l).trans List.perm_middle)

theorem insertionSort_perm (cmp : Json → Json → Ordering) (l : List Json) : (insertionSort cmp l).Perm l := by
  unfold insertionSort
  exact (List.reverse_perm _).trans (by simpa using insertFold_perm cmp l [])

/-- Descending, as the reversed sorted part is. -/
theorem insertRev_sorted {cmp : Json → Json → Ordering} {S : List Json} (hO : Orders cmp S) {x : Json} (hx : x ∈ S) : ∀ {l : List Json}, (∀ a ∈ l, a ∈ S) →
    l.Pairwise (fun a b => cmp b a ≠ .gt) → (insertRev cmp x l).Pairwise (fun a b => cmp b a ≠ .gt)
  | [], _, _ => by simp [insertRev]
  | y :: l, hl, hs => by
    have hy := hl y List.mem_cons_self
    have hs' := List.pairwise_cons.mp hs
    rw [insertRev]
    split
    · rename_i hlt
      refine List.pairwise_cons.mpr ⟨?_, insertRev_sorted hO hx (fun a ha => hl a (List.mem_cons_of_mem _ ha)) hs'.2⟩
      intro b hb
      rcases List.mem_cons.mp ((insertRev_perm cmp x l).mem_iff.mp hb) with rfl | hb
      · rw [hlt]; simp
      · exact hs'.1 b hb
    · rename_i hlt
      have hyx : cmp y x ≠ .gt := by
        rw [hO.1 y hy x hx]
        intro hg
        apply hlt
        cases hc : cmp x y <;> rw [hc] at hg <;> first | rfl | cases hg
      refine List.pairwise_cons.mpr ⟨?_, hs⟩
      intro b hb
      rcases List.mem_cons.mp hb with rfl | hb
      · exact hyx
      · exact hO.2 b (hl b (List.mem_cons_of_mem _ hb)) y hy x hx (hs'.1 b hb) hyx

theorem insertionSort_sorts {cmp : Json → Json → Ordering} {l : List Json} (hO : Orders cmp l) : (insertionSort cmp l).Pairwise (fun a b => cmp a b ≠ .gt) := by
  unfold insertionSort
  rw [List.pairwise_reverse]
  have : ∀ (xs acc : List Json), (∀ a ∈ xs, a ∈ l) → (∀ a ∈ acc, a ∈ l) → acc.Pairwise (fun a b => cmp b a ≠ .gt) →
      (xs.foldl (fun acc x => insertRev cmp x acc) acc).Pairwise (fun a b => cmp b a ≠ .gt) := by
    intro xs
    induction xs with
    | nil => intro acc _ _ h; exact h
    | cons x xs ih =>
      intro acc h1 h2 h3
      rw [List.foldl_cons]
      refine ih _ (fun a ha => h1 a (List.mem_cons_of_mem _ ha)) ?_ (insertRev_sorted hO (h1 x List.mem_cons_self) h2 h3)
      intro a ha
      rcases List.mem_cons.mp ((insertRev_perm cmp x acc).mem_iff.mp ha) with rfl | ha
      · exact h1 _ List.mem_cons_self
      · exact h2 a ha
  exact this l [] (fun _ h => h) (by simp) List.Pairwise.nil

/-- Insertion sort is a possible `slices.SortFunc`. -/
theorem insertionSort_sortFunc (cmp : Json → Json → Ordering) : SortFunc cmp (insertionSort cmp) :=
  ⟨insertionSort_perm cmp, fun _ h => insertionSort_sorts h, fun _ _ => rfl⟩

end Dctl
