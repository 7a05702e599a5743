import Verif.Json.Key
import Verif.Spec.Json
/-! Helper lemmas about JSON texts. -/
set_option autoImplicit false
namespace Dctl

theorem escTable_prefix : ∀ p ∈ escTable, ∀ q ∈ escTable, p.2 <+: q.2 → p = q := by decide
theorem escTable_head : ∀ p ∈ escTable, p.2.head? = some '\\' := by decide

theorem escLookup_mem {α : Type} {l : List (Char × α)} {c : Char} {e : α} (h : l.lookup c = some e) : (c, e) ∈ l := by
  induction l with
  | nil => simp at h
  | cons p t ih =>
    obtain ⟨c', e'⟩ := p
    by_cases hc : c = c'
    · subst hc; simp at h; simp [h]
    · rw [List.lookup_cons] at h
      have : (c == c') = false := by simpa using hc
      rw [this] at h
      exact List.mem_cons_of_mem _ (ih h)

theorem escChar_cases (c : Char) : (∃ e, (c, e) ∈ escTable ∧ escChar c = e) ∨ (escChar c = [c] ∧ c ≠ '"' ∧ c ≠ '\\') := by
  unfold escChar
  cases h : escTable.lookup c with
  | some e => exact .inl ⟨e, escLookup_mem h, rfl⟩
  | none =>
    refine .inr ⟨rfl, ?_, ?_⟩ <;> rintro rfl <;> revert h <;> decide

theorem escChar_split {c d : Char} {r s : List Char} (h : escChar c ++ r = escChar d ++ s) : c = d ∧ r = s := by
  rcases escChar_cases c with ⟨e, he, hc⟩ | ⟨hc, c1, c2⟩ <;> rcases escChar_cases d with ⟨f, hf, hd⟩ | ⟨hd, d1, d2⟩ <;> rw [hc, hd] at h
  · have : (c, e) = (d, f) := by
      rcases List.append_eq_append_iff.mp h with ⟨a, h1, h2⟩ | ⟨a, h1, h2⟩
      · exact escTable_prefix _ he _ hf ⟨a, h1.symm⟩
      · exact (escTable_prefix _ hf _ he ⟨a, h1.symm⟩).symm
    simp only [Prod.mk.injEq] at this
    obtain ⟨rfl, rfl⟩ := this
    exact ⟨rfl, List.append_cancel_left h⟩
  · exfalso
    have := escTable_head _ he
    cases e with
    | nil => simp at this
    | cons x t => simp at this; subst this; simp at h; exact d2 h.1.symm
  · exfalso
    have := escTable_head _ hf
    cases f with
    | nil => simp at this
    | cons x t => simp at this; subst this; simp at h; exact c2 h.1
  · simpa using h

theorem escChar_no_quote {c : Char} {r s : List Char} : escChar c ++ r ≠ '"' :: s := by
  intro h
  rcases escChar_cases c with ⟨e, he, hc⟩ | ⟨hc, c1, c2⟩ <;> rw [hc] at h
  · have := escTable_head _ he
    cases e with
    | nil => simp at this
    | cons x t => simp at this; subst this; simp at h
  · simp at h; exact c1 h.1

theorem strText_split {a b : String} {r s : List Char} (h : strText a ++ r = strText b ++ s) : a = b ∧ r = s := by
  have key : ∀ (a b : List Char), (a.flatMap escChar ++ ['"']) ++ r = (b.flatMap escChar ++ ['"']) ++ s → a = b ∧ r = s := by
    intro a
    induction a with
    | nil =>
      intro b h
      cases b with
      | nil => simpa using h
      | cons d b =>
        simp only [List.flatMap_nil, List.flatMap_cons, List.append_assoc, List.nil_append, List.singleton_append] at h
        exact absurd h.symm escChar_no_quote
    | cons c a ih =>
      intro b h
      cases b with
      | nil =>
        simp only [List.flatMap_nil, List.flatMap_cons, List.append_assoc, List.nil_append, List.singleton_append] at h
        exact absurd h escChar_no_quote
      | cons d b =>
        simp only [List.flatMap_cons, List.append_assoc] at h
        obtain ⟨h1, h2⟩ := escChar_split h
        obtain ⟨h3, h4⟩ := ih b (by simpa only [List.append_assoc] using h2)
        exact ⟨by rw [h1, h3], h4⟩
  obtain ⟨h1, h2⟩ := key a.toList b.toList h
  exact ⟨String.toList_inj.mp h1, h2⟩

/-- A number character. -/
def numCh (c : Char) : Prop := c.isDigit ∨ c = '-' ∨ c = '+' ∨ c = '.' ∨ c = 'e'

/-- What follows a value: nothing, a comma or a closing bracket. -/
def Term (r : List Char) : Prop := r = [] ∨ ∃ c t, r = c :: t ∧ (c = ',' ∨ c = ']' ∨ c = '}')

theorem num_split {a b r s : List Char} (ha : ∀ c ∈ a, numCh c) (hb : ∀ c ∈ b, numCh c) (hr : Term r) (hs : Term s) (h : a ++ r = b ++ s) :
    a = b ∧ r = s := by
  have no : ∀ c, numCh c → ¬ (c = ',' ∨ c = ']' ∨ c = '}') := by
    rintro c hc (rfl | rfl | rfl) <;> revert hc <;> unfold numCh <;> decide
  rcases List.append_eq_append_iff.mp h with ⟨x, h1, h2⟩ | ⟨x, h1, h2⟩
  · cases x with
    | nil => simp at h1 h2; exact ⟨h1.symm, h2⟩
    | cons c x =>
      exfalso
      have hc : numCh c := hb c (by rw [h1]; simp)
      rcases hr with rfl | ⟨d, t, rfl, hd⟩
      · simp at h2
      · simp at h2; exact no c hc (h2.1 ▸ hd)
  · cases x with
    | nil => simp at h1 h2; exact ⟨h1, h2.symm⟩
    | cons c x =>
      exfalso
      have hc : numCh c := ha c (by rw [h1]; simp)
      rcases hs with rfl | ⟨d, t, rfl, hd⟩
      · simp at h2
      · simp at h2; exact no c hc (h2.1 ▸ hd)

theorem intText_facts (i : Int) : (∃ c t, i.repr.toList = c :: t ∧ (c.isDigit ∨ c = '-')) ∧ ∀ c ∈ i.repr.toList, numCh c := by
  have nat : ∀ n : Nat, (∃ c t, n.repr.toList = c :: t ∧ (c.isDigit ∨ c = '-')) ∧ ∀ c ∈ n.repr.toList, c.isDigit := by
    intro n
    have h : ∀ c ∈ n.repr.toList, c.isDigit := by
      intro c hc
      rw [Nat.toList_repr] at hc
      exact Nat.isDigit_of_mem_toDigits (by omega) (by omega) hc
    refine ⟨?_, h⟩
    cases hn : n.repr.toList with
    | nil => rw [Nat.toList_repr] at hn; exact absurd hn Nat.toDigits_ne_nil
    | cons c t => exact ⟨c, t, rfl, .inl (h c (by rw [hn]; simp))⟩
  rw [Int.repr_eq_if]
  split
  · exact ⟨(nat _).1, fun c hc => .inl ((nat _).2 c hc)⟩
  · rw [String.toList_append]
    refine ⟨⟨'-', _, rfl, .inr rfl⟩, ?_⟩
    intro c hc
    rcases List.mem_append.mp hc with hc | hc
    · have : c = '-' := by simpa using hc
      exact .inr (.inl this)
    · exact .inl ((nat _).2 c hc)

mutual
/-- Same text structure: numbers by their texts, maps in list order. -/
def Json.TEq (ft : Rat → List Char) : Json → Json → Prop
  | .null, .null => True
  | .bool a, .bool b => a = b
  | .int a, .int b => a = b
  | .int a, .float b => a.repr.toList = ft b
  | .float a, .int b => ft a = b.repr.toList
  | .float a, .float b => ft a = ft b
  | .str a, .str b => a = b
  | .list a, .list b => Json.TEqL ft a b
  | .map a, .map b => Json.TEqM ft a b
  | _, _ => False
/-- For lists. -/
def Json.TEqL (ft : Rat → List Char) : List Json → List Json → Prop
  | [], [] => True
  | x :: a, y :: b => x.TEq ft y ∧ Json.TEqL ft a b
  | _, _ => False
/-- For maps. -/
def Json.TEqM (ft : Rat → List Char) : List (String × Json) → List (String × Json) → Prop
  | [], [] => True
  | (k, x) :: a, (l, y) :: b => k = l ∧ x.TEq ft y ∧ Json.TEqM ft a b
  | _, _ => False
end

theorem Json.docL_iff {E : Rat → Prop} (l : List Json) : Json.DocL E l ↔ ∀ x ∈ l, x.Doc E := by
  induction l with
  | nil => simp [Json.DocL]
  | cons x l ih => simp [Json.DocL, ih]

theorem Json.docM_iff {E : Rat → Prop} (m : List (String × Json)) : Json.DocM E m ↔ ∀ p ∈ m, p.2.Doc E := by
  induction m with
  | nil => simp [Json.DocM]
  | cons p m ih => obtain ⟨k, x⟩ := p; simp [Json.DocM, ih]

/-- The class of a value by the first character of its text. -/
def Json.headOk (j : Json) (c : Char) : Prop :=
  match j with
  | .null => c = 'n'
  | .bool true => c = 't'
  | .bool false => c = 'f'
  | .int _ | .float _ => c.isDigit ∨ c = '-'
  | .str _ => c = '"'
  | .list _ => c = '['
  | .map _ => c = '{'

theorem text_head {E : Rat → Prop} {ft : Rat → List Char} (F : FloatText E ft) {j : Json} (hj : j.Doc E) : ∃ c t, j.text ft = c :: t ∧ j.headOk c := by
  cases j with
  | null => exact ⟨'n', _, rfl, rfl⟩
  | bool b => cases b; exact ⟨'f', _, rfl, rfl⟩; exact ⟨'t', _, rfl, rfl⟩
  | int i => exact (intText_facts i).1
  | float q =>
    cases h : ft q with
    | nil => exact absurd h (F.ne q hj)
    | cons c t => exact ⟨c, t, h, F.first q hj c t h⟩
  | str s => exact ⟨'"', _, rfl, rfl⟩
  | list l => cases l <;> exact ⟨'[', _, rfl, rfl⟩
  | map m =>
    cases m with
    | nil => exact ⟨'{', _, rfl, rfl⟩
    | cons p m => obtain ⟨k, x⟩ := p; exact ⟨'{', _, rfl, rfl⟩

/-- The text of a value ends where it ends: texts are uniquely decodable. -/
theorem text_split {E : Rat → Prop} {ft : Rat → List Char} (F : FloatText E ft) : ∀ (a : Json), a.Doc E → ∀ (b : Json), b.Doc E → ∀ r s, Term r → Term s →
    a.text ft ++ r = b.text ft ++ s → a.TEq ft b ∧ r = s := by
  have termL : ∀ (l : List Json) r, Term (Json.textL ft l ++ r) := by
    intro l r
    cases l with
    | nil => exact .inr ⟨']', _, rfl, by simp⟩
    | cons x l => exact .inr ⟨',', _, rfl, by simp⟩
  have termM : ∀ (m : List (String × Json)) r, Term (Json.textM ft m ++ r) := by
    intro l r
    cases l with
    | nil => exact .inr ⟨'}', _, rfl, by simp⟩
    | cons x l => obtain ⟨k, x⟩ := x; exact .inr ⟨',', _, rfl, by simp⟩
  have numc : ∀ j : Json, j.Doc E → (∃ i, j = .int i) ∨ (∃ q, j = .float q) → ∀ c ∈ j.text ft, numCh c := by
    rintro j hj (⟨i, rfl⟩ | ⟨q, rfl⟩)
    · exact (intText_facts i).2
    · exact F.chars q hj
  have heads : ∀ (a b : Json), a.Doc E → b.Doc E → ∀ r s, a.text ft ++ r = b.text ft ++ s → ∃ c, a.headOk c ∧ b.headOk c := by
    intro a b ha hb r s h
    obtain ⟨c, t, h1, h2⟩ := text_head F ha
    obtain ⟨d, u, h3, h4⟩ := text_head F hb
    rw [h1, h3] at h
    simp only [List.cons_append, List.cons.injEq] at h
    exact ⟨c, h2, h.1 ▸ h4⟩
  have dig : ∀ c : Char, (c.isDigit ∨ c = '-') → c ≠ 'n' ∧ c ≠ 't' ∧ c ≠ 'f' ∧ c ≠ '"' ∧ c ≠ '[' ∧ c ≠ '{' := by
    intro c hc
    refine ⟨?_, ?_, ?_, ?_, ?_, ?_⟩ <;> rintro rfl <;> revert hc <;> decide
  intro a
  induction a using Json.ind with
  | null =>
    intro ha b hb r s hr hs h
    obtain ⟨c, h1, h2⟩ := heads _ _ ha hb r s h
    simp only [Json.headOk] at h1; subst h1
    cases b with
    | null => exact ⟨trivial, List.append_cancel_left h⟩
    | bool x => cases x <;> simp [Json.headOk] at h2
    | int x => simp [Json.headOk] at h2
    | float x => simp [Json.headOk] at h2
    | str x => simp [Json.headOk] at h2
    | list x => simp [Json.headOk] at h2
    | map x => simp [Json.headOk] at h2
  | bool v =>
    intro ha b hb r s hr hs h
    obtain ⟨c, h1, h2⟩ := heads _ _ ha hb r s h
    cases b with
    | null => cases v <;> simp only [Json.headOk] at h1 h2 <;> simp [h1] at h2
    | bool x =>
      cases v <;> cases x
      · exact ⟨rfl, List.append_cancel_left h⟩
      · simp only [Json.headOk] at h1 h2; simp [h1] at h2
      · simp only [Json.headOk] at h1 h2; simp [h1] at h2
      · exact ⟨rfl, List.append_cancel_left h⟩
    | int x => cases v <;> simp only [Json.headOk] at h1 h2 <;> exact absurd h1 (by have := dig _ h2; simp [this])
    | float x => cases v <;> simp only [Json.headOk] at h1 h2 <;> exact absurd h1 (by have := dig _ h2; simp [this])
    | str x => cases v <;> simp only [Json.headOk] at h1 h2 <;> simp [h1] at h2
    | list x => cases v <;> simp only [Json.headOk] at h1 h2 <;> simp [h1] at h2
    | map x => cases v <;> simp only [Json.headOk] at h1 h2 <;> simp [h1] at h2
  | int v =>
    intro ha b hb r s hr hs h
    obtain ⟨c, h1, h2⟩ := heads _ _ ha hb r s h
    have hd := dig c h1
    cases b with
    | int x =>
      obtain ⟨h3, h4⟩ := num_split (numc _ ha (.inl ⟨_, rfl⟩)) (numc _ hb (.inl ⟨_, rfl⟩)) hr hs h
      simp only [Json.text, String.toList_inj] at h3
      exact ⟨Int.repr_injective h3, h4⟩
    | float x => exact num_split (numc _ ha (.inl ⟨_, rfl⟩)) (numc _ hb (.inr ⟨_, rfl⟩)) hr hs h
    | null => simp only [Json.headOk] at h2; exact absurd h2 hd.1
    | bool x => cases x <;> simp only [Json.headOk] at h2 <;> simp [h2] at hd
    | str x => simp only [Json.headOk] at h2; simp [h2] at hd
    | list x => simp only [Json.headOk] at h2; simp [h2] at hd
    | map x => simp only [Json.headOk] at h2; simp [h2] at hd
  | float v =>
    intro ha b hb r s hr hs h
    obtain ⟨c, h1, h2⟩ := heads _ _ ha hb r s h
    have hd := dig c h1
    cases b with
    | int x => exact num_split (numc _ ha (.inr ⟨_, rfl⟩)) (numc _ hb (.inl ⟨_, rfl⟩)) hr hs h
    | float x => exact num_split (numc _ ha (.inr ⟨_, rfl⟩)) (numc _ hb (.inr ⟨_, rfl⟩)) hr hs h
    | null => simp only [Json.headOk] at h2; exact absurd h2 hd.1
    | bool x => cases x <;> simp only [Json.headOk] at h2 <;> simp [h2] at hd
    | str x => simp only [Json.headOk] at h2; simp [h2] at hd
    | list x => simp only [Json.headOk] at h2; simp [h2] at hd
    | map x => simp only [Json.headOk] at h2; simp [h2] at hd
  | str v =>
    intro ha b hb r s hr hs h
    obtain ⟨c, h1, h2⟩ := heads _ _ ha hb r s h
    simp only [Json.headOk] at h1; subst h1
    cases b with
    | str x =>
      simp only [Json.text, List.cons_append, List.cons.injEq, true_and] at h
      exact strText_split h
    | null => simp [Json.headOk] at h2
    | bool x => cases x <;> simp [Json.headOk] at h2
    | int x => simp only [Json.headOk] at h2; exact absurd rfl (dig _ h2).2.2.2.1
    | float x => simp only [Json.headOk] at h2; exact absurd rfl (dig _ h2).2.2.2.1
    | list x => simp [Json.headOk] at h2
    | map x => simp [Json.headOk] at h2
  | list v ih =>
    intro ha b hb r s hr hs h
    obtain ⟨c, h1, h2⟩ := heads _ _ ha hb r s h
    simp only [Json.headOk] at h1; subst h1
    cases b with
    | list x =>
      have ha' := (Json.docL_iff _).mp ha
      have hb' := (Json.docL_iff _).mp hb
      have tail : ∀ (v : List Json), (∀ y ∈ v, y.Doc E) → (∀ y ∈ v, y.Doc E → ∀ (b : Json), b.Doc E → ∀ r s, Term r → Term s →
            y.text ft ++ r = b.text ft ++ s → y.TEq ft b ∧ r = s) →
          ∀ (x : List Json), (∀ y ∈ x, y.Doc E) → Json.textL ft v ++ r = Json.textL ft x ++ s → Json.TEqL ft v x ∧ r = s := by
        intro v
        induction v with
        | nil =>
          intro _ _ x _ h
          cases x with
          | nil => simp [Json.textL] at h; exact ⟨trivial, h⟩
          | cons y x => simp [Json.textL] at h
        | cons z v ihv =>
          intro hv ih x hx h
          cases x with
          | nil => simp [Json.textL] at h
          | cons y x =>
            simp only [Json.textL, List.cons_append, List.cons.injEq, true_and, List.append_assoc] at h
            obtain ⟨g1, g2⟩ := ih z (by simp) (hv z (by simp)) y (hx y (by simp)) _ _ (termL v r) (termL x s) h
            obtain ⟨g3, g4⟩ := ihv (fun w hw => hv w (List.mem_cons_of_mem _ hw)) (fun w hw => ih w (List.mem_cons_of_mem _ hw)) x
              (fun w hw => hx w (List.mem_cons_of_mem _ hw)) g2
            exact ⟨⟨g1, g3⟩, g4⟩
      have conv : ∀ (v : List Json) (t : List Char), (Json.list v).text ft ++ t = match v with
          | [] => '[' :: ']' :: t
          | z :: v => '[' :: (z.text ft ++ (Json.textL ft v ++ t)) := by
        intro v t; cases v <;> simp [Json.text]
      rw [conv, conv] at h
      cases v with
      | nil =>
        cases x with
        | nil => simp at h; exact ⟨trivial, h⟩
        | cons y x =>
          simp only [List.cons.injEq, true_and] at h
          obtain ⟨c, t, k1, k2⟩ := text_head F (hb' y (by simp))
          rw [k1] at h
          simp only [List.cons_append, List.cons.injEq] at h
          exfalso
          rw [← h.1] at k2
          cases y with
          | bool b => cases b <;> simp [Json.headOk] at k2
          | int _ => revert k2; simp only [Json.headOk]; decide
          | float _ => revert k2; simp only [Json.headOk]; decide
          | null => simp [Json.headOk] at k2
          | str _ => simp [Json.headOk] at k2
          | list _ => simp [Json.headOk] at k2
          | map _ => simp [Json.headOk] at k2
      | cons z v =>
        cases x with
        | nil =>
          simp only [List.cons.injEq, true_and] at h
          obtain ⟨c, t, k1, k2⟩ := text_head F (ha' z (by simp))
          rw [k1] at h
          simp only [List.cons_append, List.cons.injEq] at h
          exfalso
          rw [h.1] at k2
          cases z with
          | bool b => cases b <;> simp [Json.headOk] at k2
          | int _ => revert k2; simp only [Json.headOk]; decide
          | float _ => revert k2; simp only [Json.headOk]; decide
          | null => simp [Json.headOk] at k2
          | str _ => simp [Json.headOk] at k2
          | list _ => simp [Json.headOk] at k2
          | map _ => simp [Json.headOk] at k2
        | cons y x =>
          simp only [List.cons.injEq, true_and] at h
          obtain ⟨g1, g2⟩ := ih z (by simp) (ha' z (by simp)) y (hb' y (by simp)) _ _ (termL v r) (termL x s) h
          obtain ⟨g3, g4⟩ := tail v (fun w hw => ha' w (List.mem_cons_of_mem _ hw)) (fun w hw => ih w (List.mem_cons_of_mem _ hw)) x
            (fun w hw => hb' w (List.mem_cons_of_mem _ hw)) g2
          exact ⟨⟨g1, g3⟩, g4⟩
    | null => simp [Json.headOk] at h2
    | bool x => cases x <;> simp [Json.headOk] at h2
    | int x => simp only [Json.headOk] at h2; exact absurd rfl (dig _ h2).2.2.2.2.1
    | float x => simp only [Json.headOk] at h2; exact absurd rfl (dig _ h2).2.2.2.2.1
    | str x => simp [Json.headOk] at h2
    | map x => simp [Json.headOk] at h2
  | map v ih =>
    intro ha b hb r s hr hs h
    obtain ⟨c, h1, h2⟩ := heads _ _ ha hb r s h
    simp only [Json.headOk] at h1; subst h1
    cases b with
    | map x =>
      have ha' := (Json.docM_iff _).mp ha.2
      have hb' := (Json.docM_iff _).mp hb.2
      have tail : ∀ (v : List (String × Json)), (∀ y ∈ v, y.2.Doc E) → (∀ y ∈ v, y.2.Doc E → ∀ (b : Json), b.Doc E → ∀ r s, Term r → Term s →
            y.2.text ft ++ r = b.text ft ++ s → y.2.TEq ft b ∧ r = s) →
          ∀ (x : List (String × Json)), (∀ y ∈ x, y.2.Doc E) → Json.textM ft v ++ r = Json.textM ft x ++ s → Json.TEqM ft v x ∧ r = s := by
        intro v
        induction v with
        | nil =>
          intro _ _ x _ h
          cases x with
          | nil => simp [Json.textM] at h; exact ⟨trivial, h⟩
          | cons y x => obtain ⟨k, y⟩ := y; simp [Json.textM] at h
        | cons z v ihv =>
          obtain ⟨kz, z⟩ := z
          intro hv ih x hx h
          cases x with
          | nil => simp [Json.textM] at h
          | cons y x =>
            obtain ⟨ky, y⟩ := y
            simp only [Json.textM, List.cons_append, List.cons.injEq, true_and, List.append_assoc] at h
            obtain ⟨e1, e2⟩ := strText_split h
            simp only [List.cons.injEq, true_and] at e2
            obtain ⟨g1, g2⟩ := ih (kz, z) (by simp) (hv (kz, z) (by simp)) y (hx (ky, y) (by simp)) _ _ (termM v r) (termM x s) e2
            obtain ⟨g3, g4⟩ := ihv (fun w hw => hv w (List.mem_cons_of_mem _ hw)) (fun w hw => ih w (List.mem_cons_of_mem _ hw)) x
              (fun w hw => hx w (List.mem_cons_of_mem _ hw)) g2
            exact ⟨⟨e1, g1, g3⟩, g4⟩
      cases v with
      | nil =>
        cases x with
        | nil => simp [Json.text] at h; exact ⟨trivial, h⟩
        | cons y x => obtain ⟨k, y⟩ := y; simp [Json.text] at h
      | cons z v =>
        obtain ⟨kz, z⟩ := z
        cases x with
        | nil => simp [Json.text] at h
        | cons y x =>
          obtain ⟨ky, y⟩ := y
          simp only [Json.text, List.cons_append, List.cons.injEq, true_and, List.append_assoc] at h
          obtain ⟨e1, e2⟩ := strText_split h
          simp only [List.cons.injEq, true_and] at e2
          obtain ⟨g1, g2⟩ := ih (kz, z) (by simp) (ha' (kz, z) (by simp)) y (hb' (ky, y) (by simp)) _ _ (termM v r) (termM x s) e2
          obtain ⟨g3, g4⟩ := tail v (fun w hw => ha' w (List.mem_cons_of_mem _ hw)) (fun w hw => ih w (List.mem_cons_of_mem _ hw)) x
            (fun w hw => hb' w (List.mem_cons_of_mem _ hw)) g2
          exact ⟨⟨e1, g1, g3⟩, g4⟩
    | null => simp [Json.headOk] at h2
    | bool x => cases x <;> simp [Json.headOk] at h2
    | int x => simp only [Json.headOk] at h2; exact absurd rfl (dig _ h2).2.2.2.2.2
    | float x => simp only [Json.headOk] at h2; exact absurd rfl (dig _ h2).2.2.2.2.2
    | str x => simp [Json.headOk] at h2
    | list x => simp [Json.headOk] at h2

/-! ### canonical form -/

theorem SMap.get_none_iff {V : Type} {m : SMap V} {k : String} : SMap.get m k = none ↔ k ∉ m.map Prod.fst := by
  induction m with
  | nil => simp [SMap.get]
  | cons p t ih =>
    obtain ⟨k', v⟩ := p
    by_cases h : k' = k
    · simp [SMap.get, h]
    · have h' : k ≠ k' := fun e => h e.symm
      simp [SMap.get, h, ih, h']

theorem SMap.Sorted.nodup {V : Type} {m : SMap V} (h : m.Sorted) : (m.map Prod.fst).Nodup := by
  unfold List.Nodup
  rw [List.pairwise_map]
  exact h.imp (fun {a b} hab => by grind)

theorem canonM_sorted (m : List (String × Json)) : (Json.canonM m).Sorted := by
  induction m with
  | nil => exact SMap.sorted_nil
  | cons p m ih => obtain ⟨k, x⟩ := p; exact ih.set k _

theorem canonM_get {m : List (String × Json)} (k : String) : SMap.get (Json.canonM m) k = (SMap.get m k).map Json.canon := by
  induction m with
  | nil => rfl
  | cons p m ih =>
    obtain ⟨k', x⟩ := p
    simp only [Json.canonM, SMap.get_set _ (canonM_sorted m), SMap.get, ih]
    split <;> rfl

theorem canonL_eq (l : List Json) : Json.canonL l = l.map Json.canon := by
  induction l with
  | nil => rfl
  | cons x l ih => simp [Json.canonL, ih]

theorem canon_doc {E : Rat → Prop} : ∀ j : Json, j.Doc E → j.canon.Doc E := by
  intro j
  induction j using Json.ind with
  | null => exact id
  | bool => exact id
  | int => exact id
  | float => exact id
  | str => exact id
  | list l ih =>
    intro h
    simp only [Json.canon, Json.Doc, Json.docL_iff, canonL_eq, List.mem_map] at h ⊢
    rintro x ⟨y, hy, rfl⟩
    exact ih y hy (h y hy)
  | map m ih =>
    intro h
    simp only [Json.canon, Json.Doc, Json.docM_iff] at h ⊢
    refine ⟨(canonM_sorted m).nodup, ?_⟩
    rintro ⟨k, x⟩ hp
    have := SMap.get_of_mem (canonM_sorted m) hp
    rw [canonM_get] at this
    obtain ⟨y, hy, rfl⟩ := Option.map_eq_some_iff.mp this
    have hm := SMap.mem_of_get hy
    exact ih _ hm (h.2 _ hm)

/-- Equality of texts of sorted maps, field by field. -/
theorem teqM_iff {ft : Rat → List Char} : ∀ {a b : SMap Json}, a.Sorted → b.Sorted →
    (Json.TEqM ft a b ↔ ∀ k, (match SMap.get a k, SMap.get b k with
      | none, none => True
      | some x, some y => x.TEq ft y
      | _, _ => False)) := by
  intro a
  induction a with
  | nil =>
    intro b _ hb
    cases b with
    | nil => simp [Json.TEqM, SMap.get]
    | cons p b =>
      obtain ⟨k, y⟩ := p
      simp only [Json.TEqM, false_iff]
      intro h
      have := h k
      simp [SMap.get] at this
  | cons p a ih =>
    obtain ⟨k, x⟩ := p
    intro b ha hb
    have ha' := List.pairwise_cons.mp ha
    cases b with
    | nil =>
      simp only [Json.TEqM, false_iff]
      intro h
      have := h k
      simp [SMap.get] at this
    | cons q b =>
      obtain ⟨l, y⟩ := q
      have hb' := List.pairwise_cons.mp hb
      simp only [Json.TEqM]
      constructor
      · rintro ⟨rfl, h1, h2⟩ k'
        rw [ih ha'.2 hb'.2] at h2
        simp only [SMap.get]
        by_cases hk : k = k'
        · simp [hk, h1]
        · simpa [hk] using h2 k'
      · intro h
        have hkl : k = l := by
          by_cases h1 : k < l
          · have := h k
            rw [SMap.get_eq_none_of_lt (m := (l, y) :: b)] at this
            · simp [SMap.get] at this
            · intro p hp
              rcases List.mem_cons.mp hp with rfl | hp
              · exact h1
              · exact String.lt_trans h1 (hb'.1 p hp)
          · by_cases h2 : l < k
            · have := h l
              rw [SMap.get_eq_none_of_lt (m := (k, x) :: a)] at this
              · simp [SMap.get] at this
              · intro p hp
                rcases List.mem_cons.mp hp with rfl | hp
                · exact h2
                · exact String.lt_trans h2 (ha'.1 p hp)
            · grind
        subst hkl
        refine ⟨rfl, ?_, ?_⟩
        · have := h k; simpa [SMap.get] using this
        · rw [ih ha'.2 hb'.2]
          intro k'
          by_cases hk : k = k'
          · subst hk
            rw [SMap.get_eq_none_of_lt (fun p hp => ha'.1 p hp), SMap.get_eq_none_of_lt (fun p hp => hb'.1 p hp)]
            trivial
          · have := h k'
            simpa [SMap.get, hk] using this

theorem subM_iff {a b : List (String × Json)} (ha : (a.map Prod.fst).Nodup) :
    Json.SubM a b ↔ ∀ k x, SMap.get a k = some x → ∃ y, SMap.get b k = some y ∧ x.Same y := by
  induction a with
  | nil => simp [Json.SubM, SMap.get]
  | cons p a ih =>
    obtain ⟨k, x⟩ := p
    simp only [List.map_cons, List.nodup_cons] at ha
    simp only [Json.SubM, ih ha.2]
    constructor
    · rintro ⟨h1, h2⟩ k' x' hg
      simp only [SMap.get] at hg
      split at hg
      · rename_i e; subst e; simp at hg; subst hg; exact h1
      · exact h2 _ _ hg
    · intro h
      refine ⟨h k x (by simp [SMap.get]), fun k' x' hg => h k' x' ?_⟩
      have : k ≠ k' := by
        rintro rfl
        rw [SMap.get_none_iff.mpr ha.1] at hg; simp at hg
      simpa [SMap.get, this] using hg

/-- The canonical forms have equal texts exactly if the values are equal as JSON values. -/
theorem teq_canon {E : Rat → Prop} {ft : Rat → List Char} (F : FloatText E ft) : ∀ a : Json, a.Doc E → ∀ b : Json, b.Doc E → (a.canon.TEq ft b.canon ↔ a.Same b) := by
  intro a
  induction a using Json.ind with
  | null => intro _ b _; cases b <;> simp [Json.canon, Json.TEq, Json.Same]
  | bool => intro _ b _; cases b <;> simp [Json.canon, Json.TEq, Json.Same]
  | int i =>
    intro _ b hb
    cases b with
    | float q =>
      simp only [Json.canon, Json.TEq, Json.Same]
      constructor
      · intro h; exact ((F.int q i hb).mp h.symm).symm
      · intro h; exact ((F.int q i hb).mpr h.symm).symm
    | _ => simp [Json.canon, Json.TEq, Json.Same]
  | float q =>
    intro ha b hb
    cases b with
    | float p =>
      simp only [Json.canon, Json.TEq, Json.Same]
      exact ⟨F.inj q p ha hb, fun h => by rw [h]⟩
    | int i => simp only [Json.canon, Json.TEq, Json.Same]; exact F.int q i ha
    | _ => simp [Json.canon, Json.TEq, Json.Same]
  | str => intro _ b _; cases b <;> simp [Json.canon, Json.TEq, Json.Same]
  | list l ih =>
    intro ha b hb
    cases b with
    | list l' =>
      simp only [Json.canon, Json.TEq, Json.Same]
      simp only [Json.Doc, Json.docL_iff] at ha hb
      induction l generalizing l' with
      | nil => cases l' <;> simp [Json.canonL, Json.TEqL, Json.SameL]
      | cons x l ihl =>
        cases l' with
        | nil => simp [Json.canonL, Json.TEqL, Json.SameL]
        | cons y l' =>
          simp only [Json.canonL, Json.TEqL, Json.SameL, ih x (by simp) (ha x (by simp)) y (hb y (by simp))]
          rw [ihl (fun z hz => ih z (List.mem_cons_of_mem _ hz)) l' (fun z hz => ha z (List.mem_cons_of_mem _ hz))
            (fun z hz => hb z (List.mem_cons_of_mem _ hz))]
    | _ => simp [Json.canon, Json.TEq, Json.Same]
  | map m ih =>
    intro ha b hb
    cases b with
    | map m' =>
      simp only [Json.canon, Json.TEq, Json.Same]
      simp only [Json.Doc, Json.docM_iff] at ha hb
      rw [teqM_iff (canonM_sorted _) (canonM_sorted _), subM_iff ha.1]
      constructor
      · intro h
        refine ⟨fun k x hx => ?_, fun k hk => ?_⟩
        · have := h k
          rw [canonM_get, canonM_get, hx] at this
          cases hy : SMap.get m' k with
          | none => simp [hy] at this
          | some y =>
            simp only [hy, Option.map_some] at this
            have hm := SMap.mem_of_get hx
            exact ⟨y, rfl, (ih _ hm (ha.2 _ hm) y (hb.2 _ (SMap.mem_of_get hy))).mp this⟩
        · have := h k
          rw [canonM_get, canonM_get, hk] at this
          cases hy : SMap.get m' k with
          | none => rfl
          | some y => simp [hy] at this
      · rintro ⟨h1, h2⟩ k
        rw [canonM_get, canonM_get]
        cases hx : SMap.get m k with
        | none => simp [h2 k hx]
        | some x =>
          obtain ⟨y, hy, hs⟩ := h1 k x hx
          simp only [hy, Option.map_some]
          have hm := SMap.mem_of_get hx
          exact (ih _ hm (ha.2 _ hm) y (hb.2 _ (SMap.mem_of_get hy))).mpr hs
    | _ => simp [Json.canon, Json.TEq, Json.Same]

mutual
theorem teq_text {ft : Rat → List Char} : ∀ (a b : Json), a.TEq ft b → a.text ft = b.text ft
  | .null, .null, _ => rfl
  | .bool _, .bool _, h => by simp only [Json.TEq] at h; rw [h]
  | .int _, .int _, h => by simp only [Json.TEq] at h; rw [h]
  | .int _, .float _, h => h
  | .float _, .int _, h => h
  | .float _, .float _, h => h
  | .str _, .str _, h => by simp only [Json.TEq] at h; rw [h]
  | .list [], .list [], _ => rfl
  | .list (x :: a), .list (y :: b), h => by
    simp only [Json.TEq, Json.TEqL] at h
    simp only [Json.text, teq_text x y h.1, teqL_text a b h.2]
  | .list [], .list (_ :: _), h => by simp [Json.TEq, Json.TEqL] at h
  | .list (_ :: _), .list [], h => by simp [Json.TEq, Json.TEqL] at h
  | .map [], .map [], _ => rfl
  | .map ((k, x) :: a), .map ((l, y) :: b), h => by
    simp only [Json.TEq, Json.TEqM] at h
    simp only [Json.text, h.1, teq_text x y h.2.1, teqM_text a b h.2.2]
  | .map [], .map ((_, _) :: _), h => by simp [Json.TEq, Json.TEqM] at h
  | .map ((_, _) :: _), .map [], h => by simp [Json.TEq, Json.TEqM] at h
theorem teqL_text {ft : Rat → List Char} : ∀ (a b : List Json), Json.TEqL ft a b → Json.textL ft a = Json.textL ft b
  | [], [], _ => rfl
  | x :: a, y :: b, h => by
    simp only [Json.TEqL] at h
    simp only [Json.textL, teq_text x y h.1, teqL_text a b h.2]
  | [], _ :: _, h => by simp [Json.TEqL] at h
  | _ :: _, [], h => by simp [Json.TEqL] at h
theorem teqM_text {ft : Rat → List Char} : ∀ (a b : List (String × Json)), Json.TEqM ft a b → Json.textM ft a = Json.textM ft b
  | [], [], _ => rfl
  | (k, x) :: a, (l, y) :: b, h => by
    simp only [Json.TEqM] at h
    simp only [Json.textM, h.1, teq_text x y h.2.1, teqM_text a b h.2.2]
  | [], (_, _) :: _, h => by simp [Json.TEqM] at h
  | (_, _) :: _, [], h => by simp [Json.TEqM] at h
end

end Dctl
