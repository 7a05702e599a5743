import Verif.Cache.Group
/-! Lemmas on group names. -/
set_option autoImplicit false
set_option linter.unusedSectionVars false
namespace Dctl

theorem rev_induct {α : Type} {P : List α → Prop} (h0 : P []) (h1 : ∀ l a, P l → P (l ++ [a])) (l : List α) : P l := by
  rw [← List.reverse_reverse l]
  induction l.reverse with
  | nil => exact h0
  | cons a l ih => rw [List.reverse_cons]; exact h1 _ _ ih

theorem splitDots_ne_nil (l : List Char) : splitDots l ≠ [] := by
  induction l with
  | nil => simp [splitDots]
  | cons c l ih =>
    by_cases h : c = '.'
    · simp [splitDots, h]
    · simp only [splitDots, h, if_false]
      split <;> simp

theorem splitDots_no_dot (l : List Char) : ∀ w ∈ splitDots l, '.' ∉ w := by
  induction l with
  | nil => simp [splitDots]
  | cons c l ih =>
    by_cases h : c = '.'
    · simp only [splitDots, h, if_true, List.mem_cons]
      rintro w (rfl | hw)
      · simp
      · exact ih w hw
    · simp only [splitDots, h, if_false]
      cases hs : splitDots l with
      | nil =>
        simp only [List.mem_singleton]
        rintro w rfl hd
        rcases List.mem_singleton.mp hd with rfl
        exact h rfl
      | cons v vs =>
        simp only [List.mem_cons]
        rintro w (rfl | hw)
        · intro hd
          rcases List.mem_cons.mp hd with e | hd
          · exact h e.symm
          · exact ih v (by simp [hs]) hd
        · exact ih w (by simp [hs, hw])

theorem splitDots_of_no_dot {l : List Char} (h : '.' ∉ l) : splitDots l = [l] := by
  induction l with
  | nil => rfl
  | cons c l ih =>
    simp only [List.mem_cons, not_or] at h
    have hc : ¬ c = '.' := fun e => h.1 e.symm
    simp only [splitDots, hc, if_false, ih h.2]

theorem splitDots_append_last (a b : List Char) : (splitDots (a ++ '.' :: b)).getLastD [] = (splitDots b).getLastD [] := by
  induction a with
  | nil =>
    simp only [List.nil_append, splitDots, if_true]
    cases hs : splitDots b with
    | nil => exact absurd hs (splitDots_ne_nil b)
    | cons w ws => simp [List.getLastD_eq_getLast?, List.getLast?_cons_cons]
  | cons c a ih =>
    by_cases h : c = '.'
    · simp only [List.cons_append, splitDots, h, if_true]
      cases hs : splitDots (a ++ '.' :: b) with
      | nil => exact absurd hs (splitDots_ne_nil _)
      | cons w ws =>
        rw [hs] at ih
        simpa [List.getLastD_eq_getLast?, List.getLast?_cons_cons] using ih
    · simp only [List.cons_append, splitDots, h, if_false]
      have hlen : ∃ w v vs, splitDots (a ++ '.' :: b) = w :: v :: vs := by
        clear ih
        induction a with
        | nil =>
          cases hs : splitDots b with
          | nil => exact absurd hs (splitDots_ne_nil b)
          | cons w ws => exact ⟨[], w, ws, by simp [splitDots, hs]⟩
        | cons d a ih' =>
          obtain ⟨w, v, vs, e⟩ := ih'
          by_cases hd : d = '.'
          · exact ⟨[], w, v :: vs, by simp [splitDots, hd, e]⟩
          · exact ⟨d :: w, v, vs, by simp [splitDots, hd, e]⟩
      obtain ⟨w, v, vs, e⟩ := hlen
      rw [e] at ih ⊢
      simpa [List.getLastD_eq_getLast?, List.getLast?_cons_cons] using ih

theorem splitDots_getLast_eq {l : List Char} : (splitDots l).getLastD [] = l ↔ '.' ∉ l := by
  constructor
  · intro h
    have hm : (splitDots l).getLastD [] ∈ splitDots l := by
      cases hs : splitDots l with
      | nil => exact absurd hs (splitDots_ne_nil l)
      | cons w ws => rw [List.getLastD_cons]; exact List.getLastD_mem_cons ..
    rw [← h]
    exact splitDots_no_dot l _ hm
  · intro h
    simp [splitDots_of_no_dot h]

theorem viewGroup_toList (op : String) : (viewGroup op).toList = op.toList ++ '.' :: groupSuffix.toList := by
  simp [viewGroup, String.toList_append]

theorem isSuffixOf_append (a b : List Char) : b.isSuffixOf (a ++ b) = true := by
  rw [List.isSuffixOf_iff_suffix]; exact List.suffix_append a b

theorem getOperator_of {p : List Char} {t : GVK} (h : t.group.toList = p ++ '.' :: groupSuffix.toList) :
    getOperator t = String.ofList ((splitDots p).getLastD []) := by
  have hs : ("." ++ groupSuffix).toList = '.' :: groupSuffix.toList := by simp [String.toList_append]
  have hsuf : ('.' :: groupSuffix.toList).isSuffixOf t.group.toList = true := by
    rw [h]; exact isSuffixOf_append _ _
  unfold getOperator
  rw [hs, if_pos hsuf, h]
  congr 3
  simp

theorem isViewGroup_iff (g : String) : isViewGroup g = true ↔ ∃ p, g.toList = p ++ groupSuffix.toList := by
  rw [isViewGroup, List.isSuffixOf_iff_suffix]
  constructor
  · rintro ⟨p, h⟩; exact ⟨p, h.symm⟩
  · rintro ⟨p, h⟩; exact ⟨p, h.symm⟩

theorem isViewGroup_viewGroup (op : String) : isViewGroup (viewGroup op) = true := by
  rw [isViewGroup_iff]
  exact ⟨op.toList ++ ['.'], by simp [viewGroup_toList]⟩

theorem takeWhile_dot {a b : List Char} (h : '.' ∉ a) : (a ++ '.' :: b).takeWhile (· ≠ '.') = a := by
  induction a with
  | nil => simp
  | cons c a ih =>
    simp only [List.mem_cons, not_or] at h
    have : c ≠ '.' := fun e => h.1 e.symm
    rw [List.cons_append, List.takeWhile_cons_of_pos (by simp [this]), ih h.2]

theorem dropWhile_dot {a b : List Char} (h : '.' ∉ a) : (a ++ '.' :: b).dropWhile (· ≠ '.') = '.' :: b := by
  induction a with
  | nil => simp
  | cons c a ih =>
    simp only [List.mem_cons, not_or] at h
    have : c ≠ '.' := fun e => h.1 e.symm
    rw [List.cons_append, List.dropWhile_cons_of_pos (by simp [this]), ih h.2]

theorem exists_split {l : List Char} (h : '.' ∈ l) : ∃ a b, l = a ++ '.' :: b ∧ '.' ∉ a := by
  induction l with
  | nil => simp at h
  | cons c l ih =>
    by_cases hc : c = '.'
    · exact ⟨[], l, by simp [hc], by simp⟩
    · rcases List.mem_cons.mp h with e | h
      · exact absurd e.symm hc
      · obtain ⟨a, b, rfl, ha⟩ := ih h
        exact ⟨c :: a, b, rfl, by
          simp only [List.mem_cons, not_or]; exact ⟨fun e => hc e.symm, ha⟩⟩

theorem splitN_dot {a b : List Char} (n : Nat) (h : '.' ∉ a) : splitN (n + 2) (a ++ '.' :: b) = a :: splitN (n + 1) b := by
  rw [splitN, if_pos (by simp), takeWhile_dot h, dropWhile_dot h]; rfl

theorem endsList_append (k : String) : endsList (k ++ "List") = true := by
  rw [endsList, String.toList_append]; exact isSuffixOf_append _ _

theorem trimList_append (k : String) : trimList (k ++ "List") = k := by
  rw [trimList, if_pos (endsList_append k), String.toList_append]
  simp

theorem append_trimList {k : String} (h : endsList k = true) : trimList k ++ "List" = k := by
  rw [endsList, List.isSuffixOf_iff_suffix] at h
  obtain ⟨p, hp⟩ := h
  have : k = String.ofList p ++ "List" := by
    apply String.toList_injective
    rw [String.toList_append, ← hp]; simp
  rw [this, trimList_append]

end Dctl
