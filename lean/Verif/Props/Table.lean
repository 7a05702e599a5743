import Verif.Apiserver.Table
import Verif.Spec.Table
import Verif.Props.Cache
/-!
# Table rows (C100)
-/
set_option autoImplicit false
set_option linter.unusedSectionVars false
namespace Dctl

theorem showThree_shows {l : List String} (h : l ≠ []) : Shows (showThree l) l := by
  match l with
  | [] => exact absurd rfl h
  | [a] => rfl
  | [a, b] => rfl
  | [a, b, c] => rfl
  | a :: b :: c :: d :: rest =>
    simp only [Shows, showThree, List.length_cons, List.take]
    rw [if_pos (by omega)]
    rfl

/-- A condition as it is shown. -/
def condText (c : String × String) : String := c.1 ++ ":" ++ c.2

theorem takeWhile_text {t : List Char} (h : ':' ∉ t) (s : List Char) : (t ++ ':' :: s).takeWhile (· != ':') = t := by
  induction t with
  | nil => rfl
  | cons c t ih =>
    simp only [List.mem_cons, not_or] at h
    rw [List.cons_append, List.takeWhile_cons_of_pos (by simpa using fun e => h.1 e.symm), ih h.2]

theorem condTypeOf_text {t : String} (h : ':' ∉ t.toList) (s : String) : condTypeOf (t ++ ":" ++ s) = t := by
  have : (t ++ ":" ++ s).toList = t.toList ++ ':' :: s.toList := by simp [String.toList_append]
  rw [condTypeOf, this, takeWhile_text h, String.ofList_toList]

theorem condRank_known {t : String} : condRank t ≠ 0 ↔ t ∈ ["Ready", "Available", "Progressing", "Degraded"] := by
  simp only [condRank, List.mem_cons, List.not_mem_nil, or_false]
  split
  · simp_all
  · split
    · simp_all
    · split
      · simp_all
      · split <;> simp_all

theorem no_colon {t : String} (h : condRank t ≠ 0) : ':' ∉ t.toList := by
  rw [condRank_known] at h
  simp only [List.mem_cons, List.not_mem_nil, or_false] at h
  rcases h with rfl | rfl | rfl | rfl <;> decide

theorem insertCond_split (pair : String) (r : Nat) {a b : List String} (ha : ∀ x ∈ a, condRank (condTypeOf x) ≤ r) (hb : ∀ x ∈ b, r < condRank (condTypeOf x)) :
    insertCond pair r (a ++ b) = a ++ pair :: b := by
  induction a with
  | nil =>
    cases b with
    | nil => rfl
    | cons x b => simp only [List.nil_append, insertCond]; rw [if_pos (hb x (by simp))]
  | cons x a ih =>
    have := ha x (by simp)
    simp only [List.cons_append, insertCond]
    rw [if_neg (by omega), ih (fun y hy => ha y (by simp [hy]))]

/-- The conditions of rank `r`, as shown. -/
def ofRank (r : Nat) (l : List (String × String)) : List String := (l.filter (fun c => condRank c.1 == r)).map condText

theorem ofRank_rank {r : Nat} (hr : r ≠ 0) (l : List (String × String)) : ∀ x ∈ ofRank r l, condRank (condTypeOf x) = r := by
  intro x hx
  simp only [ofRank, List.mem_map, List.mem_filter, beq_iff_eq] at hx
  obtain ⟨c, ⟨-, hc⟩, rfl⟩ := hx
  rw [condText, condTypeOf_text (no_colon (by rw [hc]; exact hr)), hc]

theorem ofRank_snoc (r : Nat) (l : List (String × String)) (c : String × String) :
    ofRank r (l ++ [c]) = if condRank c.1 = r then ofRank r l ++ [condText c] else ofRank r l := by
  simp only [ofRank, List.filter_append, List.map_append]
  by_cases h : condRank c.1 = r
  · rw [if_pos h, List.filter_cons_of_pos (by simpa using h)]; rfl
  · rw [if_neg h, List.filter_cons_of_neg (by simpa using h)]; simp

theorem condRank_le (t : String) : condRank t ≤ 4 := by
  simp only [condRank]; repeat' split
  all_goals omega

/-- The well-known conditions, as shown. -/
def known (l : List (String × String)) : List String := ofRank 1 l ++ ofRank 2 l ++ ofRank 3 l ++ ofRank 4 l

theorem insert_known (l : List (String × String)) (c : String × String) (h : condRank c.1 ≠ 0) :
    insertCond (condText c) (condRank c.1) (known l) = known (l ++ [c]) := by
  have h1 := ofRank_rank (r := 1) (by decide) l
  have h2 := ofRank_rank (r := 2) (by decide) l
  have h3 := ofRank_rank (r := 3) (by decide) l
  have h4 := ofRank_rank (r := 4) (by decide) l
  have hle := condRank_le c.1
  have hcases : condRank c.1 = 1 ∨ condRank c.1 = 2 ∨ condRank c.1 = 3 ∨ condRank c.1 = 4 := by omega
  simp only [known, ofRank_snoc]
  rcases hcases with e | e | e | e <;> rw [e] <;> simp only [if_true, Nat.reduceEqDiff, if_false]
  · have := insertCond_split (condText c) 1 (a := ofRank 1 l) (b := ofRank 2 l ++ ofRank 3 l ++ ofRank 4 l) (by grind) (by grind)
    simpa using this
  · have := insertCond_split (condText c) 2 (a := ofRank 1 l ++ ofRank 2 l) (b := ofRank 3 l ++ ofRank 4 l) (by grind) (by grind)
    simpa using this
  · have := insertCond_split (condText c) 3 (a := ofRank 1 l ++ ofRank 2 l ++ ofRank 3 l) (b := ofRank 4 l) (by grind) (by grind)
    simpa using this
  · have := insertCond_split (condText c) 4 (a := ofRank 1 l ++ ofRank 2 l ++ ofRank 3 l ++ ofRank 4 l) (b := []) (by grind) (by grind)
    simpa using this

/-- The condition of an element of `status.conditions`. -/
def condOf : Json → Option (String × String)
  | .map m =>
    match SMap.get m "type", SMap.get m "status" with
    | some (.str t), some (.str s) => some (t, s)
    | _, _ => none
  | _ => none

theorem condLoop_eq (cs : List Json) (l : List (String × String)) :
    condLoop cs (known l) (ofRank 0 l) = (known (l ++ cs.filterMap condOf), ofRank 0 (l ++ cs.filterMap condOf)) := by
  have hskip : ∀ c cs p o, condOf c = none → condLoop (c :: cs) p o = condLoop cs p o := by
    intro c cs p o h
    cases c <;> try (simp only [condLoop]; done)
    next m =>
      rw [condLoop]
      simp only [condOf] at h
      split at h
      · cases h
      · split
        · next hx _ _ _ _ h1 h2 => exact absurd h2 (hx _ _ h1)
        · rfl
  have hadd : ∀ c cs p o t s, condOf c = some (t, s) →
      condLoop (c :: cs) p o = if condRank t = 0 then condLoop cs p (o ++ [t ++ ":" ++ s]) else condLoop cs (insertCond (t ++ ":" ++ s) (condRank t) p) o := by
    intro c cs p o t s h
    cases c <;> try (cases h; done)
    next m =>
      simp only [condOf] at h
      split at h
      · next h1 h2 =>
        cases h
        rw [condLoop]
        simp only [h1, h2]
      · cases h
  induction cs generalizing l with
  | nil => simp [condLoop]
  | cons c cs ih =>
    rw [List.filterMap_cons]
    cases hc : condOf c with
    | none => rw [hskip c cs _ _ hc, ih]
    | some p =>
      obtain ⟨t, s⟩ := p
      rw [hadd c cs _ _ t s hc]
      have hsn : l ++ (t, s) :: cs.filterMap condOf = (l ++ [(t, s)]) ++ cs.filterMap condOf := by simp
      simp only [hsn]
      rw [← ih]
      split
      · next h0 =>
        have hk : known (l ++ [(t, s)]) = known l := by simp [known, ofRank_snoc, h0]
        rw [hk, ofRank_snoc, if_pos h0]; rfl
      · next h0 =>
        have := insert_known l (t, s) h0
        simp only [condText] at this
        rw [this, ofRank_snoc, if_neg h0]

theorem shownOrder_eq (l : List (String × String)) : (shownOrder l).map condText = known l ++ ofRank 0 l := by
  have hr : ∀ t : String, (condRank t = 1 ↔ t = "Ready") ∧ (condRank t = 2 ↔ t = "Available") ∧ (condRank t = 3 ↔ t = "Progressing") ∧
      (condRank t = 4 ↔ t = "Degraded") ∧ (condRank t = 0 ↔ t ∉ ["Ready", "Available", "Progressing", "Degraded"]) := by
    intro t
    simp only [condRank, List.mem_cons, List.not_mem_nil, or_false]
    grind
  simp only [shownOrder, known, ofRank, List.map_append]
  congr 1
  · congr 1
    · congr 1
      · congr 1
        · exact congrArg _ (List.filter_congr fun c _ => by rw [Bool.eq_iff_iff]; simp [(hr c.1).1])
        · exact congrArg _ (List.filter_congr fun c _ => by rw [Bool.eq_iff_iff]; simp [(hr c.1).2.1])
      · exact congrArg _ (List.filter_congr fun c _ => by rw [Bool.eq_iff_iff]; simp [(hr c.1).2.2.1])
    · exact congrArg _ (List.filter_congr fun c _ => by rw [Bool.eq_iff_iff]; simp [(hr c.1).2.2.2.1])
  · exact congrArg _ (List.filter_congr fun c _ => by rw [Bool.eq_iff_iff]; simp [(hr c.1).2.2.2.2])

/-- **C100** (conditions): the summary shows the conditions that have a type and a status, the well-known ones first in the order of their priority, all others
after them, each as they come in the object; the first three, and how many more there are. -/
theorem C100_conditions (o : Obj) : Shows (conditionsSummary o) ((shownOrder (conditionsOf o)).map (fun c => c.1 ++ ":" ++ c.2)) := by
  rw [show (fun c : String × String => c.1 ++ ":" ++ c.2) = condText from rfl, shownOrder_eq]
  have hnone : (∀ cs, nested o ["status", "conditions"] ≠ some (.list cs)) → Shows (conditionsSummary o) (known (conditionsOf o) ++ ofRank 0 (conditionsOf o)) := by
    intro h
    have h1 : conditionsSummary o = "<none>" := by
      unfold conditionsSummary
      split
      · next cs hc => exact absurd hc (h cs)
      · rfl
    have h2 : conditionsOf o = [] := by
      unfold conditionsOf
      split
      · next cs hc => exact absurd hc (h cs)
      · rfl
    rw [h1, h2]; rfl
  cases hn : nested o ["status", "conditions"] with
  | none => exact hnone (fun cs hc => by rw [hn] at hc; cases hc)
  | some j =>
    cases j with
    | list cs =>
      have h1 : conditionsOf o = cs.filterMap condOf := by unfold conditionsOf; rw [hn]; rfl
      have h2 := condLoop_eq cs []
      rw [show known [] = [] from rfl, show ofRank 0 [] = [] from rfl, List.nil_append] at h2
      rw [h1, conditionsSummary, hn]
      simp only [h2]
      split
      · next h => rw [h]; rfl
      · next h => exact showThree_shows h
    | _ => exact hnone (fun cs hc => by rw [hn] at hc; cases hc)

-- four conditions, one element without status
example : conditionsSummary [("status", .map [("conditions", .list [.map [("status", .str "True"), ("type", .str "Synced")], .map [("status", .str "False"), ("type", .str "Degraded")],
    .map [("type", .str "Available")], .map [("status", .str "True"), ("type", .str "Ready")], .map [("status", .str "Unknown"), ("type", .str "Available")]])])] =
    "Ready:True,Available:Unknown,Degraded:False +1 more" := by decide +kernel

/-- **C100** (labels, in part): the cell shows the labels in the order in which they are visited. Missing: the order is that of a Go map, so the same object does
not always give the same cell (`C100_labels_unstable`). -/
theorem C100_labels_partial (labels : List (String × String)) : Shows (formatLabels labels) (labels.map (fun p => p.1 ++ "=" ++ p.2)) := by
  unfold formatLabels
  split
  · next h => rw [h]; rfl
  · next h => exact showThree_shows (fun c => h (List.map_eq_nil_iff.mp c))

example : formatLabels [("a", "1"), ("b", "2"), ("c", "3"), ("d", "4"), ("e", "5")] = "a=1,b=2,c=3 +2 more" := by decide +kernel

/-- **C100** (labels): with at most one label the cell does not depend on the order. -/
theorem C100_labels_one (labels l1 l2 : List (String × String)) (h : labels.length ≤ 1) (h1 : l1.Perm labels) (h2 : l2.Perm labels) : formatLabels l1 = formatLabels l2 := by
  have : ∀ l : List (String × String), l.Perm labels → l = labels := by
    intro l hl
    match labels, h with
    | [], _ => exact hl.eq_nil
    | [x], _ => exact List.perm_singleton.mp hl
    | _ :: _ :: _, h => simp at h
  rw [this l1 h1, this l2 h2]

example : ([("a", "1")] : List (String × String)).length ≤ 1 := by decide

/-- **C100**, negation: the same labels give different cells, even cells that show different labels. -/
theorem C100_labels_unstable : ∃ l1 l2 : List (String × String), l1.Perm l2 ∧ (l1.map Prod.fst).Nodup ∧ formatLabels l1 = "a=1,b=2,c=3 +1 more" ∧ formatLabels l2 = "d=4,b=2,c=3 +1 more" :=
  ⟨[("a", "1"), ("b", "2"), ("c", "3"), ("d", "4")], [("d", "4"), ("b", "2"), ("c", "3"), ("a", "1")], by decide, by decide, by decide +kernel, by decide +kernel⟩

/-- The cell of a row in the column with a name. -/
def cellOf (columns cells : List String) (c : String) : Option String := ((columns.zip cells).find? (fun p => p.1 == c)).map (·.2)

/-- **C100** (columns): every row has as many cells as there are columns, and each cell is under its column; there is a column for the namespace exactly if the
resource has namespaces. -/
theorem C100_columns (namespaced : Bool) (order : List (String × String) → List (String × String)) (o : Obj) :
    (tableRow namespaced order o).length = (columnNames namespaced).length ∧
    cellOf (columnNames namespaced) (tableRow namespaced order o) "Name" = some (objKey o).2 ∧
    cellOf (columnNames namespaced) (tableRow namespaced order o) "Namespace" = (if namespaced then some (objKey o).1 else none) ∧
    cellOf (columnNames namespaced) (tableRow namespaced order o) "Conditions" = some (conditionsSummary o) ∧
    cellOf (columnNames namespaced) (tableRow namespaced order o) "Labels" = some (formatLabels (order ((getStrings o "labels").getD []))) ∧
    cellOf (columnNames namespaced) (tableRow namespaced order o) "Annotations" = some (match ((getStrings o "annotations").getD []).length with
      | 0 => "<none>"
      | n => toString n) := by
  have ha : formatAnnotations ((getStrings o "annotations").getD []).length = (match ((getStrings o "annotations").getD []).length with
      | 0 => "<none>"
      | n => toString n) := by
    unfold formatAnnotations
    generalize ((getStrings o "annotations").getD []).length = n
    cases n <;> simp
  rw [← ha]
  cases namespaced <;> exact ⟨rfl, rfl, rfl, rfl, rfl, rfl⟩

/-- **C100** (rows): the table of a list has one row for each object, in the order of the list. -/
theorem C100_rows (namespaced : Bool) (order : Nat → List (String × String) → List (String × String)) (os : List Obj) :
    (tableRows namespaced order os).length = os.length ∧
    ∀ i (o : Obj), os[i]? = some o → (tableRows namespaced order os)[i]? = some (tableRow namespaced (order i) o) := by
  refine ⟨by simp [tableRows], fun i o h => ?_⟩
  simp [tableRows, List.getElem?_zipIdx, h]

example : tableRows true (fun _ => id) [demoView "a" "b" []] = [["a", "b", "<none>", "<none>", "<none>"]] := by decide +kernel

end Dctl
