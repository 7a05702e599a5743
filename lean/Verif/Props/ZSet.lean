import Verif.Dbsp.ZSetLemmas
/-!
# C02, C03: Z-sets as multisets

`Built z` holds for every Z-set that can be obtained through the public API, in any iteration order of
the underlying Go maps; all theorems are about built Z-sets. The only observation used is
`GetMultiplicity`.
-/
set_option autoImplicit false
namespace Dctl
namespace ZSet
variable {D : Type} [DecidableEq D]

/-- Z-sets obtainable through the API of `pkg/dbsp/zset.go` (constructors 34-74, 77-148, 323-341). `order`:
Go does not fix the order in which a map is iterated. -/
inductive Built : ZSet D → Prop
  | empty : Built ZSet.empty
  | addDoc {z : ZSet D} (d : D) (c : Int) : Built z → Built (ZSet.addDoc z d c)
  | addOpt {z : ZSet D} {w : Option (ZSet D)} : Built z → (∀ w', w = some w' → Built w') → Built (ZSet.addOpt z w)
  | subOpt {z : ZSet D} {w : Option (ZSet D)} : Built z → (∀ w', w = some w' → Built w') → Built (ZSet.subOpt z w)
  | distinct {z : ZSet D} : Built z → Built (ZSet.distinct z)
  | unique {z : ZSet D} : Built z → Built (ZSet.unique z)
  | singleton (d : D) : Built (ZSet.singleton d)
  | fromDocuments (ds : List D) : Built (ZSet.fromDocuments ds)
  | order {z w : ZSet D} : Built z → z.Perm w → Built w

/-! ### helper lemmas for the set views -/

theorem foldl_wf {P : Type} (f : ZSet D → P → ZSet D) (hf : ∀ z p, WF z → WF (f z p)) (l : List P) (z : ZSet D)
    (h : WF z) : WF (l.foldl f z) := by
  induction l generalizing z with
  | nil => exact h
  | cons p t ih => exact ih _ (hf _ _ h)

theorem distinct_wf (z : ZSet D) : WF (distinct z) :=
  foldl_wf _ (fun z p h => by split <;> first | exact h.addDoc _ _ | exact h) z [] WF.nil

theorem unique_wf (z : ZSet D) : WF (unique z) :=
  foldl_wf _ (fun z p h => h.addDoc _ _) z [] WF.nil

theorem fromDocuments_wf (ds : List D) : WF (fromDocuments ds) :=
  foldl_wf _ (fun z p h => h.addDoc _ _) ds [] WF.nil

theorem foldl_distinct_get (z acc : ZSet D) (hz : WF z) (ha : WF acc) (d : D) :
    get (z.foldl (fun acc p => if p.2 > 0 then addDoc acc p.1 1 else acc) acc) d =
      get acc d + if get z d > 0 then 1 else 0 := by
  induction z generalizing acc with
  | nil => simp
  | cons p t ih =>
    obtain ⟨x, m⟩ := p
    have ht := hz.get_tail
    simp only [List.foldl_cons]
    rw [ih _ hz.tail (by split <;> first | exact ha.addDoc _ _ | exact ha), get_cons]
    by_cases hx : x = d
    · subst hx
      rw [ht]
      by_cases hm : m > 0
      · simp [hm, get_addDoc ha]
      · simp [hm]
    · by_cases hm : m > 0
      · simp [hm, hx, get_addDoc ha]
      · simp [hm, hx]

theorem foldl_unique_get (z acc : ZSet D) (hz : WF z) (ha : WF acc) (d : D) :
    get (z.foldl (fun acc p => addDoc acc p.1 (if p.2 < 0 then -1 else 1)) acc) d =
      get acc d + (get z d).sign := by
  induction z generalizing acc with
  | nil => simp
  | cons p t ih =>
    obtain ⟨x, m⟩ := p
    have ht := hz.get_tail
    have hm := hz.ne
    simp only [List.foldl_cons]
    rw [ih _ hz.tail (ha.addDoc _ _), get_cons, get_addDoc ha]
    by_cases hx : x = d
    · subst hx
      rw [ht]
      simp only [if_true, Int.sign_zero, Int.add_zero]
      by_cases h0 : m < 0
      · simp [h0, Int.sign_eq_neg_one_of_neg]
      · simp [h0, Int.sign_eq_one_of_pos (show 0 < m by omega)]
    · simp [hx]

theorem count_getDocuments (z : ZSet D) (hz : WF z) (d : D) : (getDocuments z).count d = (get z d).toNat := by
  induction z with
  | nil => rfl
  | cons p t ih =>
    obtain ⟨x, m⟩ := p
    have ht := hz.get_tail
    have ih := ih hz.tail
    unfold getDocuments at ih ⊢
    rw [List.flatMap_cons, List.count_append, ih, get_cons]
    by_cases hx : x = d
    · subst hx
      rw [ht]
      by_cases hm : m ≤ 0
      · simp [hm]; omega
      · simp [hm]
    · by_cases hm : m ≤ 0
      · simp [hm, hx]
      · simp [hm, hx, List.count_replicate]

theorem size_foldl (z : ZSet D) (t : Int) :
    z.foldl (fun t p => if p.2 > 0 then t + p.2 else t) t = t + ((getDocuments z).length : Int) := by
  induction z generalizing t with
  | nil => simp [getDocuments]
  | cons p z ih =>
    obtain ⟨x, m⟩ := p
    simp only [List.foldl_cons]
    rw [ih]
    unfold getDocuments
    simp only [List.flatMap_cons, List.length_append]
    by_cases hm : m ≤ 0
    · simp [hm, show ¬ m > 0 by omega]
    · simp [hm, show m > 0 by omega]; omega

theorem totalSize_foldl (z : ZSet D) (t : Int) :
    z.foldl (fun t p => if p.2 > 0 then t + p.2 else t + -p.2) t = t + (z.map (fun p => (p.2.natAbs : Int))).sum := by
  induction z generalizing t with
  | nil => simp
  | cons p z ih =>
    obtain ⟨x, m⟩ := p
    simp only [List.foldl_cons, List.map_cons, List.sum_cons]
    rw [ih]
    by_cases hm : m > 0
    · simp [hm]; omega
    · simp [hm]; omega

theorem uniqueCount_foldl (z : ZSet D) (t : Nat) :
    z.foldl (fun t p => if p.2 > 0 then t + 1 else t) t = t + (getUniqueDocuments z).length := by
  induction z generalizing t with
  | nil => simp [getUniqueDocuments]
  | cons p z ih =>
    obtain ⟨x, m⟩ := p
    simp only [List.foldl_cons]
    rw [ih]
    unfold getUniqueDocuments
    simp only [List.flatMap_cons, List.length_append]
    by_cases hm : m > 0
    · simp [hm]; omega
    · simp [hm]

theorem mem_getUniqueDocuments (z : ZSet D) (hz : WF z) (d : D) : d ∈ getUniqueDocuments z ↔ get z d > 0 := by
  unfold getUniqueDocuments
  rw [List.mem_flatMap]
  constructor
  · rintro ⟨⟨x, m⟩, hp, hd⟩
    split at hd
    · simp only [List.mem_singleton] at hd
      subst hd
      rw [((mem_iff_get hz d m).mp hp).1]; assumption
    · simp at hd
  · intro h
    exact ⟨(d, get z d), (mem_iff_get hz d _).mpr ⟨rfl, by omega⟩, by simp [h]⟩

theorem nodup_getUniqueDocuments (z : ZSet D) (hz : WF z) : (getUniqueDocuments z).Nodup := by
  have : (getUniqueDocuments z).Sublist (z.map Prod.fst) := by
    unfold getUniqueDocuments
    clear hz
    induction z with
    | nil => simp
    | cons p t ih =>
      simp only [List.flatMap_cons, List.map_cons]
      split
      · exact ih.cons₂ _
      · exact ih.cons _
  exact this.nodup hz.1

theorem foldl_fromDocuments_get (ds : List D) (acc : ZSet D) (ha : WF acc) (d : D) :
    get (ds.foldl (fun acc d => addDoc acc d 1) acc) d = get acc d + (ds.count d : Int) := by
  induction ds generalizing acc with
  | nil => simp
  | cons x t ih =>
    rw [List.foldl_cons, ih _ (ha.addDoc _ _), get_addDoc ha, List.count_cons]
    by_cases hx : x = d
    · simp [hx]; omega
    · simp [hx]

/-! ### C02 -/

/-- C02: no Z-set built through the API ever stores a document twice or with multiplicity zero. -/
theorem C02_canonical {z : ZSet D} (h : Built z) : WF z := by
  induction h with
  | empty => exact WF.nil
  | addDoc d c _ ih => exact ih.addDoc d c
  | @addOpt z w _ _ ih _ => cases w with
    | none => exact ih
    | some w => exact ih.add w
  | @subOpt z w _ _ ih _ => cases w with
    | none => exact ih
    | some w => exact ih.sub w
  | distinct _ _ => exact distinct_wf _
  | unique _ _ => exact unique_wf _
  | singleton d => exact WF.nil.addDoc d 1
  | fromDocuments ds => exact fromDocuments_wf ds
  | order _ hp ih => exact ih.perm hp

/-- C02: addition, subtraction and single additions act on multiplicities document by document. -/
theorem C02_multiplicities {z w : ZSet D} (hz : Built z) (hw : Built w) (d x : D) (c : Int) :
    get (addOpt z (some w)) d = get z d + get w d ∧
    get (subOpt z (some w)) d = get z d - get w d ∧
    get (addDoc z x c) d = get z d + (if x = d then c else 0) ∧
    get (addOpt z none) d = get z d ∧ get (subOpt z none) d = get z d ∧ get (empty : ZSet D) d = 0 :=
  ⟨get_add (C02_canonical hz) (C02_canonical hw) d, get_sub (C02_canonical hz) (C02_canonical hw) d,
    get_addDoc (C02_canonical hz) x c d, rfl, rfl, rfl⟩

/-- C02: a Z-set reports being empty exactly if every document has multiplicity zero. -/
theorem C02_isZero {z : ZSet D} (h : Built z) : isZero z = true ↔ ∀ d, get z d = 0 := by
  have hw := C02_canonical h
  rw [isZero, beq_iff_eq, List.length_eq_zero_iff, ← eqv_nil hw]
  rfl

/-- C02: two Z-sets with the same multiplicities store the same entries (up to iteration order): the
representation is canonical. -/
theorem C02_representation {z w : ZSet D} (hz : Built z) (hw : Built w) :
    (∀ d, get z d = get w d) ↔ z.Perm w :=
  eqv_iff_perm (C02_canonical hz) (C02_canonical hw)

/-- C02: addition is associative and commutative with the empty Z-set as neutral element, and
subtraction undoes addition; the results store the same entries up to iteration order. -/
theorem C02_group {a b c : ZSet D} (ha : Built a) (hb : Built b) (hc : Built c) :
    (add (add a b) c).Perm (add a (add b c)) ∧ (add a b).Perm (add b a) ∧ (add a empty).Perm a ∧
    (add empty a).Perm a ∧ (sub (add a b) b).Perm a ∧ (add (sub a b) b).Perm a ∧ sub a a = [] := by
  have wa := C02_canonical ha
  have wb := C02_canonical hb
  have wc := C02_canonical hc
  have we : WF (empty : ZSet D) := WF.nil
  have ge : ∀ d, get (empty : ZSet D) d = 0 := fun _ => rfl
  refine ⟨perm_of_eqv ((wa.add _).add _) (wa.add _) ?_, perm_of_eqv (wa.add _) (wb.add _) ?_,
    perm_of_eqv (wa.add _) wa ?_, perm_of_eqv (we.add _) wa ?_, perm_of_eqv ((wa.add _).sub _) wa ?_,
    perm_of_eqv ((wa.sub _).add _) wa ?_, ?_⟩
  · intro d
    rw [get_add (wa.add _) wc, get_add wa wb, get_add wa (wb.add _), get_add wb wc]; omega
  · intro d; rw [get_add wa wb, get_add wb wa]; omega
  · intro d; rw [get_add wa we, ge]; omega
  · intro d; rw [get_add we wa, ge]; omega
  · intro d; rw [get_sub (wa.add _) wb, get_add wa wb]; omega
  · intro d; rw [get_add (wa.sub _) wb, get_sub wa wb]; omega
  · rw [← eqv_nil (wa.sub _)]
    intro d; rw [get_sub wa wa]; simp

/-- A Z-set with a negative, a positive and a cancelled entry, built through the API. -/
example : Built (addDoc (addDoc (addDoc (addDoc ([] : ZSet String) "a" 2) "b" (-3)) "c" 1) "c" (-1)) ∧
    addDoc (addDoc (addDoc (addDoc ([] : ZSet String) "a" 2) "b" (-3)) "c" 1) "c" (-1) = [("a", 2), ("b", -3)] :=
  ⟨.addDoc _ _ (.addDoc _ _ (.addDoc _ _ (.addDoc _ _ .empty))), by decide⟩

/-! ### C03 -/

/-- C03: `Distinct` keeps exactly the documents with positive multiplicity, once. -/
theorem C03_distinct {z : ZSet D} (h : Built z) (d : D) :
    get (distinct z) d = if get z d > 0 then 1 else 0 := by
  have := foldl_distinct_get z [] (C02_canonical h) WF.nil d
  simpa [distinct] using this

/-- C03: `Unique` keeps every document with the sign of its multiplicity. -/
theorem C03_unique {z : ZSet D} (h : Built z) (d : D) : get (unique z) d = (get z d).sign := by
  have := foldl_unique_get z [] (C02_canonical h) WF.nil d
  simpa [unique] using this

/-- C03: `Distinct` is idempotent. -/
theorem C03_distinct_idem {z : ZSet D} (h : Built z) : (distinct (distinct z)).Perm (distinct z) := by
  refine perm_of_eqv (distinct_wf _) (distinct_wf _) ?_
  intro d
  rw [C03_distinct (.distinct h), C03_distinct h]
  split <;> simp

/-- C03: `GetDocuments` lists every document as often as its positive multiplicity; `Size` is the number of
listed documents. -/
theorem C03_documents {z : ZSet D} (h : Built z) :
    (∀ d, (getDocuments z).count d = (get z d).toNat) ∧ size z = (getDocuments z).length :=
  ⟨count_getDocuments z (C02_canonical h), by simp [size, size_foldl]⟩

/-- C03: `GetUniqueDocuments` lists exactly the documents with positive multiplicity, each once;
`UniqueCount` is their number; `Contains` tests membership. -/
theorem C03_unique_documents {z : ZSet D} (h : Built z) :
    (∀ d, d ∈ getUniqueDocuments z ↔ get z d > 0) ∧ (getUniqueDocuments z).Nodup ∧
    uniqueCount z = (getUniqueDocuments z).length ∧ ∀ d, contains z d = true ↔ get z d > 0 :=
  ⟨mem_getUniqueDocuments z (C02_canonical h), nodup_getUniqueDocuments z (C02_canonical h),
    by simp [uniqueCount, uniqueCount_foldl], fun d => by simp [contains]⟩

/-- C03: `List` returns exactly the documents with non-zero multiplicity, each once and with its
multiplicity; `TotalSize` is the sum of the absolute multiplicities. -/
theorem C03_list {z : ZSet D} (h : Built z) :
    (∀ d m, (d, m) ∈ list z ↔ get z d = m ∧ m ≠ 0) ∧ ((list z).map Prod.fst).Nodup ∧
    totalSize z = ((list z).map (fun p => (p.2.natAbs : Int))).sum :=
  ⟨mem_iff_get (C02_canonical h), (C02_canonical h).1, by simp [totalSize, totalSize_foldl, list]⟩

/-- C03: `FromDocuments` counts the occurrences of each document in the list; `SingletonZSet` holds one
document once. -/
theorem C03_from_documents (ds : List D) (x d : D) :
    get (fromDocuments ds) d = (ds.count d : Int) ∧ get (singleton x) d = if x = d then 1 else 0 := by
  refine ⟨?_, ?_⟩
  · have := foldl_fromDocuments_get ds [] WF.nil d
    simpa [fromDocuments] using this
  · unfold singleton; rw [get_addDoc WF.nil]; simp

example : distinct [("a", (2 : Int)), ("b", -3), ("c", 1)] = [("a", 1), ("c", 1)] ∧
    unique [("a", (2 : Int)), ("b", -3)] = [("a", 1), ("b", -1)] ∧
    getDocuments [("a", (2 : Int)), ("b", -3)] = ["a", "a"] ∧
    size [("a", (2 : Int)), ("b", -3)] = 2 ∧ totalSize [("a", (2 : Int)), ("b", -3)] = 5 := by decide

end ZSet
end Dctl
