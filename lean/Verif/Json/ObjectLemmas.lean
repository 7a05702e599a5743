import Verif.Json.Object
import Verif.Json.PatchLemmas
import Verif.Spec.Patch
set_option autoImplicit false
set_option linter.unusedSectionVars false
namespace Dctl

theorem nested_nil (m : SMap Json) : nested m [] = some (.map m) := rfl

theorem nested_cons (m : SMap Json) (k : String) (p : List String) : nested m (k :: p) = (SMap.get m k).bind (·.at p) := by
  simp only [nested, Json.at, Json.field]
  cases SMap.get m k <;> rfl

theorem nested_one (m : SMap Json) (k : String) : nested m [k] = SMap.get m k := by
  rw [nested_cons]; cases SMap.get m k <;> rfl

theorem at_not_map {j : Json} (h : ∀ x, j ≠ .map x) (k : String) (p : List String) : j.at (k :: p) = none := by
  cases j with
  | map x => exact absurd rfl (h x)
  | _ => rfl

theorem setNested_canon {m : SMap Json} {p : List String} {v : Json} (hm : (Json.map m).Canon) (hv : v.Canon) {r : SMap Json}
    (h : setNested m p v = some r) : (Json.map r).Canon := by
  induction p generalizing m r with
  | nil => simp [setNested] at h; exact h ▸ hm
  | cons k p ih =>
    cases p with
    | nil => simp [setNested] at h; exact h ▸ hm.set hv
    | cons k' p =>
      rw [setNested] at h
      split at h
      · rename_i x hx
        simp only [Option.map_eq_some_iff] at h
        obtain ⟨y, hy, rfl⟩ := h
        exact hm.set (ih (hm.val hx) hy)
      · simp at h
      · simp only [Option.map_eq_some_iff] at h
        obtain ⟨y, hy, rfl⟩ := h
        exact hm.set (ih (by decide) hy)

theorem setField_canon {m : SMap Json} {p : List String} {v : Json} (hm : (Json.map m).Canon) (hv : v.Canon) : (Json.map (setField m p v)).Canon := by
  rw [setField]
  cases h : setNested m p v with
  | none => exact hm
  | some r => exact setNested_canon hm hv h

theorem removeNested_canon {m : SMap Json} {p : List String} (hm : (Json.map m).Canon) : (Json.map (removeNested m p)).Canon := by
  induction p generalizing m with
  | nil => exact hm
  | cons k p ih =>
    cases p with
    | nil => exact hm.erase
    | cons k' p =>
      rw [removeNested]
      split
      · rename_i x hx
        exact hm.set (ih (hm.val hx))
      · exact hm

theorem setStr_canon {m : SMap Json} {p : List String} {s : String} (hm : (Json.map m).Canon) : (Json.map (setStr m p s)).Canon := by
  rw [setStr]; split
  · exact removeNested_canon hm
  · exact setField_canon hm (by simp [Json.Canon])

theorem setGVK_canon {m : SMap Json} {t : GVK} (hm : (Json.map m).Canon) : (Json.map (setGVK m t)).Canon :=
  setField_canon (setField_canon hm (by simp [Json.Canon])) (by simp [Json.Canon])

theorem setNested_off {m : SMap Json} {q : List String} {v : Json} (hm : (Json.map m).Canon) {r : SMap Json}
    (h : setNested m q v = some r) {p : List String} (h1 : ¬ q <+: p) (h2 : ¬ p <+: q) : nested r p = nested m p := by
  induction q generalizing m r p with
  | nil => simp at h1
  | cons k q ih =>
    cases p with
    | nil => simp at h2
    | cons a p =>
      rw [nested_cons, nested_cons]
      cases q with
      | nil =>
        simp [setNested] at h
        subst h
        rw [SMap.get_set _ hm.sorted]
        by_cases e : k = a
        · subst e; simp at h1
        · rw [if_neg e]
      | cons k' q =>
        rw [setNested] at h
        by_cases e : k = a
        · subst e
          have h1' : ¬ (k' :: q) <+: p := by intro hp; exact h1 (List.prefix_cons_inj k |>.mpr hp)
          have h2' : ¬ p <+: (k' :: q) := by intro hp; exact h2 (List.prefix_cons_inj k |>.mpr hp)
          split at h
          · rename_i x hx
            simp only [Option.map_eq_some_iff] at h
            obtain ⟨y, hy, rfl⟩ := h
            rw [SMap.get_set _ hm.sorted, if_pos rfl, hx]
            exact ih (hm.val hx) hy h1' h2'
          · simp at h
          · rename_i hx
            simp only [Option.map_eq_some_iff] at h
            obtain ⟨y, hy, rfl⟩ := h
            rw [SMap.get_set _ hm.sorted, if_pos rfl, hx]
            have := ih (m := []) (by decide) hy h1' h2'
            cases p with
            | nil => simp at h2'
            | cons b p => simpa [nested, Json.at, Json.field, SMap.get] using this
        · split at h
          · simp only [Option.map_eq_some_iff] at h
            obtain ⟨y, hy, rfl⟩ := h
            rw [SMap.get_set _ hm.sorted, if_neg e]
          · simp at h
          · simp only [Option.map_eq_some_iff] at h
            obtain ⟨y, hy, rfl⟩ := h
            rw [SMap.get_set _ hm.sorted, if_neg e]

theorem setField_off {m : SMap Json} {q : List String} {v : Json} (hm : (Json.map m).Canon) {p : List String} (h1 : ¬ q <+: p) (h2 : ¬ p <+: q) :
    nested (setField m q v) p = nested m p := by
  rw [setField]
  cases h : setNested m q v with
  | none => rfl
  | some r => exact setNested_off hm h h1 h2

theorem removeNested_off {m : SMap Json} {q : List String} (hm : (Json.map m).Canon) {p : List String} (h1 : ¬ q <+: p) (h2 : ¬ p <+: q) :
    nested (removeNested m q) p = nested m p := by
  induction q generalizing m p with
  | nil => simp at h1
  | cons k q ih =>
    cases p with
    | nil => simp at h2
    | cons a p =>
      rw [nested_cons, nested_cons]
      cases q with
      | nil =>
        rw [removeNested, SMap.get_erase _ hm.sorted]
        by_cases e : k = a
        · subst e; simp at h1
        · rw [if_neg e]
      | cons k' q =>
        rw [removeNested]
        split
        · rename_i x hx
          rw [SMap.get_set _ hm.sorted]
          by_cases e : k = a
          · subst e
            rw [if_pos rfl, hx]
            exact ih (hm.val hx) (by intro hp; exact h1 (List.prefix_cons_inj k |>.mpr hp)) (by intro hp; exact h2 (List.prefix_cons_inj k |>.mpr hp))
          · rw [if_neg e]
        · rfl

theorem setStr_off {m : SMap Json} {q : List String} {s : String} (hm : (Json.map m).Canon) {p : List String} (h1 : ¬ q <+: p) (h2 : ¬ p <+: q) :
    nested (setStr m q s) p = nested m p := by
  rw [setStr]; split
  · exact removeNested_off hm h1 h2
  · exact setField_off hm h1 h2

theorem setField_one (m : SMap Json) (k : String) (v : Json) : setField m [k] v = SMap.set m k v := rfl

theorem setField_two {m : SMap Json} {a b : String} {x : SMap Json} (v : Json) (h : SMap.get m a = some (.map x)) :
    setField m [a, b] v = SMap.set m a (.map (SMap.set x b v)) := by
  simp [setField, setNested, h]

theorem setField_two_none {m : SMap Json} {a b : String} (v : Json) (h : SMap.get m a = none) :
    setField m [a, b] v = SMap.set m a (.map [(b, v)]) := by
  simp [setField, setNested, h, SMap.set]

theorem removeNested_two {m : SMap Json} {a b : String} {x : SMap Json} (h : SMap.get m a = some (.map x)) :
    removeNested m [a, b] = SMap.set m a (.map (SMap.erase x b)) := by
  simp [removeNested, h]

theorem removeNested_one (m : SMap Json) (k : String) : removeNested m [k] = SMap.erase m k := rfl

/-- The value at the removed path is gone. -/
theorem removeNested_at {m : SMap Json} {q : List String} (hm : (Json.map m).Canon) (hq : q ≠ []) : nested (removeNested m q) q = none := by
  induction q generalizing m with
  | nil => exact absurd rfl hq
  | cons k q ih =>
    rw [nested_cons]
    cases q with
    | nil => simp [removeNested, SMap.get_erase _ hm.sorted]
    | cons k' q =>
      rw [removeNested]
      split
      · rename_i x hx
        rw [SMap.get_set _ hm.sorted, if_pos rfl]
        exact ih (hm.val hx) (by simp)
      · rename_i hx
        cases hg : SMap.get m k with
        | none => rfl
        | some j => exact at_not_map (fun x hj => hx x (by rw [hg, hj])) _ _

/-- Extensionality by paths. -/
theorem nested_ext {a b : SMap Json} (ha : (Json.map a).Canon) (hb : (Json.map b).Canon) (h : ∀ k, nested a [k] = nested b [k]) : a = b :=
  SMap.ext ha.sorted hb.sorted (fun k => by rw [← nested_one, ← nested_one, h])

theorem nestedString_congr {a b : SMap Json} {p : List String} (h : nested a p = nested b p) : nestedString a p = nestedString b p := by
  simp [nestedString, h]

theorem objGVK_congr {a b : SMap Json} (h : ∀ k, k = "apiVersion" ∨ k = "kind" → nested a [k] = nested b [k]) : objGVK a = objGVK b := by
  simp only [objGVK, nestedString_congr (h "apiVersion" (.inl rfl)), nestedString_congr (h "kind" (.inr rfl))]

/-! ## UIDs -/

theorem removeUID_canon {m : SMap Json} (hm : (Json.map m).Canon) : (Json.map (removeUID m)).Canon := by
  rw [removeUID]; split
  · exact hm
  · exact removeNested_canon hm

theorem withUID_canon {hash : String → String} {m : SMap Json} (hm : (Json.map m).Canon) : (Json.map (withUID hash m)).Canon := by
  rw [withUID]; split
  · exact hm
  · exact setStr_canon hm

theorem removeUID_off {m : SMap Json} (hm : (Json.map m).Canon) {p : List String} (h1 : ¬ ["metadata", "uid"] <+: p) (h2 : ¬ p <+: ["metadata", "uid"]) :
    nested (removeUID m) p = nested m p := by
  rw [removeUID]; split
  · rfl
  · exact removeNested_off hm h1 h2

theorem withUID_off {hash : String → String} {m : SMap Json} (hm : (Json.map m).Canon) {p : List String} (h1 : ¬ ["metadata", "uid"] <+: p)
    (h2 : ¬ p <+: ["metadata", "uid"]) : nested (withUID hash m) p = nested m p := by
  rw [withUID]; split
  · rfl
  · exact setStr_off hm h1 h2

theorem removeUID_gvk {m : SMap Json} (hm : (Json.map m).Canon) : objGVK (removeUID m) = objGVK m :=
  objGVK_congr (by rintro k (rfl | rfl) <;> exact removeUID_off hm (by decide) (by decide))

theorem removeUID_key {m : SMap Json} (hm : (Json.map m).Canon) : objKey (removeUID m) = objKey m := by
  simp only [objKey, nestedString_congr (removeUID_off hm (p := ["metadata", "namespace"]) (by decide) (by decide)),
    nestedString_congr (removeUID_off hm (p := ["metadata", "name"]) (by decide) (by decide))]

theorem removeUID_idem {m : SMap Json} (hm : (Json.map m).Canon) : removeUID (removeUID m) = removeUID m := by
  by_cases h : (!isViewKind (objGVK m) || objUID m == "") = true
  · have : removeUID m = m := by rw [removeUID, if_pos h]
    rw [this, this]
  · have e : removeUID m = removeNested m ["metadata", "uid"] := by rw [removeUID, if_neg h]
    have : objUID (removeUID m) = "" := by
      rw [e, objUID, nestedString, removeNested_at hm (by simp)]
    rw [removeUID.eq_def (removeUID m), this]; simp

/-! ## Enforcing the target kind -/

/-- Closed form of the object produced for a result document. -/
def enforced (t : GVK) (m : SMap Json) (md : SMap Json) : SMap Json :=
  SMap.set (SMap.set (SMap.set m "apiVersion" (.str (gvString t))) "kind" (.str t.kind)) "metadata"
    (.map (if nestedString m ["metadata", "namespace"] = "" then SMap.erase md "namespace" else md))

theorem set_get_self {m : SMap Json} (hs : m.Sorted) {k : String} {v : Json} (h : SMap.get m k = some v) : SMap.set m k v = m := by
  refine SMap.ext (hs.set k v) hs (fun k' => ?_)
  rw [SMap.get_set _ hs]
  by_cases e : k = k'
  · rw [if_pos e, ← e, h]
  · rw [if_neg e]

theorem setStr_two {m : SMap Json} {a b : String} {x : SMap Json} (s : String) (h : SMap.get m a = some (.map x)) :
    setStr m [a, b] s = SMap.set m a (.map (if s = "" then SMap.erase x b else SMap.set x b (.str s))) := by
  rw [setStr]; split
  · rw [removeNested_two h]
  · rw [setField_two _ h]

theorem set_set {m : SMap Json} (hs : m.Sorted) (k : String) (u v : Json) : SMap.set (SMap.set m k u) k v = SMap.set m k v := by
  refine SMap.ext ((hs.set k u).set k v) (hs.set k v) (fun k' => ?_)
  rw [SMap.get_set _ (hs.set k u), SMap.get_set _ hs, SMap.get_set _ hs]
  by_cases e : k = k' <;> simp [e]

theorem setStr_setStr {m : SMap Json} (hs : m.Sorted) {a b c : String} {x : SMap Json} (s r : String) (h : SMap.get m a = some (.map x)) :
    setStr (setStr m [a, b] s) [a, c] r = SMap.set m a (.map (
      let y := if s = "" then SMap.erase x b else SMap.set x b (.str s)
      if r = "" then SMap.erase y c else SMap.set y c (.str r))) := by
  rw [setStr_two s h, setStr_two r (by rw [SMap.get_set _ hs, if_pos rfl]), set_set hs]

theorem setGVK_eq (m : SMap Json) (t : GVK) : setGVK m t = SMap.set (SMap.set m "apiVersion" (.str (gvString t))) "kind" (.str t.kind) := rfl

theorem setGVK_get {m : SMap Json} (hs : m.Sorted) (t : GVK) (k : String) : SMap.get (setGVK m t) k =
    if k = "kind" then some (.str t.kind) else if k = "apiVersion" then some (.str (gvString t)) else SMap.get m k := by
  rw [setGVK_eq, SMap.get_set _ (hs.set _ _), SMap.get_set _ hs]
  by_cases e : k = "kind"
  · subst e; simp
  · rw [if_neg e, if_neg (fun h => e h.symm)]
    by_cases e' : k = "apiVersion"
    · subst e'; simp
    · rw [if_neg e', if_neg (fun h => e' h.symm)]

theorem setGVK_sorted {m : SMap Json} (hs : m.Sorted) (t : GVK) : (setGVK m t).Sorted := (hs.set _ _).set _ _

theorem setContent_nil {m : SMap Json} (hm : (Json.map m).Canon) {md : SMap Json} (h : SMap.get m "metadata" = some (.map md)) :
    setContent [] m = SMap.set (setGVK m ⟨"", "", ""⟩) "metadata" (.map (SMap.erase (SMap.erase md "namespace") "name")) := by
  have h1 : SMap.get (setGVK m ⟨"", "", ""⟩) "metadata" = some (.map md) := by rw [setGVK_get hm.sorted]; simpa using h
  have : setContent [] m = setStr (setStr (setGVK m ⟨"", "", ""⟩) ["metadata", "namespace"] "") ["metadata", "name"] "" := rfl
  rw [this, setStr_setStr (setGVK_sorted hm.sorted _) _ _ h1]
  rfl

theorem enforce_eq {t : GVK} {m md : SMap Json} {name : String} (hm : (Json.map m).Canon) (h : SMap.get m "metadata" = some (.map md))
    (hn : SMap.get md "name" = some (.str name)) (hne : name ≠ "")
    (hns : SMap.get md "namespace" = none ∨ ∃ ns, SMap.get md "namespace" = some (.str ns)) :
    setStr (setStr (setGVK (setContent [] m) t) ["metadata", "name"] name) ["metadata", "namespace"] (nestedString m ["metadata", "namespace"]) =
      enforced t m md := by
  have hmd : md.Sorted := (hm.val h).sorted
  have hs := hm.sorted
  have hsc : (setContent [] m).Sorted := by rw [setContent_nil hm h]; exact (setGVK_sorted hs _).set _ _
  have hg : ∀ k, SMap.get (setContent [] m) k = if k = "metadata" then some (.map (SMap.erase (SMap.erase md "namespace") "name")) else
      SMap.get (setGVK m ⟨"", "", ""⟩) k := by
    intro k
    rw [setContent_nil hm h, SMap.get_set _ (setGVK_sorted hs _)]
    by_cases e : k = "metadata"
    · rw [if_pos e, if_pos e.symm]
    · rw [if_neg e, if_neg (fun x => e x.symm)]
  have hmm : SMap.get (setGVK (setContent [] m) t) "metadata" = some (.map (SMap.erase (SMap.erase md "namespace") "name")) := by
    rw [setGVK_get hsc, hg]; simp
  rw [setStr_setStr (setGVK_sorted hsc _) _ _ hmm]
  simp only [if_neg hne]
  have hsub : (SMap.set (SMap.erase (SMap.erase md "namespace") "name") "name" (Json.str name)).Sorted := ((hmd.erase _).erase _).set _ _
  have hmeta : (if nestedString m ["metadata", "namespace"] = "" then
      SMap.erase (SMap.set (SMap.erase (SMap.erase md "namespace") "name") "name" (Json.str name)) "namespace" else
      SMap.set (SMap.set (SMap.erase (SMap.erase md "namespace") "name") "name" (Json.str name)) "namespace" (.str (nestedString m ["metadata", "namespace"]))) =
      (if nestedString m ["metadata", "namespace"] = "" then SMap.erase md "namespace" else md) := by
    have hns' : nested m ["metadata", "namespace"] = SMap.get md "namespace" := by rw [nested_cons, h]; exact nested_one md _
    split
    · refine SMap.ext (hsub.erase _) (hmd.erase _) (fun k => ?_)
      rw [SMap.get_erase _ hsub, SMap.get_set _ ((hmd.erase _).erase _), SMap.get_erase _ (hmd.erase _), SMap.get_erase _ hmd]
      by_cases e : "namespace" = k
      · simp [e]
      · by_cases e' : "name" = k
        · simp [e', ← hn]
        · simp [e, e']
    · rename_i hne2
      refine SMap.ext (hsub.set _ _) hmd (fun k => ?_)
      rw [SMap.get_set _ hsub, SMap.get_set _ ((hmd.erase _).erase _), SMap.get_erase _ (hmd.erase _), SMap.get_erase _ hmd]
      by_cases e : "namespace" = k
      · subst e
        rcases hns with hns | ⟨ns, hns⟩
        · rw [nestedString, hns', hns] at hne2; simp at hne2
        · simp [nestedString, hns', hns]
      · by_cases e' : "name" = k
        · subst e'; simp [hn]
        · simp [e, e']
  rw [hmeta, enforced]
  refine SMap.ext ((setGVK_sorted hsc t).set _ _) (((hs.set _ _).set _ _).set _ _) (fun k => ?_)
  rw [SMap.get_set _ (setGVK_sorted hsc t), SMap.get_set _ ((hs.set _ _).set _ _), ← setGVK_eq]
  by_cases e : "metadata" = k
  · rw [if_pos e, if_pos e]
  · have e' : ¬ k = "metadata" := fun x => e x.symm
    rw [if_neg e, if_neg e, setGVK_get hsc, setGVK_get hs, hg, setGVK_get hs]
    simp only [if_neg e']
    by_cases e1 : k = "kind"
    · simp [e1]
    · by_cases e2 : k = "apiVersion" <;> simp [e1, e2]

/-- What the success of `enforceDoc` means. -/
theorem enforceDoc_ok {t : GVK} {m r : SMap Json} (hm : (Json.map m).Canon) : enforceDoc t m = .ok r ↔
    ∃ md name, SMap.get m "metadata" = some (.map md) ∧ SMap.get md "name" = some (.str name) ∧ name ≠ "" ∧
      (SMap.get md "namespace" = none ∨ ∃ ns, SMap.get md "namespace" = some (.str ns)) ∧ r = enforced t m md := by
  constructor
  · intro h
    rw [enforceDoc] at h
    split at h
    · rename_i md hmd
      have key : (SMap.get md "namespace" = none ∨ ∃ ns, SMap.get md "namespace" = some (.str ns)) → (match SMap.get md "name" with
          | some (.str name) =>
            if name = "" then (.error "empty metadata/name" : Except Err (SMap Json))
            else .ok (setStr (setStr (setGVK (setContent [] m) t) ["metadata", "name"] name) ["metadata", "namespace"] (nestedString m ["metadata", "namespace"]))
          | _ => .error "missing metadata/name") = .ok r →
          ∃ md name, SMap.get m "metadata" = some (.map md) ∧ SMap.get md "name" = some (.str name) ∧ name ≠ "" ∧
      (SMap.get md "namespace" = none ∨ ∃ ns, SMap.get md "namespace" = some (.str ns)) ∧ r = enforced t m md := by
        intro hns h
        split at h
        · rename_i name hn
          split at h
          · simp at h
          · rename_i hne
            rw [enforce_eq hm hmd hn hne hns] at h
            exact ⟨md, name, hmd, hn, hne, hns, by simpa using h.symm⟩
        · simp at h
      split at h
      · rename_i hns; exact key (.inl hns) h
      · rename_i ns hns; exact key (.inr ⟨ns, hns⟩) h
      · simp at h
    · simp at h
  · rintro ⟨md, name, hmd, hn, hne, hns, rfl⟩
    rw [enforceDoc, hmd]
    rcases hns with hns | ⟨ns, hns⟩
    · simp only [hns, hn, if_neg hne]
      rw [enforce_eq hm hmd hn hne (.inl hns)]
    · simp only [hns, hn, if_neg hne]
      rw [enforce_eq hm hmd hn hne (.inr ⟨ns, hns⟩)]

theorem enforced_canon {t : GVK} {m md : SMap Json} (hm : (Json.map m).Canon) (h : SMap.get m "metadata" = some (.map md)) :
    (Json.map (enforced t m md)).Canon := by
  refine Json.Canon.set (setGVK_canon (t := t) hm) ?_
  split
  · exact (hm.val h).erase
  · exact hm.val h

theorem enforced_get {t : GVK} {m md : SMap Json} (hs : m.Sorted) (k : String) : SMap.get (enforced t m md) k =
    if k = "metadata" then some (.map (if nestedString m ["metadata", "namespace"] = "" then SMap.erase md "namespace" else md))
    else if k = "kind" then some (.str t.kind) else if k = "apiVersion" then some (.str (gvString t)) else SMap.get m k := by
  rw [enforced, ← setGVK_eq, SMap.get_set _ (setGVK_sorted hs t)]
  by_cases e : k = "metadata"
  · rw [if_pos e, if_pos e.symm]
  · rw [if_neg e, if_neg (fun x => e x.symm), setGVK_get hs]

/-- An object is left alone by `enforceDoc` if and only if it has the kind of the target, a nonempty name and no empty namespace. -/
theorem enforceDoc_fixed {t : GVK} {o : SMap Json} (ho : (Json.map o).Canon) : enforceDoc t o = .ok o ↔
    (∃ md name, SMap.get o "metadata" = some (.map md) ∧ SMap.get md "name" = some (.str name) ∧ name ≠ "" ∧
      (SMap.get md "namespace" = none ∨ ∃ ns, ns ≠ "" ∧ SMap.get md "namespace" = some (.str ns))) ∧
    SMap.get o "kind" = some (.str t.kind) ∧ SMap.get o "apiVersion" = some (.str (gvString t)) := by
  rw [enforceDoc_ok ho]
  have hs := ho.sorted
  constructor
  · rintro ⟨md, name, hmd, hn, hne, hns, e⟩
    have hg := fun k => (congrArg (SMap.get · k) e).trans (enforced_get hs k)
    have hmds : SMap.Sorted md := (ho.val hmd).sorted
    refine ⟨⟨md, name, hmd, hn, hne, ?_⟩, by simpa using hg "kind", by simpa using hg "apiVersion"⟩
    rcases hns with hns | ⟨ns, hns⟩
    · exact .inl hns
    · by_cases hz : ns = ""
      · have h1 := hg "metadata"
        have h2 : nestedString o ["metadata", "namespace"] = "" := by
          rw [nestedString, nested_cons, hmd]
          show (match nested md ["namespace"] with | some (.str s) => s | _ => "") = ""
          rw [nested_one, hns]; exact hz
        rw [if_pos rfl, if_pos h2, hmd] at h1
        simp only [Option.some.injEq, Json.map.injEq] at h1
        have h3 := SMap.get_erase md hmds "namespace" "namespace"
        rw [← h1] at h3
        exact .inl (by simpa using h3)
      · exact .inr ⟨ns, hz, hns⟩
  · rintro ⟨⟨md, name, hmd, hn, hne, hns⟩, hk, ha⟩
    have hmds : SMap.Sorted md := (ho.val hmd).sorted
    refine ⟨md, name, hmd, hn, hne, hns.imp id (fun ⟨ns, _, h⟩ => ⟨ns, h⟩), ?_⟩
    refine SMap.ext hs (enforced_canon ho hmd).sorted (fun k => ?_)
    rw [enforced_get hs]
    by_cases e : k = "metadata"
    · subst e
      rw [if_pos rfl, hmd]
      have hnest : nested o ["metadata", "namespace"] = SMap.get md "namespace" := by rw [nested_cons, hmd]; exact nested_one md _
      rcases hns with hns | ⟨ns, hne', hns⟩
      · have : SMap.erase md "namespace" = md := by
          refine SMap.ext (hmds.erase _) hmds (fun k => ?_)
          rw [SMap.get_erase _ hmds]
          by_cases e : "namespace" = k
          · rw [if_pos e, ← e, hns]
          · rw [if_neg e]
        rw [this]; simp
      · have : nestedString o ["metadata", "namespace"] ≠ "" := by rw [nestedString, hnest, hns]; exact hne'
        rw [if_neg this]
    · rw [if_neg e]
      by_cases e1 : k = "kind"
      · subst e1; simpa using hk
      · rw [if_neg e1]
        by_cases e2 : k = "apiVersion"
        · subst e2; simpa using ha
        · rw [if_neg e2]

theorem enforceDoc_canon {t : GVK} {m r : SMap Json} (hm : (Json.map m).Canon) (h : enforceDoc t m = .ok r) : (Json.map r).Canon := by
  obtain ⟨md, name, hmd, hn, hne, hns, rfl⟩ := (enforceDoc_ok hm).mp h
  exact enforced_canon hm hmd

theorem enforceDoc_idem {t : GVK} {m r : SMap Json} (hm : (Json.map m).Canon) (h : enforceDoc t m = .ok r) : enforceDoc t r = .ok r := by
  have hr := enforceDoc_canon hm h
  obtain ⟨md, name, hmd, hn, hne, hns, rfl⟩ := (enforceDoc_ok hm).mp h
  have hs := hm.sorted
  have hmds : SMap.Sorted md := (hm.val hmd).sorted
  have hnest : nested m ["metadata", "namespace"] = SMap.get md "namespace" := by rw [nested_cons, hmd]; exact nested_one md _
  rw [enforceDoc_fixed hr]
  refine ⟨⟨_, name, by rw [enforced_get hs, if_pos rfl], ?_, hne, ?_⟩, by rw [enforced_get hs]; simp, by rw [enforced_get hs]; simp⟩
  · split
    · rw [SMap.get_erase _ hmds]; simpa using hn
    · exact hn
  · split
    · rw [SMap.get_erase _ hmds]; simp
    · rename_i hz
      rcases hns with hns | ⟨ns, hns⟩
      · exact .inl hns
      · refine .inr ⟨ns, ?_, hns⟩
        rw [nestedString, hnest, hns] at hz
        exact hz

theorem enforceDoc_uid {t : GVK} {o : SMap Json} (ho : (Json.map o).Canon) (h : enforceDoc t o = .ok o) :
    enforceDoc t (removeUID o) = .ok (removeUID o) := by
  rw [enforceDoc_fixed (removeUID_canon ho)]
  obtain ⟨⟨md, name, hmd, hn, hne, hns⟩, hk, ha⟩ := (enforceDoc_fixed ho).mp h
  have hmds : SMap.Sorted md := (ho.val hmd).sorted
  have hg : ∀ k, k ≠ "metadata" → SMap.get (removeUID o) k = SMap.get o k := by
    intro k hk
    have h2 : ¬ [k] <+: ["metadata", "uid"] := by simpa using hk
    rw [← nested_one, ← nested_one, removeUID_off ho (fun h => by simpa using h.length_le) h2]
  refine ⟨?_, by rw [hg _ (by decide), hk], by rw [hg _ (by decide), ha]⟩
  rw [removeUID]; split
  · exact ⟨md, name, hmd, hn, hne, hns⟩
  · rw [removeNested_two hmd]
    refine ⟨SMap.erase md "uid", name, by rw [SMap.get_set _ ho.sorted, if_pos rfl], ?_, hne, ?_⟩
    · rw [SMap.get_erase _ hmds]; simpa using hn
    · rw [SMap.get_erase _ hmds]; simpa using hns

/-! ## The pipeline's object operations -/

/-- Objects with canonical content (every Go map with string keys is a sorted list of fields in one way only). -/
abbrev CDoc := { m : SMap Json // (Json.map m).Canon }

/-- The object operations of the pipeline for JSON objects. `zset_adaptor.go:16-107,110-180`. -/
def jsonOps : ObjOps CDoc where
  gvk d := objGVK d.1
  key d := objKey d.1
  removeUID d := ⟨removeUID d.1, removeUID_canon d.2⟩
  enforce t d :=
    match h : enforceDoc t d.1 with
    | .ok r => .ok ⟨r, enforceDoc_canon d.2 h⟩
    | .error e => .error e

theorem jsonOps_enforce {t : GVK} {d o : CDoc} : jsonOps.enforce t d = .ok o ↔ enforceDoc t d.1 = .ok o.1 := by
  constructor
  · intro h
    simp only [jsonOps] at h
    split at h
    · rename_i r hr
      simp only [Except.ok.injEq] at h
      rw [hr, ← h]
    · simp at h
  · intro h
    simp only [jsonOps]
    split
    · rename_i r hr
      rw [hr] at h
      simp only [Except.ok.injEq] at h
      subst h; rfl
    · rename_i e he
      rw [he] at h; simp at h

theorem jsonOps_uid (d : CDoc) : (jsonOps.removeUID d).1 = removeUID d.1 := rfl

/-- The JSON operations satisfy the laws assumed about objects in the pipeline theorems. -/
theorem jsonOps_lawful : jsonOps.Lawful := by
  refine ⟨fun d => removeUID_gvk d.2, fun d => removeUID_key d.2, fun d => Subtype.ext (by rw [jsonOps_uid, jsonOps_uid, removeUID_idem d.2]), ?_, ?_⟩
  · intro t d o h
    exact jsonOps_enforce.mpr (enforceDoc_idem d.2 (jsonOps_enforce.mp h))
  · intro t o h
    rw [jsonOps_enforce, jsonOps_uid]
    exact enforceDoc_uid o.2 (jsonOps_enforce.mp h)

end Dctl
