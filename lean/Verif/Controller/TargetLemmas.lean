import Verif.Controller.Target
import Verif.Json.PathLemmas
set_option autoImplicit false
set_option linter.unusedSectionVars false
namespace Dctl

/-! ### restoring kind and name -/

theorem restore_canon {m : SMap Json} {t : GVK} {k : ObjKey} (hm : (Json.map m).Canon) : (Json.map (restore m t k)).Canon :=
  setStr_canon (setStr_canon (setGVK_canon hm))

theorem prefix_one {p : List String} {a : String} (h : p <+: [a]) : p = [] ∨ p = [a] := by
  cases p with
  | nil => exact .inl rfl
  | cons b p =>
    obtain ⟨rfl, h⟩ := List.cons_prefix_cons.mp h
    simp at h; subst h; exact .inr rfl

theorem prefix_two {p : List String} {a b : String} (h : p <+: [a, b]) : p = [] ∨ p = [a] ∨ p = [a, b] := by
  cases p with
  | nil => exact .inl rfl
  | cons c p =>
    obtain ⟨rfl, h'⟩ := List.cons_prefix_cons.mp h
    rcases prefix_one h' with rfl | rfl
    · exact .inr (.inl rfl)
    · exact .inr (.inr rfl)

theorem free_off {p q : List String} (hp : FreePath p) (hq : q ∈ protectedPaths) : ¬ q <+: p ∧ ¬ p <+: q := by
  obtain ⟨h1, h2, h3⟩ := hp
  refine ⟨h3 q hq, fun h => ?_⟩
  simp only [protectedPaths, List.mem_cons, List.not_mem_nil, or_false] at hq
  rcases hq with rfl | rfl | rfl | rfl
  · rcases prefix_one h with rfl | rfl
    · exact h1 rfl
    · exact h3 _ (by decide) (List.prefix_refl _)
  · rcases prefix_one h with rfl | rfl
    · exact h1 rfl
    · exact h3 _ (by decide) (List.prefix_refl _)
  · rcases prefix_two h with rfl | rfl | rfl
    · exact h1 rfl
    · exact h2 rfl
    · exact h3 _ (by decide) (List.prefix_refl _)
  · rcases prefix_two h with rfl | rfl | rfl
    · exact h1 rfl
    · exact h2 rfl
    · exact h3 _ (by decide) (List.prefix_refl _)

theorem setGVK_free {m : SMap Json} {t : GVK} {p : List String} (hm : (Json.map m).Canon) (hp : FreePath p) : nested (setGVK m t) p = nested m p := by
  have h1 := free_off hp (q := ["apiVersion"]) (by decide)
  have h2 := free_off hp (q := ["kind"]) (by decide)
  rw [setGVK, setField_off (setField_canon hm (by simp [Json.Canon])) h2.1 h2.2, setField_off hm h1.1 h1.2]

theorem restore_free {m : SMap Json} {t : GVK} {k : ObjKey} {p : List String} (hm : (Json.map m).Canon) (hp : FreePath p) :
    nested (restore m t k) p = nested m p := by
  have h3 := free_off hp (q := ["metadata", "name"]) (by decide)
  have h4 := free_off hp (q := ["metadata", "namespace"]) (by decide)
  rw [restore, setStr_off (setStr_canon (setGVK_canon hm)) h4.1 h4.2, setStr_off (setGVK_canon hm) h3.1 h3.2, setGVK_free hm hp]

theorem restore_eq {m x : SMap Json} {t : GVK} {k : ObjKey} (hs : m.Sorted) (h : SMap.get m "metadata" = some (.map x)) :
    restore m t k = SMap.set (setGVK m t) "metadata" (.map (
      let y := if k.2 = "" then SMap.erase x "name" else SMap.set x "name" (.str k.2)
      if k.1 = "" then SMap.erase y "namespace" else SMap.set y "namespace" (.str k.1))) := by
  rw [restore, setStr_setStr (setGVK_sorted hs t) _ _ (by rw [setGVK_get hs]; simpa using h)]

theorem restore_gvk_get {m : SMap Json} {t : GVK} {k : ObjKey} (hm : (Json.map m).Canon) :
    SMap.get (restore m t k) "kind" = some (.str t.kind) ∧ SMap.get (restore m t k) "apiVersion" = some (.str (gvString t)) := by
  constructor
  · rw [← nested_one, restore, setStr_off (setStr_canon (setGVK_canon hm)) (by decide) (by decide),
      setStr_off (setGVK_canon hm) (by decide) (by decide), nested_one, setGVK_get hm.sorted]; simp
  · rw [← nested_one, restore, setStr_off (setStr_canon (setGVK_canon hm)) (by decide) (by decide),
      setStr_off (setGVK_canon hm) (by decide) (by decide), nested_one, setGVK_get hm.sorted]; simp

theorem nested_two {m x : SMap Json} {a b : String} (h : SMap.get m a = some (.map x)) : nested m [a, b] = SMap.get x b := by
  rw [nested_cons, h]; exact nested_one x b

theorem restore_key {m x : SMap Json} {t : GVK} {k : ObjKey} (hm : (Json.map m).Canon) (h : SMap.get m "metadata" = some (.map x)) :
    objKey (restore m t k) = k := by
  have hs := hm.sorted
  have hx : x.Sorted := (hm.val h).sorted
  have hr : SMap.get (restore m t k) "metadata" = some (.map (
      let y := if k.2 = "" then SMap.erase x "name" else SMap.set x "name" (.str k.2)
      if k.1 = "" then SMap.erase y "namespace" else SMap.set y "namespace" (.str k.1))) := by
    rw [restore_eq hs h, SMap.get_set _ (setGVK_sorted hs t), if_pos rfl]
  have hy : (if k.2 = "" then SMap.erase x "name" else SMap.set x "name" (.str k.2)).Sorted := by
    split
    · exact hx.erase _
    · exact hx.set _ _
  obtain ⟨ns, n⟩ := k
  simp only at hr hy
  simp only [objKey, nestedString, nested_two hr, Prod.mk.injEq]
  constructor
  · split
    · rename_i h1
      split at h1
      · rw [SMap.get_erase _ hy] at h1; simp at h1
      · rw [SMap.get_set _ hy] at h1; simp at h1; exact h1.symm
    · rename_i h1
      split at h1
      · rename_i e; exact e.symm
      · rename_i e
        rw [SMap.get_set _ hy] at h1; simp at h1
  · by_cases e : n = ""
    · subst e
      simp only [if_true]
      have : SMap.get (if ns = "" then SMap.erase (SMap.erase x "name") "namespace" else SMap.set (SMap.erase x "name") "namespace" (.str ns)) "name" = none := by
        split
        · rw [SMap.get_erase _ (hx.erase _), SMap.get_erase _ hx]; simp
        · rw [SMap.get_set _ (hx.erase _), SMap.get_erase _ hx]; simp
      rw [this]
    · simp only [if_neg e]
      have : SMap.get (if ns = "" then SMap.erase (SMap.set x "name" (.str n)) "namespace" else SMap.set (SMap.set x "name" (.str n)) "namespace" (.str ns)) "name" =
          some (.str n) := by
        split
        · rw [SMap.get_erase _ (hx.set _ _), SMap.get_set _ hx]; simp
        · rw [SMap.get_set _ (hx.set _ _), SMap.get_set _ hx]; simp
      rw [this]

/-! ### Updater -/

theorem dropMissing_sorted {new obj : SMap Json} (ks : List String) (h : obj.Sorted) : (dropMissing new obj ks).Sorted := by
  induction ks generalizing obj with
  | nil => exact h
  | cons k ks ih =>
    rw [dropMissing]; split
    · exact ih (h.erase k)
    · exact ih h

theorem dropMissing_get {new obj : SMap Json} (ks : List String) (h : obj.Sorted) (k : String) : SMap.get (dropMissing new obj ks) k =
    if k ∈ ks ∧ k ≠ "metadata" ∧ SMap.get new k = none then none else SMap.get obj k := by
  induction ks generalizing obj with
  | nil => simp [dropMissing]
  | cons a ks ih =>
    rw [dropMissing]
    by_cases hc : a ≠ "metadata" ∧ SMap.get new a = none
    · rw [if_pos hc, ih (h.erase a), SMap.get_erase _ h]
      by_cases e : a = k
      · subst e; simp [hc.1, hc.2]
      · have e' : ¬ k = a := fun x => e x.symm
        simp [e, e']
    · rw [if_neg hc, ih h]
      by_cases e : a = k
      · subst e
        have : ¬ (a ≠ "metadata" ∧ SMap.get new a = none) := hc
        simp only [List.mem_cons, true_or, true_and]
        rw [if_neg this, if_neg (fun x => this x.2)]
      · have e' : ¬ k = a := fun x => e x.symm
        simp [e']

theorem copyFields_sorted {obj : SMap Json} (new : SMap Json) (h : obj.Sorted) : (copyFields obj new).Sorted := by
  induction new generalizing obj with
  | nil => exact h
  | cons p new ih =>
    obtain ⟨k, v⟩ := p
    rw [copyFields]; split
    · exact ih h
    · exact ih (h.set k v)

theorem copyFields_get {obj : SMap Json} (new : SMap Json) (hn : new.Sorted) (h : obj.Sorted) (k : String) : SMap.get (copyFields obj new) k =
    if k = "metadata" then SMap.get obj k else (SMap.get new k).or (SMap.get obj k) := by
  induction new generalizing obj with
  | nil => simp [copyFields, SMap.get]
  | cons p new ih =>
    obtain ⟨a, v⟩ := p
    have hnone := hn.head_none
    rw [copyFields]
    by_cases e : a = "metadata"
    · rw [if_pos e, ih hn.tail h]
      by_cases ek : k = "metadata"
      · simp [ek]
      · have : ¬ a = k := fun x => ek (x ▸ e)
        simp [ek, SMap.get, this]
    · rw [if_neg e, ih hn.tail (h.set a v), SMap.get_set _ h]
      by_cases ek : a = k
      · subst ek; simp [e, SMap.get, hnone]
      · simp [SMap.get, ek]

theorem upd_content_get {new obj : SMap Json} (hn : new.Sorted) (ho : obj.Sorted) (k : String) :
    SMap.get (copyFields (dropMissing new obj (obj.map (·.1))) new) k = if k = "metadata" then SMap.get obj k else SMap.get new k := by
  rw [copyFields_get new hn (dropMissing_sorted _ ho), dropMissing_get _ ho]
  by_cases e : k = "metadata"
  · simp [e]
  · rw [if_neg e, if_neg e]
    cases hg : SMap.get new k with
    | some v => rfl
    | none =>
      simp only [Option.none_or]
      split
      · rfl
      · rename_i hc
        have : k ∉ obj.map (·.1) := fun h => hc ⟨h, e, trivial⟩
        cases hg2 : SMap.get obj k with
        | none => rfl
        | some v => exact absurd (List.mem_map.mpr ⟨_, SMap.mem_of_get hg2, rfl⟩) this

theorem upd_content_canon {new obj : SMap Json} (hn : (Json.map new).Canon) (ho : (Json.map obj).Canon) :
    (Json.map (copyFields (dropMissing new obj (obj.map (·.1))) new)).Canon := by
  have hs := copyFields_sorted new (dropMissing_sorted (new := new) (obj.map (·.1)) ho.sorted)
  rw [Json.canon_map]
  refine ⟨hs, ?_⟩
  rintro ⟨k, v⟩ hp
  have hg := SMap.get_of_mem hs hp
  rw [upd_content_get hn.sorted ho.sorted] at hg
  split at hg
  · exact ho.val hg
  · exact hn.val hg

theorem stringMap_keys {m : SMap Json} {x : SMap String} (h : stringMap m = some x) : x.map (·.1) = m.map (·.1) := by
  induction m generalizing x with
  | nil => simp [stringMap] at h; subst h; rfl
  | cons p m ih =>
    obtain ⟨k, v⟩ := p
    cases v with
    | str s =>
      simp only [stringMap, Option.map_eq_some_iff] at h
      obtain ⟨y, hy, rfl⟩ := h
      simp [ih hy]
    | null =>
      simp only [stringMap, Option.map_eq_some_iff] at h
      obtain ⟨y, hy, rfl⟩ := h
      simp [ih hy]
    | _ => simp [stringMap] at h

theorem sorted_of_keys {V W : Type} {a : SMap V} {b : SMap W} (h : a.map (·.1) = b.map (·.1)) (hb : b.Sorted) : a.Sorted := by
  have h1 : (b.map (·.1)).Pairwise (· < ·) := List.pairwise_map.mpr hb
  rw [← h] at h1
  exact List.pairwise_map.mp h1

theorem stringMap_mapVal (x : SMap String) : stringMap (SMap.mapVal .str x) = some x := by
  induction x with
  | nil => rfl
  | cons p x ih =>
    obtain ⟨k, s⟩ := p
    simp only [SMap.mapVal, List.map_cons, stringMap] at ih ⊢
    rw [ih]; rfl

theorem overlay_sorted {old : SMap String} (new : SMap String) (h : old.Sorted) : (overlay old new).Sorted := by
  induction new generalizing old with
  | nil => exact h
  | cons p new ih => exact ih (h.set _ _)

theorem overlay_get {old : SMap String} (new : SMap String) (hn : new.Sorted) (h : old.Sorted) (k : String) :
    SMap.get (overlay old new) k = (SMap.get new k).or (SMap.get old k) := by
  induction new generalizing old with
  | nil => simp [overlay, SMap.get]
  | cons p new ih =>
    obtain ⟨a, v⟩ := p
    have hnone := hn.head_none
    rw [overlay, ih hn.tail (h.set a v), SMap.get_set _ h]
    by_cases e : a = k
    · subst e; simp [SMap.get, hnone]
    · simp [SMap.get, e]

theorem getStrings_sorted {m : SMap Json} (hm : (Json.map m).Canon) {f : String} {x : SMap String} (h : getStrings m f = some x) : x.Sorted := by
  rw [getStrings] at h
  split at h
  · rename_i y hy
    have : (Json.map y).Canon := by
      rw [nested_cons] at hy
      cases hg : SMap.get m "metadata" with
      | none => rw [hg] at hy; simp at hy
      | some j =>
        rw [hg] at hy
        simp only [Option.bind_some] at hy
        obtain ⟨mj, u, rfl, hg2, hu⟩ := at_cons_some hy
        simp [Json.at] at hu
        subst hu
        exact (hm.val hg).val hg2
    exact sorted_of_keys (stringMap_keys h) this.sorted
  · simp at h

theorem mapVal_str_canon {x : SMap String} (h : x.Sorted) : (Json.map (SMap.mapVal .str x)).Canon := by
  rw [Json.canon_map]
  refine ⟨h.mapVal _, ?_⟩
  intro p hp
  simp only [SMap.mapVal, List.mem_map] at hp
  obtain ⟨q, _, rfl⟩ := hp
  trivial

theorem mergeStrings_canon {f : String} {obj new : SMap Json} (ho : (Json.map obj).Canon) :
    (Json.map (mergeStrings f obj new)).Canon := by
  rw [mergeStrings]
  split
  · exact ho
  · rename_i x hx
    refine setField_canon ho (mapVal_str_canon (overlay_sorted x ?_))
    cases hg : getStrings obj f with
    | none => exact SMap.sorted_nil
    | some y => exact getStrings_sorted ho hg

theorem mergeStrings_off {f : String} {obj new : SMap Json} (ho : (Json.map obj).Canon) {p : List String} (h1 : ¬ ["metadata", f] <+: p)
    (h2 : ¬ p <+: ["metadata", f]) : nested (mergeStrings f obj new) p = nested obj p := by
  rw [mergeStrings]
  split
  · rfl
  · exact setField_off ho h1 h2

theorem mergeStrings_meta {f : String} {obj new x : SMap Json} (ho : (Json.map obj).Canon) (h : SMap.get obj "metadata" = some (.map x)) :
    ∃ y, SMap.get (mergeStrings f obj new) "metadata" = some (.map y) := by
  rw [mergeStrings]
  split
  · exact ⟨x, h⟩
  · rw [setStrings, setField_two _ h, SMap.get_set _ ho.sorted]
    exact ⟨_, if_pos rfl⟩

theorem getStrings_congr {a b : SMap Json} {f : String} (h : nested a ["metadata", f] = nested b ["metadata", f]) : getStrings a f = getStrings b f := by
  simp [getStrings, h]

theorem mergeStrings_get {f : String} {obj new x : SMap Json} {l : SMap String} (ho : (Json.map obj).Canon)
    (h : SMap.get obj "metadata" = some (.map x)) (hl : getStrings new f = some l) :
    getStrings (mergeStrings f obj new) f = some (overlay ((getStrings obj f).getD []) l) := by
  rw [mergeStrings, hl]
  simp only
  rw [setStrings, setField_two _ h, getStrings, nested_two (by rw [SMap.get_set _ ho.sorted, if_pos rfl]),
    SMap.get_set _ (ho.val h).sorted, if_pos rfl]
  exact stringMap_mapVal _

theorem mergeStrings_get_none {f : String} {obj new : SMap Json} (hl : getStrings new f = none) : mergeStrings f obj new = obj := by
  rw [mergeStrings, hl]

theorem bareObj_canon (t : GVK) (k : ObjKey) : (Json.map (bareObj t k)).Canon := restore_canon (by decide)

theorem bareObj_meta {t : GVK} {k : ObjKey} (h : k.2 ≠ "") : ∃ x, SMap.get (bareObj t k) "metadata" = some (.map x) := by
  have h0 : SMap.get (setGVK [] t) "metadata" = none := by rw [setGVK_get SMap.sorted_nil]; rfl
  rw [bareObj, restore, setStr, setStr]
  rw [if_neg h, setField_two_none _ h0]
  have h1 : SMap.get (SMap.set (setGVK [] t) "metadata" (Json.map [("name", .str k.2)])) "metadata" = some (.map [("name", .str k.2)]) := by
    rw [SMap.get_set _ (setGVK_sorted SMap.sorted_nil t), if_pos rfl]
  have h2 := (setGVK_sorted SMap.sorted_nil t).set "metadata" (Json.map [("name", .str k.2)])
  split
  · rw [removeNested_two h1, SMap.get_set _ h2]; exact ⟨_, if_pos rfl⟩
  · rw [setField_two _ h1, SMap.get_set _ h2]; exact ⟨_, if_pos rfl⟩

/-! ### Patcher -/

theorem patchObj_eq (obj p : SMap Json) : Json.patch (.map obj) (.map p) = .map (patchObj obj p) := by
  by_cases h : obj = p
  · rw [patchObj, h, Json.patch_self]
  · rw [patchObj, patch_map_map h]

theorem patchObj_canon {obj p : SMap Json} (ho : (Json.map obj).Canon) (hp : (Json.map p).Canon) : (Json.map (patchObj obj p)).Canon := by
  rw [← patchObj_eq]; exact patch_canon _ _ ho hp

theorem nested_patchObj (obj p : SMap Json) (q : List String) : nested (patchObj obj p) q = (Json.patch (.map obj) (.map p)).at q := by
  rw [patchObj_eq]; rfl

theorem removeM_canon' {w : SMap Json} (hw : (Json.map w).Canon) : (Json.map (Json.removeM w)).Canon := removeM_canon (.map w) hw _ rfl

theorem deletePatch_eq {w wm : SMap Json} (hw : (Json.map w).Canon) (h : SMap.get w "metadata" = some (.map wm)) :
    deletePatch w = SMap.set (setGVK (Json.removeM w) (objGVK w)) "metadata"
      (.map (SMap.set (SMap.set (Json.removeM wm) "namespace" (.str (objKey w).1)) "name" (.str (objKey w).2))) := by
  have hr := (removeM_canon' hw).sorted
  have h1 : SMap.get (setGVK (Json.removeM w) (objGVK w)) "metadata" = some (.map (Json.removeM wm)) := by
    rw [setGVK_get hr]
    simp [removeM_get hw.sorted, h, Json.inv]
  have : deletePatch w = setField (setField (setGVK (Json.removeM w) (objGVK w)) ["metadata", "namespace"] (.str (objKey w).1)) ["metadata", "name"] (.str (objKey w).2) := rfl
  rw [this, setField_two _ h1, setField_two _ (by rw [SMap.get_set _ (setGVK_sorted hr _), if_pos rfl]), set_set (setGVK_sorted hr _)]

theorem deletePatch_canon {w : SMap Json} (hw : (Json.map w).Canon) : (Json.map (deletePatch w)).Canon :=
  setField_canon (setField_canon (setField_canon (setField_canon (removeM_canon' hw) trivial) trivial) trivial) trivial

theorem deletePatch_free {w : SMap Json} (hw : (Json.map w).Canon) {p : List String} (hp : FreePath p) :
    nested (deletePatch w) p = nested (Json.removeM w) p := by
  have h1 := free_off hp (q := ["apiVersion"]) (by decide)
  have h2 := free_off hp (q := ["kind"]) (by decide)
  have h3 := free_off hp (q := ["metadata", "name"]) (by decide)
  have h4 := free_off hp (q := ["metadata", "namespace"]) (by decide)
  have c := removeM_canon' hw
  have c1 := setField_canon (p := ["apiVersion"]) (v := .str (gvString (objGVK w))) c trivial
  have c2 := setField_canon (p := ["kind"]) (v := .str (objGVK w).kind) c1 trivial
  have c3 := setField_canon (p := ["metadata", "namespace"]) (v := .str (objKey w).1) c2 trivial
  rw [deletePatch, setField_off c3 h3.1 h3.2, setField_off c2 h4.1 h4.2, setField_off c1 h2.1 h2.2, setField_off c h1.1 h1.2]

theorem deletePatch_not_mentions {w wm : SMap Json} (hw : (Json.map w).Canon) (h : SMap.get w "metadata" = some (.map wm)) {p : List String}
    (hp : FreePath p) (hm : ¬ (Json.map w).Mentions p) : ¬ (Json.map (deletePatch w)).Mentions p := by
  have hr := (removeM_canon' hw).sorted
  have hwm := hw.val h
  have hrm : SMap.Sorted (Json.removeM wm) := (removeM_canon' hwm).sorted
  have hm' : ¬ (Json.map (Json.removeM w)).Mentions p := fun x => hm (removeM_mentions hw x)
  obtain ⟨h1, h2, h3⟩ := hp
  cases p with
  | nil => exact absurd rfl h1
  | cons a p =>
    rw [deletePatch_eq hw h, mentions_cons, SMap.get_set _ (setGVK_sorted hr _)]
    rw [mentions_cons] at hm'
    by_cases e : "metadata" = a
    · subst e
      rw [if_pos rfl]
      rintro ⟨v, hv, hmv⟩
      simp only [Option.some.injEq] at hv
      subst hv
      cases p with
      | nil => exact h2 rfl
      | cons b p =>
        rw [mentions_cons, SMap.get_set _ (hrm.set _ _), SMap.get_set _ hrm] at hmv
        have e1 : ¬ "name" = b := by
          rintro rfl
          exact h3 ["metadata", "name"] (by decide) ⟨p, rfl⟩
        have e2 : ¬ "namespace" = b := by
          rintro rfl
          exact h3 ["metadata", "namespace"] (by decide) ⟨p, rfl⟩
        rw [if_neg e1, if_neg e2] at hmv
        refine hm' ⟨.map (Json.removeM wm), ?_, mentions_cons.mpr hmv⟩
        simp [removeM_get hw.sorted, h, Json.inv]
    · rw [if_neg e, setGVK_get hr]
      have e1 : ¬ a = "kind" := by
        rintro rfl
        exact h3 ["kind"] (by decide) ⟨p, rfl⟩
      have e2 : ¬ a = "apiVersion" := by
        rintro rfl
        exact h3 ["apiVersion"] (by decide) ⟨p, rfl⟩
      rw [if_neg e1, if_neg e2]
      exact hm'

end Dctl
