import Verif.Operator.PatchJson
import Verif.Spec.PatchJson
import Verif.Props.ConfigDep
import Verif.Props.PatchLoop
set_option autoImplicit false
set_option linter.unusedSectionVars false
namespace Dctl

theorem patch_null_leaf {o m : Json} {p : List String} (ho : o.Canon) (hm : m.Canon) (h : m.at p = some .null) :
    (Json.patch o m).at p = none ∨ (Json.patch o m).at p = some .null := by
  induction p generalizing o m with
  | nil => simp [Json.at] at h; subst h; right; rfl
  | cons k p ih =>
    obtain ⟨mm, u, rfl, hg, hu⟩ := at_cons_some h
    rw [at_cons]
    by_cases hn : u = .null
    · subst hn
      have hp : p = [] := by
        cases p with
        | nil => rfl
        | cons b p => simp [Json.at, Json.field] at hu
      subst hp
      by_cases e : o = .map mm
      · subst e
        rw [Json.patch_self]
        simp [Json.field, hg, Json.at]
      · cases o with
        | map mo =>
          rw [patch_map_map (by rintro rfl; exact e rfl)]
          simp [Json.field, patchM_get mm hm.sorted ho.sorted, hg]
        | _ => rw [patch_not_map (by simp)]; simp [Json.field, hg, Json.at]
    · rw [patch_field_some ho hm.sorted hg hn]
      cases hf : o.field k with
      | none => right; simpa using hu
      | some vo => simpa using ih (ho.field hf) (hm.val hg) hu

theorem fieldAt_none {p : List String} {d : CDoc} : fieldAt p d = none ↔ nested d.1 p = none ∨ nested d.1 p = some .null := by
  unfold fieldAt
  cases h : nested d.1 p with
  | none => simp
  | some v => by_cases e : v = .null <;> simp [e]

theorem fieldAt_scalar {p : List String} {d : CDoc} {v : Json} (h : nested d.1 p = some v) (hv : v.Scalar) : fieldAt p d = some v := by
  unfold fieldAt
  rw [h]
  simp only
  rw [if_neg (by rintro rfl; exact hv)]

theorem fieldAt_congr {p : List String} {d e : CDoc} (h : nested d.1 p = nested e.1 p) : fieldAt p d = fieldAt p e := by
  unfold fieldAt; rw [h]

theorem name_of_key {m : SMap Json} {n : String} (h : (objKey m).2 = n) (hn : n ≠ "") : nested m namePath = some (.str n) := by
  have h' : nestedString m namePath = n := h
  unfold nestedString at h'
  split at h'
  · rename_i s e; rw [e, h']
  · exact absurd h'.symm hn

theorem ns_of_key {m : SMap Json} {n : String} (h : (objKey m).1 = n) (hn : n ≠ "") : nested m nsPath = some (.str n) := by
  have h' : nestedString m nsPath = n := h
  unfold nestedString at h'
  split at h'
  · rename_i s e; rw [e, h']
  · exact absurd h'.symm hn

theorem objKey_ns {a : SMap Json} {n : String} (h : nested a nsPath = some (.str n)) : (objKey a).1 = n := by
  show nestedString a nsPath = n
  unfold nestedString; rw [h]

theorem objGVK_of_get {m : SMap Json} {t : GVK} (ht : parseGroupVersion (gvString t) = some (t.group, t.version)) (h2 : SMap.get m "kind" = some (.str t.kind))
    (h1 : SMap.get m "apiVersion" = some (.str (gvString t))) : objGVK m = t := by
  have e1 : nestedString m ["apiVersion"] = gvString t := by simp only [nestedString, nested, Json.at, Json.field, h1]
  have e2 : nestedString m ["kind"] = t.kind := by simp only [nestedString, nested, Json.at, Json.field, h2]
  unfold objGVK
  rw [e1, ht, e2]

/-- The patches of one field leave the rest of the object. -/
theorem jsonPatching_sameBut {p : List String} {t : GVK} (ht : parseGroupVersion (gvString t) = some (t.group, t.version)) {b x : CDoc}
    (he : jsonOps.enforce t x = .ok x) (hx : PatchesField p x) (hns : Namespaced b) (hb : objGVK b.1 = t) (hk : objKey b.1 = objKey x.1) :
    SameBut p b (jsonPatching.upsert b x) ∧ SameBut p b (jsonPatching.remove b x) ∧ objKey (jsonPatching.upsert b x).1 = objKey x.1 ∧
    objKey (jsonPatching.remove b x).1 = objKey x.1 := by
  obtain ⟨c1, c2, c3, _⟩ := C74_object t x.1 x.1 x.2 (jsonOps_enforce.mp he)
  have hxg : objGVK x.1 = t := objGVK_of_get ht c1 c2
  obtain ⟨wm, hwm⟩ := metadata_of_name c3
  obtain ⟨om, hom⟩ := metadata_of_name (by rw [hk]; exact c3)
  obtain ⟨ns, hne, hns⟩ := hns
  have key : ∀ y : CDoc, objKey y.1 = objKey x.1 → nested y.1 namePath = nested b.1 namePath ∧ nested y.1 nsPath = nested b.1 nsPath := by
    intro y hy
    rw [← hk] at hy c3
    refine ⟨?_, ?_⟩
    · rw [name_of_key (congrArg Prod.snd hy) c3, name_of_key rfl c3]
    · have h1 : (objKey b.1).1 = ns := objKey_ns hns
      rw [hns, ns_of_key ((congrArg Prod.fst hy).trans h1) hne]
  have ku : objKey (jsonPatching.upsert b x).1 = objKey x.1 := patcherUpsert_key x.2 b.2 hwm hom
  have hid := C26_identity b.1 x.1 om b.2 x.2 ⟨wm, hwm⟩ hom
  have kr : objKey (jsonPatching.remove b x).1 = objKey x.1 := hid.1
  have gu : SMap.get (patcherUpsert b.1 x.1) "kind" = some (.str (objGVK x.1).kind) ∧ SMap.get (patcherUpsert b.1 x.1) "apiVersion" = some (.str (gvString (objGVK x.1))) :=
    restore_gvk_get (patchObj_canon b.2 x.2)
  refine ⟨⟨?_, (key _ ku).1, (key _ ku).2, ?_⟩, ⟨?_, (key _ kr).1, (key _ kr).2, ?_⟩, ku, kr⟩
  · rw [hxg] at gu
    rw [hb]
    exact objGVK_of_get ht gu.1 gu.2
  · intro q hq hd
    show nested (patcherUpsert b.1 x.1) q = _
    rw [nested_patcherUpsert b.1 x.1 b.2 x.2 hq]
    exact C25_untouched _ _ b.2 x.2 q (hx.2 q hq hd)
  · rw [hb]
    rw [hxg] at hid
    exact objGVK_of_get ht hid.2.1 hid.2.2
  · intro q hq hd
    exact C26_untouched b.1 x.1 wm b.2 x.2 hwm q hq (hx.2 q hq hd)

/-- A Patcher target whose patches set one field is as the theorems on controllers ask. -/
theorem jsonPatching_sound {p : List String} (hp : FreePath p) {ts : List GVK} (hts : ∀ t ∈ ts, parseGroupVersion (gvString t) = some (t.group, t.version))
    {Good : CDoc → Prop} (hgood : ∀ b y, Good b → objGVK b.1 ∈ ts → SameBut p b y → Good y) (hns : ∀ b, Good b → Namespaced b) :
    jsonPatching.Sound jsonOps ts Good (PatchesField p) (fieldAt p) none := by
  constructor
  · intro t ht b x he hx hb hg hk
    obtain ⟨h1, _, h3, _⟩ := jsonPatching_sameBut (hts t ht) he hx (hns b hb) hg hk
    refine ⟨h1.1.trans hg, h3, hgood b _ hb (by rw [show objGVK b.1 = t from hg]; exact ht) h1, ?_⟩
    obtain ⟨⟨v, hv, hs⟩, _⟩ := hx
    rw [fieldAt_scalar hv hs]
    refine fieldAt_scalar ?_ hs
    show nested (patcherUpsert b.1 x.1) p = _
    rw [nested_patcherUpsert b.1 x.1 b.2 x.2 hp]
    exact C25_scalar _ _ b.2 x.2 p v hv hs
  · intro t ht b x he hx hb hg hk
    obtain ⟨_, h2, _, h4⟩ := jsonPatching_sameBut (hts t ht) he hx (hns b hb) hg hk
    refine ⟨h2.1.trans hg, h4, hgood b _ hb (by rw [show objGVK b.1 = t from hg]; exact ht) h2, ?_⟩
    obtain ⟨⟨v, hv, hs⟩, _⟩ := hx
    rw [fieldAt_none]
    show nested (patcherDelete b.1 x.1) p = none ∨ nested (patcherDelete b.1 x.1) p = some .null
    rw [patcherDelete, restore_free (patchObj_canon b.2 (deletePatch_canon x.2)) hp, nested_patchObj]
    refine patch_null_leaf b.2 (deletePatch_canon x.2) ?_
    have := deletePatch_free x.2 hp
    rw [nested] at this
    rw [this]
    exact removeM_at_scalar x.2 hv hs

end Dctl
