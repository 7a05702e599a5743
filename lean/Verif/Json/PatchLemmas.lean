import Verif.Json.Patch
import Verif.Spec.Patch
/-! Helper lemmas about patches and merges. -/
set_option autoImplicit false
namespace Dctl

theorem Json.patch_self (x : Json) : Json.patch x x = x := by
  cases x <;> simp [Json.patch]

theorem SMap.Sorted.tail {V : Type} {p : String × V} {m : SMap V} (h : SMap.Sorted (p :: m)) : SMap.Sorted m := (List.pairwise_cons.mp h).2

theorem SMap.Sorted.head_none {V : Type} {k : String} {v : V} {m : SMap V} (h : SMap.Sorted ((k, v) :: m)) : SMap.get m k = none :=
  SMap.get_eq_none_of_lt (fun p hp => (List.pairwise_cons.mp h).1 p hp)

theorem patchM_sorted {ret mo : SMap Json} (mm : SMap Json) (hr : ret.Sorted) : (Json.patchM ret mo mm).Sorted := by
  induction mm generalizing ret with
  | nil => simpa [Json.patchM] using hr
  | cons p mm ih =>
    obtain ⟨k, v⟩ := p
    unfold Json.patchM
    split
    · exact ih (hr.erase k)
    · split
      · exact ih (hr.set k _)
      · exact ih (hr.set k _)

theorem patchM_get {ret mo : SMap Json} (mm : SMap Json) (hm : mm.Sorted) (hr : ret.Sorted) (k : String) :
    SMap.get (Json.patchM ret mo mm) k = match SMap.get mm k with
      | none => SMap.get ret k
      | some v => if v = .null then none else match SMap.get mo k with
        | none => some v
        | some vo => some (Json.patch vo v) := by
  induction mm generalizing ret with
  | nil => simp [Json.patchM, SMap.get]
  | cons p mm ih =>
    obtain ⟨k', v⟩ := p
    have hn := hm.head_none
    unfold Json.patchM
    by_cases hk : k' = k
    · subst hk
      simp only [SMap.get, if_true]
      split
      · rw [ih hm.tail (hr.erase _), hn]; simp [SMap.get_erase _ hr]
      · split
        · rename_i h; rw [ih hm.tail (hr.set _ _), hn]; simp [SMap.get_set _ hr, h]
        · rename_i h; rw [ih hm.tail (hr.set _ _), hn]; simp [SMap.get_set _ hr, h]
    · simp only [SMap.get, hk, if_false]
      split
      · rw [ih hm.tail (hr.erase _)]; simp [SMap.get_erase _ hr, hk]
      · split
        · rw [ih hm.tail (hr.set _ _)]; simp [SMap.get_set _ hr, hk]
        · rw [ih hm.tail (hr.set _ _)]; simp [SMap.get_set _ hr, hk]

theorem Json.Canon.sorted {m : SMap Json} (h : (Json.map m).Canon) : m.Sorted := (Json.canon_map.mp h).1

theorem Json.Canon.val {m : SMap Json} (h : (Json.map m).Canon) {k : String} {v : Json} (hg : SMap.get m k = some v) : v.Canon :=
  (Json.canon_map.mp h).2 _ (SMap.mem_of_get hg)

theorem patch_map_map {mo mm : SMap Json} (h : mo ≠ mm) : Json.patch (.map mo) (.map mm) = .map (Json.patchM mo mo mm) := by
  rw [Json.patch]; simp [h]

theorem patch_list_list {lo lm : List Json} (h : lo ≠ lm) : Json.patch (.list lo) (.list lm) = .list (Json.patchL lo lm) := by
  rw [Json.patch]; simp [h]

theorem patch_not_map {o : Json} {mm : SMap Json} (h : ∀ mo, o ≠ .map mo) : Json.patch o (.map mm) = .map mm := by
  cases o with
  | map mo => exact absurd rfl (h mo)
  | _ => simp [Json.patch]

theorem patch_not_list {o : Json} {lm : List Json} (h : ∀ lo, o ≠ .list lo) : Json.patch o (.list lm) = .list lm := by
  cases o with
  | list lo => exact absurd rfl (h lo)
  | _ => simp [Json.patch]

theorem patch_field_none {o : Json} {mm : SMap Json} (ho : o.Canon) (hm : mm.Sorted) {k : String} (h : SMap.get mm k = none) :
    (Json.patch o (.map mm)).field k = o.field k := by
  cases o with
  | map mo =>
    by_cases e : mo = mm
    · rw [e, Json.patch_self]
    · rw [patch_map_map e]; simp [Json.field, patchM_get mm hm ho.sorted, h]
  | _ => rw [patch_not_map (by simp)]; simp [Json.field, h]

theorem patch_field_some {o : Json} {mm : SMap Json} (ho : o.Canon) (hm : mm.Sorted) {k : String} {v : Json} (h : SMap.get mm k = some v)
    (hv : v ≠ .null) : (Json.patch o (.map mm)).field k = some (match o.field k with | none => v | some vo => Json.patch vo v) := by
  cases o with
  | map mo =>
    by_cases e : mo = mm
    · rw [e, Json.patch_self]; simp [Json.field, h, Json.patch_self]
    · rw [patch_map_map e]
      simp only [Json.field, patchM_get mm hm ho.sorted, h, hv, if_false]
      cases SMap.get mo k <;> rfl
  | _ => rw [patch_not_map (by simp)]; simp [Json.field, h]

theorem patch_field_null {mo mm : SMap Json} (ho : (Json.map mo).Canon) (hm : mm.Sorted) {k : String} (h : SMap.get mm k = some .null)
    (hv : SMap.get mo k ≠ some .null) : (Json.patch (.map mo) (.map mm)).field k = none := by
  by_cases e : mo = mm
  · rw [e] at hv; exact absurd h hv
  · rw [patch_map_map e]; simp [Json.field, patchM_get mm hm ho.sorted, h]

theorem patchL_canon {lo : List Json} (lm : List Json) (ih : ∀ y ∈ lm, ∀ x : Json, x.Canon → y.Canon → (Json.patch x y).Canon)
    (ho : ∀ x ∈ lo, x.Canon) (hm : ∀ y ∈ lm, y.Canon) : ∀ x ∈ Json.patchL lo lm, x.Canon := by
  induction lm generalizing lo with
  | nil => simpa [Json.patchL] using ho
  | cons y lm ihl =>
    cases lo with
    | nil => simpa [Json.patchL] using hm
    | cons x lo =>
      simp only [Json.patchL, List.mem_cons]
      rintro z (rfl | hz)
      · exact ih y (by simp) x (ho x (by simp)) (hm y (by simp))
      · exact ihl (fun w hw => ih w (List.mem_cons_of_mem _ hw)) (fun w hw => ho w (List.mem_cons_of_mem _ hw))
          (fun w hw => hm w (List.mem_cons_of_mem _ hw)) z hz

theorem patch_canon : ∀ (m o : Json), o.Canon → m.Canon → (Json.patch o m).Canon := by
  intro m
  induction m using Json.ind with
  | null => intros; simp [Json.patch, Json.Canon]
  | bool => intros; simp [Json.patch, Json.Canon]
  | int => intros; simp [Json.patch, Json.Canon]
  | float => intros; simp [Json.patch, Json.Canon]
  | str => intros; simp [Json.patch, Json.Canon]
  | list lm ih =>
    intro o ho hm
    unfold Json.patch
    split
    · exact hm
    · cases o with
      | list lo =>
        rw [Json.canon_list] at ho hm ⊢
        exact patchL_canon lm (fun y hy x => ih y hy x) ho hm
      | _ => exact hm
  | map mm ih =>
    intro o ho hm
    unfold Json.patch
    split
    · exact hm
    · cases o with
      | map mo =>
        simp only
        rw [Json.canon_map]
        have hs := patchM_sorted (mo := mo) mm ho.sorted
        refine ⟨hs, ?_⟩
        rintro ⟨k, v⟩ hp
        have hg := SMap.get_of_mem hs hp
        rw [patchM_get mm hm.sorted ho.sorted] at hg
        cases hk : SMap.get mm k with
        | none => rw [hk] at hg; exact ho.val hg
        | some w =>
          rw [hk] at hg
          simp only at hg
          split at hg
          · simp at hg
          · cases hko : SMap.get mo k with
            | none => rw [hko] at hg; simp at hg; subst hg; exact hm.val hk
            | some vo =>
              rw [hko] at hg; simp at hg; subst hg
              exact ih _ (SMap.mem_of_get hk) vo (ho.val hko) (hm.val hk)
      | _ => exact hm

theorem not_mentions_at {m : Json} {p : List String} (h : ¬ m.Mentions p) : m.at p = none := by
  induction p generalizing m with
  | nil => simp [Json.Mentions] at h
  | cons k p ih =>
    cases m with
    | map mm =>
      simp only [Json.Mentions] at h
      simp only [Json.at, Json.field]
      cases hk : SMap.get mm k with
      | none => rfl
      | some v => rw [hk] at h; exact ih h
    | _ => simp [Json.Mentions] at h

theorem at_mentions {m : Json} {p : List String} {v : Json} (h : m.at p = some v) : m.Mentions p := by
  by_cases hm : m.Mentions p
  · exact hm
  · rw [not_mentions_at hm] at h; simp at h

theorem patch_idem : ∀ (m o : Json), o.Canon → m.Canon → Json.patch (Json.patch o m) m = Json.patch o m := by
  intro m
  induction m using Json.ind with
  | null => intros; rfl
  | bool => intros; simp [Json.patch]
  | int => intros; simp [Json.patch]
  | float => intros; simp [Json.patch]
  | str => intros; simp [Json.patch]
  | list lm ih =>
    intro o ho hm
    have same : Json.patch (.list lm) (.list lm) = .list lm := Json.patch_self _
    by_cases e : o = .list lm
    · rw [e, same, same]
    · cases o with
      | list lo =>
        have hp : Json.patch (.list lo) (.list lm) = .list (Json.patchL lo lm) := by unfold Json.patch; simp only [e, if_false]
        rw [hp]
        by_cases e2 : Json.list (Json.patchL lo lm) = .list lm
        · rw [e2, same]
        · have : Json.patchL (Json.patchL lo lm) lm = Json.patchL lo lm := by
            rw [Json.canon_list] at ho hm
            clear e e2 hp same
            induction lm generalizing lo with
            | nil => simp [Json.patchL]
            | cons y lm ihl =>
              cases lo with
              | nil =>
                have refl : ∀ l : List Json, Json.patchL l l = l := by
                  intro l; induction l with
                  | nil => rfl
                  | cons a l ih => simp [Json.patchL, Json.patch_self, ih]
                simp only [Json.patchL, Json.patch_self, refl]
              | cons x lo =>
                simp only [Json.patchL]
                rw [ih y (by simp) x (ho x (by simp)) (hm y (by simp)), ihl (fun w hw => ih w (List.mem_cons_of_mem _ hw))
                  (fun w hw => hm w (List.mem_cons_of_mem _ hw)) lo (fun w hw => ho w (List.mem_cons_of_mem _ hw))]
          conv => lhs; unfold Json.patch
          simp only [e2, if_false, this]
      | _ => simp [Json.patch]
  | map mm ih =>
    intro o ho hm
    have same : Json.patch (.map mm) (.map mm) = .map mm := Json.patch_self _
    by_cases e : o = .map mm
    · rw [e, same, same]
    · cases o with
      | map mo =>
        have hp : Json.patch (.map mo) (.map mm) = .map (Json.patchM mo mo mm) := by unfold Json.patch; simp only [e, if_false]
        rw [hp]
        by_cases e2 : Json.map (Json.patchM mo mo mm) = .map mm
        · rw [e2, same]
        · have hs := patchM_sorted (mo := mo) mm ho.sorted
          have : Json.patchM (Json.patchM mo mo mm) (Json.patchM mo mo mm) mm = Json.patchM mo mo mm := by
            apply SMap.ext (patchM_sorted mm hs) hs
            intro k
            rw [patchM_get mm hm.sorted hs]
            have hg := patchM_get (mo := mo) mm hm.sorted ho.sorted k
            rw [hg]
            cases hk : SMap.get mm k with
            | none => rfl
            | some v =>
              simp only
              split
              · rfl
              · cases hko : SMap.get mo k with
                | none => simp [Json.patch_self]
                | some vo => simp only [ih _ (SMap.mem_of_get hk) vo (ho.val hko) (hm.val hk)]
          conv => lhs; unfold Json.patch
          simp only [e2, if_false, this]
      | _ => simp [Json.patch]

/-! ### inverse patches -/

theorem removeM_mem {m : SMap Json} {p : String × Json} (h : p ∈ Json.removeM m) : ∃ q ∈ m, q.1 = p.1 := by
  induction m with
  | nil => simp [Json.removeM] at h
  | cons q m ih =>
    obtain ⟨k, v⟩ := q
    simp only [Json.removeM] at h
    split at h
    · obtain ⟨q, hq, e⟩ := ih h; exact ⟨q, List.mem_cons_of_mem _ hq, e⟩
    · rcases List.mem_cons.mp h with rfl | h
      · exact ⟨_, List.mem_cons_self, rfl⟩
      · obtain ⟨q, hq, e⟩ := ih h; exact ⟨q, List.mem_cons_of_mem _ hq, e⟩

theorem removeM_sorted {m : SMap Json} (h : m.Sorted) : (Json.removeM m).Sorted := by
  induction m with
  | nil => exact SMap.sorted_nil
  | cons q m ih =>
    obtain ⟨k, v⟩ := q
    have lt : ∀ p ∈ Json.removeM m, k < p.1 := by
      intro p hp
      obtain ⟨q, hq, e⟩ := removeM_mem hp
      rw [← e]
      exact (List.pairwise_cons.mp h).1 q hq
    simp only [Json.removeM]
    split
    · exact ih h.tail
    · exact List.pairwise_cons.mpr ⟨lt, ih h.tail⟩

theorem removeM_get {m : SMap Json} (h : m.Sorted) (k : String) :
    SMap.get (Json.removeM m) k = (SMap.get m k).bind Json.inv := by
  induction m with
  | nil => rfl
  | cons q m ih =>
    obtain ⟨k', v⟩ := q
    have hn := h.head_none
    have := ih h.tail
    simp only [Json.removeM]
    by_cases hk : k' = k
    · subst hk
      rw [hn] at this
      simp only [SMap.get, if_true, Option.bind_some]
      split
      · rename_i e; rw [this, e]; rfl
      · rename_i e; simp [SMap.get, e]
    · simp only [SMap.get, hk, if_false]
      split
      · exact this
      · simp [SMap.get, hk, this]

theorem removeM_canon : ∀ (j : Json), j.Canon → (∀ r, j.inv = some r → r.Canon) := by
  intro j
  induction j using Json.ind with
  | null => intro _ r h; simp [Json.inv] at h
  | bool => intro _ r h; simp [Json.inv] at h; subst h; trivial
  | int => intro _ r h; simp [Json.inv] at h; subst h; trivial
  | float => intro _ r h; simp [Json.inv] at h; subst h; trivial
  | str => intro _ r h; simp [Json.inv] at h; subst h; trivial
  | list l ih =>
    intro hc r h
    simp only [Json.inv, Option.some.injEq] at h
    subst h
    rw [Json.canon_list] at hc ⊢
    induction l with
    | nil => simp [Json.removeL]
    | cons v l ihl =>
      have h1 := ih v (by simp) (hc v (by simp))
      have h2 := ihl (fun w hw => ih w (List.mem_cons_of_mem _ hw)) (fun w hw => hc w (List.mem_cons_of_mem _ hw))
      simp only [Json.removeL, List.mem_cons]
      rintro x (rfl | hx)
      · cases e : v.inv with
        | none => trivial
        | some r => exact h1 r e
      · exact h2 x hx
  | map m ih =>
    intro hc r h
    simp only [Json.inv, Option.some.injEq] at h
    subst h
    rw [Json.canon_map]
    refine ⟨removeM_sorted hc.sorted, ?_⟩
    rintro ⟨k, v⟩ hp
    have hg := SMap.get_of_mem (removeM_sorted hc.sorted) hp
    rw [removeM_get hc.sorted] at hg
    obtain ⟨w, hw, hi⟩ := Option.bind_eq_some_iff.mp hg
    exact ih _ (SMap.mem_of_get hw) (hc.val hw) v hi

theorem removeM_mentions {w : SMap Json} {p : List String} (hw : (Json.map w).Canon) (h : (Json.map (Json.removeM w)).Mentions p) : (Json.map w).Mentions p := by
  induction p generalizing w with
  | nil => trivial
  | cons k p ih =>
    simp only [Json.Mentions, removeM_get hw.sorted] at h ⊢
    cases hk : SMap.get w k with
    | none => simp [hk] at h
    | some v =>
      simp only [hk, Option.bind_some] at h ⊢
      cases v with
      | map x => exact ih (hw.val hk) h
      | null => simp [Json.inv] at h
      | _ => cases p <;> simp [Json.Mentions]

theorem removeM_at_scalar {w : SMap Json} {p : List String} {v : Json} (hw : (Json.map w).Canon) (h : (Json.map w).at p = some v) (hv : v.Scalar) :
    (Json.map (Json.removeM w)).at p = some .null := by
  induction p generalizing w with
  | nil => simp [Json.at] at h; subst h; simp [Json.Scalar] at hv
  | cons k p ih =>
    simp only [Json.at, Json.field, removeM_get hw.sorted] at h ⊢
    cases hk : SMap.get w k with
    | none => simp [hk] at h
    | some x =>
      simp only [hk, Option.bind_some] at h ⊢
      cases x with
      | map y => exact ih (hw.val hk) h
      | null => cases p <;> simp [Json.at, Json.field] at h; subst h; simp [Json.Scalar] at hv
      | list l => cases p <;> simp [Json.at, Json.field] at h; subst h; simp [Json.Scalar] at hv
      | _ => cases p <;> simp [Json.at, Json.field] at h ⊢; simp [Json.inv]

/-! ### merge -/

theorem mergeM_sorted {ret ma : SMap Json} (mb : SMap Json) (hr : ret.Sorted) {x : SMap Json} (h : Json.mergeM ret ma mb = some x) : x.Sorted := by
  induction mb generalizing ret with
  | nil => simp [Json.mergeM] at h; exact h ▸ hr
  | cons p mb ih =>
    obtain ⟨k, v⟩ := p
    unfold Json.mergeM at h
    split at h
    · exact ih (hr.set _ _) h
    · split at h
      · simp at h
      · exact ih (hr.set _ _) h

theorem mergeM_get {ret ma : SMap Json} (mb : SMap Json) (hm : mb.Sorted) (hr : ret.Sorted) {x : SMap Json} (h : Json.mergeM ret ma mb = some x)
    (k : String) :
    match SMap.get mb k with
    | none => SMap.get x k = SMap.get ret k
    | some vb => match SMap.get ma k with
      | none => SMap.get x k = some vb
      | some va => ∃ y, Json.merge va vb = some y ∧ SMap.get x k = some y := by
  induction mb generalizing ret with
  | nil => simp [Json.mergeM] at h; simp [SMap.get, h]
  | cons p mb ih =>
    obtain ⟨k', v⟩ := p
    have hn := hm.head_none
    unfold Json.mergeM at h
    by_cases hk : k' = k
    · subst hk
      simp only [SMap.get, if_true]
      cases hg : SMap.get ma k' with
      | none =>
        rw [hg] at h
        have := ih hm.tail (hr.set _ _) h
        rw [hn] at this
        simp only at this ⊢
        rw [this]; simp [SMap.get_set _ hr]
      | some va =>
        rw [hg] at h
        simp only at h ⊢
        cases hmg : Json.merge va v with
        | none => rw [hmg] at h; simp at h
        | some y =>
          rw [hmg] at h
          have := ih hm.tail (hr.set _ _) h
          rw [hn] at this
          simp only at this
          exact ⟨y, rfl, by rw [this]; simp [SMap.get_set _ hr]⟩
    · simp only [SMap.get, hk, if_false]
      split at h
      · have := ih hm.tail (hr.set _ _) h
        split <;> rename_i e <;> rw [e] at this
        · simp only at this; rw [this]; simp [SMap.get_set _ hr, hk]
        · exact this
      · split at h
        · simp at h
        · have := ih hm.tail (hr.set _ _) h
          split <;> rename_i e <;> rw [e] at this
          · simp only at this; rw [this]; simp [SMap.get_set _ hr, hk]
          · exact this

end Dctl
