import Verif.Json.ObjectLemmas
set_option autoImplicit false
set_option linter.unusedSectionVars false
namespace Dctl

theorem at_cons (j : Json) (k : String) (p : List String) : j.at (k :: p) = (j.field k).bind (·.at p) := by
  rw [Json.at]; cases j.field k <;> rfl

theorem at_cons_some {j v : Json} {k : String} {p : List String} (h : j.at (k :: p) = some v) :
    ∃ m u, j = .map m ∧ SMap.get m k = some u ∧ u.at p = some v := by
  cases j with
  | map m =>
    rw [at_cons] at h
    cases hg : SMap.get m k with
    | none => simp [Json.field, hg] at h
    | some u => exact ⟨m, u, rfl, hg, by simpa [Json.field, hg] using h⟩
  | _ => simp [Json.at, Json.field] at h

theorem mentions_cons {m : SMap Json} {k : String} {p : List String} : (Json.map m).Mentions (k :: p) ↔ ∃ v, SMap.get m k = some v ∧ v.Mentions p := by
  rw [Json.Mentions]
  cases SMap.get m k <;> simp

theorem not_mentions_map {j : Json} {p : List String} (h : ¬ j.Mentions p) : ∃ m k q, j = .map m ∧ p = k :: q := by
  cases p with
  | nil => simp [Json.Mentions] at h
  | cons k q =>
    cases j with
    | map m => exact ⟨m, k, q, rfl, rfl⟩
    | _ => simp [Json.Mentions] at h

/-! ### patch -/

theorem patch_at_untouched {o m : Json} {p : List String} (ho : o.Canon) (hm : m.Canon) (h : ¬ m.Mentions p) : (Json.patch o m).at p = o.at p := by
  induction p generalizing o m with
  | nil => simp [Json.Mentions] at h
  | cons k p ih =>
    obtain ⟨mm, k', q, rfl, e⟩ := not_mentions_map h
    simp only [List.cons.injEq] at e
    obtain ⟨rfl, rfl⟩ := e
    rw [mentions_cons] at h
    rw [at_cons, at_cons]
    cases hg : SMap.get mm k with
    | none => rw [patch_field_none ho hm.sorted hg]
    | some v =>
      have hv : ¬ v.Mentions p := fun x => h ⟨v, hg, x⟩
      have hn : v ≠ .null := by
        rintro rfl
        obtain ⟨m', _, _, e, _⟩ := not_mentions_map hv
        simp at e
      rw [patch_field_some ho hm.sorted hg hn]
      cases hf : o.field k with
      | none => simpa using not_mentions_at hv
      | some vo => simpa using ih (ho.field hf) (hm.val hg) hv

theorem patch_at_both {o m v : Json} {p : List String} (ho : o.Canon) (hm : m.Canon) (h : m.at p = some v) (hv : v ≠ .null) :
    (Json.patch o m).at p = some (match o.at p with | some ov => Json.patch ov v | none => v) := by
  induction p generalizing o m with
  | nil => simp [Json.at] at h ⊢; rw [h]
  | cons k p ih =>
    obtain ⟨mm, u, rfl, hg, hu⟩ := at_cons_some h
    have hn : u ≠ .null := by
      rintro rfl
      cases p with
      | nil => simp [Json.at] at hu; exact hv hu.symm
      | cons b p => simp [Json.at, Json.field] at hu
    rw [at_cons, at_cons, patch_field_some ho hm.sorted hg hn]
    cases hf : o.field k with
    | none => simpa using hu
    | some vo => simpa using ih (ho.field hf) (hm.val hg) hu

theorem patch_at_null {o m : Json} {q : List String} {k : String} {mo : SMap Json} (ho : o.Canon) (hm : m.Canon) (h : m.at (q ++ [k]) = some .null)
    (hq : o.at q = some (.map mo)) (hk : SMap.get mo k ≠ some .null) : (Json.patch o m).at (q ++ [k]) = none := by
  induction q generalizing o m with
  | nil =>
    simp [Json.at] at hq
    subst hq
    obtain ⟨mm, u, rfl, hg, hu⟩ := at_cons_some h
    simp [Json.at] at hu
    subst hu
    rw [List.nil_append, at_cons, patch_field_null ho hm.sorted hg hk]; rfl
  | cons a q ih =>
    obtain ⟨mo', uo, rfl, hgo, huo⟩ := at_cons_some hq
    obtain ⟨mm, u, rfl, hg, hu⟩ := at_cons_some h
    have hn : u ≠ .null := by
      rintro rfl
      cases q <;> simp [Json.at, Json.field] at hu
    rw [List.cons_append, at_cons, patch_field_some ho hm.sorted hg hn]
    simp only [Json.field, hgo, Option.bind_some]
    exact ih (ho.val hgo) (hm.val hg) hu huo

theorem patchL_get (lo lm : List Json) (i : Nat) : (Json.patchL lo lm)[i]? = match lo[i]?, lm[i]? with
    | some x, some y => some (Json.patch x y)
    | some x, none => some x
    | none, y => y := by
  induction lm generalizing lo i with
  | nil => simp [Json.patchL]; cases lo[i]? <;> rfl
  | cons y lm ih =>
    cases lo with
    | nil => simp [Json.patchL]
    | cons x lo =>
      cases i with
      | zero => simp [Json.patchL]
      | succ i => simpa [Json.patchL] using ih lo i

/-! ### merge -/

theorem merge_map_map (ma mb : SMap Json) : Json.merge (.map ma) (.map mb) = (Json.mergeM ma ma mb).map .map := by rw [Json.merge]

theorem merge_not_map {a : Json} (mb : SMap Json) (h : ∀ m, a ≠ .map m) : Json.merge a (.map mb) = some (.map mb) := by
  cases a with
  | map m => exact absurd rfl (h m)
  | _ => simp [Json.merge]

theorem merge_canon : ∀ (b a r : Json), a.Canon → b.Canon → Json.merge a b = some r → r.Canon := by
  intro b
  induction b using Json.ind with
  | null =>
    intro a r ha _ h
    simp only [Json.merge] at h
    split at h <;> simp at h
    rw [← h]; trivial
  | bool | int | float | str =>
    intro a r _ _ h
    simp only [Json.merge, Option.some.injEq] at h
    rw [← h]; trivial
  | list lb =>
    intro a r ha hb h
    cases a with
    | list la =>
      simp only [Json.merge, Option.some.injEq] at h
      rw [← h, Json.canon_list]
      intro x hx
      rcases List.mem_append.mp hx with hx | hx
      · exact Json.canon_list.mp ha x hx
      · exact Json.canon_list.mp hb x hx
    | _ => simp only [Json.merge, Option.some.injEq] at h; exact h ▸ hb
  | map mb ih =>
    intro a r ha hb h
    cases a with
    | map ma =>
      rw [merge_map_map, Option.map_eq_some_iff] at h
      obtain ⟨x, hx, rfl⟩ := h
      have hs := mergeM_sorted mb ha.sorted hx
      rw [Json.canon_map]
      refine ⟨hs, ?_⟩
      rintro ⟨k, v⟩ hp
      have hg := SMap.get_of_mem hs hp
      have := mergeM_get mb hb.sorted ha.sorted hx k
      cases hgb : SMap.get mb k with
      | none => rw [hgb] at this; simp only at this; rw [hg] at this; exact ha.val this.symm
      | some vb =>
        rw [hgb] at this
        simp only at this
        cases hga : SMap.get ma k with
        | none =>
          rw [hga] at this; simp only at this
          rw [hg] at this; simp only [Option.some.injEq] at this
          exact this ▸ hb.val hgb
        | some va =>
          rw [hga] at this; simp only at this
          obtain ⟨y, hy, hxy⟩ := this
          rw [hg] at hxy; simp only [Option.some.injEq] at hxy
          subst hxy
          exact ih _ (SMap.mem_of_get hgb) va v (ha.val hga) (hb.val hgb) hy
    | _ => simp only [Json.merge, Option.some.injEq] at h; exact h ▸ hb

theorem merge_at_untouched {a b r : Json} {p : List String} (ha : a.Canon) (hb : b.Canon) (h : Json.merge a b = some r) (hp : ¬ b.Mentions p) :
    r.at p = a.at p := by
  induction p generalizing a b r with
  | nil => simp [Json.Mentions] at hp
  | cons k p ih =>
    obtain ⟨mb, k', q, rfl, e⟩ := not_mentions_map hp
    simp only [List.cons.injEq] at e
    obtain ⟨rfl, rfl⟩ := e
    by_cases hma : ∃ ma, a = .map ma
    · obtain ⟨ma, rfl⟩ := hma
      rw [merge_map_map, Option.map_eq_some_iff] at h
      obtain ⟨x, hx, rfl⟩ := h
      have := mergeM_get mb hb.sorted ha.sorted hx k
      rw [mentions_cons] at hp
      rw [at_cons, at_cons]
      simp only [Json.field]
      cases hgb : SMap.get mb k with
      | none => rw [hgb] at this; rw [this]
      | some vb =>
        have hv : ¬ vb.Mentions p := fun x => hp ⟨vb, hgb, x⟩
        rw [hgb] at this; simp only at this
        cases hga : SMap.get ma k with
        | none => rw [hga] at this; simp only at this; rw [this]; simpa using not_mentions_at hv
        | some va =>
          rw [hga] at this; simp only at this
          obtain ⟨y, hy, hxy⟩ := this
          rw [hxy]
          simpa using ih (ha.val hga) (hb.val hgb) hy hv
    · have hma : ∀ m, a ≠ .map m := fun m e => hma ⟨m, e⟩
      rw [merge_not_map mb hma] at h
      simp only [Option.some.injEq] at h
      rw [← h, at_not_map hma, not_mentions_at hp]

theorem merge_at_both {a b r v : Json} {p : List String} (ha : a.Canon) (hb : b.Canon) (h : Json.merge a b = some r) (hp : b.at p = some v) :
    match a.at p with
    | none => r.at p = some v
    | some av => ∃ y, Json.merge av v = some y ∧ r.at p = some y := by
  induction p generalizing a b r with
  | nil =>
    simp [Json.at] at hp ⊢
    rw [← hp, h]
  | cons k p ih =>
    obtain ⟨mb, u, rfl, hgb, hu⟩ := at_cons_some hp
    by_cases hma : ∃ ma, a = .map ma
    · obtain ⟨ma, rfl⟩ := hma
      rw [merge_map_map, Option.map_eq_some_iff] at h
      obtain ⟨x, hx, rfl⟩ := h
      have := mergeM_get mb hb.sorted ha.sorted hx k
      rw [hgb] at this; simp only at this
      rw [at_cons, at_cons]
      simp only [Json.field]
      cases hga : SMap.get ma k with
      | none => rw [hga] at this; simp only at this; simp only [Option.bind_none]; rw [this]; exact hu
      | some va =>
        rw [hga] at this; simp only at this
        obtain ⟨y, hy, hxy⟩ := this
        rw [hxy]
        exact ih (ha.val hga) (hb.val hgb) hy hu
    · have hma : ∀ m, a ≠ .map m := fun m e => hma ⟨m, e⟩
      rw [merge_not_map mb hma] at h
      simp only [Option.some.injEq] at h
      rw [← h, at_not_map hma]
      exact hp

theorem merge_at_only {a b r v : Json} {p : List String} (ha : a.Canon) (hb : b.Canon) (h : Json.merge a b = some r) (hp : r.at p = some v) :
    (∃ u, a.at p = some u) ∨ (∃ u, b.at p = some u) := by
  induction p generalizing a b r with
  | nil => exact .inl ⟨a, rfl⟩
  | cons k p ih =>
    obtain ⟨x, u, rfl, hg, hu⟩ := at_cons_some hp
    cases b with
    | map mb =>
      by_cases hma : ∃ ma, a = .map ma
      · obtain ⟨ma, rfl⟩ := hma
        rw [merge_map_map, Option.map_eq_some_iff] at h
        obtain ⟨x', hx, e⟩ := h
        simp only [Json.map.injEq] at e
        subst e
        have := mergeM_get mb hb.sorted ha.sorted hx k
        rw [at_cons, at_cons]
        simp only [Json.field]
        cases hgb : SMap.get mb k with
        | none =>
          rw [hgb] at this; simp only at this; rw [← this, hg]
          exact .inl ⟨v, by simpa using hu⟩
        | some vb =>
          rw [hgb] at this; simp only at this
          cases hga : SMap.get ma k with
          | none =>
            rw [hga] at this; simp only at this; rw [hg] at this
            simp only [Option.some.injEq] at this
            subst this
            exact .inr ⟨v, by simpa using hu⟩
          | some va =>
            rw [hga] at this; simp only at this
            obtain ⟨y, hy, hxy⟩ := this
            rw [hg] at hxy
            simp only [Option.some.injEq] at hxy
            subst hxy
            simpa using ih (ha.val hga) (hb.val hgb) hy hu
      · have hma : ∀ m, a ≠ .map m := fun m e => hma ⟨m, e⟩
        rw [merge_not_map mb hma] at h
        simp only [Option.some.injEq] at h
        rw [h]
        exact .inr ⟨v, hp⟩
    | null => simp only [Json.merge] at h; split at h <;> simp at h
    | list lb => cases a <;> simp [Json.merge] at h
    | _ => simp [Json.merge] at h

theorem merge_nullfree : ∀ (b a : Json), b.NullFree → (∃ r, Json.merge a b = some r) := by
  intro b
  induction b using Json.ind with
  | null => intro a h; simp [Json.NullFree] at h
  | bool | int | float | str => intro a _; simp [Json.merge]
  | list lb => intro a _; cases a <;> simp [Json.merge]
  | map mb ih =>
    intro a h
    by_cases hma : ∃ ma, a = .map ma
    · obtain ⟨ma, rfl⟩ := hma
      rw [merge_map_map]
      suffices ∀ ret, ∃ x, Json.mergeM ret ma mb = some x by
        obtain ⟨x, hx⟩ := this ma
        exact ⟨_, by rw [hx]; rfl⟩
      rw [Json.NullFree] at h
      induction mb with
      | nil => intro ret; exact ⟨ret, by rw [Json.mergeM]⟩
      | cons q mb ih2 =>
        obtain ⟨k, v⟩ := q
        rw [Json.NullFreeM] at h
        intro ret
        rw [Json.mergeM]
        split
        · exact ih2 (fun p hp => ih p (by simp [hp])) h.2 _
        · rename_i va _
          obtain ⟨x, hx⟩ := ih (k, v) (by simp) va h.1
          rw [hx]
          exact ih2 (fun p hp => ih p (by simp [hp])) h.2 _
    · exact ⟨_, merge_not_map mb (fun m e => hma ⟨m, e⟩)⟩

/-! ### mergeAll -/

theorem mergeAll_append (v : Json) (us ws : List Json) : mergeAll v (us ++ ws) = (mergeAll v us).bind (mergeAll · ws) := by
  induction us generalizing v with
  | nil => simp [mergeAll]
  | cons u us ih =>
    rw [List.cons_append, mergeAll, mergeAll]
    cases Json.merge v u with
    | none => rfl
    | some v' => exact ih v'

theorem mergeAll_canon {v r : Json} {us : List Json} (hv : v.Canon) (hu : ∀ u ∈ us, u.Canon) (h : mergeAll v us = some r) : r.Canon := by
  induction us generalizing v with
  | nil => simp [mergeAll] at h; exact h ▸ hv
  | cons u us ih =>
    rw [mergeAll] at h
    split at h
    · simp at h
    · rename_i v' hv'
      exact ih (merge_canon u v v' hv (hu u (by simp)) hv') (fun x hx => hu x (by simp [hx])) h

theorem mergeAll_untouched {v r : Json} {us : List Json} {p : List String} (hv : v.Canon) (hu : ∀ u ∈ us, u.Canon) (h : mergeAll v us = some r)
    (hp : ∀ u ∈ us, ¬ u.Mentions p) : r.at p = v.at p := by
  induction us generalizing v with
  | nil => simp [mergeAll] at h; rw [h]
  | cons u us ih =>
    rw [mergeAll] at h
    split at h
    · simp at h
    · rename_i v' hv'
      rw [ih (merge_canon u v v' hv (hu u (by simp)) hv') (fun x hx => hu x (by simp [hx])) h (fun x hx => hp x (by simp [hx]))]
      exact merge_at_untouched hv (hu u (by simp)) hv' (hp u (by simp))

theorem mergeAll_only {v r w : Json} {us : List Json} {p : List String} (hv : v.Canon) (hu : ∀ u ∈ us, u.Canon) (h : mergeAll v us = some r)
    (hp : r.at p = some w) : (∃ x, v.at p = some x) ∨ ∃ u ∈ us, ∃ x, u.at p = some x := by
  induction us generalizing v with
  | nil => simp [mergeAll] at h; exact .inl ⟨w, h ▸ hp⟩
  | cons u us ih =>
    rw [mergeAll] at h
    split at h
    · simp at h
    · rename_i v' hv'
      rcases ih (merge_canon u v v' hv (hu u (by simp)) hv') (fun x hx => hu x (by simp [hx])) h with ⟨x, hx⟩ | ⟨z, hz, x, hx⟩
      · rcases merge_at_only hv (hu u (by simp)) hv' hx with h | h
        · exact .inl h
        · exact .inr ⟨u, by simp, h⟩
      · exact .inr ⟨z, by simp [hz], x, hx⟩

end Dctl
