import Verif.Spec.OpenApi
/-!
# Lemmas about definitions, types and caches of the API server
-/
set_option autoImplicit false
set_option linter.unusedSectionVars false
namespace Dctl
namespace OpenApi

/-! ### names -/

theorem last_sep {c : Char} {a b k l : List Char} (hk : c ∉ k) (hl : c ∉ l) (h : a ++ c :: k = b ++ c :: l) : a = b ∧ k = l := by
  rw [List.append_eq_append_iff] at h
  rcases h with ⟨x, h1, h2⟩ | ⟨x, h1, h2⟩
  · cases x with
    | nil => simp at h2; exact ⟨by simpa using h1.symm, h2⟩
    | cons y x =>
      simp only [List.cons_append, List.cons.injEq] at h2
      exact absurd (by rw [h2.2]; simp) hk
  · cases x with
    | nil => simp at h2; exact ⟨by simpa using h1, h2.symm⟩
    | cons y x =>
      simp only [List.cons_append, List.cons.injEq] at h2
      exact absurd (by rw [h2.2]; simp) hl

theorem isViewKind_version {t : GVK} (h : isViewKind t = true) : t.version = "v1alpha1" := by
  simp only [isViewKind, Bool.and_eq_true, beq_iff_eq] at h
  exact h.2

theorem defName_chars {t : GVK} (h : isViewKind t = true) : (defName t).toList = (t.group.toList ++ ".v1alpha1".toList) ++ '.' :: t.kind.toList := by
  rw [defName, isViewKind_version h]
  simp [String.toList_append]

theorem listDefName_chars {t : GVK} (h : isViewKind t = true) : (listDefName t).toList = (t.group.toList ++ "/v1alpha1".toList) ++ '.' :: (t.kind.toList ++ "List".toList) := by
  rw [listDefName, listGVK, isViewKind_version h]
  simp [String.toList_append]

theorem noDotList {k : List Char} (h : '.' ∉ k) : '.' ∉ k ++ "List".toList := by
  simp [h]

theorem gvk_ext {t t' : GVK} (h : isViewKind t = true) (h' : isViewKind t' = true) (hg : t.group.toList = t'.group.toList) (hk : t.kind.toList = t'.kind.toList) : t = t' := by
  have v := (isViewKind_version h).trans (isViewKind_version h').symm
  cases t; cases t'
  simp only [GVK.mk.injEq] at *
  exact ⟨String.toList_inj.mp hg, v, String.toList_inj.mp hk⟩

theorem defName_inj {t t' : GVK} (h : isViewKind t = true) (h' : isViewKind t' = true) (hd : '.' ∉ t.kind.toList) (hd' : '.' ∉ t'.kind.toList)
    (e : defName t = defName t') : t = t' := by
  have e := congrArg String.toList e
  rw [defName_chars h, defName_chars h'] at e
  obtain ⟨e1, e2⟩ := last_sep hd hd' e
  exact gvk_ext h h' (List.append_cancel_right e1) e2

theorem listDefName_inj {t t' : GVK} (h : isViewKind t = true) (h' : isViewKind t' = true) (hd : '.' ∉ t.kind.toList) (hd' : '.' ∉ t'.kind.toList)
    (e : listDefName t = listDefName t') : t = t' := by
  have e := congrArg String.toList e
  rw [listDefName_chars h, listDefName_chars h'] at e
  obtain ⟨e1, e2⟩ := last_sep (noDotList hd) (noDotList hd') e
  exact gvk_ext h h' (List.append_cancel_right e1) (List.append_cancel_right e2)

theorem defName_ne {t t' : GVK} (h : isViewKind t = true) (h' : isViewKind t' = true) (hd : '.' ∉ t.kind.toList) (hd' : '.' ∉ t'.kind.toList) :
    defName t ≠ listDefName t' := by
  intro e
  have e := congrArg String.toList e
  rw [defName_chars h, listDefName_chars h'] at e
  obtain ⟨e1, _⟩ := last_sep hd (noDotList hd') e
  have := List.append_inj_right' e1 (by decide)
  exact absurd this (by decide)

/-! ### definitions -/

theorem addDefs_other {l : List GVK} {defs : Defs} {name : String} (h : ∀ t ∈ l, isViewKind t = true → name ≠ defName t ∧ name ≠ listDefName t) :
    (addDefs defs l).get name = defs.get name := by
  induction l generalizing defs with
  | nil => rfl
  | cons t l ih =>
    unfold addDefs
    have ih := fun d => ih (defs := d) (fun x hx => h x (by simp [hx]))
    cases hv : isViewKind t with
    | false => rw [if_neg (by simp), ih]
    | true =>
      obtain ⟨h1, h2⟩ := h t (by simp) hv
      rw [if_pos rfl, ih, AMap.get_set, if_neg (fun e => h2 e.symm), AMap.get_set, if_neg (fun e => h1 e.symm)]

theorem addDefs_kind {l : List GVK} {defs : Defs} (hd : ∀ t ∈ l, '.' ∉ t.kind.toList) {t : GVK} (ht : t ∈ l) (hv : isViewKind t = true) :
    (addDefs defs l).get (defName t) = some (genDef t) ∧ (addDefs defs l).get (listDefName t) = some (genListDef t (defName t)) := by
  induction l generalizing defs with
  | nil => simp at ht
  | cons x l ih =>
    by_cases hm : t ∈ l
    · unfold addDefs
      split <;> exact ih (fun y hy => hd y (by simp [hy])) hm
    · have hx : t = x := by simpa [hm] using ht
      subst hx
      unfold addDefs
      rw [if_pos hv]
      have hn : ∀ y ∈ l, isViewKind y = true → defName t ≠ defName y ∧ defName t ≠ listDefName y ∧ listDefName t ≠ defName y ∧ listDefName t ≠ listDefName y := by
        intro y hy hvy
        have hne : t ≠ y := fun e => hm (e ▸ hy)
        have d1 := hd t (by simp)
        have d2 := hd y (by simp [hy])
        exact ⟨fun e => hne (defName_inj hv hvy d1 d2 e), defName_ne hv hvy d1 d2, fun e => defName_ne hvy hv d2 d1 e.symm, fun e => hne (listDefName_inj hv hvy d1 d2 e)⟩
      rw [addDefs_other (fun y hy hvy => ⟨(hn y hy hvy).1, (hn y hy hvy).2.1⟩), addDefs_other (fun y hy hvy => ⟨(hn y hy hvy).2.2.1, (hn y hy hvy).2.2.2⟩)]
      refine ⟨?_, ?_⟩
      · rw [AMap.get_set, if_neg (fun e => defName_ne hv hv (hd t (by simp)) (hd t (by simp)) e.symm), AMap.get_set, if_pos rfl]
      · rw [AMap.get_set, if_pos rfl]

theorem addDefs_some {l : List GVK} {defs : Defs} {name : String} (h : defs.get name ≠ none) : (addDefs defs l).get name ≠ none := by
  induction l generalizing defs with
  | nil => exact h
  | cons t l ih =>
    unfold addDefs
    split
    · apply ih
      rw [AMap.get_set, AMap.get_set]
      split <;> simp
      split <;> simp [h]
    · exact ih h

theorem generate_describes (base : Defs) {r : Regs} {order : List GVK} (ho : ∀ t, t ∈ order ↔ ∃ g, t ∈ r.now g) (hd : ∀ t ∈ order, '.' ∉ t.kind.toList) :
    Describes base r (generate base order) where
  kinds t ht := ⟨_, (addDefs_kind hd ((ho t).2 ht.1) ht.2).1, rfl⟩
  lists t ht := ⟨_, (addDefs_kind hd ((ho t).2 ht.1) ht.2).2, rfl, rfl⟩
  others name d h := by
    by_cases hx : ∃ t ∈ order, isViewKind t = true ∧ (name = defName t ∨ name = listDefName t)
    · obtain ⟨t, h1, h2, h3⟩ := hx
      exact .inl ⟨t, ⟨(ho t).1 h1, h2⟩, h3⟩
    · unfold generate at h
      rw [addDefs_other (fun t ht hv => ⟨fun e => hx ⟨t, ht, hv, .inl e⟩, fun e => hx ⟨t, ht, hv, .inr e⟩⟩), AMap.get_set] at h
      split at h
      · rename_i e; subst e; exact .inr (.inl (by simp [unstructListName]))
      · rw [AMap.get_set] at h
        split at h
        · rename_i e; subst e; exact .inr (.inl (by simp [unstructName]))
        · exact .inr (.inr h)
  library name h := by
    unfold generate
    apply addDefs_some
    rw [AMap.get_set, AMap.get_set]
    split <;> simp
    split <;> simp [h]

/-! ### steps -/

theorem addStorage_groups (s : ApiSrv) (l : List GVK) : (s.addStorage l).groupGVKs = s.groupGVKs := by
  induction l generalizing s with
  | nil => rfl
  | cons t l ih => unfold ApiSrv.addStorage; split <;> rw [ih]

theorem addVersions_groups (s : ApiSrv) (g : String) (l : List GVK) (vs : List String) : (s.addVersions g l vs).groupGVKs = s.groupGVKs := by
  induction vs generalizing s with
  | nil => rfl
  | cons t l ih => unfold ApiSrv.addVersions; rw [ih]

theorem registerGroup_groups {s s' : ApiSrv} {g : String} {l : List GVK} {vs : List String} (hg : isViewGroup g = true) (h : s.registerGroup g l vs = some s') :
    s'.groupGVKs = upd s.groupGVKs g (some l) := by
  unfold ApiSrv.registerGroup ApiSrv.registerDiscovery at h
  rw [hg] at h
  simp only [Bool.not_true, Bool.false_eq_true, if_false] at h
  by_cases hl : l.length = 0
  · simp [hl] at h
  · simp only [hl, if_false, Option.some.injEq] at h
    subst h
    simp only [addVersions_groups, addStorage_groups]

theorem removeStorage_groups (s : ApiSrv) (l : List GVK) : (s.removeStorage l).groupGVKs = s.groupGVKs := by
  induction l generalizing s with
  | nil => rfl
  | cons t l ih => unfold ApiSrv.removeStorage; split <;> rw [ih]

theorem removeVersions_groups (s : ApiSrv) (l : List GVK) : (s.removeVersions l).groupGVKs = s.groupGVKs := by
  induction l generalizing s with
  | nil => rfl
  | cons t l ih => unfold ApiSrv.removeVersions; rw [ih]

theorem unregisterGroup_groups {s : ApiSrv} {g : String} {l : List GVK} (h : s.groupGVKs g = some l) : (s.unregisterGroup g).groupGVKs = upd s.groupGVKs g none := by
  unfold ApiSrv.unregisterGroup
  rw [h]
  simp only [removeVersions_groups, removeStorage_groups]

/-- The kinds of the groups are those registered. -/
structure Sync (r : Regs) (s : Sv) : Prop where
  some : ∀ g l, s.srv.groupGVKs g = some l → r.now g = l ∧ l ≠ []
  none : ∀ g, s.srv.groupGVKs g = none → r.now g = []
  ever : ∀ g, ∀ t ∈ r.now g, t ∈ r.ever ∧ t.group = g

theorem Sync.init (types : Types) : Sync Regs.none (Sv.init types) :=
  ⟨fun _ _ h => by simp [Sv.init, ApiSrv.init] at h, fun _ _ => rfl, fun _ t h => by simp [Regs.none] at h⟩

theorem Sync.step {base : Defs} {libs : List String} {r : Regs} {s s' : Sv} {e : Ev} {a : Option (Ver × Defs)} (h : Sync r s) (hv : e.Valid r)
    (hs : s.step base libs e = .ok s' a) : Sync (e.apply r) s' := by
  cases e with
  | register g gvks vs =>
    simp only [Sv.step] at hs
    by_cases hg : isViewGroup g = true
    · rw [hg] at hs
      simp only [Bool.not_true, Bool.false_eq_true, if_false] at hs
      split at hs
      · simp at hs
      · split at hs
        · simp at hs
        · rename_i srv hr
          simp only [Out.ok.injEq] at hs
          obtain ⟨rfl, rfl⟩ := hs
          simp only [Ev.apply, hg, if_true]
          have hgr := registerGroup_groups hg hr
          refine ⟨fun x l hx => ?_, fun x hx => ?_, fun x t hx => ?_⟩
          · simp only at hx
            rw [hgr, upd] at hx
            by_cases hxg : x = g
            · simp only [hxg, if_true, Option.some.injEq] at hx ⊢
              exact ⟨hx, hx ▸ hv.1⟩
            · rw [if_neg hxg] at hx
              simp only [hxg, if_false]
              exact h.some x l hx
          · simp only at hx
            rw [hgr, upd] at hx
            by_cases hxg : x = g
            · simp [hxg] at hx
            · rw [if_neg hxg] at hx
              simp only [hxg, if_false]
              exact h.none x hx
          · by_cases hxg : x = g
            · simp only [hxg, if_true] at hx ⊢
              exact ⟨by simp [hx], hv.2 t hx⟩
            · simp only [hxg, if_false] at hx
              exact ⟨by simp [(h.ever x t hx).1], (h.ever x t hx).2⟩
    · simp only [hg, Bool.not_false, if_true, Out.ok.injEq] at hs
      obtain ⟨rfl, rfl⟩ := hs
      simp only [Ev.apply, hg]
      exact h
  | unregister g =>
    simp only [Sv.step] at hs
    split at hs
    · rename_i hg
      simp only [Out.ok.injEq] at hs
      obtain ⟨rfl, rfl⟩ := hs
      have := h.none g hg
      refine ⟨fun x l hx => ?_, fun x hx => ?_, fun x t hx => ?_⟩ <;> simp only [Ev.apply] at *
      · by_cases hxg : x = g
        · subst hxg; rw [hg] at hx; simp at hx
        · rw [if_neg hxg]; exact h.some x l hx
      · by_cases hxg : x = g
        · rw [if_pos hxg]
        · rw [if_neg hxg]; exact h.none x hx
      · by_cases hxg : x = g
        · simp [hxg] at hx
        · rw [if_neg hxg] at hx; exact h.ever x t hx
    · rename_i l hg
      simp only [Out.ok.injEq] at hs
      obtain ⟨rfl, rfl⟩ := hs
      have hgr := unregisterGroup_groups hg
      refine ⟨fun x l hx => ?_, fun x hx => ?_, fun x t hx => ?_⟩ <;> simp only [Ev.apply] at *
      · rw [hgr, upd] at hx
        by_cases hxg : x = g
        · simp [hxg] at hx
        · rw [if_neg hxg] at hx ⊢; exact h.some x l hx
      · rw [hgr, upd] at hx
        by_cases hxg : x = g
        · rw [if_pos hxg]
        · rw [if_neg hxg] at hx ⊢; exact h.none x hx
      · by_cases hxg : x = g
        · simp [hxg] at hx
        · rw [if_neg hxg] at hx; exact h.ever x t hx
  | look n v =>
    simp only [Sv.step] at hs
    split at hs
    · split at hs <;> (simp only [Out.ok.injEq] at hs; obtain ⟨rfl, rfl⟩ := hs; exact ⟨h.some, h.none, h.ever⟩)
    · simp at hs
  | generate n o =>
    simp only [Sv.step] at hs
    split at hs
    · simp only [Out.ok.injEq] at hs; obtain ⟨rfl, rfl⟩ := hs; exact ⟨h.some, h.none, h.ever⟩
    · simp at hs
  | store n =>
    simp only [Sv.step] at hs
    split at hs
    · simp only [Out.ok.injEq] at hs; obtain ⟨rfl, rfl⟩ := hs; exact ⟨h.some, h.none, h.ever⟩
    · simp at hs

/-- All definitions kept by caches and requests satisfy `P`. -/
structure Holds (P : Defs → Prop) (s : Sv) : Prop where
  cache : ∀ v d, s.cache v = some d → P d
  calls : ∀ n v d, s.calls n = .made v d → P d

theorem Holds.init (P : Defs → Prop) (types : Types) : Holds P (Sv.init types) :=
  ⟨fun _ _ h => by simp [Sv.init] at h, fun _ _ _ h => by simp [Sv.init] at h⟩

/-- A step keeps what is kept, drops it, or generates; what is answered is kept. -/
theorem Holds.step {P : Defs → Prop} {base : Defs} {libs : List String} {s s' : Sv} {e : Ev} {a : Option (Ver × Defs)} (h : Holds P s)
    (hs : s.step base libs e = .ok s' a) (hg : ∀ n o, e = .generate n o → P (generate base (o.filter s.srv.registered))) : Holds P s' ∧ ∀ x, a = some x → P x.2 := by
  cases e with
  | register g gvks vs =>
    simp only [Sv.step] at hs
    split at hs
    · simp only [Out.ok.injEq] at hs
      obtain ⟨rfl, rfl⟩ := hs
      exact ⟨h, by simp⟩
    · split at hs
      · simp at hs
      · split at hs
        · simp at hs
        · simp only [Out.ok.injEq] at hs
          obtain ⟨rfl, rfl⟩ := hs
          exact ⟨⟨by simp, h.calls⟩, by simp⟩
  | unregister g =>
    simp only [Sv.step] at hs
    split at hs
    · simp only [Out.ok.injEq] at hs
      obtain ⟨rfl, rfl⟩ := hs
      exact ⟨h, by simp⟩
    · simp only [Out.ok.injEq] at hs
      obtain ⟨rfl, rfl⟩ := hs
      exact ⟨⟨by simp, h.calls⟩, by simp⟩
  | look n v =>
    simp only [Sv.step] at hs
    split at hs
    · split at hs
      · rename_i d hd
        simp only [Out.ok.injEq] at hs
        obtain ⟨rfl, rfl⟩ := hs
        exact ⟨h, by intro x hx; simp at hx; subst hx; exact h.cache v d hd⟩
      · simp only [Out.ok.injEq] at hs
        obtain ⟨rfl, rfl⟩ := hs
        refine ⟨⟨h.cache, fun m w d hm => ?_⟩, by simp⟩
        simp only [upd] at hm
        split at hm
        · simp at hm
        · exact h.calls m w d hm
    · simp at hs
  | generate n o =>
    simp only [Sv.step] at hs
    split at hs
    · simp only [Out.ok.injEq] at hs
      obtain ⟨rfl, rfl⟩ := hs
      refine ⟨⟨h.cache, fun m w d hm => ?_⟩, by simp⟩
      simp only [upd] at hm
      split at hm
      · simp only [Call.made.injEq] at hm
        rw [← hm.2]
        exact hg n o rfl
      · exact h.calls m w d hm
    · simp at hs
  | store n =>
    simp only [Sv.step] at hs
    split at hs
    · rename_i v d hc
      simp only [Out.ok.injEq] at hs
      obtain ⟨rfl, rfl⟩ := hs
      have hp := h.calls n v d hc
      refine ⟨⟨fun w d' hm => ?_, fun m w d' hm => ?_⟩, by intro x hx; simp at hx; subst hx; exact hp⟩
      · simp only [upd] at hm
        split at hm
        · simp only [Option.some.injEq] at hm; exact hm ▸ hp
        · exact h.cache w d' hm
      · simp only [upd] at hm
        split at hm
        · simp at hm
        · exact h.calls m w d' hm
    · simp at hs

theorem Holds.mono {P Q : Defs → Prop} {s : Sv} (h : Holds P s) (hPQ : ∀ d, P d → Q d) : Holds Q s :=
  ⟨fun v d hd => hPQ d (h.cache v d hd), fun n v d hd => hPQ d (h.calls n v d hd)⟩

/-- After a change the caches are empty. -/
theorem change_clears {base : Defs} {libs : List String} {r : Regs} {s s' : Sv} {e : Ev} {a : Option (Ver × Defs)} (h : Sync r s) (hc : e.changes r)
    (hs : s.step base libs e = .ok s' a) : (∀ v, s'.cache v = none) ∧ s'.calls = s.calls ∧ a = none := by
  cases e with
  | register g gvks vs =>
    simp only [Ev.changes] at hc
    simp only [Sv.step, hc, Bool.not_true, Bool.false_eq_true, if_false] at hs
    split at hs
    · simp at hs
    · split at hs
      · simp at hs
      · simp only [Out.ok.injEq] at hs
        obtain ⟨rfl, rfl⟩ := hs
        simp
  | unregister g =>
    simp only [Ev.changes] at hc
    simp only [Sv.step] at hs
    split at hs
    · rename_i hg
      exact absurd (h.none g hg) hc
    · simp only [Out.ok.injEq] at hs
      obtain ⟨rfl, rfl⟩ := hs
      simp
  | look n v => exact absurd hc id
  | generate n o => exact absurd hc id
  | store n => exact absurd hc id

/-- Without a change the same kinds are registered. -/
theorem noChange_same {base : Defs} {libs : List String} {r : Regs} {s s' : Sv} {e : Ev} {a : Option (Ver × Defs)} (h : Sync r s) (hc : ¬ e.changes r)
    (hs : s.step base libs e = .ok s' a) : e.apply r = r := by
  cases e with
  | register g gvks vs =>
    simp only [Ev.changes] at hc
    simp [Ev.apply, hc]
  | unregister g =>
    simp only [Ev.changes, ne_eq, Decidable.not_not] at hc
    simp only [Ev.apply]
    cases r
    simp only [Regs.mk.injEq, and_true]
    funext x
    split
    · rename_i hx; rw [hx]; exact hc.symm
    · rfl
  | look n v => rfl
  | generate n o => rfl
  | store n => rfl

theorem apply_ever (r : Regs) (e : Ev) : ∀ t ∈ r.ever, t ∈ (e.apply r).ever := by
  intro t ht
  cases e with
  | register g gvks vs =>
    simp only [Ev.apply]
    split
    · simp [ht]
    · exact ht
  | _ => exact ht

theorem Path.ever {base : Defs} {libs : List String} {ok : Regs → Sv → Ev → Prop} {r r' : Regs} {s s' : Sv} {es : List Ev} {ans : List Ans}
    (h : Path base libs ok r s es r' s' ans) : ∀ t ∈ r.ever, t ∈ r'.ever := by
  induction h with
  | nil => exact fun _ h => h
  | cons _ _ _ _ ih => exact fun t ht => ih t (apply_ever _ _ t ht)

theorem Path.sync {base : Defs} {libs : List String} {ok : Regs → Sv → Ev → Prop} {r r' : Regs} {s s' : Sv} {es : List Ev} {ans : List Ans}
    (h : Path base libs ok r s es r' s' ans) (hs : Sync r s) : Sync r' s' := by
  induction h with
  | nil => exact hs
  | cons hv _ h _ ih => exact ih (hs.step hv h)

theorem Sync.registered {r : Regs} {s : Sv} (h : Sync r s) (t : GVK) : s.srv.registered t = true ↔ ∃ g, t ∈ r.now g := by
  unfold ApiSrv.registered
  cases hg : s.srv.groupGVKs t.group with
  | none =>
    simp only [Bool.false_eq_true, false_iff]
    rintro ⟨g, ht⟩
    have := (h.ever g t ht).2
    subst this
    rw [h.none _ hg] at ht
    simp at ht
  | some l =>
    obtain ⟨e, _⟩ := h.some _ l hg
    simp only [decide_eq_true_eq]
    constructor
    · exact fun ht => ⟨t.group, e ▸ ht⟩
    · rintro ⟨g, ht⟩
      have := (h.ever g t ht).2
      subst this
      exact e ▸ ht

theorem generated {base : Defs} {r : Regs} {s : Sv} (h : Sync r s) (hd : r.NoDots) {n : Nat} {o : List GVK} (hv : (Ev.generate n o).Valid r) :
    Describes base r (generate base (o.filter s.srv.registered)) :=
  generate_describes base (fun t => by
    rw [List.mem_filter, h.registered]
    exact ⟨fun h => h.2, fun ⟨g, hg⟩ => ⟨hv g t hg, g, hg⟩⟩) (fun t ht => by
    obtain ⟨g, hg⟩ := (h.registered t).1 (List.mem_filter.1 ht).2
    exact hd t (h.ever g t hg).1)

/-- All definitions kept describe what was registered before some step, or have been kept from the start. -/
theorem Path.kept {base : Defs} {libs : List String} {ok : Regs → Sv → Ev → Prop} {r r' : Regs} {s s' : Sv} {es : List Ev} {ans : List Ans}
    (h : Path base libs ok r s es r' s' ans) (hd : r'.NoDots) : ∀ {P : Defs → Prop}, Sync r s → Holds P s →
    Holds (fun d => P d ∨ ∃ es1, es1 <+: es ∧ Describes base (es1.foldl Ev.apply r) d) s' := by
  induction h with
  | nil => exact fun hs hp => hp.mono (fun d h => .inl h)
  | @cons r r' s s1 s' e es a ans hv _ hst hp ih =>
    intro P hs hh
    have hr : r.NoDots := fun t ht => hd t (hp.ever t (apply_ever r e t ht))
    have h1 := (Holds.step (P := fun d => P d ∨ Describes base r d) (hh.mono (fun _ h => .inl h)) hst
      (fun n o he => by subst he; exact .inr (generated hs hr hv))).1
    refine (ih hd (hs.step hv hst) h1).mono ?_
    rintro d ((h | h) | ⟨es1, hpre, h⟩)
    · exact .inl h
    · exact .inr ⟨[], by simp, h⟩
    · exact .inr ⟨e :: es1, by simpa using hpre, h⟩

/-- Undisturbed, all definitions kept and given are those of what is registered. -/
theorem Path.current {base : Defs} {libs : List String} {r r' : Regs} {s s' : Sv} {es : List Ev} {ans : List Ans}
    (h : Path base libs undisturbed r s es r' s' ans) (hd : r'.NoDots) (hs : Sync r s) (hh : Holds (Describes base r) s) :
    Holds (Describes base r') s' ∧ ∀ a ∈ ans, Describes base a.1 a.2.2 := by
  induction h with
  | nil => exact ⟨hh, by simp⟩
  | @cons r r' s s1 s' e es a ans hv hok hst hp ih =>
    have hr : r.NoDots := fun t ht => hd t (hp.ever t (apply_ever r e t ht))
    by_cases hc : e.changes r
    · obtain ⟨c1, c2, c3⟩ := change_clears hs hc hst
      obtain ⟨i1, i2⟩ := ih hd (hs.step hv hst) ⟨fun v d h => absurd h (by rw [c1]; simp), fun n v d h => absurd (c2 ▸ h) (hok hc n v d)⟩
      refine ⟨i1, fun x hx => ?_⟩
      simp only [c3, Option.toList_none, List.map_nil, List.nil_append] at hx
      exact i2 x hx
    · have he := noChange_same hs hc hst
      obtain ⟨s1', s2'⟩ := hh.step hst (fun n o he => by subst he; exact generated hs hr hv)
      rw [← he] at s1'
      obtain ⟨i1, i2⟩ := ih hd (hs.step hv hst) s1'
      refine ⟨i1, fun x hx => ?_⟩
      rcases List.mem_append.1 hx with hx | hx
      · cases a with
        | none => simp at hx
        | some y =>
          simp only [Option.toList_some, List.map_cons, List.map_nil, List.mem_cons, List.not_mem_nil, or_false] at hx
          subst hx
          simp only
          rw [he]
          exact s2' y rfl
      · exact i2 x hx

theorem Path.mono {base : Defs} {libs : List String} {ok ok' : Regs → Sv → Ev → Prop} {r r' : Regs} {s s' : Sv} {es : List Ev} {ans : List Ans}
    (h : Path base libs ok r s es r' s' ans) (hok : ∀ r s e, ok r s e → ok' r s e) : Path base libs ok' r s es r' s' ans := by
  induction h with
  | nil => exact .nil
  | cons hv ho hst _ ih => exact .cons hv (hok _ _ _ ho) hst ih

theorem Path.same {base : Defs} {libs : List String} {r r' : Regs} {s s' : Sv} {es : List Ev} {ans : List Ans}
    (h : Path base libs noChange r s es r' s' ans) (hs : Sync r s) : r' = r ∧ ∀ a ∈ ans, a.1 = r := by
  induction h with
  | nil => exact ⟨rfl, by simp⟩
  | @cons r r' s s1 s' e es a ans hv hok hst hp ih =>
    have he := noChange_same hs hok hst
    obtain ⟨i1, i2⟩ := ih (hs.step hv hst)
    rw [he] at i1 i2
    refine ⟨i1, fun x hx => ?_⟩
    rcases List.mem_append.1 hx with hx | hx
    · cases a with
      | none => simp at hx
      | some y =>
        simp only [Option.toList_some, List.map_cons, List.map_nil, List.mem_cons, List.not_mem_nil, or_false] at hx
        subst hx
        exact he
    · exact i2 x hx

/-- The cache is filled with `d0` and no request is about to replace it. -/
def Stuck (v : Ver) (d0 : Defs) (s : Sv) : Prop := s.cache v = some d0 ∧ ∀ n, s.calls n ≠ .empty v ∧ ∀ d, s.calls n ≠ .made v d

theorem Stuck.step {base : Defs} {libs : List String} {r : Regs} {s s' : Sv} {e : Ev} {a : Option (Ver × Defs)} {v : Ver} {d0 : Defs} (h : Stuck v d0 s) (hy : Sync r s)
    (hc : ¬ e.changes r) (hs : s.step base libs e = .ok s' a) : Stuck v d0 s' ∧ ∀ x, a = some x → x.1 = v → x.2 = d0 := by
  cases e with
  | register g gvks vs =>
    simp only [Ev.changes, Bool.not_eq_true] at hc
    simp only [Sv.step, hc, Bool.not_false, if_true, Out.ok.injEq] at hs
    obtain ⟨rfl, rfl⟩ := hs
    exact ⟨h, by simp⟩
  | unregister g =>
    simp only [Ev.changes, ne_eq, Decidable.not_not] at hc
    simp only [Sv.step] at hs
    split at hs
    · simp only [Out.ok.injEq] at hs
      obtain ⟨rfl, rfl⟩ := hs
      exact ⟨h, by simp⟩
    · rename_i l hg
      obtain ⟨e1, e2⟩ := hy.some g l hg
      exact absurd (e1.symm.trans hc) e2
  | look n w =>
    simp only [Sv.step] at hs
    split at hs
    · split at hs
      · rename_i d hd
        simp only [Out.ok.injEq] at hs
        obtain ⟨rfl, rfl⟩ := hs
        refine ⟨h, ?_⟩
        intro x hx hw
        simp only [Option.some.injEq] at hx
        subst hx
        simp only at hw
        subst hw
        rw [h.1] at hd
        simpa using hd.symm
      · rename_i hn
        simp only [Out.ok.injEq] at hs
        obtain ⟨rfl, rfl⟩ := hs
        refine ⟨⟨h.1, fun m => ?_⟩, by simp⟩
        simp only [upd]
        split
        · refine ⟨?_, by simp⟩
          intro e
          simp only [Call.empty.injEq] at e
          subst e
          rw [h.1] at hn
          cases hn
        · exact h.2 m
    · simp at hs
  | generate n o =>
    simp only [Sv.step] at hs
    split at hs
    · rename_i w hw
      simp only [Out.ok.injEq] at hs
      obtain ⟨rfl, rfl⟩ := hs
      refine ⟨⟨h.1, fun m => ?_⟩, by simp⟩
      simp only [upd]
      split
      · refine ⟨by simp, fun d e => ?_⟩
        simp only [Call.made.injEq] at e
        exact (h.2 n).1 (by rw [hw, e.1])
      · exact h.2 m
    · simp at hs
  | store n =>
    simp only [Sv.step] at hs
    split at hs
    · rename_i w d hw
      simp only [Out.ok.injEq] at hs
      obtain ⟨rfl, rfl⟩ := hs
      have hne : v ≠ w := fun e => (h.2 n).2 d (by rw [hw, e])
      refine ⟨⟨by simp only [upd, if_neg hne]; exact h.1, fun m => ?_⟩, ?_⟩
      · simp only [upd]
        split
        · simp
        · exact h.2 m
      · intro x hx hv
        simp only [Option.some.injEq] at hx
        subst hx
        exact absurd hv.symm hne
    · simp at hs

theorem Path.stuck {base : Defs} {libs : List String} {r r' : Regs} {s s' : Sv} {es : List Ev} {ans : List Ans} {v : Ver} {d0 : Defs}
    (h : Path base libs noChange r s es r' s' ans) (hy : Sync r s) (hst : Stuck v d0 s) : Stuck v d0 s' ∧ ∀ a ∈ ans, a.2.1 = v → a.2.2 = d0 := by
  induction h with
  | nil => exact ⟨hst, by simp⟩
  | @cons r r' s s1 s' e es a ans hv hok hs hp ih =>
    obtain ⟨a1, a2⟩ := hst.step hy hok hs
    obtain ⟨b1, b2⟩ := ih (hy.step hv hs) a1
    refine ⟨b1, fun x hx => ?_⟩
    rcases List.mem_append.1 hx with hx | hx
    · cases a with
      | none => simp at hx
      | some y =>
        simp only [Option.toList_some, List.map_cons, List.map_nil, List.mem_cons, List.not_mem_nil, or_false] at hx
        subst hx
        exact a2 y rfl
    · exact b2 x hx

/-- The names of definitions of view kinds are not among those added for unstructured objects. -/
theorem defName_unstruct {t : GVK} (h : isViewKind t = true) (hd : '.' ∉ t.kind.toList) : defName t ≠ unstructName ∧ defName t ≠ unstructListName := by
  have key : ∀ (p k : List Char), '.' ∉ k → (defName t).toList = p ++ '.' :: k → ¬ (".v1alpha1".toList <:+ p) → False := by
    intro p k hk e hp
    rw [defName_chars h] at e
    exact hp ⟨_, (last_sep hd hk e).1⟩
  constructor
  · intro e
    refine key "k8s.io/apimachinery/pkg/apis/meta/v1/unstructured".toList "Unstructured".toList (by decide) ?_ (by decide)
    rw [e]; decide
  · intro e
    refine key "k8s.io/apimachinery/pkg/apis/meta/v1/unstructured".toList "UnstructuredList".toList (by decide) ?_ (by decide)
    rw [e]; decide

end OpenApi
end Dctl
