import Verif.Apiserver.OpenApiLemmas
/-!
# Lemmas about the type scheme
-/
set_option autoImplicit false
set_option linter.unusedSectionVars false
namespace Dctl
namespace OpenApi

/-- Adding types one after the other. -/
def addAll : List (GVK × Ty) → Types → Option Types
  | [], s => some s
  | p :: l, s => (addType s p.1 p.2).bind (addAll l)

/-- What is added for a kind. -/
def adds (libs : List String) (t : GVK) : List (GVK × Ty) := libs.map (fun k => (⟨t.group, t.version, k⟩, .lib k)) ++ [(t, .obj), (listGVK t, .list)]

theorem addAll_append (a b : List (GVK × Ty)) (s : Types) : addAll (a ++ b) s = (addAll a s).bind (addAll b) := by
  induction a generalizing s with
  | nil => rfl
  | cons p a ih =>
    simp only [List.cons_append, addAll]
    cases addType s p.1 p.2 with
    | none => rfl
    | some s' => simp [ih]

theorem addLibs_eq (g v : String) (l : List String) (s : Types) : addLibs g v l s = addAll (l.map (fun k => (⟨g, v, k⟩, .lib k))) s := by
  induction l generalizing s with
  | nil => rfl
  | cons k l ih =>
    simp only [addLibs, List.map_cons, addAll]
    cases addType s ⟨g, v, k⟩ (.lib k) with
    | none => rfl
    | some s' => simp [ih]

theorem addTypes_eq (libs : List String) (l : List GVK) (s : Types) : addTypes libs l s = addAll (l.flatMap (adds libs)) s := by
  induction l generalizing s with
  | nil => rfl
  | cons t l ih =>
    simp only [addTypes, List.flatMap_cons, addAll_append, adds, addLibs_eq]
    cases addAll (libs.map (fun k => (⟨t.group, t.version, k⟩, .lib k))) s with
    | none => rfl
    | some s =>
      simp only [Option.bind_some, addAll]
      cases addType s t .obj with
      | none => rfl
      | some s =>
        simp only [Option.bind_some]
        cases addType s (listGVK t) .list with
        | none => rfl
        | some s => simp [ih]

theorem addType_some {s s' : Types} {x : GVK} {ty : Ty} : addType s x ty = some s' ↔ x.version ≠ "" ∧ (∀ ty', s x = some ty' → ty' = ty) ∧ s' = upd s x (some ty) := by
  unfold addType
  by_cases hv : x.version = ""
  · simp [hv]
  · rw [if_neg hv]
    cases h : s x with
    | none => simp [hv, eq_comm]
    | some ty' =>
      by_cases e : ty' = ty
      · subst e
        have : upd s x (some ty') = s := by
          funext y
          simp only [upd]
          split
          · rename_i hy; rw [hy, h]
          · rfl
        simp [hv, this, eq_comm]
      · simp [hv, e]

theorem addAll_spec (l : List (GVK × Ty)) (s : Types) :
    ((∃ s', addAll l s = some s') ↔ ∀ p ∈ l, p.1.version ≠ "" ∧ (∀ ty, s p.1 = some ty → ty = p.2) ∧ ∀ q ∈ l, q.1 = p.1 → q.2 = p.2) ∧
    ∀ s', addAll l s = some s' → ∀ x ty, s' x = some ty ↔ s x = some ty ∨ (x, ty) ∈ l := by
  induction l generalizing s with
  | nil => exact ⟨by simp [addAll], fun s' h x ty => by simp [addAll] at h; simp [h]⟩
  | cons p l ih =>
    constructor
    · constructor
      · rintro ⟨s', h⟩
        simp only [addAll, Option.bind_eq_some_iff] at h
        obtain ⟨s1, h1, h2⟩ := h
        obtain ⟨a1, a2, rfl⟩ := addType_some.1 h1
        have hl := (ih _).1.1 ⟨s', h2⟩
        have key : ∀ q ∈ l, q.1 = p.1 → q.2 = p.2 := by
          intro q hq e
          exact ((hl q hq).2.1 p.2 (by simp [upd, e])).symm
        intro q hq
        rcases List.mem_cons.1 hq with rfl | hql
        · refine ⟨a1, a2, fun q' hq' e => ?_⟩
          rcases List.mem_cons.1 hq' with rfl | hq'
          · rfl
          · exact key q' hq' e
        · obtain ⟨b1, b2, b3⟩ := hl q hql
          refine ⟨b1, fun ty h => ?_, fun q' hq' e => ?_⟩
          · by_cases e : q.1 = p.1
            · rw [key q hql e]
              exact a2 ty (e ▸ h)
            · exact b2 ty (by simp only [upd, if_neg e]; exact h)
          · rcases List.mem_cons.1 hq' with rfl | hq'
            · exact (key q hql e.symm).symm
            · exact b3 q' hq' e
      · intro h
        obtain ⟨a1, a2, a3⟩ := h p (by simp)
        have h1 : addType s p.1 p.2 = some (upd s p.1 (some p.2)) := addType_some.2 ⟨a1, a2, rfl⟩
        obtain ⟨s', hs'⟩ := (ih (upd s p.1 (some p.2))).1.2 (by
          intro q hq
          obtain ⟨b1, b2, b3⟩ := h q (by simp [hq])
          refine ⟨b1, fun ty ht => ?_, fun q' hq' e => b3 q' (by simp [hq']) e⟩
          simp only [upd] at ht
          split at ht
          · rename_i e
            simp only [Option.some.injEq] at ht
            rw [← ht]
            exact b3 p (by simp) e.symm
          · exact b2 ty ht)
        exact ⟨s', by simp [addAll, h1, hs']⟩
    · intro s' h x ty
      simp only [addAll, Option.bind_eq_some_iff] at h
      obtain ⟨s1, h1, h2⟩ := h
      obtain ⟨a1, a2, rfl⟩ := addType_some.1 h1
      rw [(ih _).2 s' h2 x ty]
      simp only [upd, List.mem_cons]
      by_cases e : x = p.1
      · subst e
        simp only [if_true, Option.some.injEq]
        constructor
        · rintro (rfl | h)
          · exact .inr (.inl rfl)
          · exact .inr (.inr h)
        · rintro (h | h | h)
          · exact .inl (a2 ty h).symm
          · exact .inl (by rw [← h])
          · exact .inr h
      · simp only [if_neg e]
        constructor
        · rintro (h | h)
          · exact .inl h
          · exact .inr (.inr h)
        · rintro (h | h | h)
          · exact .inl h
          · exact absurd (congrArg Prod.fst h) e
          · exact .inr h

theorem mem_adds {libs : List String} {t x : GVK} {ty : Ty} : (x, ty) ∈ adds libs t ↔
    (∃ k ∈ libs, x = ⟨t.group, t.version, k⟩ ∧ ty = .lib k) ∨ (x = t ∧ ty = .obj) ∨ (x = listGVK t ∧ ty = .list) := by
  simp only [adds, List.mem_append, List.mem_map, Prod.mk.injEq, List.mem_cons, List.not_mem_nil, or_false]
  constructor
  · rintro (⟨k, hk, rfl, rfl⟩ | h)
    · exact .inl ⟨k, hk, rfl, rfl⟩
    · exact .inr h
  · rintro (⟨k, hk, rfl, rfl⟩ | h)
    · exact .inl ⟨k, hk, rfl, rfl⟩
    · exact .inr h

/-- The scheme knows the kinds of view groups registered so far. -/
def Knows (libs : List String) (ever : List GVK) (s : Types) : Prop :=
  ∀ x ty, isViewGroup x.group = true → (s x = some ty ↔ ∃ t ∈ ever, (x, ty) ∈ adds libs t)

theorem adds_group {libs : List String} {t x : GVK} {ty : Ty} (h : (x, ty) ∈ adds libs t) : x.group = t.group ∧ x.version = t.version := by
  rcases mem_adds.1 h with ⟨k, _, rfl, _⟩ | ⟨rfl, _⟩ | ⟨rfl, _⟩ <;> simp [listGVK]

theorem not_list_self (t : GVK) : t ≠ listGVK t := by
  intro e
  have := congrArg (fun t => t.kind.toList.length) e
  simp [listGVK] at this

theorem addTypes_spec {libs : List String} {ever l : List GVK} {s : Types} (hk : Knows libs ever s) (hl : ∀ t ∈ l, isViewGroup t.group = true) (he : ∀ t ∈ ever, isViewGroup t.group = true) :
    ((∃ s', addTypes libs l s = some s') ↔ ∀ t ∈ l, ¬ Clash libs (ever ++ l) t) ∧ ∀ s', addTypes libs l s = some s' → Knows libs (ever ++ l) s' := by
  obtain ⟨h1, h2⟩ := addAll_spec (l.flatMap (adds libs)) s
  rw [addTypes_eq]
  refine ⟨?_, ?_⟩
  · rw [h1]
    constructor
    · intro h t ht hc
      have hin : ∀ {x ty}, (x, ty) ∈ adds libs t → (x, ty) ∈ l.flatMap (adds libs) := fun hx => List.mem_flatMap.2 ⟨t, ht, hx⟩
      have ho : (t, Ty.obj) ∈ l.flatMap (adds libs) := hin (mem_adds.2 (.inr (.inl ⟨rfl, rfl⟩)))
      have hli : (listGVK t, Ty.list) ∈ l.flatMap (adds libs) := hin (mem_adds.2 (.inr (.inr ⟨rfl, rfl⟩)))
      -- all that is there agrees with what is added
      have agree : ∀ {x ty ty' t'}, (x, ty) ∈ l.flatMap (adds libs) → isViewGroup x.group = true → t' ∈ ever ++ l → (x, ty') ∈ adds libs t' → ty' = ty := by
        intro x ty ty' t' hx hg ht' hx'
        rcases List.mem_append.1 ht' with ht' | ht'
        · exact (h _ hx).2.1 ty' ((hk x ty' hg).2 ⟨t', ht', hx'⟩)
        · exact (h _ hx).2.2 (x, ty') (List.mem_flatMap.2 ⟨t', ht', hx'⟩) rfl
      have hg := hl t ht
      rcases hc with hc | hc | hc | ⟨t', ht', hg', hv', hc | hc⟩
      · exact (h _ ho).1 hc
      · have := agree ho hg (List.mem_append_right ever ht) (mem_adds.2 (.inl ⟨t.kind, hc, rfl, rfl⟩))
        cases this
      · have := agree hli hg (List.mem_append_right ever ht) (mem_adds.2 (.inl ⟨t.kind ++ "List", hc, rfl, rfl⟩))
        cases this
      · have e : listGVK t = t' := by cases t'; simp_all [listGVK]
        have := agree hli hg ht' (mem_adds.2 (.inr (.inl ⟨e, rfl⟩)))
        cases this
      · have e : t = listGVK t' := by cases t; simp_all [listGVK]
        have := agree ho hg ht' (mem_adds.2 (.inr (.inr ⟨e, rfl⟩)))
        cases this
    · intro h
      have agree : ∀ t ∈ l, ∀ t' ∈ ever ++ l, ∀ x ty ty', (x, ty) ∈ adds libs t → (x, ty') ∈ adds libs t' → (∀ t'' ∈ ever, ∀ k ∈ libs, t''.kind ≠ k ∧ t''.kind ++ "List" ≠ k) → ty' = ty := by
        intro t ht t' ht' x ty ty' hx hx' hev
        have ht2 : t'.kind ∉ libs ∧ t'.kind ++ "List" ∉ libs := by
          rcases List.mem_append.1 ht' with ht' | ht'
          · exact ⟨fun hm => (hev t' ht' _ hm).1 rfl, fun hm => (hev t' ht' _ hm).2 rfl⟩
          · have := h t' ht'
            exact ⟨fun hm => this (.inr (.inl hm)), fun hm => this (.inr (.inr (.inl hm)))⟩
        have hn := h t ht
        obtain ⟨g1, v1⟩ := adds_group hx
        obtain ⟨g2, v2⟩ := adds_group hx'
        have hgv : t'.group = t.group ∧ t'.version = t.version := ⟨g2.symm.trans g1, v2.symm.trans v1⟩
        rcases mem_adds.1 hx with ⟨k, hk, rfl, rfl⟩ | ⟨rfl, rfl⟩ | ⟨rfl, rfl⟩
        · rcases mem_adds.1 hx' with ⟨k', hk', e, rfl⟩ | ⟨e, rfl⟩ | ⟨e, rfl⟩
          · simp only [GVK.mk.injEq] at e; rw [e.2.2]
          · exact absurd hk (by rw [← e] at ht2; exact ht2.1)
          · simp only [listGVK, GVK.mk.injEq] at e; rw [e.2.2] at hk; exact absurd hk ht2.2
        · rcases mem_adds.1 hx' with ⟨k', hk', e, rfl⟩ | ⟨e, rfl⟩ | ⟨e, rfl⟩
          · exact absurd (.inr (.inl (by rw [e]; exact hk'))) hn
          · rfl
          · exact absurd (.inr (.inr (.inr ⟨t', ht', hgv.1, hgv.2, .inr (by rw [e]; rfl)⟩))) hn
        · rcases mem_adds.1 hx' with ⟨k', hk', e, rfl⟩ | ⟨e, rfl⟩ | ⟨e, rfl⟩
          · simp only [listGVK, GVK.mk.injEq] at e
            exact absurd (.inr (.inr (.inl (by rw [e.2.2]; exact hk')))) hn
          · exact absurd (.inr (.inr (.inr ⟨t', ht', hgv.1, hgv.2, .inl (by rw [← e]; rfl)⟩))) hn
          · rfl
      have hev : ∀ t'' ∈ ever, ∀ k ∈ libs, t''.kind ≠ k ∧ t''.kind ++ "List" ≠ k := by
        intro t'' ht'' k hk'
        have hg := he t'' ht''
        constructor
        · rintro rfl
          have a := (hk t'' .obj hg).2 ⟨t'', ht'', mem_adds.2 (.inr (.inl ⟨rfl, rfl⟩))⟩
          have b := (hk t'' (.lib t''.kind) hg).2 ⟨t'', ht'', mem_adds.2 (.inl ⟨_, hk', rfl, rfl⟩)⟩
          rw [a] at b; cases b
        · rintro rfl
          have a := (hk (listGVK t'') .list hg).2 ⟨t'', ht'', mem_adds.2 (.inr (.inr ⟨rfl, rfl⟩))⟩
          have b := (hk (listGVK t'') (.lib (t''.kind ++ "List")) hg).2 ⟨t'', ht'', mem_adds.2 (.inl ⟨_, hk', rfl, rfl⟩)⟩
          rw [a] at b; cases b
      rintro ⟨x, ty⟩ hp
      obtain ⟨t, ht, hx⟩ := List.mem_flatMap.1 hp
      obtain ⟨hg, hv⟩ := adds_group hx
      refine ⟨?_, ?_, ?_⟩
      · simp only [hv]
        exact fun e => h t ht (.inl e)
      · intro ty' hs
        obtain ⟨t', ht', hx'⟩ := (hk x ty' (by rw [hg]; exact hl t ht)).1 hs
        exact agree t ht t' (List.mem_append_left _ ht') x ty ty' hx hx' hev
      · rintro ⟨x', ty'⟩ hq e
        simp only at e
        subst e
        obtain ⟨t', ht', hx'⟩ := List.mem_flatMap.1 hq
        exact agree t ht t' (List.mem_append_right _ ht') x' ty ty' hx hx' hev
  · intro s' hs' x ty hg
    rw [h2 s' hs' x ty, hk x ty hg, List.mem_flatMap]
    constructor
    · rintro (⟨t, ht, h⟩ | ⟨t, ht, h⟩)
      · exact ⟨t, List.mem_append_left _ ht, h⟩
      · exact ⟨t, List.mem_append_right _ ht, h⟩
    · rintro ⟨t, ht, h⟩
      rcases List.mem_append.1 ht with ht | ht
      · exact .inl ⟨t, ht, h⟩
      · exact .inr ⟨t, ht, h⟩

/-- The types of view groups are those of the kinds registered so far, which are of view groups. -/
structure Typed (libs : List String) (r : Regs) (s : Sv) : Prop where
  knows : Knows libs r.ever s.types
  views : ∀ t ∈ r.ever, isViewGroup t.group = true

theorem Typed.init {libs : List String} {types : Types} (h : ∀ t, isViewGroup t.group = true → types t = none) : Typed libs Regs.none (Sv.init types) :=
  ⟨fun x ty hx => by simp [Sv.init, h x hx, Regs.none], fun t ht => by simp [Regs.none] at ht⟩

theorem step_types {base : Defs} {libs : List String} {s s' : Sv} {e : Ev} {a : Option (Ver × Defs)} (hs : s.step base libs e = .ok s' a)
    (he : ∀ g l vs, e ≠ .register g l vs) : s'.types = s.types := by
  cases e with
  | register g l vs => exact absurd rfl (he g l vs)
  | unregister g =>
    simp only [Sv.step] at hs
    split at hs <;> (simp only [Out.ok.injEq] at hs; obtain ⟨rfl, rfl⟩ := hs; rfl)
  | look n v =>
    simp only [Sv.step] at hs
    split at hs
    · split at hs <;> (simp only [Out.ok.injEq] at hs; obtain ⟨rfl, rfl⟩ := hs; rfl)
    · simp at hs
  | generate n o =>
    simp only [Sv.step] at hs
    split at hs
    · simp only [Out.ok.injEq] at hs; obtain ⟨rfl, rfl⟩ := hs; rfl
    · simp at hs
  | store n =>
    simp only [Sv.step] at hs
    split at hs
    · simp only [Out.ok.injEq] at hs; obtain ⟨rfl, rfl⟩ := hs; rfl
    · simp at hs

theorem Typed.step {base : Defs} {libs : List String} {r : Regs} {s s' : Sv} {e : Ev} {a : Option (Ver × Defs)} (h : Typed libs r s) (hv : e.Valid r)
    (hs : s.step base libs e = .ok s' a) : Typed libs (e.apply r) s' := by
  by_cases he : ∃ g l vs, e = .register g l vs
  · obtain ⟨g, l, vs, rfl⟩ := he
    simp only [Sv.step] at hs
    by_cases hg : isViewGroup g = true
    · rw [hg] at hs
      simp only [Bool.not_true, Bool.false_eq_true, if_false] at hs
      have hl : ∀ t ∈ l, isViewGroup t.group = true := fun t ht => by rw [hv.2 t ht]; exact hg
      split at hs
      · simp at hs
      · rename_i types ht
        split at hs
        · simp at hs
        · simp only [Out.ok.injEq] at hs
          obtain ⟨rfl, rfl⟩ := hs
          simp only [Ev.apply, hg, if_true]
          refine ⟨(addTypes_spec h.knows hl h.views).2 _ ht, fun t hm => ?_⟩
          rcases List.mem_append.1 hm with hm | hm
          · exact h.views t hm
          · exact hl t hm
    · simp only [hg, Bool.not_false, if_true, Out.ok.injEq] at hs
      obtain ⟨rfl, rfl⟩ := hs
      simp only [Ev.apply, hg]
      exact h
  · have ht := step_types hs (fun g l vs e' => he ⟨g, l, vs, e'⟩)
    have hr : (e.apply r).ever = r.ever := by
      cases e with
      | register g l vs => exact absurd ⟨g, l, vs, rfl⟩ he
      | _ => rfl
    exact ⟨by rw [hr, ht]; exact h.knows, by rw [hr]; exact h.views⟩

theorem Path.typed {base : Defs} {libs : List String} {ok : Regs → Sv → Ev → Prop} {r r' : Regs} {s s' : Sv} {es : List Ev} {ans : List Ans}
    (h : Path base libs ok r s es r' s' ans) (hs : Typed libs r s) : Typed libs r' s' := by
  induction h with
  | nil => exact hs
  | cons hv _ h _ ih => exact ih (hs.step hv h)

theorem register_panics {base : Defs} {libs : List String} {r : Regs} {s : Sv} (h : Typed libs r s) {g : String} {l : List GVK} {vs : List String}
    (hg : isViewGroup g = true) (hv : (Ev.register g l vs).Valid r) :
    (s.step base libs (.register g l vs) = .panics ↔ ∃ t ∈ l, Clash libs (r.ever ++ l) t) ∧
    (s.step base libs (.register g l vs) ≠ .panics → ∃ s', s.step base libs (.register g l vs) = .ok s' none) := by
  have hl : ∀ t ∈ l, isViewGroup t.group = true := fun t ht => by rw [hv.2 t ht]; exact hg
  obtain ⟨h1, _⟩ := addTypes_spec h.knows hl h.views
  have hreg : s.srv.registerGroup g l vs ≠ none := by
    unfold ApiSrv.registerGroup ApiSrv.registerDiscovery
    have : l.length ≠ 0 := fun e => hv.1 (List.eq_nil_of_length_eq_zero e)
    simp [hg, this]
  cases hr : s.srv.registerGroup g l vs with
  | none => exact absurd hr hreg
  | some srv =>
    cases ht : addTypes libs l s.types with
    | none =>
      have hp : s.step base libs (.register g l vs) = .panics := by simp only [Sv.step, hg, ht]; rfl
      refine ⟨⟨fun _ => ?_, fun _ => hp⟩, fun h => absurd hp h⟩
      apply Classical.byContradiction
      intro hn
      obtain ⟨s', hs'⟩ := h1.2 (fun t ht hc => hn ⟨t, ht, hc⟩)
      rw [ht] at hs'; cases hs'
    | some types =>
      have hp : s.step base libs (.register g l vs) = .ok { s with srv := srv, types := types, cache := fun _ => none } none := by simp only [Sv.step, hg, ht, hr]; rfl
      refine ⟨⟨fun hx => ?_, fun ⟨t, hm, hc⟩ => absurd hc (h1.1 ⟨types, ht⟩ t hm)⟩, fun _ => ⟨_, hp⟩⟩
      rw [hp] at hx; cases hx

end OpenApi
end Dctl
