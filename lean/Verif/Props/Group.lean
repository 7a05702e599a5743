import Verif.Cache.GroupLemmas
/-!
# C38 View group naming, C56 REST mapping for views, C57 View discovery
-/
set_option autoImplicit false
namespace Dctl

/-! ## C38 -/

/-- C38: different operators get different groups. -/
theorem C38_group_injective (a b : String) (h : viewGroup a = viewGroup b) : a = b := by
  have := congrArg String.toList h
  rw [viewGroup_toList, viewGroup_toList] at this
  exact String.toList_injective (List.append_cancel_right this)

example : viewGroup "a" ≠ viewGroup "b" := by decide

/-- C38: the groups of views, own or mapped from native objects, are view groups. -/
theorem C38_view_groups (op : String) (t : GVK) : isViewKind (viewGVK op t.kind) = true ∧ isViewKind (mapIntoView op t) = true := by
  constructor
  · simp [isViewKind, viewGVK, isViewGroup_viewGroup]
  · have : isViewGroup (mapIntoView op t).group = true := by
      rw [isViewGroup_iff]
      refine ⟨((if t.group = "" then "core" else t.group) ++ "." ++ t.version ++ "." ++ op ++ ".").toList, ?_⟩
      simp [mapIntoView, viewGroup, String.toList_append]
    rw [isViewKind, this]
    rfl

example : isViewKind ⟨"apps", "v1", "Deployment"⟩ = false := by decide

/-- C38: the kinds taken for kinds of the operator's own views are those of its views. -/
theorem C38_own_kinds (op : String) (t : GVK) : hasViewGVK (viewGroup op) t = true ↔ ∃ kind, t = viewGVK op kind := by
  obtain ⟨g, v, k⟩ := t
  simp only [hasViewGVK, Bool.and_eq_true, beq_iff_eq, viewGVK, GVK.mk.injEq]
  constructor
  · rintro ⟨rfl, rfl⟩; exact ⟨k, rfl, rfl, rfl⟩
  · rintro ⟨_, rfl, rfl, _⟩; exact ⟨rfl, rfl⟩

example : hasViewGVK (viewGroup "op") (viewGVK "op" "Health") = true ∧ hasViewGVK (viewGroup "op") ⟨viewGroup "op", "v1", "Health"⟩ = false ∧
    hasViewGVK (viewGroup "op") (viewGVK "other" "Health") = false := by decide

/-- C38: exactly the names of operators without a dot can be recovered from the group. -/
theorem C38_operator (op kind : String) : getOperator (viewGVK op kind) = op ↔ '.' ∉ op.toList := by
  rw [getOperator_of (p := op.toList) (viewGroup_toList op)]
  constructor
  · intro h
    have := congrArg String.toList h
    rw [String.toList_ofList] at this
    exact splitDots_getLast_eq.mp this
  · intro h
    rw [splitDots_getLast_eq.mpr h, String.ofList_toList]

/-- C38: the same holds for native objects mapped into a view of the operator. -/
theorem C38_operator_mapped (op : String) (t : GVK) : getOperator (mapIntoView op t) = op ↔ '.' ∉ op.toList := by
  rw [getOperator_of (p := ((if t.group = "" then "core" else t.group) ++ "." ++ t.version).toList ++ '.' :: op.toList)
    (by simp [mapIntoView, viewGroup, String.toList_append]), splitDots_append_last]
  constructor
  · intro h
    have := congrArg String.toList h
    rw [String.toList_ofList] at this
    exact splitDots_getLast_eq.mp this
  · intro h
    rw [splitDots_getLast_eq.mpr h, String.ofList_toList]

example : getOperator (viewGVK "svc-health" "HealthView") = "svc-health" := by decide

/-- C38, negation: an operator with a dot in its name is taken for another one. -/
theorem C38_dotted_operator : getOperator (viewGVK "a.b" "View") = "b" ∧ (viewGVK "a.b" "View").group ≠ viewGroup "b" := by decide

/-- C38 in part: a group in which the suffix follows a dot is a view group exactly if it is the group of an operator. Missing: groups that
end in the suffix without a preceding dot, which are taken for view groups as well (`C38_native_taken`). -/
theorem C38_native_partial (g : String) (hdot : ∀ p c, g.toList = p ++ c :: groupSuffix.toList → c = '.') (hne : g ≠ groupSuffix) :
    isViewGroup g = true ↔ ∃ op, g = viewGroup op := by
  constructor
  · intro h
    obtain ⟨p, hp⟩ := (isViewGroup_iff g).mp h
    rcases List.eq_nil_or_concat p with rfl | ⟨q, c, rfl⟩
    · exact absurd (String.toList_injective (by simpa using hp)) hne
    · have hc : c = '.' := hdot q c (by simpa using hp)
      subst hc
      refine ⟨String.ofList q, String.toList_injective ?_⟩
      rw [hp, viewGroup_toList]; simp
  · rintro ⟨op, rfl⟩; exact isViewGroup_viewGroup op

example : (∀ p c, "apps".toList = p ++ c :: groupSuffix.toList → c = '.') ∧ "apps" ≠ groupSuffix := by
  refine ⟨fun p c h => ?_, by decide⟩
  have := congrArg List.length h
  simp [groupSuffix] at this

/-- C38, negation: some native group is taken for a view group, although it is the group of no operator. -/
theorem C38_native_taken : isViewGroup "overview.dcontroller.io" = true ∧ ∀ op, "overview.dcontroller.io" ≠ viewGroup op := by
  refine ⟨by decide, fun op h => ?_⟩
  have := congrArg String.toList h
  rw [viewGroup_toList] at this
  have h' := congrArg (fun l => (l.reverse.drop 19).head?) this
  simp [groupSuffix] at h'

/-- C38: a native group and version is recovered exactly if neither contains a dot and the group is not called `core`. -/
theorem C38_round_trip (op : String) (t : GVK) :
    mapFromView (mapIntoView op t) = some t ↔ '.' ∉ t.group.toList ∧ '.' ∉ t.version.toList ∧ t.group ≠ "core" := by
  have hv : isViewGroup (mapIntoView op t).group = true := by
    have := (C38_view_groups op t).2
    simp only [isViewKind, Bool.and_eq_true] at this
    exact this.1
  have hg : (mapIntoView op t).group.toList =
      (if t.group = "" then "core" else t.group).toList ++ '.' :: (t.version.toList ++ '.' :: (viewGroup op).toList) := by
    simp [mapIntoView, String.toList_append]
  unfold mapFromView
  rw [if_pos hv, hg]
  generalize hG : (if t.group = "" then "core" else t.group) = G
  constructor
  · intro h
    by_cases h1 : '.' ∈ G.toList
    · obtain ⟨a, b, e, ha⟩ := exists_split h1
      rw [e, List.append_assoc, List.cons_append, splitN_dot 1 ha] at h
      have h2 : '.' ∈ b ++ '.' :: (t.version.toList ++ '.' :: (viewGroup op).toList) := by simp
      obtain ⟨a', b', e', ha'⟩ := exists_split h2
      rw [e', splitN_dot 0 ha'] at h
      simp only [splitN, Option.some.injEq] at h
      have hgr := congrArg GVK.group h
      simp only at hgr
      exfalso
      have hGt : t.group = G := by
        rw [← hG]; split
        · next h0 => exact absurd h1 (by rw [← hG, if_pos h0]; decide)
        · rfl
      have : '.' ∈ t.group.toList := hGt ▸ h1
      rw [← hgr] at this
      split at this
      · simp at this
      · exact ha (by simpa using this)
    · rw [splitN_dot 1 h1] at h
      by_cases h2 : '.' ∈ t.version.toList
      · exfalso
        obtain ⟨a, b, e, ha⟩ := exists_split h2
        rw [e, List.append_assoc, List.cons_append, splitN_dot 0 ha] at h
        simp only [splitN, Option.some.injEq] at h
        have hve := congrArg GVK.version h
        simp only at hve
        rw [← hve] at h2
        exact ha (by simpa using h2)
      · rw [splitN_dot 0 h2] at h
        simp only [splitN, Option.some.injEq, String.ofList_toList] at h
        have hgr := congrArg GVK.group h
        simp only at hgr
        refine ⟨?_, h2, ?_⟩
        · by_cases h0 : t.group = ""
          · simp [h0]
          · rw [if_neg h0] at hG; rw [hG]; exact h1
        · rintro hc
          rw [hc] at hG
          simp only [show ("core" : String) ≠ "" from by decide, if_false] at hG
          rw [← hG, hc] at hgr
          simp at hgr
  · rintro ⟨h1, h2, h3⟩
    have h1' : '.' ∉ G.toList := by
      rw [← hG]; split
      · decide
      · exact h1
    rw [splitN_dot 1 h1', splitN_dot 0 h2]
    simp only [splitN, String.ofList_toList, Option.some.injEq]
    have : (if G = "core" then "" else G) = t.group := by
      rw [← hG]
      by_cases h0 : t.group = ""
      · simp [h0]
      · simp [h0, h3]
    rw [this]
    rfl

example : mapFromView (mapIntoView "op" ⟨"apps", "v1", "Deployment"⟩) = some ⟨"apps", "v1", "Deployment"⟩ := by decide
example : mapFromView (mapIntoView "op" ⟨"", "v1", "Pod"⟩) = some ⟨"", "v1", "Pod"⟩ := by decide

/-- C38, negation: groups with a dot, as most native groups have, are not recovered. -/
theorem C38_dotted_group : mapFromView (mapIntoView "op" ⟨"networking.k8s.io", "v1", "Ingress"⟩) = some ⟨"networking", "k8s", "Ingress"⟩ := by decide

/-! ## C56 -/

/-- C56, negation: the mapper of views rejects every view group, and so does the composite mapper. -/
theorem C56_views_rejected (native : Option (String → String → List String → Option RestMapping)) (nk : Option (GVR → Option GVK)) (g k v r : String)
    (vs : List String) (h : isViewGroup g = true) :
    viewRESTMapping g k vs = none ∧ viewKindFor ⟨g, v, r⟩ = none ∧ viewResourceFor ⟨g, v, r⟩ = none ∧
    restMapping true native g k vs = none ∧ kindFor true nk ⟨g, v, r⟩ = none := by
  simp [viewRESTMapping, viewKindFor, viewResourceFor, restMapping, kindFor, mapperIsView, h]

example : isViewGroup (viewGroup "op") = true := by decide

/-- C56 in part: where the mapper of views answers, resource, group, kind and scope are the ones expected for a view. Missing: it answers
for groups that are no view groups only (`C56_views_rejected`). -/
theorem C56_shape_partial (g k v : String) (vs : List String) (h : isViewGroup g = false) (hv : v ≠ "") :
    viewRESTMapping g k (v :: vs) = some ⟨⟨g, v, lower k⟩, ⟨g, v, k⟩, true⟩ ∧ viewRESTMapping g k [] = some ⟨⟨g, viewVersion, lower k⟩, ⟨g, viewVersion, k⟩, true⟩ := by
  simp [viewRESTMapping, h, hv]

example : isViewGroup "apps" = false ∧ "v1" ≠ "" := by decide

/-- C56 in part: the resource found for a kind written in place of a resource is the one of the mapping of that kind, and its name has no
capital letters. Missing: as in `C56_shape_partial`. -/
theorem C56_resource_partial (g k v : String) (h : isViewGroup g = false) (hv : v ≠ "") :
    viewResourceFor ⟨g, v, k⟩ = (viewRESTMapping g k [v]).map (·.resource) ∧
    ∃ r, viewResourceFor ⟨g, v, k⟩ = some ⟨g, v, r⟩ ∧ r.toList = k.toList.map Char.toLower := by
  simp [viewRESTMapping, viewResourceFor, h, hv, lower]

example : isViewGroup "apps" = false ∧ viewResourceFor ⟨"apps", "v1", "HealthView"⟩ = some ⟨"apps", "v1", "healthview"⟩ := by decide

/-- C56, negation: kinds with more than one capital letter are not recovered from the resource name. -/
theorem C56_kind_lost : viewKindFor ⟨"apps", "v1", lower "HealthView"⟩ = some ⟨"apps", "v1", "Healthview"⟩ := by decide

/-- C56: without a composite discovery client, no operator's group is recognised as a view group. -/
theorem C56_fallback (op : String) : mapperIsView false (viewGroup op) = false := by
  simp only [mapperIsView, Bool.false_eq_true, if_false, decide_eq_false_iff_not]
  intro h
  have := congrArg (fun s => s.toList.length) h
  simp [viewGroup_toList, groupSuffix] at this

/-! ## C57 -/

/-- A change of the set of registered views. -/
inductive RegOp where
  | register (t : GVK)
  | unregister (t : GVK)
deriving DecidableEq

/-- One change. -/
def Views.apply (d : Views) : RegOp → Views
  | .register t => d.register t
  | .unregister t => d.unregister t

/-- The views registered after a history. -/
def Views.run (h : List RegOp) : Views := h.foldl Views.apply []

/-- What should be registered after a history: the object kinds that were registered and not unregistered since. -/
def Registered (h : List RegOp) (t : GVK) : Prop :=
  isViewObjKind t = true ∧ ∃ pre post, h = pre ++ .register t :: post ∧ RegOp.unregister t ∉ post

theorem Views.run_append (h : List RegOp) (o : RegOp) : Views.run (h ++ [o]) = (Views.run h).apply o := by
  simp [Views.run, List.foldl_append]

theorem registered_snoc_register (h : List RegOp) (t t' : GVK) :
    Registered (h ++ [.register t]) t' ↔ Registered h t' ∨ (t' = t ∧ isViewObjKind t = true) := by
  constructor
  · rintro ⟨hv, pre, post, e, hp⟩
    rcases List.eq_nil_or_concat post with rfl | ⟨q, o, rfl⟩
    · have := List.append_inj_right' e (by simp)
      simp only [List.cons.injEq, RegOp.register.injEq, and_true] at this
      exact Or.inr ⟨this.symm, this ▸ hv⟩
    · refine Or.inl ⟨hv, pre, q, ?_, fun hm => hp (by simp [hm])⟩
      rw [List.concat_eq_append, ← List.cons_append, ← List.append_assoc] at e
      exact List.append_inj_left' e (by simp)
  · rintro (⟨hv, pre, post, rfl, hp⟩ | ⟨rfl, hv⟩)
    · exact ⟨hv, pre, post ++ [.register t], by simp, by simp [hp]⟩
    · exact ⟨hv, h, [], rfl, by simp⟩

theorem registered_snoc_unregister (h : List RegOp) (t t' : GVK) :
    Registered (h ++ [.unregister t]) t' ↔ Registered h t' ∧ t' ≠ t := by
  constructor
  · rintro ⟨hv, pre, post, e, hp⟩
    rcases List.eq_nil_or_concat post with rfl | ⟨q, o, rfl⟩
    · have := List.append_inj_right' e (by simp)
      simp at this
    · rw [List.concat_eq_append, ← List.cons_append, ← List.append_assoc] at e
      have e2 := List.append_inj_right' e (by simp)
      simp only [List.cons.injEq, and_true] at e2
      refine ⟨⟨hv, pre, q, List.append_inj_left' e (by simp), fun hm => hp (by simp [hm])⟩, ?_⟩
      rintro rfl
      exact hp (by simp [← e2])
  · rintro ⟨⟨hv, pre, post, rfl, hp⟩, hne⟩
    refine ⟨hv, pre, post ++ [.unregister t], by simp, ?_⟩
    simp only [List.mem_append, List.mem_singleton, RegOp.unregister.injEq, not_or]
    exact ⟨hp, hne⟩

theorem Views.run_spec (h : List RegOp) :
    AMap.WF (Views.run h) ∧ ∀ t r, (Views.run h).get t = some r → r = ⟨resourceFromKind t.kind, t.kind, t.group, t.version⟩ := by
  induction h using rev_induct with
  | h0 => exact ⟨by simp [Views.run, AMap.WF], fun t r => by simp [Views.run, AMap.get]⟩
  | h1 h o ih =>
    obtain ⟨hw, ih⟩ := ih
    rw [Views.run_append]
    generalize Views.run h = d at hw ih
    cases o with
    | register t =>
      simp only [Views.apply, Views.register]
      split
      · exact ⟨hw, ih⟩
      · split
        · exact ⟨hw, ih⟩
        · refine ⟨hw.set _ _, fun t' r => ?_⟩
          rw [AMap.get_set]
          by_cases e : t = t'
          · subst e; simp only [if_true, Option.some.injEq]; exact Eq.symm
          · simp only [e, if_false]; exact ih t' r
    | unregister t =>
      simp only [Views.apply, Views.unregister]
      refine ⟨hw.erase _, fun t' r => ?_⟩
      rw [AMap.get_erase hw]
      by_cases e : t = t'
      · subst e; simp
      · simp only [e, if_false]; exact ih t' r

theorem Views.get_isSome_iff (h : List RegOp) (t : GVK) : ((Views.run h).get t).isSome = true ↔ Registered h t := by
  induction h using rev_induct generalizing t with
  | h0 => simp [Views.run, AMap.get, Registered]
  | h1 h o ih =>
    have hw := (Views.run_spec h).1
    rw [Views.run_append]
    generalize Views.run h = d at hw ih
    cases o with
    | register t' =>
      rw [registered_snoc_register, ← ih]
      simp only [Views.apply, Views.register]
      by_cases hv : isViewObjKind t' = true
      · simp only [hv, Bool.not_true, Bool.false_eq_true, if_false]
        split
        · next r hr =>
          constructor
          · exact Or.inl
          · rintro (h | ⟨rfl, -⟩)
            · exact h
            · simp [hr]
        · rw [AMap.get_set]
          by_cases e : t' = t
          · subst e; simp
          · simp only [e, if_false]
            constructor
            · exact Or.inl
            · rintro (h | ⟨rfl, -⟩)
              · exact h
              · exact absurd rfl e
      · simp [hv]
    | unregister t' =>
      rw [registered_snoc_unregister, ← ih]
      simp only [Views.apply, Views.unregister, AMap.get_erase hw]
      by_cases e : t' = t
      · subst e; simp
      · have e' : ¬ t = t' := fun h => e h.symm
        simp [e, e']

/-- C57: discovery lists exactly the registered views, each once, whatever the history. -/
theorem C57_registered (h : List RegOp) (t : GVK) : (t ∈ (Views.run h).registered ↔ Registered h t) ∧ (Views.run h).registered.Nodup := by
  refine ⟨?_, (Views.run_spec h).1⟩
  rw [← Views.get_isSome_iff]
  have := AMap.get_none_iff (m := Views.run h) (k := t)
  rw [← Option.ne_none_iff_isSome]
  constructor
  · intro hm hn; exact this.mp hn hm
  · intro hn
    apply Classical.byContradiction
    intro hm; exact hn (this.mpr hm)

/-- C57: the resources of a group version are those of its registered views. -/
theorem C57_resources (h : List RegOp) (g v : String) (r : ApiResource) :
    r ∈ (Views.run h).resources g v ↔ ∃ kind, Registered h ⟨g, v, kind⟩ ∧ r = ⟨resourceFromKind kind, kind, g, v⟩ := by
  have hs := Views.run_spec h
  simp only [Views.resources, List.mem_map, List.mem_filter, decide_eq_true_eq]
  constructor
  · rintro ⟨⟨t, r'⟩, ⟨hm, rfl, rfl⟩, rfl⟩
    have hg := AMap.get_of_mem hs.1 hm
    refine ⟨t.kind, (Views.get_isSome_iff h _).mp (by rw [hg]; rfl), ?_⟩
    exact hs.2 t _ hg
  · rintro ⟨kind, hr, rfl⟩
    have hsome := (Views.get_isSome_iff h _).mpr hr
    obtain ⟨r', hg⟩ := Option.isSome_iff_exists.mp hsome
    exact ⟨(⟨g, v, kind⟩, r'), ⟨AMap.mem_of_get hg, rfl, rfl⟩, hs.2 _ _ hg⟩

example : Registered [.register ⟨"a.view.dcontroller.io", "v1alpha1", "V"⟩, .unregister ⟨"b.view.dcontroller.io", "v1alpha1", "V"⟩]
    ⟨"a.view.dcontroller.io", "v1alpha1", "V"⟩ := ⟨by decide, [], _, rfl, by decide⟩

theorem groupVersions_wf (d : List (GVK × ApiResource)) : AMap.WF (groupVersions d) := by
  induction d with
  | nil => simp [groupVersions, AMap.WF]
  | cons e d ih => exact ih.set _ _

theorem groupVersions_get (d : List (GVK × ApiResource)) (g : String) :
    (groupVersions d).get g = if ∃ e ∈ d, e.1.group = g then some (((d.filter (fun e => e.1.group = g)).map (·.1.version)).reverse) else none := by
  induction d with
  | nil => simp [groupVersions, AMap.get]
  | cons e d ih =>
    obtain ⟨t, r⟩ := e
    simp only [groupVersions, AMap.get_set]
    by_cases h : t.group = g
    · subst h
      simp only [if_true, ih]
      by_cases h2 : ∃ e ∈ d, e.1.group = t.group
      · rw [if_pos h2]; simp
      · rw [if_neg h2]
        have : d.filter (fun e => decide (e.1.group = t.group)) = [] := by
          rw [List.filter_eq_nil_iff]
          intro e he hd
          exact h2 ⟨e, he, by simpa using hd⟩
        simp [this]
    · simp only [h, if_false, ih]
      by_cases h2 : ∃ e ∈ d, e.1.group = g
      · rw [if_pos h2, if_pos (by obtain ⟨e, he, hg⟩ := h2; exact ⟨e, List.mem_cons_of_mem _ he, hg⟩)]
        simp [h]
      · rw [if_neg h2, if_neg]
        rintro ⟨e, he, hg⟩
        rcases List.mem_cons.mp he with rfl | he
        · exact h hg
        · exact h2 ⟨e, he, hg⟩

/-- C57 in part: discovery lists each group with a registered view once; its versions are those of its views, with `v1alpha1` preferred.
Missing: a version is listed as often as the group has views, see `C57_version_count` and `C57_version_twice`. -/
theorem C57_groups_partial (h : List RegOp) (g : String) :
    ((Views.run h).groups.map (·.1)).Nodup ∧
    ((∃ vs p, (g, vs, p) ∈ (Views.run h).groups) ↔ ∃ v k, Registered h ⟨g, v, k⟩) ∧
    ∀ vs p, (g, vs, p) ∈ (Views.run h).groups → p = some viewVersion ∧ ∀ v, v ∈ vs ↔ ∃ k, Registered h ⟨g, v, k⟩ := by
  have hw := groupVersions_wf (Views.run h)
  have hs := Views.run_spec h
  have hmem : ∀ vs p, (g, vs, p) ∈ (Views.run h).groups ↔ (groupVersions (Views.run h)).get g = some vs ∧ p = preferred vs := by
    intro vs p
    simp only [Views.groups, List.mem_map]
    constructor
    · rintro ⟨⟨g', vs'⟩, hm, e⟩
      simp only [Prod.mk.injEq] at e
      obtain ⟨rfl, rfl, rfl⟩ := e
      exact ⟨AMap.get_of_mem hw hm, rfl⟩
    · rintro ⟨hg, rfl⟩
      exact ⟨(g, vs), AMap.mem_of_get hg, rfl⟩
  have hreg : ∀ t, Registered h t ↔ ∃ r, (t, r) ∈ Views.run h := by
    intro t
    rw [← Views.get_isSome_iff, Option.isSome_iff_exists]
    exact ⟨fun ⟨r, hr⟩ => ⟨r, AMap.mem_of_get hr⟩, fun ⟨r, hr⟩ => ⟨r, AMap.get_of_mem hs.1 hr⟩⟩
  have hvs : ∀ vs, (groupVersions (Views.run h)).get g = some vs → ∀ v, v ∈ vs ↔ ∃ k, Registered h ⟨g, v, k⟩ := by
    intro vs hg v
    rw [groupVersions_get] at hg
    split at hg
    · simp only [Option.some.injEq] at hg
      subst hg
      simp only [List.mem_reverse, List.mem_map, List.mem_filter, decide_eq_true_eq]
      constructor
      · rintro ⟨⟨t, r⟩, ⟨hm, rfl⟩, rfl⟩
        exact ⟨t.kind, (hreg _).mpr ⟨r, hm⟩⟩
      · rintro ⟨k, hk⟩
        obtain ⟨r, hr⟩ := (hreg _).mp hk
        exact ⟨(⟨g, v, k⟩, r), ⟨hr, rfl⟩, rfl⟩
    · cases hg
  refine ⟨?_, ?_, ?_⟩
  · have : (Views.run h).groups.map (·.1) = (groupVersions (Views.run h)).map Prod.fst := by
      simp [Views.groups]
    rw [this]; exact hw
  · constructor
    · rintro ⟨vs, p, hm⟩
      have hg := ((hmem vs p).mp hm).1
      rw [groupVersions_get] at hg
      split at hg
      · next hx =>
        obtain ⟨⟨t, r⟩, ht, rfl⟩ := hx
        exact ⟨t.version, t.kind, (hreg _).mpr ⟨r, ht⟩⟩
      · cases hg
    · rintro ⟨v, k, hk⟩
      obtain ⟨r, hr⟩ := (hreg _).mp hk
      have := groupVersions_get (Views.run h) g
      rw [if_pos ⟨_, hr, rfl⟩] at this
      exact ⟨_, _, (hmem _ _).mpr ⟨this, rfl⟩⟩
  · intro vs p hm
    obtain ⟨hg, rfl⟩ := (hmem vs p).mp hm
    refine ⟨?_, hvs vs hg⟩
    cases vs with
    | nil =>
      rw [groupVersions_get] at hg
      split at hg
      · next hx =>
        obtain ⟨⟨t, r⟩, ht, rfl⟩ := hx
        simp only [Option.some.injEq, List.reverse_eq_nil_iff, List.map_eq_nil_iff, List.filter_eq_nil_iff] at hg
        exact absurd (by simp) (hg _ ht)
      · cases hg
    | cons v vs =>
      obtain ⟨k, hk⟩ := (hvs _ hg v).mp (by simp)
      have hver : v = viewVersion := by
        have := hk.1
        simp only [isViewObjKind, isViewKind, Bool.and_eq_true, beq_iff_eq] at this
        exact this.1.2
      subst hver
      simp [preferred]

/-- C57: a version is listed once for each registered view of the group. -/
theorem C57_version_count (h : List RegOp) (g : String) (vs : List String) (p : Option String) (hm : (g, vs, p) ∈ (Views.run h).groups) :
    vs.length = ((Views.run h).registered.filter (fun t => t.group = g)).length := by
  simp only [Views.groups, List.mem_map, Prod.mk.injEq] at hm
  obtain ⟨⟨g', vs'⟩, hm, rfl, rfl, rfl⟩ := hm
  have := AMap.get_of_mem (groupVersions_wf (Views.run h)) hm
  rw [groupVersions_get] at this
  split at this
  · simp only [Option.some.injEq] at this
    rw [← this]
    simp only [List.length_reverse, List.length_map, Views.registered, List.filter_map]
    rfl
  · cases this

/-- C57, negation: with two views in a group its version is listed twice. -/
theorem C57_version_twice : (Views.run [.register (viewGVK "a" "V"), .register (viewGVK "a" "W")]).groups =
    [("a.view.dcontroller.io", ["v1alpha1", "v1alpha1"], some "v1alpha1")] := by decide

/-- C57: object kinds are recovered from their list kinds. -/
theorem C57_object_list (t : GVK) (h : isViewObjKind t = true) : isViewListKind (listFromObj t) = true ∧ objFromList (listFromObj t) = t := by
  have hl : listFromObj t = { t with kind := t.kind ++ "List" } := by simp [listFromObj, h]
  have hk : isViewKind t = true := by
    simp only [isViewObjKind, Bool.and_eq_true] at h; exact h.1
  have hk2 : isViewKind { t with kind := t.kind ++ "List" } = true := by simpa [isViewKind] using hk
  have hl2 : isViewListKind (listFromObj t) = true := by
    rw [hl, isViewListKind, hk2]; simp [endsList_append]
  refine ⟨hl2, ?_⟩
  rw [objFromList, if_pos hl2, hl]
  simp [trimList_append]

/-- C57: list kinds are recovered from their object kinds, if these do not end in `List` again. -/
theorem C57_list_object_partial (t : GVK) (h : isViewListKind t = true) (hl : endsList (trimList t.kind) = false) : listFromObj (objFromList t) = t := by
  have ho : objFromList t = { t with kind := trimList t.kind } := by simp [objFromList, h]
  simp only [isViewListKind, Bool.and_eq_true] at h
  have hk2 : isViewKind { t with kind := trimList t.kind } = true := by simpa [isViewKind] using h.1
  rw [ho, listFromObj, if_pos (by rw [isViewObjKind, hk2]; simp [hl])]
  simp [append_trimList h.2]

example : isViewObjKind (viewGVK "a" "Health") = true ∧ isViewListKind (viewGVK "a" "HealthList") = true ∧ endsList (trimList "HealthList") = false := by decide

/-- C57: a list kind has the resource of its object kind, which is its name in lower case. -/
theorem C57_list_resource (k : String) (h : ¬ ∃ k', k = k' ++ "List") : resourceFromKind (k ++ "List") = resourceFromKind k ∧ resourceFromKind k = lower k := by
  have hk : endsList k = false := by
    cases he : endsList k with
    | false => rfl
    | true => exact absurd ⟨_, (append_trimList he).symm⟩ h
  simp [resourceFromKind, endsList_append, trimList_append, hk]

example : resourceFromKind "HealthList" = "health" ∧ resourceFromKind "Health" = "health" := by decide

/-- C57, negation: a view whose kind ends in `List` cannot be registered, and asking for it means another kind. -/
theorem C57_list_kind : (Views.run [.register (viewGVK "a" "AllowList")]).registered = [] ∧ objFromList (viewGVK "a" "AllowList") = viewGVK "a" "Allow" := by decide

/-- C57: the kind of a resource is found, if no other registered view has a kind equal up to case. -/
theorem C57_kind_from_resource (h : List RegOp) (t : GVK) (ht : Registered h t)
    (hu : ∀ t', Registered h t' → lower t'.kind = lower t.kind → t'.kind = t.kind) :
    (Views.run h).kindFromResource (resourceFromKind t.kind) = some t.kind := by
  have hs := Views.run_spec h
  have hname : ∀ k, endsList k = false → resourceFromKind k = lower k := fun k hk => by simp [resourceFromKind, hk]
  have hend : ∀ t', Registered h t' → endsList t'.kind = false := fun t' hr => by
    have := hr.1
    simp only [isViewObjKind, Bool.and_eq_true, Bool.not_eq_true'] at this
    exact this.2
  have hget : ∀ t' r, (t', r) ∈ Views.run h → Registered h t' ∧ r.name = lower t'.kind := by
    intro t' r hm
    have hg := AMap.get_of_mem hs.1 hm
    have hr : Registered h t' := (Views.get_isSome_iff h _).mp (by rw [hg]; rfl)
    have := hs.2 t' r hg
    exact ⟨hr, by rw [this]; exact hname _ (hend _ hr)⟩
  rw [Views.kindFromResource, hname _ (hend _ ht)]
  cases hf : (Views.run h).find? (fun e => decide (e.2.name = lower t.kind ∨ lower e.1.kind = lower t.kind)) with
  | none =>
    rw [List.find?_eq_none] at hf
    have hsome := (Views.get_isSome_iff h _).mpr ht
    obtain ⟨r', hg⟩ := Option.isSome_iff_exists.mp hsome
    exact absurd (by simp) (hf _ (AMap.mem_of_get hg))
  | some e =>
    have hp := List.find?_some hf
    have hm := List.mem_of_find?_eq_some hf
    obtain ⟨t', r⟩ := e
    obtain ⟨hr, hn⟩ := hget t' r hm
    simp only [decide_eq_true_eq, hn, or_self] at hp
    simp [hu t' hr hp]

example : Registered [.register (viewGVK "a" "V")] (viewGVK "a" "V") := ⟨by decide, [], [], rfl, by simp⟩

/-- C57, negation: for kinds that differ in case only the answer depends on the order of the map. -/
theorem C57_case_collision :
    Views.kindFromResource [(viewGVK "a" "Foo", ⟨"foo", "Foo", "a.view.dcontroller.io", "v1alpha1"⟩), (viewGVK "b" "FOO", ⟨"foo", "FOO", "b.view.dcontroller.io", "v1alpha1"⟩)] "foo" = some "Foo" ∧
    Views.kindFromResource [(viewGVK "b" "FOO", ⟨"foo", "FOO", "b.view.dcontroller.io", "v1alpha1"⟩), (viewGVK "a" "Foo", ⟨"foo", "Foo", "a.view.dcontroller.io", "v1alpha1"⟩)] "foo" = some "FOO" := by decide

/-! ## C65 -/

/-- C65: a source or target with no group or the operator's own group is the operator's view of that kind, whatever version is given. -/
theorem C65_own (native : String → String → Option GVK) (op kind : String) (version : Option String) (hk : kind ≠ "") :
    resourceGVK native op none version kind = some ⟨op ++ ".view.dcontroller.io", "v1alpha1", kind⟩ ∧
    resourceGVK native op (some (op ++ ".view.dcontroller.io")) version kind = some ⟨op ++ ".view.dcontroller.io", "v1alpha1", kind⟩ := by
  have hg : op ++ ".view.dcontroller.io" = viewGroup op := String.toList_injective (by
    simp [viewGroup_toList, groupSuffix, String.toList_append])
  rw [hg]
  constructor <;> simp [resourceGVK, hk, isViewGroup_viewGroup, viewVersion]

example : resourceGVK (fun _ _ => none) "op" none (some "v7") "Health" = some ⟨"op.view.dcontroller.io", "v1alpha1", "Health"⟩ := by decide

/-- C65: a view group that is not the operator's own gets the view version, if no version is given. -/
theorem C65_foreign (native : String → String → Option GVK) (op other kind : String) (hk : kind ≠ "") :
    resourceGVK native op (some (viewGroup other)) none kind = some (viewGVK other kind) := by
  simp only [resourceGVK, hk, if_false, isViewGroup_viewGroup, if_true]
  split <;> rfl

/-- C65: a native kind with group and version is taken as it is, and one without version is resolved by the REST mapper. -/
theorem C65_native (native : String → String → Option GVK) (op g v kind : String) (hk : kind ≠ "") (hg : isViewGroup g = false) :
    resourceGVK native op (some g) (some v) kind = some ⟨g, v, kind⟩ ∧ resourceGVK native op (some g) none kind = native g kind := by
  have hne : g ≠ viewGroup op := by rintro rfl; rw [isViewGroup_viewGroup] at hg; cases hg
  constructor <;> simp [resourceGVK, hk, hg, hne]

example : isViewGroup "" = false ∧ isViewGroup "apps" = false := by decide

/-- C65: the only failures are an empty kind and a native kind the REST mapper does not know. -/
theorem C65_fails_iff (native : String → String → Option GVK) (op : String) (group version : Option String) (kind : String) :
    resourceGVK native op group version kind = none ↔
      kind = "" ∨ (version = none ∧ ∃ g, group = some g ∧ isViewGroup g = false ∧ native g kind = none) := by
  by_cases hk : kind = ""
  · simp [resourceGVK, hk]
  · cases group with
    | none => simp [resourceGVK, hk, isViewGroup_viewGroup]
    | some g =>
      by_cases hg : g = viewGroup op
      · subst hg; simp [resourceGVK, hk, isViewGroup_viewGroup]
      · cases version with
        | none => cases hv : isViewGroup g <;> simp [resourceGVK, hk, hg, hv]
        | some v => simp [resourceGVK, hk, hg]

/-- C65, negation: the view of another operator given with a version other than `v1alpha1` is not recognised as a view, so that it is looked up
in the native API, although it is in a view group. -/
theorem C65_foreign_version (native : String → String → Option GVK) :
    resourceGVK native "op" (some (viewGroup "other")) (some "v1") "Health" = some ⟨viewGroup "other", "v1", "Health"⟩ ∧
    isViewKind ⟨viewGroup "other", "v1", "Health"⟩ = false := by
  refine ⟨?_, by decide⟩
  have : viewGroup "other" ≠ viewGroup "op" := by decide
  simp [resourceGVK, this]

end Dctl
