import Verif.Cache.Discovery
import Verif.Apiserver.StorageLemmas
import Verif.Operator.LifecycleLemmas
import Verif.Props.Group
/-!
# C103: discovery of views and native resources
-/
set_option autoImplicit false
set_option linter.unusedSectionVars false
namespace Dctl

theorem registered_view {h : List RegOp} {t : GVK} (hr : Registered h t) : isViewKind t = true ∧ isViewGroup t.group = true ∧ t.version = viewVersion ∧ endsList t.kind = false := by
  have h1 := hr.1
  simp only [isViewObjKind, isViewKind, Bool.and_eq_true, beq_iff_eq, Bool.not_eq_true'] at h1
  refine ⟨by simp [isViewKind, h1.1.1, h1.1.2], h1.1.1, h1.1.2, h1.2⟩

theorem viewGroup_ne {g : String} (h : isViewGroup g = true) : g ≠ "" := by
  rintro rfl
  revert h; decide

theorem gvString_view {t : GVK} (h : isViewGroup t.group = true) : gvString t = t.group ++ "/" ++ t.version := by
  rw [gvString, if_neg (viewGroup_ne h)]

theorem resources_lower (h : List RegOp) (g v : String) (r : ApiResource) :
    r ∈ (Views.run h).resources g v ↔ ∃ kind, Registered h ⟨g, v, kind⟩ ∧ r = ⟨lower kind, kind, g, v⟩ := by
  rw [C57_resources]
  constructor <;> rintro ⟨kind, hr, rfl⟩ <;> refine ⟨kind, hr, ?_⟩ <;> simp [resourceFromKind, (registered_view hr).2.2.2]

/-- **C103** (views): the resources of a group version of views are those of its registered views, whatever the native client answers. -/
theorem C103_views (h : List RegOp) (n : Option NativeDisc) (g : String) (hg : isViewGroup g = true) (hs : '/' ∉ g.toList) :
    ∃ l, (⟨Views.run h, n⟩ : CompDisc).resourcesFor (g ++ "/" ++ viewVersion) = some l ∧ l.groupVersion = g ++ "/" ++ viewVersion ∧
      ∀ r, r ∈ l.resources ↔ ∃ kind, Registered h ⟨g, viewVersion, kind⟩ ∧ r = ⟨lower kind, kind, g, viewVersion⟩ := by
  have hp := gvString_parse (t := ⟨g, viewVersion, ""⟩) (by simp [isViewKind, hg]) hs
  rw [gvString_view hg] at hp
  refine ⟨⟨g ++ "/" ++ viewVersion, (Views.run h).resources g viewVersion⟩, ?_, rfl, fun r => resources_lower h g viewVersion r⟩
  simp only [CompDisc.resourcesFor, Views.resourcesFor, hp, hg, if_true]

/-- **C103** (native): the resources of any other group version are those the native client gives; without native client there are none. -/
theorem C103_native (d : Views) (n : Option NativeDisc) (s g v : String) (hp : parseGroupVersion s = some (g, v)) (hg : isViewGroup g = false) :
    (⟨d, n⟩ : CompDisc).resourcesFor s = n.bind (fun n => n.resourcesFor s) := by
  simp only [CompDisc.resourcesFor, hp, hg]
  cases n <;> rfl

theorem resourceLists_spec (d : Views) : ∀ l : List String, (∀ s ∈ l, parseGroupVersion s ≠ none) →
    ∃ ls, d.resourceLists l = some ls ∧
      (∀ x, x ∈ ls ↔ ∃ g v, x.groupVersion ∈ l ∧ parseGroupVersion x.groupVersion = some (g, v) ∧ x.resources = d.resources g v ∧ x.resources ≠ []) ∧
      List.Sublist (ls.map (·.groupVersion)) l
  | [], _ => ⟨[], rfl, by simp, by simp⟩
  | s :: l, h => by
    obtain ⟨ls, e, hm, hsub⟩ := resourceLists_spec d l (fun x hx => h x (by simp [hx]))
    cases hp : parseGroupVersion s with
    | none => exact absurd hp (h s (by simp))
    | some gv =>
      obtain ⟨g, v⟩ := gv
      simp only [Views.resourceLists, Views.resourcesFor, hp, e]
      refine ⟨_, rfl, ?_, ?_⟩
      · intro x
        by_cases hr : d.resources g v = []
        · rw [if_pos hr, hm]
          constructor
          · rintro ⟨g', v', a, b, c, d'⟩; exact ⟨g', v', by simp [a], b, c, d'⟩
          · rintro ⟨g', v', a, b, c, d'⟩
            rcases List.mem_cons.mp a with a | a
            · rw [a, hp] at b
              simp only [Option.some.injEq, Prod.mk.injEq] at b
              rw [← b.1, ← b.2] at c
              exact absurd (c.trans hr) d'
            · exact ⟨g', v', a, b, c, d'⟩
        · rw [if_neg hr, List.mem_cons, hm]
          constructor
          · rintro (rfl | ⟨g', v', a, b, c, d'⟩)
            · exact ⟨g, v, by simp, hp, rfl, hr⟩
            · exact ⟨g', v', by simp [a], b, c, d'⟩
          · rintro ⟨g', v', a, b, c, d'⟩
            rcases List.mem_cons.mp a with a | a
            · left
              rw [a, hp] at b
              simp only [Option.some.injEq, Prod.mk.injEq] at b
              cases x with
              | mk xs xr => simp only at a c; rw [a, c, b.1, b.2]
            · exact Or.inr ⟨g', v', a, b, c, d'⟩
      · by_cases hr : d.resources g v = []
        · simp only [hr, if_pos]; exact hsub.cons _
        · simp only [hr, if_false, List.map_cons]; exact hsub.cons_cons _

/-- What view discovery lists: every registered view in the list of its group and version, nothing else, each list once. -/
theorem views_lists (h : List RegOp) (hs : ∀ t, Registered h t → '/' ∉ t.group.toList) :
    ∃ ls, (Views.run h).groupsAndResources = some ((Views.run h).groups, ls) ∧ (ls.map (·.groupVersion)).Nodup ∧
      ∀ s r, (∃ l ∈ ls, l.groupVersion = s ∧ r ∈ l.resources) ↔
        ∃ t, Registered h t ∧ s = t.group ++ "/" ++ t.version ∧ r = ⟨lower t.kind, t.kind, t.group, t.version⟩ := by
  have hreg : ∀ t, t ∈ (Views.run h).registered ↔ Registered h t := fun t => (C57_registered h t).1
  have hmem : ∀ s, s ∈ (Views.run h).groupVersionStrings ↔ ∃ t, Registered h t ∧ s = gvString t := by
    intro s
    rw [Views.groupVersionStrings, List.mem_eraseDups, List.mem_map]
    constructor
    · rintro ⟨e, he, rfl⟩
      exact ⟨e.1, (hreg _).mp (List.mem_map_of_mem he), rfl⟩
    · rintro ⟨t, ht, rfl⟩
      obtain ⟨e, he, rfl⟩ := List.mem_map.mp ((hreg t).mpr ht)
      exact ⟨e, he, rfl⟩
  have hparse : ∀ t, Registered h t → parseGroupVersion (gvString t) = some (t.group, t.version) := fun t ht => gvString_parse (registered_view ht).1 (hs t ht)
  obtain ⟨ls, e, hm, hsub⟩ := resourceLists_spec (Views.run h) (Views.run h).groupVersionStrings (by
    intro s hmS hn
    obtain ⟨t, ht, rfl⟩ := (hmem s).mp hmS
    rw [hparse t ht] at hn; cases hn)
  refine ⟨ls, by rw [Views.groupsAndResources, e], hsub.nodup (eraseDups_nodup _ _ (Nat.le_refl _)), fun s r => ?_⟩
  constructor
  · rintro ⟨l, hl, rfl, hr⟩
    obtain ⟨g, v, a, b, c, _⟩ := (hm l).mp hl
    obtain ⟨t, ht, ha⟩ := (hmem _).mp a
    rw [c] at hr
    obtain ⟨kind, hk, rfl⟩ := (resources_lower h g v r).mp hr
    rw [ha, hparse t ht] at b
    simp only [Option.some.injEq, Prod.mk.injEq] at b
    refine ⟨⟨g, v, kind⟩, hk, ?_, rfl⟩
    rw [ha, gvString_view (registered_view ht).2.1, b.1, b.2]
  · rintro ⟨t, ht, rfl, rfl⟩
    have hr := (resources_lower h t.group t.version ⟨lower t.kind, t.kind, t.group, t.version⟩).mpr ⟨t.kind, ht, rfl⟩
    refine ⟨⟨gvString t, (Views.run h).resources t.group t.version⟩, (hm _).mpr ⟨t.group, t.version, (hmem _).mpr ⟨t, ht, rfl⟩, hparse t ht, rfl, ?_⟩, ?_, hr⟩
    · exact List.ne_nil_of_mem hr
    · rw [gvString_view (registered_view ht).2.1]

/-- **C103** (everything, in part): discovery lists the groups and resources of the registered views and those the native client lists, nothing else, and each group
version of views in one list; the native mapper is made from this. Missing: it lists nothing at all if the native client reports an error (`C103_failure`) or some view has a slash in its group
(`C103_slash`). -/
theorem C103_all_partial (h : List RegOp) (hs : ∀ t, Registered h t → '/' ∉ t.group.toList) (n : NativeDisc) (hn : n.groupsAndResources.2 = false) :
    ∃ gs vs, (⟨Views.run h, some n⟩ : CompDisc).groupsAndResources = some (gs, vs ++ n.groupsAndResources.1.2) ∧
      (∀ (M : Type) (mk : List ApiGroup × List ResourceList → M), (⟨Views.run h, some n⟩ : CompDisc).nativeMapper mk = some (mk (gs, vs ++ n.groupsAndResources.1.2))) ∧
      (⟨Views.run h, none⟩ : CompDisc).groupsAndResources.map (·.2) = some vs ∧
      (∀ g, (∃ x p, (g, x, p) ∈ gs) ↔ (∃ v k, Registered h ⟨g, v, k⟩) ∨ ∃ x p, (g, x, p) ∈ n.groupsAndResources.1.1) ∧
      (vs.map (·.groupVersion)).Nodup ∧
      ∀ s r, (∃ l ∈ vs, l.groupVersion = s ∧ r ∈ l.resources) ↔
        ∃ t, Registered h t ∧ s = t.group ++ "/" ++ t.version ∧ r = ⟨lower t.kind, t.kind, t.group, t.version⟩ := by
  obtain ⟨ls, e, hnd, hm⟩ := views_lists h hs
  refine ⟨(Views.run h).groups ++ n.groupsAndResources.1.1, ls, ?_, ?_, ?_, ?_, hnd, hm⟩
  · simp [CompDisc.groupsAndResources, e, hn]
  · intro M mk
    simp [CompDisc.nativeMapper, CompDisc.groupsAndResources, e, hn]
  · simp [CompDisc.groupsAndResources, e]
  · intro g
    rw [← (C57_groups_partial h g).2.1]
    constructor
    · rintro ⟨x, p, hx⟩
      rcases List.mem_append.mp hx with hx | hx
      · exact Or.inl ⟨x, p, hx⟩
      · exact Or.inr ⟨x, p, hx⟩
    · rintro (⟨x, p, hx⟩ | ⟨x, p, hx⟩)
      · exact ⟨x, p, List.mem_append.mpr (Or.inl hx)⟩
      · exact ⟨x, p, List.mem_append.mpr (Or.inr hx)⟩

/-- **C103** (groups): the groups listed are those of the registered views and those of the native client; without native client those of the views, and if the native
client fails there is an error. -/
theorem C103_groups (h : List RegOp) (n : Option NativeDisc) :
    ((⟨Views.run h, n⟩ : CompDisc).groups = none ↔ ∃ m, n = some m ∧ m.groups = none) ∧
    ∀ gs, (⟨Views.run h, n⟩ : CompDisc).groups = some gs → ∀ g, (∃ x p, (g, x, p) ∈ gs) ↔
      (∃ v k, Registered h ⟨g, v, k⟩) ∨ ∃ m l, n = some m ∧ m.groups = some l ∧ ∃ x p, (g, x, p) ∈ l := by
  cases n with
  | none =>
    refine ⟨by simp [CompDisc.groups], fun gs hgs g => ?_⟩
    simp only [CompDisc.groups, Option.some.injEq] at hgs
    rw [← (C57_groups_partial h g).2.1, ← hgs]
    simp
  | some m =>
    cases hl : m.groups with
    | none => simp [CompDisc.groups, hl]
    | some l =>
      refine ⟨by simp [CompDisc.groups, hl], fun gs hgs g => ?_⟩
      simp only [CompDisc.groups, hl, Option.some.injEq] at hgs
      rw [← (C57_groups_partial h g).2.1, ← hgs]
      constructor
      · rintro ⟨x, p, hx⟩
        rcases List.mem_append.mp hx with hx | hx
        · exact Or.inl ⟨x, p, hx⟩
        · exact Or.inr ⟨m, l, rfl, hl, x, p, hx⟩
      · rintro (⟨x, p, hx⟩ | ⟨m', l', e, e', x, p, hx⟩)
        · exact ⟨x, p, List.mem_append.mpr (Or.inl hx)⟩
        · cases e
          rw [hl] at e'
          cases e'
          exact ⟨x, p, List.mem_append.mpr (Or.inr hx)⟩

/-- **C103** (preferred resources, in part): the same views, in front of the preferred resources of the native client. Missing: as in `C103_all_partial`. -/
theorem C103_preferred_partial (h : List RegOp) (hs : ∀ t, Registered h t → '/' ∉ t.group.toList) (n : NativeDisc) (hp : n.preferred.2 = false)
    (hpn : n.preferredNamespaced.2 = false) :
    ∃ vs, (⟨Views.run h, some n⟩ : CompDisc).preferred = some (vs ++ n.preferred.1) ∧
      (⟨Views.run h, some n⟩ : CompDisc).preferredNamespaced = some (vs ++ n.preferredNamespaced.1) ∧ (vs.map (·.groupVersion)).Nodup ∧
      ∀ s r, (∃ l ∈ vs, l.groupVersion = s ∧ r ∈ l.resources) ↔
        ∃ t, Registered h t ∧ s = t.group ++ "/" ++ t.version ∧ r = ⟨lower t.kind, t.kind, t.group, t.version⟩ := by
  obtain ⟨ls, e, hnd, hm⟩ := views_lists h hs
  exact ⟨ls, by simp [CompDisc.preferred, e, hp], by simp [CompDisc.preferredNamespaced, e, hpn], hnd, hm⟩

/-- A cluster with Pods, where one aggregated API may not answer. -/
def exNative (fails : Bool) : NativeDisc where
  resourcesFor s := if s = "v1" then some ⟨"v1", [⟨"pods", "Pod", "", "v1"⟩]⟩ else none
  groups := some [("", ["v1"], some "v1")]
  groupsAndResources := (([("", ["v1"], some "v1")], [⟨"v1", [⟨"pods", "Pod", "", "v1"⟩]⟩]), fails)
  preferred := ([⟨"v1", [⟨"pods", "Pod", "", "v1"⟩]⟩], fails)
  preferredNamespaced := ([⟨"v1", [⟨"pods", "Pod", "", "v1"⟩]⟩], fails)

/-- Two views of one operator. -/
def exRegs : List RegOp := [.register (viewGVK "a" "V"), .register (viewGVK "a" "Health"), .register (viewGVK "a" "W"), .unregister (viewGVK "a" "W")]

theorem exRegs_noslash : ∀ t, Registered exRegs t → '/' ∉ t.group.toList := by
  rintro t ⟨_, pre, post, e, _⟩
  have : RegOp.register t ∈ exRegs := by rw [e]; simp
  simp only [exRegs, List.mem_cons, RegOp.register.injEq, reduceCtorEq, List.not_mem_nil, or_false] at this
  rcases this with rfl | rfl | rfl <;> decide

example := C103_views exRegs (some (exNative false)) (viewGroup "a") (by decide) (by decide)
example : (⟨Views.run exRegs, some (exNative false)⟩ : CompDisc).resourcesFor "a.view.dcontroller.io/v1alpha1" =
    some ⟨"a.view.dcontroller.io/v1alpha1", [⟨"v", "V", "a.view.dcontroller.io", "v1alpha1"⟩, ⟨"health", "Health", "a.view.dcontroller.io", "v1alpha1"⟩]⟩ := by decide +kernel
example := C103_native (Views.run exRegs) (some (exNative false)) "v1" "" "v1" (by decide) (by decide)
example : ∃ gs, (⟨Views.run exRegs, some (exNative false)⟩ : CompDisc).groups = some gs ∧ gs.map Prod.fst = [viewGroup "a", ""] := ⟨_, rfl, by decide⟩
example := C103_all_partial exRegs exRegs_noslash (exNative false) rfl
example := C103_preferred_partial exRegs exRegs_noslash (exNative false) rfl rfl
example : (⟨Views.run exRegs, some (exNative false)⟩ : CompDisc).groupsAndResources.map (·.2) =
    some [⟨"a.view.dcontroller.io/v1alpha1", [⟨"v", "V", "a.view.dcontroller.io", "v1alpha1"⟩, ⟨"health", "Health", "a.view.dcontroller.io", "v1alpha1"⟩]⟩,
      ⟨"v1", [⟨"pods", "Pod", "", "v1"⟩]⟩] := by decide +kernel

/-- **C103** fails as stated: the legacy form of a discovery client has no views. -/
theorem C103_legacy_lost (legacy : NativeDisc → NativeDisc) (h : List RegOp) (n : NativeDisc) (g : String) (hg : isViewGroup g = true) (hs : '/' ∉ g.toList) :
    ((⟨Views.run h, some n⟩ : CompDisc).withLegacy legacy).resourcesFor (g ++ "/" ++ viewVersion) = some ⟨g ++ "/" ++ viewVersion, []⟩ := by
  have hp := gvString_parse (t := ⟨g, viewVersion, ""⟩) (by simp [isViewKind, hg]) hs
  rw [gvString_view hg] at hp
  simp [CompDisc.resourcesFor, CompDisc.withLegacy, CompDisc.new, Views.resourcesFor, hp, hg, Views.resources]

/-- **C103** fails as stated: when the native client reports an error beside its results, neither views nor native resources are listed, and a REST mapper made at that
time maps no native kind. -/
theorem C103_failure (d : Views) (n : NativeDisc) (hn : n.groupsAndResources.2 = true) (mk : List ApiGroup × List ResourceList → String → String → List String → Option RestMapping)
    (g k : String) (vs : List String) (hg : isViewGroup g = false) :
    (⟨d, some n⟩ : CompDisc).groupsAndResources = none ∧ restMapping true ((⟨d, some n⟩ : CompDisc).nativeMapper mk) g k vs = none := by
  have h1 : (⟨d, some n⟩ : CompDisc).groupsAndResources = none := by
    unfold CompDisc.groupsAndResources
    cases d.groupsAndResources with
    | none => rfl
    | some x => simp [hn]
  exact ⟨h1, by simp [restMapping, mapperIsView, hg, CompDisc.nativeMapper, h1]⟩

example := C103_failure (Views.run exRegs) (exNative true) rfl (fun _ _ _ _ => none) "" "Pod" [] (by decide)

/-- **C103** fails as stated: one view with a slash in its group, and nothing is listed. -/
theorem C103_slash (n : Option NativeDisc) : (⟨Views.run [.register (viewGVK "a" "V"), .register (viewGVK "b/c" "V")], n⟩ : CompDisc).groupsAndResources = none := by
  have h1 : (Views.run [.register (viewGVK "a" "V"), .register (viewGVK "b/c" "V")]).groupsAndResources = none := by decide +kernel
  simp [CompDisc.groupsAndResources, h1]

end Dctl
