import Verif.Spec.Graph
/-!
# The drawing of an operator (C101)
-/
set_option autoImplicit false
set_option linter.unusedSectionVars false
namespace Dctl

theorem viewProducer_some {key : String} {ctls : List VCtl} {r : Option (String × String)} {p t : String} (h : viewProducer key ctls r = some (p, t)) :
    r = some (p, t) ∨ ∃ c ∈ ctls, c.target.isView = true ∧ c.target.key = key ∧ p = c.name ∧ t = c.target.type := by
  induction ctls generalizing r with
  | nil => exact .inl h
  | cons c cs ih =>
    rcases ih h with h' | ⟨d, hd, h'⟩
    · split at h'
      · next hc =>
        simp only [Option.some.injEq, Prod.mk.injEq] at h'
        exact .inr ⟨c, by simp, hc.1, hc.2, h'.1.symm, h'.2.symm⟩
      · exact .inl h'
    · exact .inr ⟨d, by simp [hd], h'⟩

theorem viewProducer_isSome {key : String} {ctls : List VCtl} {r : Option (String × String)} (h : r.isSome = true ∨ ∃ c ∈ ctls, c.target.isView = true ∧ c.target.key = key) :
    (viewProducer key ctls r).isSome = true := by
  induction ctls generalizing r with
  | nil =>
    rcases h with h | ⟨c, hc, -⟩
    · exact h
    · cases hc
  | cons c cs ih =>
    refine ih ?_
    split
    · exact .inl rfl
    · next hn =>
      rcases h with h | ⟨d, hd, h'⟩
      · exact .inl h
      · rcases List.mem_cons.mp hd with rfl | hd
        · exact absurd h' hn
        · exact .inr ⟨d, hd, h'⟩

/-- With distinct names, a controller is found by its name. -/
theorem find_name {ctls : List VCtl} (hn : (ctls.map VCtl.name).Nodup) {c : VCtl} (hc : c ∈ ctls) (hv : c.target.isView = true) :
    ctls.find? (fun d => d.name == c.name && d.target.isView) = some c := by
  induction ctls with
  | nil => cases hc
  | cons d ds ih =>
    rw [List.map_cons, List.nodup_cons] at hn
    rcases List.mem_cons.mp hc with rfl | hc'
    · rw [List.find?_cons_of_pos (by simp [hv])]
    · have : d.name ≠ c.name := fun e => hn.1 (e ▸ List.mem_map.mpr ⟨c, hc', rfl⟩)
      rw [List.find?_cons_of_neg (by simp [this]), ih hn.2 hc']

theorem mem_connections {ctls : List VCtl} {n : VConn} : n ∈ connections ctls ↔
    ∃ c ∈ ctls, ∃ s ∈ c.sources, s.isView = true ∧ ∃ p t, viewProducer s.key ctls none = some (p, t) ∧ n = ⟨p, c.name, s.kind, t, s.type⟩ := by
  simp only [connections, List.mem_flatMap, List.mem_filterMap]
  constructor
  · rintro ⟨c, hc, s, hs, h⟩
    split at h
    · next hv =>
      split at h
      · next p t hp => exact ⟨c, hc, s, hs, hv, p, t, hp, (Option.some.inj h).symm⟩
      · cases h
    · cases h
  · rintro ⟨c, hc, s, hs, hv, p, t, hp, rfl⟩
    exact ⟨c, hc, s, hs, by rw [if_pos hv, hp]⟩

/-- The producer of a connection, and its view. -/
theorem connection_view {ctls : List VCtl} (hn : (ctls.map VCtl.name).Nodup) {key p t : String} (h : viewProducer key ctls none = some (p, t)) :
    ∃ c ∈ ctls, p = c.name ∧ t = c.target.type ∧ c.target.isView = true ∧ c.target.key = key ∧ ∀ k d st, (connView ctls ⟨p, d, k, t, st⟩) = c.target := by
  rcases viewProducer_some h with h' | ⟨c, hc, hv, hk, rfl, rfl⟩
  · cases h'
  · refine ⟨c, hc, rfl, rfl, hv, hk, fun k d st => ?_⟩
    rw [connView, find_name hn hc hv]

/-- **C101** (nothing invented): if the controllers have different names, every edge of the drawing is one from a source of a controller to that controller, or one
from a controller to its target, with the right label. -/
theorem C101_sound (ctls : List VCtl) (hn : (ctls.map VCtl.name).Nodup) (e : VEdge) (h : e ∈ drawnEdges ctls) : IsRead ctls e ∨ IsWrite ctls e := by
  simp only [drawnEdges, List.mem_append] at h
  rcases h with (h | h) | h
  · simp only [sourceEdges, List.mem_flatMap, List.mem_filterMap] at h
    obtain ⟨c, hc, s, hs, h⟩ := h
    split at h
    · cases h
    · exact .inl ⟨c, hc, s, hs, (Option.some.inj h).symm⟩
  · simp only [targetEdges, List.mem_filterMap] at h
    obtain ⟨c, hc, h⟩ := h
    split at h
    · exact .inr ⟨c, hc, (Option.some.inj h).symm⟩
    · cases h
  · simp only [viewEdges, List.mem_flatMap] at h
    obtain ⟨n, hn', h⟩ := h
    obtain ⟨c, hc, s, hs, hv, p, t, hp, rfl⟩ := mem_connections.mp hn'
    obtain ⟨d, hd, rfl, rfl, -, hk, hview⟩ := connection_view hn hp
    rw [hview] at h
    simp only [List.mem_cons, List.not_mem_nil, or_false] at h
    rcases h with rfl | rfl
    · exact .inr ⟨d, hd, rfl⟩
    · exact .inl ⟨c, hc, s, hs, by rw [hk]; rfl⟩

/-- **C101** (in part): if the controllers have different names, no view is the target of two controllers, and every view that is read is the target of some
controller, then the drawing has an edge for every source and every target of every controller, and no other. Missing: views with several writers (`C101_lost_writer`),
views written by nobody in the operator (`C101_lost_reader`), views referred to in different ways (`C101_split_view`). -/
theorem C101_drawing_partial (ctls : List VCtl) (hn : (ctls.map VCtl.name).Nodup)
    (hone : ∀ c ∈ ctls, ∀ d ∈ ctls, c.target.isView = true → c.target.key = d.target.key → c = d)
    (hclosed : ∀ c ∈ ctls, ∀ s ∈ c.sources, s.isView = true → ∃ d ∈ ctls, d.target.isView = true ∧ d.target.key = s.key) (e : VEdge) :
    e ∈ drawnEdges ctls ↔ IsRead ctls e ∨ IsWrite ctls e := by
  have hconn : ∀ c ∈ ctls, ∀ s ∈ c.sources, s.isView = true → ∀ d ∈ ctls, d.target.isView = true → d.target.key = s.key →
      (d.name, s.key, labelOr "Updater" d.target.type) ∈ viewEdges ctls ∧ (s.key, c.name, labelOr "Watcher" s.type) ∈ viewEdges ctls := by
    intro c hc s hs hv d hd hdv hdk
    have hsome := viewProducer_isSome (r := none) (.inr ⟨d, hd, hdv, hdk⟩)
    obtain ⟨⟨p, t⟩, hp⟩ := Option.isSome_iff_exists.mp hsome
    obtain ⟨d', hd', rfl, rfl, hdv', hk, hview⟩ := connection_view hn hp
    obtain rfl := hone d hd d' hd' hdv (by rw [hdk, hk])
    have hmem := mem_connections.mpr ⟨c, hc, s, hs, hv, _, _, hp, rfl⟩
    constructor
    · refine List.mem_flatMap.mpr ⟨_, hmem, ?_⟩
      rw [hview, hk]; simp
    · refine List.mem_flatMap.mpr ⟨_, hmem, ?_⟩
      rw [hview, hk]; simp
  refine ⟨C101_sound ctls hn e, ?_⟩
  simp only [drawnEdges, List.mem_append]
  rintro (⟨c, hc, s, hs, rfl⟩ | ⟨c, hc, rfl⟩)
  · by_cases hv : s.isView = true
    · obtain ⟨d, hd, hdv, hdk⟩ := hclosed c hc s hs hv
      exact .inr (hconn c hc s hs hv d hd hdv hdk).2
    · refine .inl (.inl ?_)
      simp only [sourceEdges, List.mem_flatMap, List.mem_filterMap]
      exact ⟨c, hc, s, hs, by rw [if_neg hv]; rfl⟩
  · by_cases ht : (!c.target.isView || isTerminal ctls c) = true
    · refine .inl (.inr ?_)
      simp only [targetEdges, List.mem_filterMap]
      exact ⟨c, hc, by rw [if_pos ht]; rfl⟩
    · simp only [Bool.or_eq_true, Bool.not_eq_true', not_or, Bool.not_eq_false] at ht
      have hu := ht.2
      simp only [isTerminal, ht.1, Bool.true_and, Bool.not_eq_true, Bool.not_eq_false', List.any_eq_true, Bool.and_eq_true, beq_iff_eq] at hu
      obtain ⟨d, hd, s, hs, hsv, hsk⟩ := hu
      refine .inr ?_
      have := (hconn d hd s hs hsv c hc ht.1 hsk.symm).1
      rw [hsk] at this
      exact this

/-- **C101** (nothing invented): every edge of the drawing of an operator whose controllers have different names is one from a source to its controller, or from a
controller to its target, as given in the operator, with the type given. -/
theorem C101_of_spec (ctls : List VSpec) (hn : (ctls.map VSpec.name).Nodup) (e : VEdge) (h : e ∈ drawnEdges (visGraph ctls)) : OfSpec ctls e := by
  have hk : ∀ r : VRes, ∀ t, (buildRef r.group r.version r.kind t).key = r.shown := by
    intro r t
    cases r with
    | mk g v k t => cases g <;> cases v <;> rfl
  have hn' : ((visGraph ctls).map VCtl.name).Nodup := by
    simpa only [visGraph, List.map_map, Function.comp_def] using hn
  rcases C101_sound _ hn' e h with ⟨c, hc, s, hs, rfl⟩ | ⟨c, hc, rfl⟩
  · simp only [visGraph, List.mem_map] at hc
    obtain ⟨d, hd, rfl⟩ := hc
    simp only [List.mem_map] at hs
    obtain ⟨r, hr, rfl⟩ := hs
    refine .inl ⟨d, hd, r, hr, ?_⟩
    simp only [sourceRef, hk]
    by_cases ht : r.type = ""
    · simp [ht, buildRef]
    · simp [ht, buildRef]
  · simp only [visGraph, List.mem_map] at hc
    obtain ⟨d, hd, rfl⟩ := hc
    refine .inr ⟨d, hd, ?_⟩
    simp only [hk]
    rfl

example : (drawnEdges (visGraph [⟨"c", [⟨some "apps", some "v1", "Deployment", "Periodic"⟩], ⟨none, none, "PodView", ""⟩⟩])) =
    [("apps/v1/Deployment", "c", "Periodic"), ("c", "//PodView", "Updater")] := by decide +kernel

/-- The endpoint slice operator of the examples. -/
def exDrawn : List VCtl :=
  [⟨"service-controller", [sourceRef (some "") (some "v1") "Service" ""], buildRef none none "ServiceView" "Updater"⟩,
   ⟨"endpointslice-controller", [sourceRef none none "ServiceView" "", sourceRef (some "discovery.k8s.io") (some "v1") "EndpointSlice" ""], buildRef none none "EndpointView" "Updater"⟩]

example : (exDrawn.map VCtl.name).Nodup ∧ (∀ c ∈ exDrawn, ∀ d ∈ exDrawn, c.target.isView = true → c.target.key = d.target.key → c = d) ∧
    (∀ c ∈ exDrawn, ∀ s ∈ c.sources, s.isView = true → ∃ d ∈ exDrawn, d.target.isView = true ∧ d.target.key = s.key) := by decide +kernel

example : (drawnEdges exDrawn).length = 5 ∧ ("service-controller", "//ServiceView", "Updater") ∈ drawnEdges exDrawn := by decide +kernel

/-- **C101**, negation: a view with two writers: the edge of the first is not drawn. -/
theorem C101_lost_writer : ∃ ctls : List VCtl, (ctls.map VCtl.name).Nodup ∧ ∃ e, IsWrite ctls e ∧ e ∉ drawnEdges ctls :=
  ⟨[⟨"a", [], buildRef none none "HealthView" "Patcher"⟩, ⟨"b", [], buildRef none none "HealthView" "Patcher"⟩, ⟨"c", [sourceRef none none "HealthView" ""], buildRef (some "") (some "v1") "Pod" "Patcher"⟩],
    by decide, ("a", "//HealthView", "Patcher"), ⟨_, List.mem_cons_self, rfl⟩, by decide +kernel⟩

/-- **C101**, negation: a view that no controller of the operator writes: that it is read is not drawn. -/
theorem C101_lost_reader : ∃ ctls : List VCtl, (ctls.map VCtl.name).Nodup ∧ ∃ e, IsRead ctls e ∧ e ∉ drawnEdges ctls :=
  ⟨[⟨"c", [sourceRef none none "HealthView" ""], buildRef (some "") (some "v1") "Pod" "Patcher"⟩],
    by decide, ("//HealthView", "c", "Watcher"), ⟨_, List.mem_cons_self, _, List.mem_cons_self, rfl⟩, by decide +kernel⟩

/-- **C101**, negation: one controller refers to a view by its kind, another one by its group and kind: for the operator it is the same view, in the drawing
the two controllers are not connected. -/
theorem C101_split_view : ∃ (op : String) (w r : VCtl) (s : VRef), s ∈ r.sources ∧
    w.target = buildRef none none "HealthView" "Updater" ∧ s = sourceRef (some (viewGroup op)) none "HealthView" "" ∧
    (∀ native, resourceGVK native op none none "HealthView" = resourceGVK native op (some (viewGroup op)) none "HealthView") ∧
    ∀ e ∈ drawnEdges [w, r], e.2.1 ≠ r.name :=
  ⟨"op", ⟨"a", [], buildRef none none "HealthView" "Updater"⟩, ⟨"b", [sourceRef (some (viewGroup "op")) none "HealthView" ""], buildRef (some "") (some "v1") "Pod" "Patcher"⟩, _,
    List.mem_cons_self, rfl, rfl, fun _ => by simp [resourceGVK], by decide +kernel⟩

end Dctl
