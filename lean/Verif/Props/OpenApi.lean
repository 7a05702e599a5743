import Verif.Apiserver.TypesLemmas
/-!
# OpenAPI definitions and types of the API server (C107, C108)
-/
set_option autoImplicit false
set_option linter.unusedSectionVars false
namespace Dctl
open OpenApi

/-! ## C107: OpenAPI definitions -/

/-- **C107, partial.** Whatever the order the registered kinds are traversed in, the definitions generated describe exactly the registered view kinds. Missing: kinds
with dots in their names, see `C107_collide`. -/
theorem C107_generated_partial (base : Defs) (r : Regs) (order : List GVK) (ho : ∀ t, t ∈ order ↔ ∃ g, t ∈ r.now g) (hd : ∀ t ∈ order, '.' ∉ t.kind.toList) :
    Describes base r (generate base order) := generate_describes base ho hd

example : let t : GVK := ⟨"op.view.dcontroller.io", "v1alpha1", "Pods"⟩
    let r : Regs := ⟨fun g => if g = t.group then [t] else [], [t]⟩
    r.Has t ∧ ((generate [("x", ⟨none, none, []⟩)] [t]).map (·.1)) = ["x", "k8s.io/apimachinery/pkg/apis/meta/v1/unstructured.Unstructured",
      "k8s.io/apimachinery/pkg/apis/meta/v1/unstructured.UnstructuredList", "op.view.dcontroller.io.v1alpha1.Pods", "op.view.dcontroller.io/v1alpha1.PodsList"] := by
  refine ⟨⟨⟨"op.view.dcontroller.io", by decide⟩, by decide⟩, by decide⟩

/-- **C107, partial.** Whatever requests and registrations did so far and are doing, an answer describes what was registered at some moment up to now. Missing: that it is
what is registered now, see `C107_stale`; kinds with dots. -/
theorem C107_answers_partial (base : Defs) (libs : List String) (types : Types) (es : List OpenApi.Ev) (r : Regs) (s : Sv) (ans : List Ans)
    (hp : Path base libs anyStep Regs.none (Sv.init types) es r s ans) (hd : r.NoDots) (e : OpenApi.Ev) (hv : e.Valid r) (s' : Sv) (a : Ver × Defs)
    (hs : s.step base libs e = .ok s' (some a)) : ∃ es1, es1 <+: es ∧ Describes base (es1.foldl OpenApi.Ev.apply Regs.none) a.2 := by
  have h := hp.kept hd (Sync.init types) (Holds.init (fun _ => False) types)
  have hne : ∀ n o, e ≠ .generate n o := by
    rintro n o rfl
    simp only [Sv.step] at hs
    split at hs <;> simp at hs
  rcases (h.step hs (fun n o he => absurd he (hne n o))).2 a rfl with h | h
  · exact h.elim
  · exact h

/-- **C107, partial.** If no request holds definitions it has not stored yet while what is registered changes, every answer describes what is registered when it is
given. Missing: overlapping requests, see `C107_stale`; kinds with dots. -/
theorem C107_sequential_partial (base : Defs) (libs : List String) (types : Types) (es : List OpenApi.Ev) (r : Regs) (s : Sv) (ans : List Ans)
    (hp : Path base libs undisturbed Regs.none (Sv.init types) es r s ans) (hd : r.NoDots) : ∀ a ∈ ans, Describes base a.1 a.2.2 :=
  (hp.current hd (Sync.init types) (Holds.init _ types)).2

/-- **C107, partial.** Whatever happened before: after a change made while no request holds definitions, all answers describe what is registered, until the next change.
Missing: kinds with dots. -/
theorem C107_settles_partial (base : Defs) (libs : List String) (types : Types) (es : List OpenApi.Ev) (r : Regs) (s : Sv) (ans : List Ans)
    (hp : Path base libs anyStep Regs.none (Sv.init types) es r s ans) (hq : ∀ n v d, s.calls n ≠ .made v d) (e : OpenApi.Ev) (hv : e.Valid r) (hc : e.changes r) (s1 : Sv)
    (a : Option (Ver × Defs)) (hs : s.step base libs e = .ok s1 a) (es2 : List OpenApi.Ev) (r2 : Regs) (s2 : Sv) (ans2 : List Ans)
    (hp2 : Path base libs noChange (e.apply r) s1 es2 r2 s2 ans2) (hd : (e.apply r).NoDots) : ∀ x ∈ ans2, Describes base (e.apply r) x.2.2 := by
  have hy := hp.sync (Sync.init types)
  have hy1 := hy.step hv hs
  obtain ⟨c1, c2, -⟩ := change_clears hy hc hs
  obtain ⟨q1, q2⟩ := hp2.same hy1
  intro x hx
  have := (Path.current (hp2.mono (fun r s e h hc => absurd hc h)) (q1 ▸ hd) hy1
    ⟨fun v d h => absurd h (by rw [c1]; simp), fun n v d h => absurd (c2 ▸ h) (hq n v d)⟩).2 x hx
  rw [q2 x hx] at this
  exact this

/-- A path with two answers, from generating and from the cache, that ends in a state without requests under way. -/
example : let t : GVK := ⟨"op.view.dcontroller.io", "v1alpha1", "Pods"⟩
    ∃ r s ans, Path [] ["WatchEvent"] undisturbed Regs.none (Sv.init (fun _ => none))
      [.register t.group [t] ["v1alpha1"], .look 0 .v2, .generate 0 [t], .store 0, .look 1 .v2] r s ans ∧ r.NoDots ∧ r.Has t ∧ ans.length = 2 ∧ ∀ n v d, s.calls n ≠ .made v d := by
  refine ⟨_, _, _, .cons (a := none) ⟨by simp, by simp⟩ (fun _ n v d => by simp [Sv.init]) rfl (.cons (a := none) trivial (fun h => absurd h id) rfl
    (.cons (a := none) ?_ (fun h => absurd h id) rfl (.cons (a := some _) trivial (fun h => absurd h id) rfl (.cons (a := some _) trivial (fun h => absurd h id) rfl .nil)))), ?_, ?_, rfl, ?_⟩
  · intro g t h
    simp only [OpenApi.Ev.apply, show isViewGroup "op.view.dcontroller.io" = true by decide, if_true, Regs.none] at h
    split at h <;> simp_all
  · intro t h
    simp only [OpenApi.Ev.apply, show isViewGroup "op.view.dcontroller.io" = true by decide, if_true, Regs.none] at h
    simp at h
    subst h
    decide
  · exact ⟨⟨"op.view.dcontroller.io", by decide⟩, by decide⟩
  · intro n v d
    simp only [upd, Sv.init]
    split <;> simp [*]

/-- **C107, failure.** A request that has generated definitions when a kind is registered stores them after the registration has dropped the cache. From then on,
until something else is registered or unregistered, no answer of that version describes what is registered. (`openapi.go:27-31`: the definitions are generated under
one lock and stored under another, and nothing tells that they are out of date.) -/
theorem C107_stale (base : Defs) (libs : List String) (types : Types) (ht : ∀ t, isViewGroup t.group = true → types t = none) (v : Ver) (t : GVK) (vs : List String)
    (hk : isViewKind t = true) (hd : '.' ∉ t.kind.toList) (hn : ¬ Clash libs [t] t) (hb : base.get (t.group ++ "." ++ t.version ++ "." ++ t.kind) = none) :
    ∃ r s ans, Path base libs anyStep Regs.none (Sv.init types) [.look 0 v, .generate 0 [], .register t.group [t] vs, .store 0] r s ans ∧ r.Has t ∧
      (∀ n, s.calls n = .idle) ∧ (∃ d, s.cache v = some d) ∧
      ∀ es r' s' ans', Path base libs noChange r s es r' s' ans' → ∀ a ∈ ans', a.2.1 = v → ¬ Describes base a.1 a.2.2 := by
  have hg : isViewGroup t.group = true := by simp only [isViewKind, Bool.and_eq_true] at hk; exact hk.1
  have p1 : Path base libs anyStep Regs.none (Sv.init types) [.look 0 v, .generate 0 []] Regs.none
      { Sv.init types with calls := upd (upd (fun _ => Call.idle) 0 (.empty v)) 0 (.made v (generate base [])) } [] := by
    refine Path.cons (a := none) (s1 := { Sv.init types with calls := upd (fun _ => Call.idle) 0 (.empty v) }) trivial trivial rfl ?_
    refine Path.cons (a := none) ?_ trivial ?_ Path.nil
    · intro g t h; simp [OpenApi.Ev.apply, Regs.none] at h
    · simp only [Sv.step, upd, if_true, List.filter_nil]
  have hty := p1.typed (Typed.init ht)
  have hy := p1.sync (Sync.init types)
  have hval : (OpenApi.Ev.register t.group [t] vs).Valid Regs.none := ⟨by simp, by simp⟩
  obtain ⟨a1, a2⟩ := register_panics (base := base) hty hg hval
  obtain ⟨s3, hs3⟩ := a2 (by
    rw [Ne, a1]
    rintro ⟨x, hx, hc⟩
    simp only [List.mem_cons, List.not_mem_nil, or_false] at hx
    subst hx
    exact hn (by simpa [Regs.none] using hc))
  obtain ⟨c1, c2, -⟩ := change_clears (e := .register t.group [t] vs) hy hg hs3
  have hy3 := hy.step hval hs3
  have hs4 : s3.step base libs (.store 0) = .ok { s3 with cache := upd s3.cache v (some (generate base [])), calls := upd s3.calls 0 .idle } (some (v, generate base [])) := by
    simp only [Sv.step]
    rw [c2]
    simp only [upd, if_true]
  have hr : (OpenApi.Ev.register t.group [t] vs).apply Regs.none = ⟨fun x => if x = t.group then [t] else [], [t]⟩ := by
    simp only [OpenApi.Ev.apply, hg, if_true, Regs.none, List.nil_append]
  have hy4 := hy3.step (e := .store 0) trivial hs4
  have hidle : ∀ n, upd s3.calls 0 Call.idle n = .idle := by
    intro n
    rw [c2]
    simp only [upd]
    split <;> simp [*]
  refine ⟨(OpenApi.Ev.register t.group [t] vs).apply Regs.none, { s3 with cache := upd s3.cache v (some (generate base [])), calls := upd s3.calls 0 .idle }, [((OpenApi.Ev.store 0).apply ((OpenApi.Ev.register t.group [t] vs).apply Regs.none), v, generate base [])], ?_, ?_, hidle, ⟨generate base [], ?_⟩, ?_⟩
  rotate_left
  · rw [hr]
    exact ⟨⟨t.group, by simp⟩, hk⟩
  · simp [upd]
  · intro es r' s' ans' hp a ha hav hdesc
    obtain ⟨-, q2⟩ := hp.same hy4
    obtain ⟨-, u2⟩ := hp.stuck (v := v) (d0 := generate base []) hy4 ⟨by simp [upd], fun n => by
      show upd s3.calls 0 Call.idle n ≠ _ ∧ ∀ d, upd s3.calls 0 Call.idle n ≠ _
      rw [hidle]; simp⟩
    rw [q2 a ha, u2 a ha hav] at hdesc
    obtain ⟨d, e, -⟩ := hdesc.kinds t (by rw [hr]; exact ⟨⟨t.group, by simp⟩, hk⟩)
    obtain ⟨n1, n2⟩ := defName_unstruct hk hd
    change (generate base []).get (defName t) = some d at e
    change base.get (defName t) = none at hb
    rw [generate, addDefs, AMap.get_set, if_neg (fun h => n2 h.symm), AMap.get_set, if_neg (fun h => n1 h.symm), hb] at e
    cases e
  · -- the path
    have go : ∀ {r : Regs} {s : Sv} {es : List OpenApi.Ev} {r' : Regs} {s' : Sv} {ans : List Ans} {es2 : List OpenApi.Ev} {r2 : Regs} {s2 : Sv} {ans2 : List Ans},
        Path base libs anyStep r s es r' s' ans → Path base libs anyStep r' s' es2 r2 s2 ans2 → Path base libs anyStep r s (es ++ es2) r2 s2 (ans ++ ans2) := by
      intro r s es r' s' ans es2 r2 s2 ans2 h1 h2
      induction h1 with
      | nil => exact h2
      | cons hv ho hs _ ih =>
        rw [List.cons_append, List.append_assoc]
        exact .cons hv ho hs (ih h2)
    exact go p1 (Path.cons (a := none) hval trivial hs3 (Path.cons (e := .store 0) (a := some (v, generate base [])) trivial trivial hs4 Path.nil))

example : let t : GVK := ⟨"op.view.dcontroller.io", "v1alpha1", "Pods"⟩
    isViewKind t = true ∧ '.' ∉ t.kind.toList ∧ ¬ Clash ["WatchEvent", "ListOptions"] [t] t := by
  refine ⟨by decide, by decide, ?_⟩
  rintro (h | h | h | ⟨t', h1, h2, h3, h | h⟩)
  · exact absurd h (by decide)
  · exact absurd h (by decide)
  · exact absurd h (by decide)
  · simp at h1; subst h1; exact absurd h (by decide)
  · simp at h1; subst h1; exact absurd h (by decide)

/-- **C107, failure.** Two kinds whose definitions have the same name can be registered, and then no set of definitions describes what is registered. -/
theorem C107_collide (base : Defs) (types : Types) (ht : ∀ t, isViewGroup t.group = true → types t = none) :
    ∃ t1 t2 : GVK, t1 ≠ t2 ∧ ∃ r s, Path base [] anyStep Regs.none (Sv.init types) [.register t1.group [t1] ["v1alpha1"], .register t2.group [t2] ["v1alpha1"]] r s [] ∧
      ∀ defs, ¬ Describes base r defs := by
  let t1 : GVK := ⟨"a.view.dcontroller.io", "v1alpha1", "x.view.dcontroller.io.v1alpha1.k"⟩
  let t2 : GVK := ⟨"a.view.dcontroller.io.v1alpha1.x.view.dcontroller.io", "v1alpha1", "k"⟩
  have v1 : (OpenApi.Ev.register t1.group [t1] ["v1alpha1"]).Valid Regs.none := ⟨by simp, by simp⟩
  have g1 : isViewGroup t1.group = true := by decide
  have g2 : isViewGroup t2.group = true := by decide
  obtain ⟨a1, a2⟩ := register_panics (base := base) (libs := []) (Typed.init ht) g1 v1
  obtain ⟨s1, hs1⟩ := a2 (by
    rw [Ne, a1]
    rintro ⟨x, hx, hc⟩
    simp only [List.mem_cons, List.not_mem_nil, or_false] at hx
    subst hx
    rcases hc with h | h | h | ⟨t', h1, h2, h3, h | h⟩
    · exact absurd h (by decide)
    · simp at h
    · simp at h
    · simp [Regs.none] at h1; subst h1; exact absurd h (by decide)
    · simp [Regs.none] at h1; subst h1; exact absurd h (by decide))
  let r1 : Regs := (OpenApi.Ev.register t1.group [t1] ["v1alpha1"]).apply Regs.none
  have hr1 : r1 = ⟨fun x => if x = t1.group then [t1] else [], [t1]⟩ := by
    simp only [r1, OpenApi.Ev.apply, g1, if_true, Regs.none, List.nil_append]
  have hty1 := (Typed.init ht).step v1 hs1
  have v2 : (OpenApi.Ev.register t2.group [t2] ["v1alpha1"]).Valid r1 := ⟨by simp, by simp⟩
  obtain ⟨b1, b2⟩ := register_panics (base := base) (libs := []) hty1 g2 v2
  obtain ⟨s2, hs2⟩ := b2 (by
    rw [Ne, b1]
    rintro ⟨x, hx, hc⟩
    simp only [List.mem_cons, List.not_mem_nil, or_false] at hx
    subst hx
    rw [show (OpenApi.Ev.register t1.group [t1] ["v1alpha1"]).apply Regs.none = r1 from rfl, hr1] at hc
    rcases hc with h | h | h | ⟨t', h1, h2, h3, h⟩
    · exact absurd h (by decide)
    · simp at h
    · simp at h
    · simp at h1
      rcases h1 with rfl | rfl
      · exact absurd h2 (by decide)
      · exact absurd h (by decide))
  refine ⟨t1, t2, by decide, _, s2, Path.cons (a := none) v1 trivial hs1 (Path.cons (a := none) v2 trivial hs2 Path.nil), ?_⟩
  intro defs h
  have hr : (OpenApi.Ev.register t2.group [t2] ["v1alpha1"]).apply r1 = ⟨fun x => if x = t2.group then [t2] else r1.now x, r1.ever ++ [t2]⟩ := by
    simp only [OpenApi.Ev.apply, g2, if_true]
  change Describes base ((OpenApi.Ev.register t2.group [t2] ["v1alpha1"]).apply r1) defs at h
  rw [hr, hr1] at h
  obtain ⟨d1, e1, k1⟩ := h.kinds t1 ⟨⟨t1.group, by decide⟩, by decide⟩
  obtain ⟨d2, e2, k2⟩ := h.kinds t2 ⟨⟨t2.group, by decide⟩, by decide⟩
  have : (t1.group ++ "." ++ t1.version ++ "." ++ t1.kind) = (t2.group ++ "." ++ t2.version ++ "." ++ t2.kind) := by decide
  rw [this, e2] at e1
  simp only [Option.some.injEq] at e1
  subst e1
  rw [k1] at k2
  exact absurd k2 (by decide)

/-- **C107.** What the definitions of a view kind and of its list depend on is defined exactly if the library defines the object and list metadata under the dotted names
used here (other parts of the code use names with slashes). -/
theorem C107_references (base : Defs) (order : List GVK) (hd : ∀ t ∈ order, '.' ∉ t.kind.toList) (t : GVK) (ht : t ∈ order) (hk : isViewKind t = true) :
    (∃ d, (generate base order).get (t.group ++ "." ++ t.version ++ "." ++ t.kind) = some d ∧
      ((∀ x ∈ d.deps, (generate base order).get x ≠ none) ↔ base.get "k8s.io.apimachinery.pkg.apis.meta.v1.ObjectMeta" ≠ none)) ∧
    ∃ d, (generate base order).get (t.group ++ "/" ++ t.version ++ "." ++ (t.kind ++ "List")) = some d ∧
      ((∀ x ∈ d.deps, (generate base order).get x ≠ none) ↔ base.get "k8s.io.apimachinery.pkg.apis.meta.v1.ListMeta" ≠ none) := by
  have other : ∀ (name : String) (p k : List Char), '.' ∉ k → name.toList = p ++ '.' :: k → ¬ (".v1alpha1".toList <:+ p) → ¬ ("/v1alpha1".toList <:+ p) →
      name ≠ unstructName → name ≠ unstructListName → (generate base order).get name = base.get name := by
    intro name p k hk' e n1 n2 n3 n4
    rw [generate, addDefs_other, AMap.get_set, if_neg (fun h => n4 h.symm), AMap.get_set, if_neg (fun h => n3 h.symm)]
    intro x hx hv
    refine ⟨fun h => ?_, fun h => ?_⟩
    · rw [h, defName_chars hv] at e
      exact n1 ⟨_, (last_sep (hd x hx) hk' e).1⟩
    · rw [h, listDefName_chars hv] at e
      exact n2 ⟨_, (last_sep (noDotList (hd x hx)) hk' e).1⟩
  have o1 := other "k8s.io.apimachinery.pkg.apis.meta.v1.ObjectMeta" "k8s.io.apimachinery.pkg.apis.meta.v1".toList "ObjectMeta".toList (by decide) (by decide) (by decide) (by decide)
    (by decide) (by decide)
  have o2 := other "k8s.io.apimachinery.pkg.apis.meta.v1.ListMeta" "k8s.io.apimachinery.pkg.apis.meta.v1".toList "ListMeta".toList (by decide) (by decide) (by decide) (by decide)
    (by decide) (by decide)
  obtain ⟨k1, k2⟩ := addDefs_kind (defs := (base.set unstructName genUnstruct).set unstructListName genUnstructList) hd ht hk
  refine ⟨⟨_, k1, ?_⟩, _, k2, ?_⟩
  · simp only [genDef, List.mem_cons, List.not_mem_nil, or_false, forall_eq, o1]
  · have hx : (generate base order).get (defName t) ≠ none := by
      intro h
      rw [generate, k1] at h
      cases h
    simp only [genListDef, List.mem_cons, List.not_mem_nil, or_false, forall_eq_or_imp, forall_eq, o2]
    exact ⟨fun h => h.1, fun h => ⟨h, hx⟩⟩

/-! ## C108: registering kinds -/

/-- **C108, partial.** After any steps, registering a view group panics exactly if one of its kinds clashes with the kinds registered so far, whether or not they still
are; otherwise it succeeds. Missing: that kinds do not clash, see `C108_panics`. -/
theorem C108_no_panic_partial (base : Defs) (libs : List String) (types : Types) (ht : ∀ t, isViewGroup t.group = true → types t = none) (es : List OpenApi.Ev) (r : Regs) (s : Sv)
    (ans : List Ans) (hp : Path base libs anyStep Regs.none (Sv.init types) es r s ans) (g : String) (l : List GVK) (vs : List String) (hg : isViewGroup g = true)
    (hv : (OpenApi.Ev.register g l vs).Valid r) :
    (s.step base libs (.register g l vs) = .panics ↔ ∃ t ∈ l, Clash libs (r.ever ++ l) t) ∧
    ((∀ t ∈ l, ¬ Clash libs (r.ever ++ l) t) → ∃ s', s.step base libs (.register g l vs) = .ok s' none) := by
  obtain ⟨h1, h2⟩ := register_panics (base := base) (hp.typed (Typed.init ht)) hg hv
  exact ⟨h1, fun hn => h2 (fun h => by obtain ⟨t, ht, hc⟩ := h1.1 h; exact hn t ht hc)⟩

/-- **C108.** No other step panics. -/
theorem C108_others (base : Defs) (libs : List String) (s : Sv) (e : OpenApi.Ev) (he : ∀ g l vs, e = .register g l vs → isViewGroup g = false) : s.step base libs e ≠ .panics := by
  cases e with
  | register g l vs => simp [Sv.step, he g l vs rfl]
  | unregister g => simp only [Sv.step]; split <;> simp
  | look n v => simp only [Sv.step]; split <;> (try split) <;> simp
  | generate n o => simp only [Sv.step]; split <;> simp
  | store n => simp only [Sv.step]; split <;> simp

/-- **C108.** After any steps the scheme knows exactly the kinds registered so far, as objects, their lists, as lists, and the kinds of the library, in every view
group. -/
theorem C108_known (base : Defs) (libs : List String) (types : Types) (ht : ∀ t, isViewGroup t.group = true → types t = none) (es : List OpenApi.Ev) (r : Regs) (s : Sv)
    (ans : List Ans) (hp : Path base libs anyStep Regs.none (Sv.init types) es r s ans) (x : GVK) (hx : isViewGroup x.group = true) :
    (s.types x = some .obj ↔ x ∈ r.ever) ∧
    (s.types x = some .list ↔ ∃ t ∈ r.ever, x = ⟨t.group, t.version, t.kind ++ "List"⟩) ∧
    (∀ k, s.types x = some (.lib k) ↔ k ∈ libs ∧ x.kind = k ∧ ∃ t ∈ r.ever, t.group = x.group ∧ t.version = x.version) := by
  have h := (hp.typed (Typed.init ht)).knows
  refine ⟨?_, ?_, fun k => ?_⟩
  · rw [h x _ hx]
    constructor
    · rintro ⟨t, ht, hm⟩
      rcases mem_adds.1 hm with ⟨k, _, _, e⟩ | ⟨rfl, _⟩ | ⟨_, e⟩
      · cases e
      · exact ht
      · cases e
    · exact fun hm => ⟨x, hm, mem_adds.2 (.inr (.inl ⟨rfl, rfl⟩))⟩
  · rw [h x _ hx]
    constructor
    · rintro ⟨t, ht, hm⟩
      rcases mem_adds.1 hm with ⟨k, _, _, e⟩ | ⟨_, e⟩ | ⟨e, _⟩
      · cases e
      · cases e
      · exact ⟨t, ht, e⟩
    · rintro ⟨t, ht, e⟩
      exact ⟨t, ht, mem_adds.2 (.inr (.inr ⟨e, rfl⟩))⟩
  · rw [h x _ hx]
    constructor
    · rintro ⟨t, ht, hm⟩
      rcases mem_adds.1 hm with ⟨k', hk, rfl, e⟩ | ⟨_, e⟩ | ⟨_, e⟩
      · simp only [Ty.lib.injEq] at e
        subst e
        exact ⟨hk, rfl, t, ht, rfl, rfl⟩
      · cases e
      · cases e
    · rintro ⟨hk, rfl, t, ht, h1, h2⟩
      refine ⟨t, ht, mem_adds.2 (.inl ⟨x.kind, hk, ?_, rfl⟩)⟩
      rw [h1, h2]

/-- **C108, failure.** A kind can be registered after which, even once it is unregistered, registering the kind named like its list takes the server down; so does a kind
named like one of the library. -/
theorem C108_panics (base : Defs) (libs : List String) (types : Types) (ht : ∀ t, isViewGroup t.group = true → types t = none) (g k : String) (hg : isViewGroup g = true)
    (hn : ¬ Clash libs [⟨g, "v1alpha1", k⟩] ⟨g, "v1alpha1", k⟩) :
    (∃ r s, Path base libs anyStep Regs.none (Sv.init types) [.register g [⟨g, "v1alpha1", k⟩] ["v1alpha1"], .unregister g] r s [] ∧ (∀ x, r.now x = []) ∧
      s.step base libs (.register g [⟨g, "v1alpha1", k ++ "List"⟩] ["v1alpha1"]) = .panics) ∧
    ∀ w ∈ libs, (Sv.init types).step base libs (.register g [⟨g, "v1alpha1", w⟩] ["v1alpha1"]) = .panics := by
  let t : GVK := ⟨g, "v1alpha1", k⟩
  have v1 : (OpenApi.Ev.register g [t] ["v1alpha1"]).Valid Regs.none := ⟨by simp, by simp [t]⟩
  constructor
  · obtain ⟨a1, a2⟩ := register_panics (base := base) (libs := libs) (Typed.init ht) hg v1
    obtain ⟨s1, hs1⟩ := a2 (by
      rw [Ne, a1]
      rintro ⟨x, hx, hc⟩
      simp only [List.mem_cons, List.not_mem_nil, or_false] at hx
      subst hx
      exact hn (by simpa [Regs.none] using hc))
    let r1 : Regs := (OpenApi.Ev.register g [t] ["v1alpha1"]).apply Regs.none
    have hr1 : r1 = ⟨fun x => if x = g then [t] else [], [t]⟩ := by
      simp only [r1, OpenApi.Ev.apply, hg, if_true, Regs.none, List.nil_append]
    obtain ⟨s2, hs2⟩ : ∃ s2, s1.step base libs (.unregister g) = .ok s2 none := by
      simp only [Sv.step]
      split <;> exact ⟨_, rfl⟩
    have hp := Path.cons (ok := anyStep) (a := none) v1 trivial hs1 (Path.cons (a := none) (e := .unregister g) trivial trivial hs2 Path.nil)
    refine ⟨_, s2, hp, ?_, ?_⟩
    · intro x
      change ((OpenApi.Ev.unregister g).apply r1).now x = []
      rw [hr1]
      simp only [OpenApi.Ev.apply]
      split <;> rfl
    · rw [(register_panics (hp.typed (Typed.init ht)) hg ⟨by simp, by simp⟩).1]
      refine ⟨⟨g, "v1alpha1", k ++ "List"⟩, by simp, .inr (.inr (.inr ⟨t, ?_, rfl, rfl, .inr rfl⟩))⟩
      change t ∈ r1.ever ++ _
      rw [hr1]
      simp
  · intro w hw
    rw [(register_panics (Typed.init ht) hg ⟨by simp, by simp⟩).1]
    exact ⟨⟨g, "v1alpha1", w⟩, by simp, .inr (.inl hw)⟩

example : (∀ t : GVK, isViewGroup t.group = true → (fun _ => none : Types) t = none) ∧ isViewGroup "op.view.dcontroller.io" = true := ⟨fun _ _ => rfl, by decide⟩

end Dctl
