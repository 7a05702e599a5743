import Verif.Apiserver.StorageLemmas
import Verif.Auth.Lemmas
/-!
# The embedded API server (C53, C60, C70, C71)
-/
set_option autoImplicit false
namespace Dctl

/-! ## C53: registered groups -/

/-- **C53.** Registering and unregistering never panics. The type scheme is left out here; for its panics see C108. -/
theorem registration_total (ops : List ApiOp) (hv : ∀ op ∈ ops, op.Valid) : ∃ s, ApiSrv.init.run ops = some s := ApiSrv.run_some ops _ hv

/-- **C53.** Registering a group fails, with a panic, exactly for a view group without kinds. -/
theorem registration_fails (s : ApiSrv) (group : String) (gvks : List GVK) (versions : List String) :
    s.registerGroup group gvks versions = none ↔ isViewGroup group = true ∧ gvks = [] := by
  unfold ApiSrv.registerGroup ApiSrv.registerDiscovery
  cases isViewGroup group <;> cases gvks <;> simp

example : (ApiSrv.init.registerGroup (viewGroup "op") [] []).isNone = true ∧ (ApiSrv.init.registerGroup "apps" [] []).isSome = true := by decide

/-- **C53, partial.** After any sequence of calls the resources with a storage are exactly those of the registered view kinds, and the kind served under a
resource is a registered one of that resource. Missing: sequences that register a group again with fewer kinds without unregistering it, see
`stale_resource`; the operators never do (C59, C55). -/
theorem served_exactly_partial (ops : List ApiOp) (hv : ∀ op ∈ ops, op.Valid) (hg : Growing ops) (s : ApiSrv) (hs : ApiSrv.init.run ops = some s) :
    (∀ r, (∃ t, s.storage r = some t) ↔ ∃ t, ServedBy (registeredAfter ops) t r) ∧ ∀ r t, s.storage r = some t → ServedBy (registeredAfter ops) t r := by
  obtain ⟨s', h1, h2, -⟩ := SrvInv.run ops hv hg
  rw [hs] at h1
  cases h1
  refine ⟨?_, h2.stored⟩
  intro r
  constructor
  · rintro ⟨t, ht⟩; exact ⟨t, h2.stored r t ht⟩
  · rintro ⟨t, ht⟩; exact h2.served r t ht

/-- **C53, partial.** If no other registered kind of its group and version equals it up to case, a registered view kind is served under its resource. Missing:
see `kinds_collide`. -/
theorem served_kind_partial (ops : List ApiOp) (hv : ∀ op ∈ ops, op.Valid) (hg : Growing ops) (s : ApiSrv) (hs : ApiSrv.init.run ops = some s) (t : GVK)
    (hk : isViewKind t = true) (hone : ∀ t' ∈ registeredAfter ops t.group, t'.version = t.version → lower t'.kind = lower t.kind → t' = t) :
    s.storage ⟨t.group, t.version, lower t.kind⟩ = some t ↔ t ∈ registeredAfter ops t.group := by
  obtain ⟨h1, h2⟩ := served_exactly_partial ops hv hg s hs
  constructor
  · intro h; exact (h2 _ _ h).1
  · intro h
    obtain ⟨t', ht'⟩ := (h1 ⟨t.group, t.version, lower t.kind⟩).2 ⟨t, h, hk, rfl⟩
    obtain ⟨a, b, c⟩ := h2 _ _ ht'
    simp only [GVR.mk.injEq] at c
    rw [ht', hone t' (by rw [c.1]; exact a) c.2.1.symm c.2.2.symm]

/-- **C53, partial.** Discovery lists exactly the registered groups, their versions, and the resources of their registered view kinds. Missing: as in
`served_exactly_partial`. -/
theorem discovered_exactly_partial (ops : List ApiOp) (hv : ∀ op ∈ ops, op.Valid) (hg : Growing ops) (s : ApiSrv) (hs : ApiSrv.init.run ops = some s) (g : String) :
    (∀ vs, s.groupH g = some vs → isViewGroup g = true ∧ VersionsOf (registeredAfter ops g) vs) ∧
    (isViewGroup g = true → registeredAfter ops g ≠ [] → ∃ vs, s.groupH g = some vs ∧ s.discV1 g = some vs ∧ vs ≠ []) ∧
    (registeredAfter ops g = [] → s.groupH g = none ∧ s.discV1 g = none ∧ ∀ v, s.discV2 (g, v) = none) ∧
    (∀ v rs, s.discV2 (g, v) = some rs → isViewGroup g = true ∧ ListsExactly (registeredAfter ops) g v rs) ∧
    (isViewGroup g = true → ∀ t ∈ registeredAfter ops g, ∃ rs, s.discV2 (g, t.version) = some rs) := by
  obtain ⟨s', h1, h2, -⟩ := SrvInv.run ops hv hg
  rw [hs] at h1
  cases h1
  refine ⟨?_, ?_, ?_, ?_, ?_⟩
  · intro vs h
    by_cases hl : LiveGroup (registeredAfter ops) g
    · obtain ⟨vs', a, b, -⟩ := h2.group g hl
      rw [b] at h; cases h
      exact ⟨hl.1, a⟩
    · rw [(h2.group' g hl).1] at h; cases h
  · intro hvg hne
    obtain ⟨vs, a, b, c⟩ := h2.group g ⟨hvg, hne⟩
    refine ⟨vs, b, c, ?_⟩
    rintro rfl
    cases hr : registeredAfter ops g with
    | nil => exact hne hr
    | cons t l => simpa using (a.2 t.version).2 ⟨t, by rw [hr]; simp, rfl⟩
  · intro h0
    have hl : ¬ LiveGroup (registeredAfter ops) g := fun h => h.2 h0
    refine ⟨(h2.group' g hl).1, (h2.group' g hl).2, ?_⟩
    intro v
    cases hd : s.discV2 (g, v) with
    | none => rfl
    | some rs => exact absurd ((h2.agg g v rs).1 hd).1 hl
  · intro v rs h
    obtain ⟨a, b, c⟩ := (h2.agg g v rs).1 h
    exact ⟨a.1, c ▸ resourcesOf_exact _ _ _ (h2.own g)⟩
  · intro hvg t ht
    exact ⟨_, (h2.agg g t.version _).2 ⟨⟨hvg, fun e => by rw [e] at ht; simp at ht⟩, ⟨t, ht, rfl⟩, rfl⟩⟩

/-- Two kinds of one operator. -/
def fooGVK : GVK := viewGVK "op" "Foo"
/-- See above. -/
def barGVK : GVK := viewGVK "op" "Bar"

/-- The order of groups and versions for kinds of the operator "op". -/
def opOrder (g : String) : List String := if g = viewGroup "op" then [viewVersion] else []

/-- Registering one kind, then both; then removing them. -/
def demoApiOps : List ApiOp := [.register [fooGVK] [viewGroup "op"] opOrder, .register [fooGVK, barGVK] [viewGroup "op"] opOrder]

/-- The hypotheses hold, and both kinds are served. -/
example : (∀ op ∈ demoApiOps, op.Valid) ∧ Growing demoApiOps ∧ registeredAfter demoApiOps (viewGroup "op") = [fooGVK, barGVK] := by
  refine ⟨?_, ?_, by decide⟩
  · intro op hop
    simp only [demoApiOps, List.mem_cons, List.not_mem_nil, or_false] at hop
    rcases hop with rfl | rfl
    · refine ⟨by simp, fun g => by simp [fooGVK, viewGVK, eq_comm], fun g => ⟨by unfold opOrder; split <;> simp, fun v => ?_⟩⟩
      unfold opOrder
      split <;> simp_all [fooGVK, viewGVK, eq_comm]
    · refine ⟨by simp, fun g => by simp [fooGVK, barGVK, viewGVK, eq_comm], fun g => ⟨by unfold opOrder; split <;> simp, fun v => ?_⟩⟩
      unfold opOrder
      split <;> simp_all [fooGVK, barGVK, viewGVK, eq_comm]
  · simp [Growing, GrowingFrom, demoApiOps, ApiOp.Grows, ApiOp.apply, fooGVK, barGVK, viewGVK]

example : ((ApiSrv.init.run demoApiOps).bind (fun s => s.storage ⟨viewGroup "op", "v1alpha1", "bar"⟩)) = some barGVK := by decide +kernel

/-- **C53, not as stated.** Registering a group again with fewer kinds leaves the dropped ones in service, and unregistering the group then does not remove
them either: the resource is served for ever. -/
theorem stale_resource :
    let ops : List ApiOp := [.register [fooGVK, barGVK] [viewGroup "op"] opOrder, .register [fooGVK] [viewGroup "op"] opOrder]
    let gone : List ApiOp := ops ++ [.unregister [fooGVK, barGVK] [viewGroup "op"]]
    registeredAfter ops (viewGroup "op") = [fooGVK] ∧
    ((ApiSrv.init.run ops).bind (fun s => s.storage ⟨viewGroup "op", "v1alpha1", "bar"⟩)) = some barGVK ∧
    registeredAfter gone (viewGroup "op") = [] ∧
    ((ApiSrv.init.run gone).bind (fun s => s.storage ⟨viewGroup "op", "v1alpha1", "bar"⟩)) = some barGVK := by decide +kernel

/-- **C53, not as stated.** Of two kinds equal up to case only the one registered last is served. -/
theorem kinds_collide : ((ApiSrv.init.run [.register [fooGVK, viewGVK "op" "FOO"] [viewGroup "op"] opOrder]).bind
    (fun s => s.storage ⟨viewGroup "op", "v1alpha1", "foo"⟩)) = some (viewGVK "op" "FOO") := by decide +kernel

/-! ## C60: dispatch -/

theorem storageCall_iff (v : String) (c : StorageCall) : storageCall v = some c ↔ (v, c) ∈ verbTable := by
  constructor
  · intro h
    unfold storageCall at h
    split at h <;> first | (cases h; decide) | cases h
  · intro h
    simp only [verbTable, List.mem_cons, Prod.mk.injEq, List.not_mem_nil, or_false] at h
    rcases h with ⟨rfl, rfl⟩ | ⟨rfl, rfl⟩ | ⟨rfl, rfl⟩ | ⟨rfl, rfl⟩ | ⟨rfl, rfl⟩ | ⟨rfl, rfl⟩ | ⟨rfl, rfl⟩ | ⟨rfl, rfl⟩ <;> rfl

theorem serveGroup_not (s : ApiSrv) (path : String) (t : GVK) (c : StorageCall) : s.serveGroup path ≠ .storage t c := by
  unfold ApiSrv.serveGroup
  split
  · split
    · split <;> simp
    · simp
  · simp

theorem serveVersion_not (s : ApiSrv) (path : String) (t : GVK) (c : StorageCall) : s.serveVersion path ≠ .storage t c := by
  unfold ApiSrv.serveVersion
  split
  · split
    · split
      · exact serveGroup_not s path t c
      · simp
    · exact serveGroup_not s path t c
  · exact serveGroup_not s path t c

/-- **C60.** A request is answered from the storage of a kind exactly if it is a resource request for a view group whose resource has that storage, names no
subresource, and has one of the verbs; each verb has its own call. -/
theorem dispatch_exact (s : ApiSrv) (path : String) (info : Option ReqInfo) (t : GVK) (call : StorageCall) :
    s.serve path info = .storage t call ↔ ∃ r, info = some r ∧ r.isResource = true ∧ isViewGroup r.apiGroup = true ∧
      s.storage ⟨r.apiGroup, r.apiVersion, r.resource⟩ = some t ∧ r.subresource = "" ∧ (r.verb, call) ∈ verbTable := by
  unfold ApiSrv.serve
  cases info with
  | none => simp [serveVersion_not]
  | some r =>
    simp only [Option.some.injEq, exists_eq_left']
    cases h1 : r.isResource with
    | false => simp [serveVersion_not]
    | true =>
      cases h2 : isViewGroup r.apiGroup with
      | false => simp [serveVersion_not]
      | true =>
        cases h3 : s.storage ⟨r.apiGroup, r.apiVersion, r.resource⟩ with
        | none => simp [serveVersion_not]
        | some t' =>
          simp only [Bool.not_true, Bool.false_eq_true, if_false, true_and, Option.some.injEq, routeRequest]
          by_cases h4 : r.subresource = ""
          · simp only [h4, ne_eq, not_true, if_false, true_and]
            rw [← storageCall_iff]
            cases storageCall r.verb with
            | none => simp
            | some c => simp
          · simp [h4]

/-- **C60.** A request for a subresource of a served resource is answered 404, one with another verb 405. -/
theorem dispatch_rejects (s : ApiSrv) (path : String) (r : ReqInfo) (t : GVK) (hr : r.isResource = true) (hg : isViewGroup r.apiGroup = true)
    (ht : s.storage ⟨r.apiGroup, r.apiVersion, r.resource⟩ = some t) :
    (r.subresource ≠ "" → s.serve path (some r) = .rejected 404) ∧
    (r.subresource = "" → (∀ c, (r.verb, c) ∉ verbTable) → s.serve path (some r) = .rejected 405) := by
  constructor
  · intro h
    simp [ApiSrv.serve, hr, hg, ht, routeRequest, h]
  · intro h h'
    have : storageCall r.verb = none := by
      cases hc : storageCall r.verb with
      | none => rfl
      | some c => exact absurd ((storageCall_iff _ _).1 hc) (h' c)
    simp [ApiSrv.serve, hr, hg, ht, routeRequest, h, this]

/-- **C60.** A request that is not dispatched to a storage, or not authorized, leaves the store as it is, and its answer does not depend on the store. -/
theorem dispatch_no_store (s : ApiSrv) (hash : String → String) (user : Option UserInfo) (path : String) (r : ReqInfo) (q : StoReq)
    (h : authorize (reqAttrs user r) = false ∨ ∀ t call, s.serve path (some r) ≠ .storage t call) :
    ∃ a, ∀ c : VCache, s.handle hash c user path r q = (c, a) := by
  unfold ApiSrv.handle
  cases ha : authorize (reqAttrs user r) with
  | false => exact ⟨.forbidden, fun c => by simp⟩
  | true =>
    rw [ha] at h
    simp only [Bool.true_eq_false, false_or] at h
    cases hd : s.serve path (some r) with
    | storage t call => exact absurd hd (h t call)
    | group vs => exact ⟨.other (.group vs), fun c => by simp⟩
    | version rs => exact ⟨.other (.version rs), fun c => by simp⟩
    | rejected n => exact ⟨.other (.rejected n), fun c => by simp⟩

/-- **C60 with C53, partial.** After any sequence of registrations a resource request is answered from a storage exactly if its resource is that of a registered
view kind, it names no subresource and its verb is one of the eight; the storage is that of a registered kind of the resource. Missing: as in
`served_exactly_partial`. -/
theorem dispatch_registered_partial (ops : List ApiOp) (hv : ∀ op ∈ ops, op.Valid) (hg : Growing ops) (s : ApiSrv) (hs : ApiSrv.init.run ops = some s)
    (path : String) (r : ReqInfo) (hr : r.isResource = true) :
    ((∃ t call, s.serve path (some r) = .storage t call) ↔
      (∃ t, ServedBy (registeredAfter ops) t ⟨r.apiGroup, r.apiVersion, r.resource⟩) ∧ r.subresource = "" ∧ ∃ call, (r.verb, call) ∈ verbTable) ∧
    ∀ t call, s.serve path (some r) = .storage t call → ServedBy (registeredAfter ops) t ⟨r.apiGroup, r.apiVersion, r.resource⟩ := by
  obtain ⟨h1, h2⟩ := served_exactly_partial ops hv hg s hs
  have hvg : ∀ t, ServedBy (registeredAfter ops) t ⟨r.apiGroup, r.apiVersion, r.resource⟩ → isViewGroup r.apiGroup = true := by
    rintro t ⟨-, hk, he⟩
    simp only [GVR.mk.injEq] at he
    unfold isViewKind at hk
    simp only [Bool.and_eq_true] at hk
    rw [he.1]; exact hk.1
  constructor
  · constructor
    · rintro ⟨t, call, h⟩
      obtain ⟨r', e, -, -, hst, hsub, hverb⟩ := (dispatch_exact s path _ t call).1 h
      cases e
      exact ⟨⟨t, h2 _ _ hst⟩, hsub, call, hverb⟩
    · rintro ⟨⟨t, ht⟩, hsub, call, hverb⟩
      obtain ⟨t', ht'⟩ := (h1 _).2 ⟨t, ht⟩
      exact ⟨t', call, (dispatch_exact s path _ t' call).2 ⟨r, rfl, hr, hvg t ht, ht', hsub, hverb⟩⟩
  · intro t call h
    obtain ⟨r', e, -, -, hst, -⟩ := (dispatch_exact s path _ t call).1 h
    cases e
    exact h2 _ _ hst

/-- **C60 with C53, partial.** The discovery pages: the page of a version lists exactly the resources of the registered view kinds of that version, the page of
a group exactly its versions; there are no others. Missing: as in `served_exactly_partial`; and groups with slashes (no names of Kubernetes). -/
theorem discovery_pages_partial (ops : List ApiOp) (hv : ∀ op ∈ ops, op.Valid) (hg : Growing ops) (s : ApiSrv) (hs : ApiSrv.init.run ops = some s)
    (hsl : ∀ op ∈ ops, ∀ t ∈ op.mentions, '/' ∉ t.group.toList) (g v : String) (hg' : '/' ∉ g.toList) (hv' : '/' ∉ v.toList) (h0 : v ≠ "") (h0' : g ≠ "") :
    (isViewGroup g = true ∧ (∃ t ∈ registeredAfter ops g, t.version = v) →
      ∃ rs, s.serve ("/apis/" ++ g ++ "/" ++ v) none = .version rs ∧ ListsExactly (registeredAfter ops) g v rs) ∧
    (¬ (isViewGroup g = true ∧ ∃ t ∈ registeredAfter ops g, t.version = v) → s.serve ("/apis/" ++ g ++ "/" ++ v) none = .rejected 400) ∧
    (isViewGroup g = true ∧ registeredAfter ops g ≠ [] → ∃ vs, s.serve ("/apis/" ++ g) none = .group vs ∧ VersionsOf (registeredAfter ops g) vs) ∧
    (¬ (isViewGroup g = true ∧ registeredAfter ops g ≠ []) → s.serve ("/apis/" ++ g) none = .rejected 404) := by
  obtain ⟨s', h1, h2, h3⟩ := SrvInv.run ops hv hg
  rw [hs] at h1
  cases h1
  have h3 := h3 hsl g v hg'
  have hlive : ∀ t ∈ registeredAfter ops g, registeredAfter ops g ≠ [] := fun t ht e => by rw [e] at ht; simp at ht
  refine ⟨?_, ?_, ?_, ?_⟩
  · rintro ⟨hvg, t, ht, htv⟩
    refine ⟨ApiSrv.resourcesOf (registeredAfter ops g) v, ?_, resourcesOf_exact _ _ _ (h2.own g)⟩
    have := (h3 (ApiSrv.resourcesOf (registeredAfter ops g) v)).2 ⟨⟨hvg, hlive t ht⟩, ⟨t, ht, htv⟩, rfl⟩
    simp only [ApiSrv.serve, ApiSrv.serveVersion, splitPath_version hg' hv' h0, this, if_true]
  · intro hno
    have : s.versionH (g ++ "/" ++ v) = none := by
      cases hx : s.versionH (g ++ "/" ++ v) with
      | none => rfl
      | some rs => exact absurd ⟨((h3 rs).1 hx).1.1, ((h3 rs).1 hx).2.1⟩ hno
    simp only [ApiSrv.serve, ApiSrv.serveVersion, splitPath_version hg' hv' h0, this, if_true, ApiSrv.serveGroup]
  · rintro ⟨hvg, hne⟩
    obtain ⟨vs, a, b, -⟩ := h2.group g ⟨hvg, hne⟩
    refine ⟨vs, ?_, a⟩
    simp only [ApiSrv.serve, ApiSrv.serveVersion, splitPath_group hg' h0', ApiSrv.serveGroup, b, if_true]
  · intro hno
    have := (h2.group' g hno).1
    simp only [ApiSrv.serve, ApiSrv.serveVersion, splitPath_group hg' h0', ApiSrv.serveGroup, this, if_true]

/-- A request for a served kind. -/
def demoReq (verb ns name : String) : ReqInfo := ⟨true, verb, viewGroup "op", "v1alpha1", "bar", "", name, ns⟩

/-- It is dispatched; with a subresource or another verb it is rejected. -/
example : ((ApiSrv.init.run demoApiOps).map (fun s => s.serve "/apis/x" (some (demoReq "get" "a" "b")))) = some (.storage barGVK .get) ∧
    ((ApiSrv.init.run demoApiOps).map (fun s => s.serve "/apis/x" (some { demoReq "get" "a" "b" with subresource := "status" }))) = some (.rejected 404) ∧
    ((ApiSrv.init.run demoApiOps).map (fun s => s.serve "/apis/x" (some (demoReq "connect" "a" "b")))) = some (.rejected 405) := by decide +kernel

/-- The discovery pages of the group. -/
example : ((ApiSrv.init.run demoApiOps).map (fun s => s.serve "/apis/op.view.dcontroller.io" none)) = some (.group ["v1alpha1"]) ∧
    ((ApiSrv.init.run demoApiOps).map (fun s => s.serve "/apis/other.view.dcontroller.io" none)) = some (.rejected 404) := by decide +kernel

/-! ## C70: namespaces are isolated -/

theorem watchEv_includes {s : Select} {e : CEv} {w : WEv} (h : watchEv s e = some w) {o : Obj} (hw : w = .added o ∨ w = .modified o ∨ w = .deleted o) :
    s.includes o = true := by
  unfold watchEv at h
  cases e with
  | add x => simp only at h; split at h <;> simp at h; subst h; simp at hw; subst hw; assumption
  | update x y => simp only at h; split at h <;> simp at h; subst h; simp at hw; subst hw; assumption
  | delete x => simp only at h; split at h <;> simp at h; subst h; simp at hw; subst hw; assumption

/-- Stores written with names without slashes are plain. -/
theorem plain_run (hash : String → String) (ops : List VOp) (hok : ∀ op ∈ ops, op.Ok) (hns : ∀ op ∈ ops, op.NoSlash) : (VCache.init.run hash ops).Plain := by
  induction ops using rev_induct with
  | h0 => intro g k o h; simp [VCache.run, VCache.init, VCache.get] at h; exact absurd h.2 (by simp [AMap.get])
  | h1 ops op ih =>
    have ih := ih (fun o ho => hok o (List.mem_append_left _ ho)) (fun o ho => hns o (List.mem_append_left _ ho))
    have hc : (VCache.init.run hash ops).Reachable hash := ⟨ops, fun o ho => hok o (List.mem_append_left _ ho), rfl⟩
    have ho := hok op (by simp)
    have hn := hns op (by simp)
    rw [VCache.run_append]
    show (VCache.step hash (VCache.init.run hash ops) op).Plain
    intro g k o h
    cases op with
    | add x =>
      rw [VCache.add_spec hc.inv hash ho] at h
      split at h
      · cases h; rw [written_key ho]; exact hn
      · exact ih g k o h
    | update old x =>
      rw [VCache.update_spec hc.inv hash ho.2 ho.1] at h
      split at h
      · cases h; rw [written_key ho.2]; exact hn
      · exact ih g k o h
    | delete x =>
      rw [VCache.delete_spec hc.inv hash ho] at h
      split at h
      · cases h
      · exact ih g k o h
    | _ => exact ih g k o ((VCache.other_get hash _ (by simp) (by simp) (by simp) g k).symm.trans h)

/-- **C70.** Whatever a user restricted to some namespaces requests, no object outside these namespaces is changed, and none is shown in the answer or by
a watch it opens. -/
theorem api_isolated (s : ApiSrv) (hash : String → String) (c : VCache) (hc : c.Reachable hash) (hp : c.Plain) (u : UserInfo) (h0 : u.namespaces ≠ [])
    (hstar : "*" ∉ u.namespaces) (hpl : ∀ n ∈ u.namespaces, '/' ∉ n.toList) (path : String) (r : ReqInfo) (hname : '/' ∉ r.name.toList)
    (q : StoReq) (hq : q.Checked r.ns r.name) :
    (∀ g k, ObjKey.NoSlash k → k.1 ∉ u.namespaces → (s.handle hash c (some u) path r q).1.get g k = c.get g k) ∧
    ∀ o, (s.handle hash c (some u) path r q).2.shows o → (objKey o).1 ∈ u.namespaces := by
  unfold ApiSrv.handle
  cases ha : authorize (reqAttrs (some u) r) with
  | false => exact ⟨fun _ _ _ _ => rfl, fun _ h => by simp [Answer.shows] at h⟩
  | true =>
    simp only [if_true]
    cases hd : s.serve path (some r) with
    | group vs => exact ⟨fun _ _ _ _ => rfl, fun _ h => by simp [Answer.shows] at h⟩
    | version vs => exact ⟨fun _ _ _ _ => rfl, fun _ h => by simp [Answer.shows] at h⟩
    | rejected n => exact ⟨fun _ _ _ _ => rfl, fun _ h => by simp [Answer.shows] at h⟩
    | storage t call =>
      obtain ⟨r', e, hres, -⟩ := (dispatch_exact s path _ t call).1 hd
      cases e
      have hin := (authorize_iff u (reqAttrs (some u) r) rfl).1 ha
      have hin : r.ns ≠ "" ∧ r.ns ∈ u.namespaces := by
        rcases hin with h | ⟨h, -⟩
        · rw [show (reqAttrs (some u) r).isResource = r.isResource from rfl, hres] at h; cases h
        · rcases h with h | h | h
          · exact absurd h h0
          · exact absurd h hstar
          · exact h
      have hsl := hpl _ hin.2
      have hout : ∀ m k, ObjKey.NoSlash k → k.1 ∉ u.namespaces → cacheKey (r.ns, m) ≠ cacheKey k := fun m k hk hk' =>
        cacheKey_ns hin.1 hsl hk (fun e => hk' (by rw [← e]; exact hin.2))
      have hlist : ∀ l, stoList c t r.ns q = some l → ∀ o ∈ l, (objKey o).1 = r.ns := fun l hl o ho => includes_ns hin.1 (stoList_mem hc hl ho).1
      have hupd : (∀ g k, ObjKey.NoSlash k → k.1 ∉ u.namespaces → (Answer.one (stoUpdate hash c t r.ns r.name q)).1.get g k = c.get g k) ∧
          ∀ o, (Answer.one (stoUpdate hash c t r.ns r.name q)).2.shows o → (objKey o).1 ∈ u.namespaces := by
        have hf := stoUpdate_frame hc t r.ns r.name hq
        unfold Answer.one
        cases h : (stoUpdate hash c t r.ns r.name q).2 with
        | none => exact ⟨fun g k h1 h2 => hf.1 g k (fun m => hout m k h1 h2), fun _ h => by simp [Answer.shows] at h⟩
        | some x =>
          refine ⟨fun g k h1 h2 => hf.1 g k (fun m => hout m k h1 h2), fun o h' => ?_⟩
          simp only [Answer.shows, List.mem_singleton] at h'
          subst h'; rw [hf.2 _ h]; exact hin.2
      have hget : ∀ o, stoGet c t r.ns r.name = some o → (objKey o).1 ∈ u.namespaces := fun o h => by
        rw [stoGet_key hc hp ⟨hsl, hname⟩ h]; exact hin.2
      cases call with
      | get =>
        simp only [runStorage, Answer.one]
        cases h : stoGet c t r.ns r.name with
        | none => exact ⟨fun _ _ _ _ => rfl, fun _ h => by simp [Answer.shows] at h⟩
        | some x =>
          refine ⟨fun _ _ _ _ => rfl, fun o h' => ?_⟩
          simp only [Answer.shows, List.mem_singleton] at h'
          subst h'; exact hget _ h
      | list =>
        simp only [runStorage, Answer.many]
        cases h : stoList c t r.ns q with
        | none => exact ⟨fun _ _ _ _ => rfl, fun _ h => by simp [Answer.shows] at h⟩
        | some l => exact ⟨fun _ _ _ _ => rfl, fun o h' => by rw [hlist l h o h']; exact hin.2⟩
      | watch =>
        refine ⟨fun _ _ _ _ => rfl, fun o h' => ?_⟩
        obtain ⟨e, w, hw, hw'⟩ := h'
        rw [includes_ns hin.1 (watchEv_includes hw hw')]; exact hin.2
      | create =>
        have hf := stoCreate_frame hc t r.ns hq.body.1 hq.body.2
        simp only [runStorage, Answer.one]
        cases h : (stoCreate hash c t r.ns q.body).2 with
        | none => exact ⟨fun g k h1 h2 => hf.2.1 g k (hout _ k h1 h2), fun _ h => by simp [Answer.shows] at h⟩
        | some x =>
          refine ⟨fun g k h1 h2 => hf.2.1 g k (hout _ k h1 h2), fun o h' => ?_⟩
          simp only [Answer.shows, List.mem_singleton] at h'
          subst h'; rw [hf.2.2 _ h]; exact hin.2
      | update => exact hupd
      | patch => exact hupd
      | delete =>
        have hf := stoDelete_frame hc t r.ns r.name
        simp only [runStorage, Answer.one]
        cases h : (stoDelete c t r.ns r.name).2 with
        | none => exact ⟨fun g k h1 h2 => hf.1 g k (hout _ k h1 h2), fun _ h => by simp [Answer.shows] at h⟩
        | some x =>
          refine ⟨fun g k h1 h2 => hf.1 g k (hout _ k h1 h2), fun o h' => ?_⟩
          simp only [Answer.shows, List.mem_singleton] at h'
          subst h'; exact hget _ (hf.2 _ h)
      | deleteCollection =>
        simp only [runStorage, stoDeleteCollection]
        cases h : stoList c t r.ns q with
        | none => exact ⟨fun _ _ _ _ => rfl, fun _ h => by simp [Answer.shows, Answer.many] at h⟩
        | some l =>
          refine ⟨fun g k h1 h2 => ?_, fun o h' => by rw [hlist l h o h']; exact hin.2⟩
          refine stoDeleteEach_frame l hc (fun o ho => ?_) g k (fun o ho => ?_)
          · obtain ⟨-, k', hk'⟩ := stoList_mem hc h ho
            exact (hc.inv.get_key hk').2.2.1
          · have : objKey o = (r.ns, (objKey o).2) := by rw [← hlist l h o ho]
            rw [this]; exact hout _ k h1 h2

/-- The server of `demoApiOps`. -/
def demoSrv : ApiSrv := (ApiSrv.init.run demoApiOps).getD ApiSrv.init

/-- A view object. -/
def barObj (ns name : String) (d : Int) : Obj :=
  [("apiVersion", .str "op.view.dcontroller.io/v1alpha1"), ("d", .int d), ("kind", .str "Bar"), ("metadata", .map [("name", .str name), ("namespace", .str ns)])]

/-- Objects in two namespaces. -/
def barStore : VCache := VCache.init.run (fun s => s) [.add (barObj "a" "x" 1), .add (barObj "b" "y" 2)]

/-- A request with the object of a create or update. -/
def bodyReq (o : Obj) : StoReq := ⟨o, fun _ => some o, false, none, none⟩

/-- A user with one namespace. -/
def userA : UserInfo := ⟨"u", ["a"], []⟩

/-- What a list answers: the number of objects, none if it is refused. -/
def Answer.count : Answer → Option Nat
  | .objects l => some l.length
  | _ => none

/-- The hypotheses can be met: the store is reachable, the user restricted, and requests of the user in the granted namespace are answered, also writing
ones; a list over all namespaces, and one in another namespace, are refused. -/
example : barStore.Reachable (fun s => s) ∧ barStore.Plain ∧ userA.namespaces ≠ [] ∧ "*" ∉ userA.namespaces ∧ (bodyReq (barObj "a" "x" 3)).Checked "a" "x" ∧
    (demoSrv.handle (fun s => s) barStore (some userA) "" (demoReq "list" "a" "") (bodyReq [])).2.count = some 1 ∧
    (demoSrv.handle (fun s => s) barStore (some userA) "" (demoReq "list" "" "") (bodyReq [])).2.count = none ∧
    (demoSrv.handle (fun s => s) barStore (some userA) "" (demoReq "list" "b" "") (bodyReq [])).2.count = none ∧
    (demoSrv.handle (fun s => s) barStore (some userA) "" (demoReq "update" "a" "x") (bodyReq (barObj "a" "x" 3))).1.get barGVK ("a", "x") =
      some (withUID (fun s => s) (barObj "a" "x" 3)) := by
  have hok : Obj.Ok (barObj "a" "x" 3) := by simp [barObj, Obj.Ok, Json.Canon, Json.CanonM, SMap.Sorted]
  have hm : PlainMeta (barObj "a" "x" 3) := Or.inr ⟨_, rfl⟩
  have hops : ∀ op ∈ [VOp.add (barObj "a" "x" 1), .add (barObj "b" "y" 2)], op.Ok ∧ op.NoSlash := by
    intro op hop
    simp only [List.mem_cons, List.not_mem_nil, or_false] at hop
    rcases hop with rfl | rfl
    · exact ⟨by simp [VOp.Ok, barObj, Obj.Ok, Json.Canon, Json.CanonM, SMap.Sorted], by simp only [VOp.NoSlash, ObjKey.NoSlash]; decide +kernel⟩
    · exact ⟨by simp [VOp.Ok, barObj, Obj.Ok, Json.Canon, Json.CanonM, SMap.Sorted], by simp only [VOp.NoSlash, ObjKey.NoSlash]; decide +kernel⟩
  refine ⟨⟨_, fun op h => (hops op h).1, rfl⟩, plain_run _ _ (fun op h => (hops op h).1) (fun op h => (hops op h).2), by decide, by decide, ⟨⟨hok, hm⟩, ?_, ?_⟩, by decide +kernel, by decide +kernel, by decide +kernel, by decide +kernel⟩
  · rintro cur o h; cases h; exact ⟨hok, hm⟩
  · rintro cur o h; cases h; rfl

/-- **C70, why the check of the handlers is needed.** The storage itself follows the namespace of the new version: without that check an update in the granted
namespace would overwrite an object elsewhere. -/
theorem update_escapes : (demoSrv.handle (fun s => s) barStore (some userA) "" (demoReq "update" "a" "x") (bodyReq (barObj "b" "y" 3))).1.get barGVK ("b", "y") =
    some (withUID (fun s => s) (barObj "b" "y" 3)) := by decide +kernel

/-! ## C71: what the calls of the storage do -/

/-- **C71.** Reading calls leave the store as it is; a get answers with the stored object; a list with exactly the stored objects of the kind included in
the selection, each once. -/
theorem read_calls (hash : String → String) (c : VCache) (hc : c.Reachable hash) (t : GVK) (hv : isViewKind t = true) (ns name : String) (q : StoReq) :
    (∀ call ∈ [StorageCall.get, .list, .watch], (runStorage hash c t ns name q call).1 = c) ∧
    (∀ o, c.get t (ns, name) = some o → (runStorage hash c t ns name q .get).2 = .objects [o]) ∧
    (c.get t (ns, name) = none → (runStorage hash c t ns name q .get).2 = .failed) ∧
    ∃ l, (runStorage hash c t ns name q .list).2 = .objects l ∧ (l.map (fun o => cacheKey (objKey o))).Nodup ∧
      ∀ o, o ∈ l ↔ (Select.includes ⟨ns, q.labels, q.fields⟩ o = true ∧ ∃ k, c.get t k = some o) := by
  refine ⟨?_, ?_, ?_, ?_⟩
  · intro call hcall
    simp only [List.mem_cons, List.not_mem_nil, or_false] at hcall
    rcases hcall with rfl | rfl | rfl
    · simp only [runStorage, Answer.one]; split <;> rfl
    · simp only [runStorage, Answer.many]; split <;> rfl
    · rfl
  · intro o h; simp only [runStorage, Answer.one, stoGet, h]
  · intro h; simp only [runStorage, Answer.one, stoGet, h]
  · obtain ⟨l, hl⟩ : ∃ l, stoList c t ns q = some l := by
      simp only [stoList, VCache.list, objFromList_stoListKind hv, hv, if_true]; exact ⟨_, rfl⟩
    have := C40_list hash hc _ _ l hl
    rw [objFromList_stoListKind hv] at this
    exact ⟨l, by simp only [runStorage, Answer.many, hl], this.2, this.1⟩

/-- **C71, partial.** A create stores the given object under its name in the namespace of the request, with the kind served and the identity of views, and
changes nothing else. Missing: it does not fail if the object exists, see `create_overwrites`. -/
theorem create_call_partial (hash : String → String) (c : VCache) (hc : c.Reachable hash) (t : GVK) (hv : isViewKind t = true) (hs : '/' ∉ t.group.toList)
    (ns name : String) (q : StoReq) (hb : Obj.Ok q.body ∧ PlainMeta q.body) :
    ∃ x, objGVK x = t ∧ objKey x = (ns, (objKey q.body).2) ∧ (∀ k, k ∉ ["metadata", "kind", "apiVersion"] → SMap.get x k = SMap.get q.body k) ∧
      (runStorage hash c t ns name q .create).2 = .objects [x] ∧
      ∀ g k, (runStorage hash c t ns name q .create).1.get g k =
        if g = t ∧ cacheKey k = cacheKey (ns, (objKey q.body).2) then some (withUID hash (copyObj x)) else c.get g k := by
  have hg := stoPrepare_gvk hb.1 hb.2 hv hs ns
  have hk := stoPrepare_key hb.1 hb.2 t ns
  obtain ⟨c', h1, h2⟩ := C44_create hash hc (stoPrepare t ns q.body) (stoPrepare_ok hb.1 t ns) (by rw [hg]; exact hv)
  refine ⟨stoPrepare t ns q.body, hg, hk, ?_, ?_, ?_⟩
  · intro k hk
    simp only [List.mem_cons, List.not_mem_nil, or_false, not_or] at hk
    exact stoPrepare_get hb.1 hb.2 t ns k hk.1 hk.2.1 hk.2.2
  · simp only [runStorage, stoCreate, h1, Answer.one]
  · intro g k
    simp only [runStorage, stoCreate, h1, Answer.one]
    rw [h2, hg, hk]
    simp only [eq_comm]

/-- **C71, not as stated.** A create of an object that exists overwrites it; a user who may create but not update can change objects so. -/
theorem create_overwrites :
    let u : UserInfo := ⟨"u", ["a"], [some (.list [.map [("apiGroups", .list [.str "*"]), ("resources", .list [.str "*"]), ("verbs", .list [.str "create"])]])]⟩
    barStore.get barGVK ("a", "x") = some (withUID (fun s => s) (barObj "a" "x" 1)) ∧
    authorize (reqAttrs (some u) (demoReq "update" "a" "x")) = false ∧
    (demoSrv.handle (fun s => s) barStore (some u) "" (demoReq "create" "a" "") (bodyReq (barObj "a" "x" 3))).1.get barGVK ("a", "x") =
      some (withUID (fun s => s) (barObj "a" "x" 3)) := by decide +kernel

/-- **C71, partial.** An update, or patch, of an object that exists stores the new version under the name and kind of the request, and changes nothing else.
Missing: kinds of groups that are not those of an operator (C44). -/
theorem update_call_partial (hash : String → String) (c : VCache) (hc : c.Reachable hash) (op kind : String) (hd : '.' ∉ op.toList) (hs : '/' ∉ op.toList)
    (ns name : String) (q : StoReq) (hq : q.Checked ns name) (cur o : Obj) (hcur : c.get (viewGVK op kind) (ns, name) = some cur)
    (ho : q.updated (some cur) = some o) (call : StorageCall) (hcall : call = .update ∨ call = .patch) :
    ∃ x, objGVK x = viewGVK op kind ∧ (∀ k, k ∉ ["kind", "apiVersion"] → SMap.get x k = SMap.get o k) ∧
      (runStorage hash c (viewGVK op kind) ns name q call).2 = .objects [x] ∧
      ∀ g k, (runStorage hash c (viewGVK op kind) ns name q call).1.get g k =
        if g = viewGVK op kind ∧ cacheKey k = cacheKey (ns, name) then some (if cur = x then x else withUID hash (copyObj x)) else c.get g k := by
  have hok := (hq.updated _ _ ho).1
  have hkey := hq.keeps _ _ ho
  have hv : isViewKind (viewGVK op kind) = true := (C38_view_groups op ⟨"", "", kind⟩).1
  have hsg : '/' ∉ (viewGVK op kind).group.toList := by
    simp only [viewGVK, viewGroup, String.toList_append]
    intro h
    simp only [List.mem_append] at h
    rcases h with (h | h) | h
    · exact hs h
    · revert h; decide
    · revert h; decide
  have hg := setGVK_gvk hok hv hsg
  have hk := (setGVK_key hok (viewGVK op kind)).trans hkey
  obtain ⟨c', h1, h2⟩ := C44_update_partial hash hc (setGVK o (viewGVK op kind)) cur (setGVK_canon hok) ⟨op, kind, hd, hg⟩ (by rw [hg, hk]; exact hcur)
  have he : runStorage hash c (viewGVK op kind) ns name q call = (c', .objects [setGVK o (viewGVK op kind)]) := by
    have : stoUpdate hash c (viewGVK op kind) ns name q = (c', some (setGVK o (viewGVK op kind))) := by
      simp only [stoUpdate, stoGet, hcur, ho, h1]
    rcases hcall with rfl | rfl <;> simp only [runStorage, this, Answer.one]
  refine ⟨setGVK o (viewGVK op kind), hg, ?_, by rw [he], ?_⟩
  · intro k hk
    simp only [List.mem_cons, List.not_mem_nil, or_false, not_or] at hk
    rw [setGVK_get hok.sorted]; simp [hk]
  · intro g k
    rw [he]
    simp only
    rw [h2, hg, hk]
    simp only [eq_comm]

/-- **C71.** An update of an object that does not exist fails and changes nothing, unless the request may create; then it is a create. -/
theorem update_call_missing (hash : String → String) (c : VCache) (t : GVK) (ns name : String) (q : StoReq) (hcur : c.get t (ns, name) = none) (call : StorageCall)
    (hcall : call = .update ∨ call = .patch) :
    (q.allowCreate = false → runStorage hash c t ns name q call = (c, .failed)) ∧
    (q.allowCreate = true → ∀ o, q.updated none = some o → runStorage hash c t ns name q call = runStorage hash c t ns name { q with body := o } .create) := by
  constructor
  · intro h
    rcases hcall with rfl | rfl <;> simp [runStorage, stoUpdate, stoGet, hcur, h, Answer.one]
  · intro h o ho
    rcases hcall with rfl | rfl <;> simp [runStorage, stoUpdate, stoGet, hcur, h, ho]

/-- **C71.** A delete removes the addressed object and nothing else, and answers with it; it fails if there is none. -/
theorem delete_call (hash : String → String) (c : VCache) (hc : c.Reachable hash) (t : GVK) (ns name : String) (q : StoReq) :
    (∀ g k, (runStorage hash c t ns name q .delete).1.get g k = if g = t ∧ cacheKey k = cacheKey (ns, name) then none else c.get g k) ∧
    (∀ o, c.get t (ns, name) = some o → (runStorage hash c t ns name q .delete).2 = .objects [o]) ∧
    (c.get t (ns, name) = none → (runStorage hash c t ns name q .delete).2 = .failed) := by
  cases hg : c.get t (ns, name) with
  | none =>
    have he : runStorage hash c t ns name q .delete = (c, .failed) := by simp [runStorage, stoDelete, stoGet, hg, Answer.one]
    rw [he]
    refine ⟨?_, (fun o h => by cases h), (fun _ => rfl)⟩
    intro g k
    split
    · next h => rw [h.1, hc.inv.get, h.2, ← hc.inv.get, hg]
    · rfl
  | some o =>
    have hk := hc.inv.get_key hg
    obtain ⟨c', h1, h2⟩ := C44_delete hash hc o o hk.2.2.1 (by rw [hk.1, hc.inv.get, hk.2.1, ← hc.inv.get]; exact hg)
    have he : runStorage hash c t ns name q .delete = (c', .objects [o]) := by simp [runStorage, stoDelete, stoGet, hg, h1, Answer.one]
    rw [he]
    refine ⟨?_, fun o' h => by simpa using h, fun h => by cases h⟩
    intro g k
    simp only
    rw [h2, hk.1, hk.2.1]
    simp only [eq_comm]

/-- **C71.** A delete of a collection removes exactly the selected objects of the kind. -/
theorem delete_collection_call (hash : String → String) (c : VCache) (hc : c.Reachable hash) (t : GVK) (hv : isViewKind t = true) (ns name : String) (q : StoReq)
    (g : GVK) (k : ObjKey) : (runStorage hash c t ns name q .deleteCollection).1.get g k =
      if g = t then (c.get g k).filter (fun x => !Select.includes ⟨ns, q.labels, q.fields⟩ x) else c.get g k := by
  obtain ⟨l, hl⟩ : ∃ l, stoList c t ns q = some l := by
    simp only [stoList, VCache.list, objFromList_stoListKind hv, hv, if_true]; exact ⟨_, rfl⟩
  have hL := C40_list hash hc _ _ l hl
  rw [objFromList_stoListKind hv] at hL
  have hget : ∀ x ∈ l, c.get t (objKey x) = some x := by
    intro x hx
    obtain ⟨-, k, hkx⟩ := (hL.1 x).mp hx
    have := hc.inv.get_key hkx
    rw [hc.inv.get, this.2.1, ← hc.inv.get]; exact hkx
  obtain ⟨c', h1, h2, h3⟩ := deleteEach_spec hash hc t l hget hL.2
  rw [stoDeleteEach_eq hc t l hget hL.2] at h1
  simp only [Option.some.injEq] at h1
  have he : (runStorage hash c t ns name q .deleteCollection).1 = c' := by
    simp only [runStorage, stoDeleteCollection, hl, Answer.many]; exact h1
  rw [he]
  split
  · next e =>
    subst e
    cases hx : c.get g k with
    | none =>
      rw [h3 g k, hx]; · rfl
      intro _ x hxl e
      have := hget x hxl
      rw [hc.inv.get, e, ← hc.inv.get, hx] at this; cases this
    | some x =>
      have hkx := hc.inv.get_key hx
      cases hi : Select.includes ⟨ns, q.labels, q.fields⟩ x with
      | true =>
        rw [h2 x ((hL.1 x).2 ⟨hi, k, hx⟩) k hkx.2.1, Option.filter_some, hi]; rfl
      | false =>
        rw [h3 g k, hx]; · rw [Option.filter_some, hi]; rfl
        intro _ y hy e
        have := hget y hy
        rw [hc.inv.get, e, ← hc.inv.get, hx] at this
        cases this
        have := ((hL.1 x).1 hy).1
        rw [show stoSelect ns q = ⟨ns, q.labels, q.fields⟩ from rfl, hi] at this; cases this
  · next e => exact h3 g k (fun h => absurd h e)

/-- The calls on two objects: an update, a delete of one, a delete of the collection of a namespace. -/
example : (runStorage (fun s => s) barStore barGVK "a" "x" (bodyReq (barObj "a" "x" 3)) .patch).1.get barGVK ("a", "x") = some (withUID (fun s => s) (barObj "a" "x" 3)) ∧
    (runStorage (fun s => s) barStore barGVK "b" "y" (bodyReq []) .delete).1.get barGVK ("b", "y") = none ∧
    (runStorage (fun s => s) barStore barGVK "b" "" (bodyReq []) .deleteCollection).1.get barGVK ("b", "y") = none ∧
    (runStorage (fun s => s) barStore barGVK "b" "" (bodyReq []) .deleteCollection).1.get barGVK ("a", "x") = some (withUID (fun s => s) (barObj "a" "x" 1)) ∧
    (runStorage (fun s => s) barStore barGVK "" "" (bodyReq []) .list).2.count = some 2 := by decide +kernel

/-- The kind of the examples is that of a view of an operator. -/
example : barGVK = viewGVK "op" "Bar" ∧ isViewKind barGVK = true ∧ '/' ∉ barGVK.group.toList ∧ '.' ∉ "op".toList ∧ '/' ∉ "op".toList := by decide

end Dctl
