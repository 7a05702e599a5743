import Verif.Operator.LifecycleLemmas
import Verif.Props.Apiserver
/-!
# The operator controller (C55)
-/
set_option autoImplicit false
namespace Dctl
namespace OpCtl

/-! ## C55 -/

/-- **C55, partial.** After any possible, tame events, once all operators present at the start are started, at most one operator runs under every name: the one
in the map, if any. Missing: events that are not tame, see `add_leaks`. -/
theorem one_instance_partial (es : List Ev) (hp : Along Possible init es) (ht : Along Tame init es) (s : OpCtl) (hr : init.run es = some s)
    (hs : s.started = true) (h0 : s.starting = []) (name : String) : s.instances name = (s.operators name).toList :=
  ((Inv.runs (added := fun _ => True) es init Inv.init (by intro n h; exact absurd trivial h) hp ht (fun _ _ _ _ => trivial)).1 s hr).1.instances hs h0 name

/-- **C55, partial.** After any possible, tame events, for every name without a queued request and not used by the program itself, exactly one operator runs
if the cluster has one, with its latest specification, and none otherwise. Missing: events that are not tame, see `recreated_stale`. -/
theorem latest_spec_partial (es : List Ev) (hp : Along Possible init es) (ht : Along Tame init es) (s : OpCtl) (hr : init.run es = some s)
    (hs : s.started = true) (h0 : s.starting = []) (name : String) (hn : name ∉ s.pending) (ha : NotAdded name es) :
    (s.instances name).map (·.spec) = ((s.cluster name).map (·.2)).toList := by
  obtain ⟨h1, h2⟩ := (Inv.runs (added := fun n => ∃ env spec, Ev.add env n spec ∈ es) es init Inv.init (by intro n _ _; rfl) hp ht
    (fun env n spec h => ⟨env, spec, h⟩)).1 s hr
  rw [h1.instances hs h0, ← h2 name (by rintro ⟨env, spec, h⟩; exact ha _ h env spec rfl) hn]
  cases s.operators name <;> rfl

theorem upd_map {α : Type} (f : String → Option (Nat × α)) (n m : String) (v : Option (Nat × α)) :
    (upd f n v m).map (·.2) = if n = m then v.map (·.2) else (f m).map (·.2) := by
  rw [upd]
  by_cases h : m = n
  · subst h; simp
  · rw [if_neg h, if_neg (Ne.symm h)]

theorem addOperator_cluster (s s' : OpCtl) (env : CtrlCfg → BuildEnv) (n : String) (spec : List CtrlCfg) (h : s.addOperator env n spec = some s') :
    s'.cluster = s.cluster := by
  simp only [addOperator] at h
  split at h
  · cases h
  · cases h
    split <;> rfl

theorem deleteOperator_cluster (s s' : OpCtl) (n : String) (h : s.deleteOperator n = some s') : s'.cluster = s.cluster := by
  simp only [deleteOperator] at h
  split at h
  · cases h; rfl
  · split at h
    · cases h; rfl
    · cases h

theorem upsert_cluster (s s' : OpCtl) (n : String) (spec : List CtrlCfg) (o : Outcome) (b : Bool) (h : s.upsert n spec o = some (s', b)) :
    s'.cluster = s.cluster := by
  simp only [upsert] at h
  split at h
  · cases h
  · rename_i s1 h1
    have hc : s1.cluster = s.cluster := by
      simp only [dropOld] at h1
      split at h1
      · cases h1; rfl
      · exact deleteOperator_cluster _ _ _ h1
    split at h
    · split at h
      · cases h
      · rename_i s2 h2
        cases h
        rw [addOperator_cluster _ _ _ _ _ h2, hc]
    · cases h; exact hc

theorem reconcile_cluster (s s' : OpCtl) (n : String) (o : Outcome) (h : s.reconcile n o = some s') : s'.cluster = s.cluster := by
  simp only [reconcile] at h
  split at h
  · cases h; rfl
  · split at h
    · split at h
      · cases h
      · rename_i s1 h1
        cases h
        exact (deleteOperator_cluster _ _ _ h1 : s1.cluster = s.cluster)
    · split at h
      · cases h
      · rename_i s1 h1
        cases h
        exact (upsert_cluster _ _ _ _ _ _ h1 : s1.cluster = s.cluster)
      · rename_i s1 h1
        cases h
        exact upsert_cluster _ _ _ _ _ _ h1

theorem step_cluster (s s' : OpCtl) (e : Ev) (h : s.step e = some s') (name : String) :
    (s'.cluster name).map (·.2) =
      (match e with
      | .apply n spec => if n = name then some spec else (s.cluster name).map (·.2)
      | .remove n => if n = name then none else (s.cluster name).map (·.2)
      | .replaced n spec => if n = name then ((s.cluster name).map (·.2)).map (fun _ => spec) else (s.cluster name).map (·.2)
      | _ => (s.cluster name).map (·.2)) := by
  cases e with
  | apply n spec =>
    simp only [OpCtl.step] at h ⊢
    split at h
    · cases h; simp only [enqueue, upd_map]; rfl
    · rename_i gen old hc
      split at h
      · rename_i heq
        cases h
        by_cases hn : n = name
        · subst hn; simp [hc, heq]
        · rw [if_neg hn]
      · cases h; simp only [enqueue, upd_map]; rfl
  | remove n =>
    simp only [OpCtl.step] at h ⊢
    split at h
    · rename_i hc
      cases h
      by_cases hn : n = name
      · subst hn; simp [hc]
      · rw [if_neg hn]
    · cases h; simp only [enqueue, upd_map]; rfl
  | replaced n spec =>
    simp only [OpCtl.step] at h ⊢
    split at h
    · rename_i hc
      cases h
      by_cases hn : n = name
      · subst hn; simp [hc]
      · rw [if_neg hn]
    · rename_i gen old hc
      split at h
      all_goals
        cases h
        by_cases hn : n = name
        · subst hn; simp [enqueue, upd_map, hc]
        · simp [enqueue, upd_map, hn]
  | reconcile n o =>
    simp only [OpCtl.step] at h ⊢
    split at h
    · rw [reconcile_cluster _ _ _ _ h]
    · cases h; rfl
  | add env n spec =>
    simp only [OpCtl.step] at h ⊢
    rw [addOperator_cluster _ _ _ _ _ h]
  | start es => cases h; rfl
  | startNext =>
    simp only [OpCtl.step] at h ⊢
    split at h <;> cases h <;> rfl

/-- **C55, partial.** The same in terms of the events: exactly one operator runs if the object was created and not deleted since, with the specification it was
given last. Missing: as above. -/
theorem latest_event_partial (es : List Ev) (hp : Along Possible init es) (ht : Along Tame init es) (s : OpCtl) (hr : init.run es = some s)
    (hs : s.started = true) (h0 : s.starting = []) (name : String) (hn : name ∉ s.pending) (ha : NotAdded name es) :
    (s.instances name).map (·.spec) = (finalSpec name es).toList := by
  rw [latest_spec_partial es hp ht s hr hs h0 name hn ha]
  congr 1
  have key : ∀ (es : List Ev) (s0 : OpCtl) (c : Option (List CtrlCfg)), (s0.cluster name).map (·.2) = c → s0.run es = some s →
      (s.cluster name).map (·.2) = es.foldl (fun cur e =>
        match e with
        | .apply n spec => if n = name then some spec else cur
        | .remove n => if n = name then none else cur
        | .replaced n spec => if n = name then cur.map (fun _ => spec) else cur
        | _ => cur) c := by
    intro es
    induction es with
    | nil => intro s0 c hc h; cases h; exact hc
    | cons e es ih =>
      intro s0 c hc h
      rw [OpCtl.run] at h
      cases hst : s0.step e with
      | none => rw [hst] at h; cases h
      | some s1 =>
        rw [hst] at h
        rw [List.foldl_cons]
        refine ih s1 _ ?_ h
        rw [step_cluster s0 s1 e hst name, hc]
        cases e <;> rfl
  exact key es init none rfl hr

/-- **C55, partial.** The program does not panic or block if events are tame and no specification has more than 64 controllers. Missing: the others, see
`early_reconcile_panics` and `many_rejected_block`. -/
theorem never_stops_partial (es : List Ev) (hp : Along Possible init es) (ht : Along Tame init es) (hsm : ∀ e ∈ es, Small e) : ∃ s, init.run es = some s := by
  obtain ⟨s, h, -⟩ := (Inv.runs (added := fun _ => True) es init Inv.init (by intro n h; exact absurd trivial h) hp ht (fun _ _ _ _ => trivial)).2
    (by intro n gen spec h; cases h) hsm
  exact ⟨s, h⟩

/-- **C55, partial.** The queue empties: if every queued request is reconciled once without error and nothing else happens, no request is left, and the objects in
the cluster are as before. Missing: as above. -/
theorem settles_partial (es : List Ev) (hp : Along Possible init es) (ht : Along Tame init es) (hsm : ∀ e ∈ es, Small e) (s : OpCtl) (hr : init.run es = some s)
    (hs : s.started = true) (h0 : s.starting = []) (env : String → CtrlCfg → BuildEnv) :
    ∃ s', s.run (s.pending.map (fun n => .reconcile n (.ok (env n)))) = some s' ∧ s'.pending = [] ∧ s'.cluster = s.cluster ∧ s'.started = true ∧ s'.starting = [] ∧
      Along Possible s (s.pending.map (fun n => .reconcile n (.ok (env n)))) ∧ Along Tame s (s.pending.map (fun n => .reconcile n (.ok (env n)))) := by
  have hall := Inv.runs (added := fun _ => True) es init Inv.init (by intro n h; exact absurd trivial h) hp ht (fun _ _ _ _ => trivial)
  obtain ⟨hi, hy⟩ := hall.1 s hr
  obtain ⟨s1, hr1, hsc⟩ := hall.2 (by intro n gen spec h; cases h) hsm
  rw [hr] at hr1
  cases hr1
  have key : ∀ (l : List String) (s : OpCtl), Inv s → Synced (fun _ => True) s → SmallCluster s → s.started = true → s.starting = [] → (∀ n ∈ s.pending, n ∈ l) →
      ∃ s', s.run (l.map (fun n => .reconcile n (.ok (env n)))) = some s' ∧ s'.pending = [] ∧ s'.cluster = s.cluster ∧ s'.started = true ∧ s'.starting = [] ∧
        Along Possible s (l.map (fun n => .reconcile n (.ok (env n)))) ∧ Along Tame s (l.map (fun n => .reconcile n (.ok (env n)))) := by
    intro l
    induction l with
    | nil =>
      intro s hi hy hsc hs h0 hl
      exact ⟨s, rfl, List.eq_nil_iff_forall_not_mem.2 (fun n hn => by simpa using hl n hn), rfl, hs, h0, trivial, trivial⟩
    | cons n l ih =>
      intro s hi hy hsc hs h0 hl
      by_cases hn : n ∈ s.pending
      · obtain ⟨s1, hs1⟩ := hi.reconcile_some hs h0 n (.ok (env n)) (hsc n)
        have hst : s.step (.reconcile n (.ok (env n))) = some s1 := by
          simp only [OpCtl.step]
          rw [if_pos (by simpa using hn)]; exact hs1
        obtain ⟨a, b, c, d, e, f, g⟩ := hi.reconcile hy hs h0 n hn _ hs1
        obtain ⟨s', r1, r2, r3, r4, r5, r6, r7⟩ := ih s1 a b (by intro m; rw [e]; exact hsc m) c d (by
          intro m hm
          have := hl m (f m hm)
          simp only [List.mem_cons] at this
          rcases this with rfl | h
          · exact absurd hm (g ⟨_, rfl⟩)
          · exact h)
        refine ⟨s', ?_, r2, by rw [r3, e], r4, r5, ⟨hs, ?_⟩, ⟨h0, ?_⟩⟩
        · rw [List.map_cons, OpCtl.run, hst]; exact r1
        · intro s2 h2; rw [hst] at h2; cases h2; exact r6
        · intro s2 h2; rw [hst] at h2; cases h2; exact r7
      · have hst : s.step (.reconcile n (.ok (env n))) = some s := by
          simp only [OpCtl.step]
          rw [if_neg (by simpa using hn)]
        obtain ⟨s', r1, r2, r3, r4, r5, r6, r7⟩ := ih s hi hy hsc hs h0 (by
          intro m hm
          have := hl m hm
          simp only [List.mem_cons] at this
          rcases this with rfl | h
          · exact absurd hm hn
          · exact h)
        refine ⟨s', ?_, r2, r3, r4, r5, ⟨hs, ?_⟩, ⟨h0, ?_⟩⟩
        · rw [List.map_cons, OpCtl.run, hst]; exact r1
        · intro s2 h2; rw [hst] at h2; cases h2; exact r6
        · intro s2 h2; rw [hst] at h2; cases h2; exact r7
  exact key s.pending s hi hy hsc hs h0 (fun _ h => h)

/-- **C55, partial** (with C53, C59). After any possible, tame events the API server serves exactly the resources of the view kinds of the operators in the map: those of
deleted operators and of old specifications are gone. Missing: as above. -/
theorem operators_served_partial (es : List Ev) (hp : Along Possible init es) (ht : Along Tame init es) (s : OpCtl) (hr : init.run es = some s) :
    ∃ srv, ApiSrv.init.run s.api = some srv ∧
      ∀ r, (∃ t, srv.storage r = some t) ↔ ∃ name e t, s.operators name = some e ∧ t ∈ e.kinds ∧ isViewKind t = true ∧ r = ⟨t.group, t.version, lower t.kind⟩ := by
  have hi := ((Inv.runs (added := fun _ => True) es init Inv.init (by intro n h; exact absurd trivial h) hp ht (fun _ _ _ _ => trivial)).1 s hr).1
  obtain ⟨srv, hsrv⟩ := registration_total s.api hi.valid
  refine ⟨srv, hsrv, ?_⟩
  intro r
  rw [(served_exactly_partial s.api hi.valid hi.grows srv hsrv).1 r]
  constructor
  · rintro ⟨t, h1, h2, h3⟩
    obtain ⟨n, e, he, -, ht⟩ := (hi.api _ _).1 h1
    exact ⟨n, e, t, he, ht, h2, h3⟩
  · rintro ⟨n, e, t, he, ht, h2, h3⟩
    exact ⟨t, (hi.api _ _).2 ⟨n, e, he, hi.kinds n e he t ht, ht⟩, h2, h3⟩

/-- What the controllers of the examples meet. -/
def demoEnv : CtrlCfg → BuildEnv := fun _ => demoBuild

/-- Another specification. -/
def demoCtrl2 : CtrlCfg := ⟨"c", [⟨none, none, "Foo", false⟩], some ⟨none, none, "Qux", false⟩⟩

/-- Two operators are created while the controller starts; one is changed, fails once to be made, then succeeds; the other one is deleted. -/
def demoEvs : List Ev :=
  [.apply "op" [demoCtrl], .apply "other" [demoCtrl], .start [], .reconcile "op" (.ok demoEnv), .reconcile "other" (.ok demoEnv),
   .apply "op" [demoCtrl2], .reconcile "op" .newFails, .remove "other", .reconcile "other" .getFails, .reconcile "op" (.ok demoEnv), .reconcile "other" (.ok demoEnv)]

/-- The outcome. -/
def demoOutcome : Option (List (List CtrlCfg) × List (List CtrlCfg) × List String × Bool × Nat) :=
  (init.run demoEvs).map (fun s => ((s.instances "op").map (·.spec), (s.instances "other").map (·.spec), s.pending, s.started, s.starting.length))

example : demoOutcome = some ([[demoCtrl2]], [], [], true, 0) := by decide +kernel

example : finalSpec "op" demoEvs = some [demoCtrl2] ∧ finalSpec "other" demoEvs = none := by decide +kernel

/-- A check of the conditions for changes to the cluster and reconciliations. -/
def eventB (s : OpCtl) : Ev → Bool
  | .reconcile _ _ => s.started && s.starting.length == 0
  | .apply _ _ => true
  | .remove _ => true
  | _ => false

/-- The same along a sequence. -/
def alongB (s : OpCtl) : List Ev → Bool
  | [] => true
  | e :: es => s.eventB e &&
    match s.step e with
    | none => true
    | some s' => alongB s' es

theorem alongB_sound (es : List Ev) (s : OpCtl) (h : alongB s es = true) : Along Possible s es ∧ Along Tame s es := by
  induction es generalizing s with
  | nil => exact ⟨trivial, trivial⟩
  | cons e es ih =>
    rw [alongB, Bool.and_eq_true] at h
    have hrest : ∀ s', s.step e = some s' → alongB s' es = true := by
      intro s' hs'
      have := h.2
      rw [hs'] at this
      exact this
    have h1 : Possible s e ∧ Tame s e := by
      have := h.1
      cases e <;> simp_all [Possible, Tame, eventB]
    exact ⟨⟨h1.1, fun s' hs' => (ih s' (hrest s' hs')).1⟩, ⟨h1.2, fun s' hs' => (ih s' (hrest s' hs')).2⟩⟩

/-- The hypotheses hold of the example. -/
example : Along Possible init demoEvs ∧ Along Tame init demoEvs ∧ NotAdded "op" demoEvs ∧ ∀ e ∈ demoEvs, Small e := by
  refine ⟨?_, ?_, ?_, ?_⟩
  · refine ⟨trivial, ?_⟩
    rintro s ⟨⟩
    refine ⟨trivial, ?_⟩
    rintro s ⟨⟩
    refine ⟨⟨rfl, by simp, fun e => by simp [init, enqueue]⟩, ?_⟩
    rintro s ⟨⟩
    exact (alongB_sound _ _ (by decide +kernel)).1
  · refine ⟨trivial, ?_⟩
    rintro s ⟨⟩
    refine ⟨trivial, ?_⟩
    rintro s ⟨⟩
    refine ⟨trivial, ?_⟩
    rintro s ⟨⟩
    exact (alongB_sound _ _ (by decide +kernel)).2
  · intro e he env spec
    simp only [demoEvs, List.mem_cons, List.not_mem_nil, or_false] at he
    rcases he with rfl | rfl | rfl | rfl | rfl | rfl | rfl | rfl | rfl | rfl | rfl <;> simp
  · intro e he
    simp only [demoEvs, List.mem_cons, List.not_mem_nil, or_false] at he
    rcases he with rfl | rfl | rfl | rfl | rfl | rfl | rfl | rfl | rfl | rfl | rfl <;> simp [Small]

/-- **C55, not as stated.** Adding an operator under the name of a running one overwrites the entry: both run from then on, and deleting the operator stops
only the second one. -/
theorem add_leaks :
    ∃ es, Along Possible init es ∧ ∃ s, init.run es = some s ∧ s.pending = [] ∧ s.cluster "op" = none ∧ s.operators "op" = none ∧
      (s.instances "op").map (·.spec) = [[demoCtrl]] := by
  refine ⟨[.start [], .apply "op" [demoCtrl], .reconcile "op" (.ok demoEnv), .add demoEnv "op" [demoCtrl2], .remove "op", .reconcile "op" (.ok demoEnv)], ?_,
    _, rfl, by decide +kernel, by decide +kernel, by decide +kernel, by decide +kernel⟩
  refine ⟨⟨rfl, by simp, fun e => by simp [init]⟩, ?_⟩
  rintro s ⟨⟩
  refine ⟨trivial, ?_⟩
  rintro s ⟨⟩
  refine ⟨rfl, ?_⟩
  intro s h
  refine ⟨trivial, ?_⟩
  intro s' h'
  refine ⟨trivial, ?_⟩
  intro s'' h''
  cases h
  cases h'
  cases h''
  exact ⟨rfl, fun _ _ => trivial⟩

/-- **C55, not as stated.** An operator added by the program before the start can be reconciled (here, deleted) before `Start` gets to start it: the program
panics, since the operator has no cancel function yet. -/
theorem early_reconcile_panics :
    ∃ es, Along Possible init es ∧ init.run es = none ∧ ∃ s, init.run (es.take 3) = some s ∧ s.started = true ∧ s.starting ≠ [] := by
  let e : OpInst := ⟨0, "op", [demoCtrl], operatorGVKs "op" [.declarative demoCtrl demoBuild]⟩
  refine ⟨[.add demoEnv "op" [demoCtrl], .apply "op" [demoCtrl2], .start [e], .reconcile "op" (.ok demoEnv)], ?_, by rfl, _, rfl, rfl, by simp⟩
  · refine ⟨trivial, ?_⟩
    rintro s ⟨⟩
    refine ⟨trivial, ?_⟩
    rintro s ⟨⟩
    refine ⟨⟨rfl, by simp, fun x => ?_⟩, ?_⟩
    · show x ∈ [e] ↔ upd (fun _ => none) "op" (some e) x.name = some x
      by_cases hx : x.name = "op"
      · rw [hx, upd_same]; simp [eq_comm]
      · rw [upd_other _ _ hx]
        simp only [List.mem_singleton, reduceCtorEq, iff_false]
        rintro rfl; exact hx rfl
    · rintro s ⟨⟩
      exact ⟨rfl, fun _ _ => trivial⟩

/-- **C55, not as stated.** If the informer misses that an operator object was deleted and created again with another specification, the update it sees has the
generation 1 on both sides and is dropped: the old specification keeps running, with nothing queued. -/
theorem recreated_stale :
    ∃ es, Along Possible init es ∧ ∃ s, init.run es = some s ∧ s.pending = [] ∧ s.cluster "op" = some (1, [demoCtrl2]) ∧
      (s.instances "op").map (·.spec) = [[demoCtrl]] := by
  refine ⟨[.start [], .apply "op" [demoCtrl], .reconcile "op" (.ok demoEnv), .replaced "op" [demoCtrl2]], ?_, _, rfl, by decide +kernel, by decide +kernel, by decide +kernel⟩
  refine ⟨⟨rfl, by simp, fun e => by simp [init]⟩, ?_⟩
  rintro s ⟨⟩
  refine ⟨trivial, ?_⟩
  rintro s ⟨⟩
  exact ⟨rfl, fun _ _ => ⟨trivial, fun _ _ => trivial⟩⟩

/-- **C55, not as stated.** An operator with more than 64 controllers that are rejected blocks the operator controller for ever: the errors are sent to a channel that
nobody reads before the operator is started. -/
theorem many_rejected_block (k : Nat) (h : 64 < k) (env : CtrlCfg → BuildEnv) :
    ∃ es, Along Possible init es ∧ Along Tame init es ∧ es.getLast? = some (.reconcile "op" (.ok env)) ∧ (∃ s, init.run (es.take 2) = some s) ∧ init.run es = none := by
  refine ⟨[.start [], .apply "op" (List.replicate k ⟨"", [], none⟩), .reconcile "op" (.ok env)], ?_, ?_, rfl, ⟨_, rfl⟩, ?_⟩
  · refine ⟨⟨rfl, by simp, fun e => by simp [init]⟩, ?_⟩
    rintro s ⟨⟩
    refine ⟨trivial, ?_⟩
    rintro s ⟨⟩
    exact ⟨rfl, fun _ _ => trivial⟩
  · refine ⟨trivial, ?_⟩
    rintro s ⟨⟩
    refine ⟨trivial, ?_⟩
    rintro s ⟨⟩
    exact ⟨rfl, fun _ _ => trivial⟩
  · have hb : ∀ s : OpCtl, s.addOperator env "op" (List.replicate k ⟨"", [], none⟩) = none := by
      intro s
      rw [addOperator, if_pos]
      simp only [List.map_replicate, List.sum_replicate_nat, newDeclarative, if_true, channelSize]
      omega
    simp [OpCtl.run, OpCtl.step, init, enqueue, OpCtl.reconcile, upd, upsert, dropOld, hb]

end OpCtl
end Dctl
