import Verif.Spec.Operator
import Verif.Props.Kinds
import Verif.Props.Group
import Verif.Apiserver.RegistryLemmas
/-!
# Lemmas about the operator controller
-/
set_option autoImplicit false
set_option linter.unusedSectionVars false
namespace Dctl

theorem eraseDups_nodup {α : Type} [DecidableEq α] (n : Nat) (l : List α) (h : l.length ≤ n) : l.eraseDups.Nodup := by
  induction n generalizing l with
  | zero =>
    have : l = [] := List.eq_nil_of_length_eq_zero (by omega)
    subst this; simp
  | succ n ih =>
    cases l with
    | nil => simp
    | cons a l =>
      rw [List.eraseDups_cons, List.nodup_cons]
      refine ⟨by simp [List.mem_eraseDups], ih _ ?_⟩
      have := List.length_filter_le (fun b => !b == a) l
      simp only [List.length_cons] at h
      omega

namespace OpCtl

theorem register_valid (name : String) (kinds : List GVK) (h : ∀ t ∈ kinds, t.group = viewGroup name) :
    (ApiOp.register kinds (apiGroups name kinds) (apiVersions name kinds)).Valid := by
  refine ⟨?_, ?_, ?_⟩
  · unfold apiGroups; split <;> simp
  · intro g
    unfold apiGroups
    split
    · rename_i h0
      simp [List.eq_nil_of_length_eq_zero h0]
    · rename_i h0
      cases kinds with
      | nil => simp at h0
      | cons t l =>
        simp only [List.mem_singleton]
        constructor
        · rintro rfl; exact ⟨t, by simp, h t (by simp)⟩
        · rintro ⟨t', ht', rfl⟩; exact (h t' ht')
  · intro g
    unfold apiVersions
    split
    · rename_i hg
      refine ⟨eraseDups_nodup _ _ (Nat.le_refl _), ?_⟩
      intro v
      rw [List.mem_eraseDups, List.mem_map]
      constructor
      · rintro ⟨t, ht, rfl⟩; exact ⟨t, ht, by rw [h t ht, hg], rfl⟩
      · rintro ⟨t, ht, -, rfl⟩; exact ⟨t, ht, rfl⟩
    · rename_i hg
      refine ⟨by simp, ?_⟩
      intro v
      simp only [List.not_mem_nil, false_iff]
      rintro ⟨t, ht, h1, -⟩
      exact hg (by rw [← h1, h t ht])

theorem unregister_valid (name : String) (kinds : List GVK) (h : ∀ t ∈ kinds, t.group = viewGroup name) :
    (ApiOp.unregister kinds (apiGroups name kinds)).Valid := ⟨(register_valid name kinds h).1, (register_valid name kinds h).2.1⟩

/-- What holds in every state reached by tame events. -/
structure Inv (s : OpCtl) : Prop where
  names : ∀ n e, s.operators n = some e → e.name = n
  ids : ∀ n e, s.operators n = some e → e.id < s.next
  uniq : ∀ n e n' e', s.operators n = some e → s.operators n' = some e' → e.id = e'.id → n = n'
  starting : ∀ e ∈ s.starting, s.operators e.name = some e
  sNodup : s.starting.Nodup
  idle : s.started = false → s.starting = []
  run : ∀ e, e ∈ s.running ↔ s.operators e.name = some e ∧ s.started = true ∧ e ∉ s.starting
  rNodup : s.running.Nodup
  cancel : ∀ n e, s.operators n = some e → (e.id ∈ s.cancels ↔ s.started = true ∧ e ∉ s.starting)
  cancelIds : ∀ i ∈ s.cancels, i < s.next
  kinds : ∀ n e, s.operators n = some e → ∀ t ∈ e.kinds, t.group = viewGroup n
  api : ∀ g t, t ∈ registeredAfter s.api g ↔ ∃ n e, s.operators n = some e ∧ g = viewGroup n ∧ t ∈ e.kinds
  valid : ∀ op ∈ s.api, op.Valid
  grows : Growing s.api

theorem Inv.init : Inv OpCtl.init := by
  refine ⟨?_, ?_, ?_, ?_, ?_, ?_, ?_, ?_, ?_, ?_, ?_, ?_, ?_, ?_⟩ <;> simp [OpCtl.init, registeredAfter, Growing, GrowingFrom]

theorem deleteOperator_some {s : OpCtl} {n : String} {e : OpInst} (he : s.operators n = some e) (hc : e.id ∈ s.cancels) :
    s.deleteOperator n = some { s with operators := upd s.operators n none, api := s.api ++ [ApiOp.unregister e.kinds (apiGroups n e.kinds)],
                                       running := s.running.filter (fun x => x.id ≠ e.id) } := by
  rw [deleteOperator]
  simp [he, hc]

theorem Inv.delete {s : OpCtl} (h : Inv s) (hs : s.started = true) (h0 : s.starting = []) {n : String} {e : OpInst} (he : s.operators n = some e) :
    ∃ s', s.deleteOperator n = some s' ∧ Inv s' ∧ s'.operators = upd s.operators n none ∧ s'.started = true ∧ s'.starting = [] ∧
      s'.cluster = s.cluster ∧ s'.pending = s.pending := by
  have hc : e.id ∈ s.cancels := (h.cancel n e he).2 ⟨hs, by simp [h0]⟩
  refine ⟨_, deleteOperator_some he hc, ?_, rfl, hs, h0, rfl, rfl⟩
  have hop : ∀ m x, upd s.operators n none m = some x → m ≠ n ∧ s.operators m = some x := by
    intro m x hx
    by_cases hm : m = n
    · subst hm; rw [upd_same] at hx; cases hx
    · rw [upd_other _ _ hm] at hx; exact ⟨hm, hx⟩
  constructor
  · intro m x hx; exact h.names m x (hop m x hx).2
  · intro m x hx; exact h.ids m x (hop m x hx).2
  · intro m x m' x' hx hx' hid; exact h.uniq m x m' x' (hop m x hx).2 (hop m' x' hx').2 hid
  · intro x hx; rw [h0] at hx; cases hx
  · rw [h0]; simp
  · intro hh; exact h0
  · intro x
    simp only [List.mem_filter, decide_eq_true_eq, h.run x]
    constructor
    · rintro ⟨⟨h1, h2, h3⟩, h4⟩
      refine ⟨?_, h2, h3⟩
      rw [upd_other _ _ ?_]
      · exact h1
      · rintro rfl
        rw [he] at h1
        cases h1
        exact h4 rfl
    · rintro ⟨h1, h2, h3⟩
      obtain ⟨h4, h5⟩ := hop _ _ h1
      exact ⟨⟨h5, h2, h3⟩, fun hid => h4 (h.uniq _ _ _ _ h5 he hid)⟩
  · exact h.rNodup.filter _
  · intro m x hx; exact h.cancel m x (hop m x hx).2
  · exact h.cancelIds
  · intro m x hx; exact h.kinds m x (hop m x hx).2
  · intro g t
    simp only [registeredAfter_append, ApiOp.apply]
    have hk := h.kinds n e he
    by_cases hg : (e.kinds.any fun t => t.group == g) = true
    · rw [if_pos hg]
      simp only [List.not_mem_nil, false_iff]
      rintro ⟨m, x, hx, rfl, ht⟩
      obtain ⟨h1, h2⟩ := hop m x hx
      simp only [List.any_eq_true, beq_iff_eq] at hg
      obtain ⟨t', ht', hg⟩ := hg
      exact h1 (C38_group_injective _ _ (by rw [← hg, hk t' ht']))
    · rw [if_neg hg, h.api]
      constructor
      · rintro ⟨m, x, hx, rfl, ht⟩
        refine ⟨m, x, ?_, rfl, ht⟩
        rw [upd_other _ _ ?_]
        · exact hx
        · rintro rfl
          rw [he] at hx; cases hx
          apply hg
          simp only [List.any_eq_true, beq_iff_eq]
          exact ⟨t, ht, hk t ht⟩
      · rintro ⟨m, x, hx, rfl, ht⟩
        exact ⟨m, x, (hop m x hx).2, rfl, ht⟩
  · intro op hop'
    simp only [List.mem_append, List.mem_singleton] at hop'
    rcases hop' with h1 | rfl
    · exact h.valid op h1
    · exact unregister_valid n e.kinds (h.kinds n e he)
  · exact (GrowingFrom.append _ _ _).2 ⟨h.grows, trivial⟩

theorem Inv.delete_none {s : OpCtl} {n : String} (he : s.operators n = none) : s.deleteOperator n = some s := by rw [deleteOperator, he]

theorem addOperator_eq {s s' : OpCtl} {env : CtrlCfg → BuildEnv} {n : String} {spec : List CtrlCfg} (hs : s.addOperator env n spec = some s') :
    let kinds := operatorGVKs n (spec.map (fun c => OpCtrl.declarative c (env c)))
    let e : OpInst := ⟨s.next, n, spec, kinds⟩
    s' = { s with next := s.next + 1, api := s.api ++ [ApiOp.register kinds (apiGroups n kinds) (apiVersions n kinds)],
                  operators := upd s.operators n (some e),
                  cancels := if s.started then e.id :: s.cancels else s.cancels, running := if s.started then s.running ++ [e] else s.running } := by
  intro kinds e
  rw [addOperator] at hs
  split at hs
  · cases hs
  · simp only [Option.some.injEq] at hs
    rw [← hs]
    cases hst : s.started <;> simp [startOp, kinds, e]

theorem Inv.add {s s' : OpCtl} (h : Inv s) {env : CtrlCfg → BuildEnv} {n : String} {spec : List CtrlCfg} (hn : s.operators n = none)
    (hs : s.addOperator env n spec = some s') :
    Inv s' ∧ (∃ e, s'.operators = upd s.operators n (some e) ∧ e.spec = spec) ∧ s'.started = s.started ∧ s'.starting = s.starting ∧
      s'.cluster = s.cluster ∧ s'.pending = s.pending := by
  have hs := addOperator_eq hs
  simp only at hs
  generalize hk : operatorGVKs n (spec.map (fun c => OpCtrl.declarative c (env c))) = kinds at hs
  generalize hE : (⟨s.next, n, spec, kinds⟩ : OpInst) = e at hs
  have hown : ∀ t ∈ kinds, t.group = viewGroup n := by
    intro t ht; rw [← hk] at ht; exact ((exposed_sound _ _).2 t ht).1
  have heid : e.id = s.next := by rw [← hE]
  have hename : e.name = n := by rw [← hE]
  have hekinds : e.kinds = kinds := by rw [← hE]
  have hop : ∀ m x, upd s.operators n (some e) m = some x → (m = n ∧ x = e) ∨ (m ≠ n ∧ s.operators m = some x) := by
    intro m x hx
    by_cases hm : m = n
    · subst hm; rw [upd_same] at hx; cases hx; exact .inl ⟨rfl, rfl⟩
    · rw [upd_other _ _ hm] at hx; exact .inr ⟨hm, hx⟩
  have hold : ∀ m x, s.operators m = some x → m ≠ n := by
    rintro m x hx rfl; rw [hn] at hx; cases hx
  have hnew : e ∉ s.starting := fun hm => hold _ _ (h.starting e hm) hename
  subst hs
  refine ⟨?_, ⟨e, rfl, by rw [← hE]⟩, rfl, rfl, rfl, rfl⟩
  constructor
  · intro m x hx
    rcases hop m x hx with ⟨rfl, rfl⟩ | ⟨-, hx⟩
    · exact hename
    · exact h.names m x hx
  · intro m x hx
    show x.id < s.next + 1
    rcases hop m x hx with ⟨rfl, rfl⟩ | ⟨-, hx⟩
    · omega
    · have := h.ids m x hx; omega
  · intro m x m' x' hx hx' hid
    rcases hop m x hx with ⟨h3, h4⟩ | ⟨-, h5⟩ <;> rcases hop m' x' hx' with ⟨h1, h2⟩ | ⟨-, h6⟩
    · rw [h1, h3]
    · have := h.ids m' x' h6; rw [h4] at hid; omega
    · have := h.ids m x h5; rw [h2] at hid; omega
    · exact h.uniq m x m' x' h5 h6 hid
  · intro x hx
    show upd s.operators n (some e) x.name = some x
    have := h.starting x hx
    rw [upd_other _ _ (hold _ _ this)]; exact this
  · exact h.sNodup
  · exact h.idle
  · intro x
    show x ∈ (if s.started then s.running ++ [e] else s.running) ↔ upd s.operators n (some e) x.name = some x ∧ s.started = true ∧ x ∉ s.starting
    cases hst : s.started with
    | false =>
      have := h.run x
      simp only [hst] at this
      simp [this]
    | true =>
      simp only [if_true, List.mem_append, List.mem_singleton, h.run x, hst, true_and]
      constructor
      · rintro (⟨h1, h2⟩ | rfl)
        · exact ⟨by rw [upd_other _ _ (hold _ _ h1)]; exact h1, h2⟩
        · exact ⟨by rw [hename, upd_same], hnew⟩
      · rintro ⟨h1, h2⟩
        rcases hop _ _ h1 with ⟨-, h3⟩ | ⟨-, h3⟩
        · exact .inr h3
        · exact .inl ⟨h3, h2⟩
  · show (if s.started then s.running ++ [e] else s.running).Nodup
    split
    · rw [List.nodup_append]
      refine ⟨h.rNodup, by simp, ?_⟩
      intro x hx y hy
      simp only [List.mem_singleton] at hy
      subst hy
      rintro rfl
      exact hold _ _ ((h.run x).1 hx).1 hename
    · exact h.rNodup
  · intro m x hx
    show x.id ∈ (if s.started then s.next :: s.cancels else s.cancels) ↔ s.started = true ∧ x ∉ s.starting
    rcases hop m x hx with ⟨-, rfl⟩ | ⟨hm, hx⟩
    · cases hst : s.started with
      | false =>
        simp only [Bool.false_eq_true, if_false, false_and, iff_false]
        intro hi
        have := h.cancelIds _ hi
        omega
      | true => simp [hnew, heid]
    · have hne : x.id ≠ s.next := by have := h.ids m x hx; omega
      rw [← h.cancel m x hx]
      split <;> simp [hne]
  · intro i hi
    show i < s.next + 1
    have hi : i ∈ (if s.started then s.next :: s.cancels else s.cancels) := hi
    split at hi
    · simp only [List.mem_cons] at hi
      rcases hi with rfl | hi
      · omega
      · have := h.cancelIds i hi; omega
    · have := h.cancelIds i hi; omega
  · intro m x hx
    rcases hop m x hx with ⟨rfl, rfl⟩ | ⟨-, hx⟩
    · rw [hekinds]; exact hown
    · exact h.kinds m x hx
  · intro g t
    show t ∈ registeredAfter (s.api ++ _) g ↔ ∃ m x, upd s.operators n (some e) m = some x ∧ g = viewGroup m ∧ t ∈ x.kinds
    simp only [registeredAfter_append, ApiOp.apply]
    by_cases hg : (kinds.any fun t => t.group == g) = true
    · rw [if_pos hg]
      simp only [List.any_eq_true, beq_iff_eq] at hg
      obtain ⟨t', ht', hg⟩ := hg
      have hgn : g = viewGroup n := by rw [← hg, hown t' ht']
      simp only [List.mem_filter, beq_iff_eq]
      constructor
      · rintro ⟨h1, h2⟩
        exact ⟨n, e, upd_same _ _ _, hgn, by rw [hekinds]; exact h1⟩
      · rintro ⟨m, x, hx, hgm, ht⟩
        have : m = n := C38_group_injective _ _ (by rw [← hgm, hgn])
        subst this
        rw [upd_same] at hx; cases hx
        rw [hekinds] at ht
        exact ⟨ht, by rw [hgn]; exact hown t ht⟩
    · rw [if_neg hg, h.api]
      constructor
      · rintro ⟨m, x, hx, rfl, ht⟩
        exact ⟨m, x, by rw [upd_other _ _ (hold _ _ hx)]; exact hx, rfl, ht⟩
      · rintro ⟨m, x, hx, rfl, ht⟩
        rcases hop m x hx with ⟨rfl, rfl⟩ | ⟨-, hx⟩
        · exfalso
          apply hg
          simp only [List.any_eq_true, beq_iff_eq]
          rw [hekinds] at ht
          exact ⟨t, ht, hown t ht⟩
        · exact ⟨m, x, hx, rfl, ht⟩
  · intro op hop'
    simp only [List.mem_append, List.mem_singleton] at hop'
    rcases hop' with h1 | rfl
    · exact h.valid op h1
    · exact register_valid n kinds hown
  · refine (GrowingFrom.append _ _ _).2 ⟨h.grows, ?_⟩
    intro t ht t' ht'
    rw [hown t ht] at ht'
    obtain ⟨m, x, hx, hg, -⟩ := (h.api _ _).1 ht'
    exact absurd (C38_group_injective _ _ hg).symm (hold m x hx)

/-- Operators of names the program does not add, and without a request, are those of the cluster. -/
def Synced (added : String → Prop) (s : OpCtl) : Prop :=
  ∀ n, ¬ added n → n ∉ s.pending → (s.operators n).map (·.spec) = (s.cluster n).map (·.2)

theorem mem_done (s : OpCtl) (n m : String) : m ∈ (s.done n).pending ↔ m ∈ s.pending ∧ m ≠ n := by simp [done]

theorem mem_enqueue (s : OpCtl) (n m : String) : m ∈ (s.enqueue n).pending ↔ m ∈ s.pending ∨ m = n := by
  simp [enqueue]; grind

theorem Inv.same {s s' : OpCtl} (h : Inv s) (h1 : s'.operators = s.operators) (h2 : s'.started = s.started) (h3 : s'.starting = s.starting)
    (h4 : s'.cancels = s.cancels) (h5 : s'.running = s.running) (h6 : s'.next = s.next) (h7 : s'.api = s.api) : Inv s' := by
  obtain ⟨a1, a2, a3, a4, a5, a6, a7, a8, a9, a10, a11, a12, a13, a14⟩ := h
  rw [← h1] at a1 a2 a3 a4 a7 a9 a11 a12
  rw [← h2] at a6 a7 a9
  rw [← h3] at a4 a5 a6 a7 a9
  rw [← h4] at a9 a10
  rw [← h5] at a7 a8
  rw [← h6] at a2 a10
  rw [← h7] at a12 a13 a14
  exact ⟨a1, a2, a3, a4, a5, a6, a7, a8, a9, a10, a11, a12, a13, a14⟩

/-- What a reconciliation of a request does. -/
theorem Inv.upsert {s : OpCtl} (h : Inv s) (hs : s.started = true) (h0 : s.starting = []) (n : String) (spec : List CtrlCfg) (o : Outcome) :
    (∀ s' ok, s.upsert n spec o = some (s', ok) → Inv s' ∧ s'.started = true ∧ s'.starting = [] ∧ s'.cluster = s.cluster ∧ s'.pending = s.pending ∧
      (∀ m, m ≠ n → s'.operators m = s.operators m) ∧ (ok = true → (s'.operators n).map (·.spec) = some spec)) ∧
    (s.upsert n spec o = none → ∃ env, o = .ok env ∧ 64 < (spec.map (fun c => (newDeclarative (env c) n c).errors)).sum) ∧
    (∀ env, o = .ok env → ∀ s' ok, s.upsert n spec o = some (s', ok) → ok = true) := by
  -- the state without the old operator
  obtain ⟨s1, e1, i1, hnone, hoth, st1, sg1, c1, p1⟩ : ∃ s1, s.dropOld n = some s1 ∧ Inv s1 ∧
      s1.operators n = none ∧ (∀ m, m ≠ n → s1.operators m = s.operators m) ∧ s1.started = true ∧ s1.starting = [] ∧ s1.cluster = s.cluster ∧ s1.pending = s.pending := by
    cases he : s.operators n with
    | none => exact ⟨s, by rw [dropOld, he], h, he, fun _ _ => rfl, hs, h0, rfl, rfl⟩
    | some e =>
      obtain ⟨s1, a, b, c, d, e', f, g⟩ := h.delete hs h0 he
      exact ⟨s1, by rw [dropOld, he]; exact a, b, by rw [c, upd_same], fun m hm => by rw [c, upd_other _ _ hm], d, e', f, g⟩
  have hu : s.upsert n spec o = match o with
      | .ok env => match s1.addOperator env n spec with
        | none => none
        | some s => some (s, true)
      | _ => some (s1, false) := by
    rw [OpCtl.upsert, e1]
    cases o <;> rfl
  cases o with
  | getFails =>
    simp only at hu
    rw [hu]
    refine ⟨?_, by simp, by simp⟩
    rintro s' ok ⟨⟩
    exact ⟨i1, st1, sg1, c1, p1, hoth, by simp⟩
  | newFails =>
    simp only at hu
    rw [hu]
    refine ⟨?_, by simp, by simp⟩
    rintro s' ok ⟨⟩
    exact ⟨i1, st1, sg1, c1, p1, hoth, by simp⟩
  | ok env =>
    simp only at hu
    rw [hu]
    cases ha : s1.addOperator env n spec with
    | none =>
      refine ⟨by simp, ?_, by simp⟩
      intro _
      refine ⟨env, rfl, ?_⟩
      rw [addOperator] at ha
      split at ha
      · rename_i hlt; exact hlt
      · cases ha
    | some s2 =>
      obtain ⟨i2, ⟨e, he, hsp⟩, st2, sg2, c2, p2⟩ := i1.add hnone ha
      refine ⟨?_, by simp, by rintro _ - s' ok ⟨⟩; rfl⟩
      rintro s' ok ⟨⟩
      refine ⟨i2, by rw [st2, st1], by rw [sg2, sg1], by rw [c2, c1], by rw [p2, p1], ?_, ?_⟩
      · intro m hm; rw [he, upd_other _ _ hm, hoth m hm]
      · intro _; rw [he, upd_same]; simp [hsp]

theorem Inv.reconcile {s s' : OpCtl} {added : String → Prop} (h : Inv s) (hy : Synced added s) (hs : s.started = true) (h0 : s.starting = []) (n : String)
    (hn : n ∈ s.pending) (o : Outcome) (hr : s.reconcile n o = some s') :
    Inv s' ∧ Synced added s' ∧ s'.started = true ∧ s'.starting = [] ∧ s'.cluster = s.cluster ∧
      (∀ m, m ∈ s'.pending → m ∈ s.pending) ∧ ((∃ env, o = .ok env) → n ∉ s'.pending) := by
  by_cases ho : o = .getFails
  · subst ho
    cases hr
    exact ⟨h, hy, hs, h0, rfl, fun _ h => h, by simp⟩
  have hr' : (match s.cluster n with
    | none =>
      match s.deleteOperator n with
      | none => none
      | some s => some (s.done n)
    | some (_, spec) =>
      match s.upsert n spec o with
      | none => none
      | some (s, true) => some (s.done n)
      | some (s, false) => some s) = some s' := by
    cases o with
    | getFails => exact absurd rfl ho
    | newFails => exact hr
    | ok env => exact hr
  cases hc : s.cluster n with
  | none =>
    rw [hc] at hr'
    simp only at hr'
    cases he : s.operators n with
    | none =>
      rw [Inv.delete_none he] at hr'
      cases hr'
      refine ⟨h.same rfl rfl rfl rfl rfl rfl rfl, ?_, hs, h0, rfl, fun m hm => ((mem_done s n m).1 hm).1, fun _ hm => ((mem_done s n n).1 hm).2 rfl⟩
      intro m ha hm
      rw [mem_done] at hm
      show (s.operators m).map _ = (s.cluster m).map _
      by_cases hmn : m = n
      · subst hmn; rw [he, hc]; rfl
      · exact hy m ha (fun hp => hm ⟨hp, hmn⟩)
    | some e =>
      obtain ⟨s1, a, b, c, d, e', f, g⟩ := h.delete hs h0 he
      rw [a] at hr'
      cases hr'
      refine ⟨b.same rfl rfl rfl rfl rfl rfl rfl, ?_, d, e', f, fun m hm => by rw [← g]; exact ((mem_done s1 n m).1 hm).1, fun _ hm => ((mem_done s1 n n).1 hm).2 rfl⟩
      intro m ha hm
      rw [mem_done, g] at hm
      show (s1.operators m).map _ = (s1.cluster m).map _
      rw [c, f]
      by_cases hmn : m = n
      · subst hmn; rw [upd_same, hc]; rfl
      · rw [upd_other _ _ hmn]; exact hy m ha (fun hp => hm ⟨hp, hmn⟩)
  | some gs =>
    obtain ⟨gen, spec⟩ := gs
    rw [hc] at hr'
    simp only at hr'
    obtain ⟨u1, -, u3⟩ := h.upsert hs h0 n spec o
    cases hu : s.upsert n spec o with
    | none => rw [hu] at hr'; cases hr'
    | some r =>
      obtain ⟨s1, ok⟩ := r
      obtain ⟨i1, st1, sg1, c1, p1, hoth, hok⟩ := u1 s1 ok hu
      rw [hu] at hr'
      cases ok with
      | true =>
        simp only [Option.some.injEq] at hr'
        subst hr'
        refine ⟨i1.same rfl rfl rfl rfl rfl rfl rfl, ?_, st1, sg1, c1, fun m hm => by rw [← p1]; exact ((mem_done s1 n m).1 hm).1,
          fun _ hm => ((mem_done s1 n n).1 hm).2 rfl⟩
        intro m ha hm
        rw [mem_done, p1] at hm
        show (s1.operators m).map _ = (s1.cluster m).map _
        rw [c1]
        by_cases hmn : m = n
        · subst hmn; rw [hok rfl, hc]; rfl
        · rw [hoth m hmn]; exact hy m ha (fun hp => hm ⟨hp, hmn⟩)
      | false =>
        simp only [Option.some.injEq] at hr'
        subst hr'
        refine ⟨i1, ?_, st1, sg1, c1, fun m hm => by rw [← p1]; exact hm, ?_⟩
        · intro m ha hm
          rw [p1] at hm
          have hmn : m ≠ n := fun e => hm (e ▸ hn)
          rw [hoth m hmn, c1]
          exact hy m ha hm
        · rintro ⟨env, he⟩; exact absurd (u3 env he s1 false hu) (by simp)

theorem errors_sum_le (env : CtrlCfg → BuildEnv) (n : String) (spec : List CtrlCfg) : (spec.map (fun c => (newDeclarative (env c) n c).errors)).sum ≤ spec.length := by
  induction spec with
  | nil => simp
  | cons c l ih =>
    have := (build_error_iff (env c) n c).2
    simp only [List.map_cons, List.sum_cons, List.length_cons]
    omega

/-- A reconciliation does not stop the program if the specification is small. -/
theorem Inv.reconcile_some {s : OpCtl} (h : Inv s) (hs : s.started = true) (h0 : s.starting = []) (n : String) (o : Outcome)
    (hsm : ∀ gen spec, s.cluster n = some (gen, spec) → spec.length ≤ 64) : ∃ s', s.reconcile n o = some s' := by
  have key : ∀ o' : Outcome, ∃ s', (match s.cluster n with
    | none =>
      match s.deleteOperator n with
      | none => none
      | some s => some (s.done n)
    | some (_, spec) =>
      match s.upsert n spec o' with
      | none => none
      | some (s, true) => some (s.done n)
      | some (s, false) => some s) = some s' := by
    intro o'
    cases hc : s.cluster n with
    | none =>
      cases he : s.operators n with
      | none => rw [Inv.delete_none he]; exact ⟨_, rfl⟩
      | some e =>
        obtain ⟨s1, a, -⟩ := h.delete hs h0 he
        rw [a]; exact ⟨_, rfl⟩
    | some gs =>
      obtain ⟨gen, spec⟩ := gs
      simp only
      cases hu : s.upsert n spec o' with
      | none =>
        obtain ⟨env, -, hlt⟩ := (h.upsert hs h0 n spec o').2.1 hu
        have := errors_sum_le env n spec
        have := hsm gen spec hc
        omega
      | some r =>
        obtain ⟨s1, ok⟩ := r
        cases ok <;> exact ⟨_, rfl⟩
  cases o with
  | getFails => exact ⟨s, rfl⟩
  | newFails => exact key _
  | ok env => exact key _

theorem Inv.startNext {s : OpCtl} (h : Inv s) {e : OpInst} {es : List OpInst} (hs : s.starting = e :: es) : Inv ({ s with starting := es }.startOp e) := by
  have hst : s.started = true := by
    cases h1 : s.started with
    | true => rfl
    | false => rw [h.idle h1] at hs; cases hs
  have hnd := h.sNodup
  rw [hs] at hnd
  have hopE : s.operators e.name = some e := h.starting e (by simp [hs])
  obtain ⟨a1, a2, a3, a4, a5, a6, a7, a8, a9, a10, a11, a12, a13, a14⟩ := h
  constructor
  · exact a1
  · exact a2
  · exact a3
  · intro x hx; exact a4 x (by rw [hs]; exact List.mem_cons_of_mem _ hx)
  · exact (List.nodup_cons.1 hnd).2
  · intro hf
    have hf : s.started = false := hf
    rw [hst] at hf; cases hf
  · intro x
    show x ∈ s.running ++ [e] ↔ s.operators x.name = some x ∧ s.started = true ∧ x ∉ es
    simp only [List.mem_append, a7 x, hst, hs, List.mem_cons, List.not_mem_nil, or_false, true_and, not_or]
    constructor
    · rintro (⟨h1, h2, h3⟩ | rfl)
      · exact ⟨h1, h3⟩
      · exact ⟨hopE, (List.nodup_cons.1 hnd).1⟩
    · rintro ⟨h1, h2⟩
      by_cases hx : x = e
      · exact .inr hx
      · exact .inl ⟨h1, hx, h2⟩
  · show (s.running ++ [e]).Nodup
    rw [List.nodup_append]
    refine ⟨a8, by simp, ?_⟩
    intro x hx y hy
    simp only [List.mem_singleton] at hy
    subst hy
    rintro rfl
    exact ((a7 x).1 hx).2.2 (by simp [hs])
  · intro m x hx
    show x.id ∈ e.id :: s.cancels ↔ s.started = true ∧ x ∉ es
    have := a9 m x hx
    rw [hs] at this
    simp only [List.mem_cons, this, hst, true_and, not_or]
    constructor
    · rintro (hid | ⟨-, h3⟩)
      · have hm := a3 _ _ _ _ hx hopE hid
        subst hm
        have hxe : x = e := by
          have hx' : s.operators e.name = some x := hx
          rw [hopE] at hx'; exact (Option.some.inj hx').symm
        rw [hxe]; exact (List.nodup_cons.1 hnd).1
      · exact h3
    · intro h3
      by_cases hxe : x = e
      · exact .inl (by rw [hxe])
      · exact .inr ⟨hxe, h3⟩
  · intro i hi
    have hi : i ∈ e.id :: s.cancels := hi
    simp only [List.mem_cons] at hi
    rcases hi with rfl | hi
    · exact a2 _ _ hopE
    · exact a10 i hi
  · exact a11
  · exact a12
  · exact a13
  · exact a14

theorem Inv.start {s : OpCtl} (h : Inv s) {es : List OpInst} (h1 : s.started = false) (h2 : es.Nodup) (h3 : ∀ e, e ∈ es ↔ s.operators e.name = some e) :
    Inv { s with started := true, starting := es } := by
  obtain ⟨a1, a2, a3, a4, a5, a6, a7, a8, a9, a10, a11, a12, a13, a14⟩ := h
  constructor
  · exact a1
  · exact a2
  · exact a3
  · intro e he; exact (h3 e).1 he
  · exact h2
  · intro hf; cases hf
  · intro x
    show x ∈ s.running ↔ s.operators x.name = some x ∧ true = true ∧ x ∉ es
    rw [a7, h1, h3]
    simp
  · exact a8
  · intro m x hx
    show x.id ∈ s.cancels ↔ true = true ∧ x ∉ es
    rw [a9 m x hx, h1, h3]
    have hm : s.operators x.name = some x := by rw [a1 m x hx]; exact hx
    simp [hm]
  · exact a10
  · exact a11
  · exact a12
  · exact a13
  · exact a14

/-- A specification in the cluster is small. -/
def SmallCluster (s : OpCtl) : Prop := ∀ n gen spec, s.cluster n = some (gen, spec) → spec.length ≤ 64

/-- One event. -/
theorem Inv.step {s : OpCtl} {added : String → Prop} (h : Inv s) (hy : Synced added s) (e : Ev) (hp : Possible s e) (ht : Tame s e)
    (ha : ∀ env n spec, e = .add env n spec → added n) :
    (∀ s', s.step e = some s' → Inv s' ∧ Synced added s') ∧
    (SmallCluster s → Small e → ∃ s', s.step e = some s' ∧ SmallCluster s') := by
  cases e with
  | apply n spec =>
    simp only [OpCtl.step]
    cases hc : s.cluster n with
    | none =>
      simp only [Option.some.injEq]
      refine ⟨?_, ?_⟩
      · rintro s' rfl
        refine ⟨h.same rfl rfl rfl rfl rfl rfl rfl, ?_⟩
        intro m hm hpm
        rw [mem_enqueue, not_or] at hpm
        show (s.operators m).map _ = (upd s.cluster n (some (1, spec)) m).map _
        rw [upd_other _ _ hpm.2]
        exact hy m hm hpm.1
      · intro hsm hse
        refine ⟨_, rfl, ?_⟩
        intro m gen sp hm
        have hm : upd s.cluster n (some (1, spec)) m = some (gen, sp) := hm
        by_cases hmn : m = n
        · subst hmn; rw [upd_same] at hm; cases hm; exact hse
        · rw [upd_other _ _ hmn] at hm; exact hsm m gen sp hm
    | some gs =>
      obtain ⟨gen, old⟩ := gs
      simp only
      split
      · simp only [Option.some.injEq]
        exact ⟨by rintro s' rfl; exact ⟨h, hy⟩, fun hsm _ => ⟨s, rfl, hsm⟩⟩
      · simp only [Option.some.injEq]
        refine ⟨?_, ?_⟩
        · rintro s' rfl
          refine ⟨h.same rfl rfl rfl rfl rfl rfl rfl, ?_⟩
          intro m hm hpm
          rw [mem_enqueue, not_or] at hpm
          show (s.operators m).map _ = (upd s.cluster n (some (gen + 1, spec)) m).map _
          rw [upd_other _ _ hpm.2]
          exact hy m hm hpm.1
        · intro hsm hse
          refine ⟨_, rfl, ?_⟩
          intro m gen' sp hm
          have hm : upd s.cluster n (some (gen + 1, spec)) m = some (gen', sp) := hm
          by_cases hmn : m = n
          · subst hmn; rw [upd_same] at hm; cases hm; exact hse
          · rw [upd_other _ _ hmn] at hm; exact hsm m gen' sp hm
  | remove n =>
    simp only [OpCtl.step]
    cases hc : s.cluster n with
    | none =>
      simp only [Option.some.injEq]
      exact ⟨by rintro s' rfl; exact ⟨h, hy⟩, fun hsm _ => ⟨s, rfl, hsm⟩⟩
    | some gs =>
      simp only [Option.some.injEq]
      refine ⟨?_, ?_⟩
      · rintro s' rfl
        refine ⟨h.same rfl rfl rfl rfl rfl rfl rfl, ?_⟩
        intro m hm hpm
        rw [mem_enqueue, not_or] at hpm
        show (s.operators m).map _ = (upd s.cluster n none m).map _
        rw [upd_other _ _ hpm.2]
        exact hy m hm hpm.1
      · intro hsm hse
        refine ⟨_, rfl, ?_⟩
        intro m gen' sp hm
        have hm : upd s.cluster n none m = some (gen', sp) := hm
        by_cases hmn : m = n
        · subst hmn; rw [upd_same] at hm; cases hm
        · rw [upd_other _ _ hmn] at hm; exact hsm m gen' sp hm
  | replaced n spec =>
    simp only [OpCtl.step]
    cases hc : s.cluster n with
    | none =>
      simp only [Option.some.injEq]
      exact ⟨by rintro s' rfl; exact ⟨h, hy⟩, fun hsm _ => ⟨s, rfl, hsm⟩⟩
    | some gs =>
      obtain ⟨gen, old⟩ := gs
      simp only
      split
      · rename_i hg
        have hold : old = spec := ht gen old hc hg
        subst hold
        subst hg
        have hsame : upd s.cluster n (some (1, old)) = s.cluster := by
          funext m
          by_cases hmn : m = n
          · subst hmn; rw [upd_same, hc]
          · rw [upd_other _ _ hmn]
        simp only [Option.some.injEq]
        rw [hsame]
        exact ⟨by rintro s' rfl; exact ⟨h, hy⟩, fun hsm _ => ⟨s, rfl, hsm⟩⟩
      · simp only [Option.some.injEq]
        refine ⟨?_, ?_⟩
        · rintro s' rfl
          refine ⟨h.same rfl rfl rfl rfl rfl rfl rfl, ?_⟩
          intro m hm hpm
          rw [mem_enqueue, not_or] at hpm
          show (s.operators m).map _ = (upd s.cluster n (some (1, spec)) m).map _
          rw [upd_other _ _ hpm.2]
          exact hy m hm hpm.1
        · intro hsm hse
          refine ⟨_, rfl, ?_⟩
          intro m gen' sp hm
          have hm : upd s.cluster n (some (1, spec)) m = some (gen', sp) := hm
          by_cases hmn : m = n
          · subst hmn; rw [upd_same] at hm; cases hm; exact hse
          · rw [upd_other _ _ hmn] at hm; exact hsm m gen' sp hm
  | reconcile n o =>
    simp only [OpCtl.step]
    by_cases hn : n ∈ s.pending
    · rw [if_pos (by simpa using hn)]
      refine ⟨?_, ?_⟩
      · intro s' hs'
        obtain ⟨a, b, -⟩ := h.reconcile hy hp ht n hn o hs'
        exact ⟨a, b⟩
      · intro hsm _
        obtain ⟨s', hs'⟩ := h.reconcile_some hp ht n o (hsm n)
        obtain ⟨-, -, -, -, c, -⟩ := h.reconcile hy hp ht n hn o hs'
        exact ⟨s', hs', by intro m; rw [c]; exact hsm m⟩
    · rw [if_neg (by simpa using hn)]
      simp only [Option.some.injEq]
      exact ⟨by rintro s' rfl; exact ⟨h, hy⟩, fun hsm _ => ⟨s, rfl, hsm⟩⟩
  | add env n spec =>
    simp only [OpCtl.step]
    refine ⟨?_, ?_⟩
    · intro s' hs'
      obtain ⟨a, ⟨e, he, -⟩, -, -, c, d⟩ := h.add ht hs'
      refine ⟨a, ?_⟩
      intro m hm hpm
      have hmn : m ≠ n := by rintro rfl; exact hm (ha env m spec rfl)
      rw [he, upd_other _ _ hmn, c]
      exact hy m hm (by rw [← d]; exact hpm)
    · intro hsm hse
      cases hs' : s.addOperator env n spec with
      | none =>
        rw [addOperator] at hs'
        split at hs'
        · rename_i hlt
          have := errors_sum_le env n spec
          have hse : spec.length ≤ 64 := hse
          simp only [channelSize] at hlt
          omega
        · cases hs'
      | some s' =>
        obtain ⟨-, -, -, -, c, -⟩ := h.add ht hs'
        exact ⟨s', rfl, by intro m; rw [c]; exact hsm m⟩
  | start es =>
    simp only [OpCtl.step, Option.some.injEq]
    refine ⟨?_, fun hsm _ => ⟨_, rfl, hsm⟩⟩
    rintro s' rfl
    exact ⟨h.start hp.1 hp.2.1 hp.2.2, hy⟩
  | startNext =>
    simp only [OpCtl.step]
    cases hs : s.starting with
    | nil =>
      simp only [Option.some.injEq]
      exact ⟨by rintro s' rfl; exact ⟨h, hy⟩, fun hsm _ => ⟨s, rfl, hsm⟩⟩
    | cons e es =>
      simp only [Option.some.injEq]
      refine ⟨?_, fun hsm _ => ⟨_, rfl, hsm⟩⟩
      rintro s' rfl
      exact ⟨h.startNext hs, hy⟩

/-- A sequence of events. -/
theorem Inv.runs {added : String → Prop} (es : List Ev) (s : OpCtl) (h : Inv s) (hy : Synced added s) (hp : Along Possible s es) (ht : Along Tame s es)
    (ha : ∀ env n spec, Ev.add env n spec ∈ es → added n) :
    (∀ s', s.run es = some s' → Inv s' ∧ Synced added s') ∧
    (SmallCluster s → (∀ e ∈ es, Small e) → ∃ s', s.run es = some s' ∧ SmallCluster s') := by
  induction es generalizing s with
  | nil => exact ⟨by rintro s' ⟨⟩; exact ⟨h, hy⟩, fun hsm _ => ⟨s, rfl, hsm⟩⟩
  | cons e es ih =>
    obtain ⟨a, b⟩ := h.step hy e hp.1 ht.1 (fun env n spec he => ha env n spec (by simp [he]))
    refine ⟨?_, ?_⟩
    · intro s' hs'
      rw [OpCtl.run] at hs'
      cases hst : s.step e with
      | none => rw [hst] at hs'; cases hs'
      | some s1 =>
        rw [hst] at hs'
        obtain ⟨i1, y1⟩ := a s1 hst
        exact (ih s1 i1 y1 (hp.2 s1 hst) (ht.2 s1 hst) (fun env n spec he => ha env n spec (by simp [he]))).1 s' hs'
    · intro hsm hsmall
      obtain ⟨s1, hst, hsm1⟩ := b hsm (hsmall e (by simp))
      obtain ⟨i1, y1⟩ := a s1 hst
      obtain ⟨s', h1, h2⟩ := (ih s1 i1 y1 (hp.2 s1 hst) (ht.2 s1 hst) (fun env n spec he => ha env n spec (by simp [he]))).2 hsm1 (fun e he => hsmall e (by simp [he]))
      exact ⟨s', by rw [OpCtl.run, hst]; exact h1, h2⟩

/-- The running operators of a name. -/
theorem Inv.instances {s : OpCtl} (h : Inv s) (hs : s.started = true) (h0 : s.starting = []) (n : String) : s.instances n = (s.operators n).toList := by
  have hm : ∀ e, e ∈ s.instances n ↔ s.operators n = some e := by
    intro e
    rw [OpCtl.instances, List.mem_filter, h.run, h0]
    simp only [hs, List.not_mem_nil, not_false_eq_true, and_true, decide_eq_true_eq]
    constructor
    · rintro ⟨h1, rfl⟩; exact h1
    · intro he
      have := h.names n e he
      subst this
      exact ⟨he, rfl⟩
  have hnd : (s.instances n).Nodup := h.rNodup.filter _
  cases ho : s.operators n with
  | none =>
    simp only [Option.toList_none]
    rw [List.eq_nil_iff_forall_not_mem]
    intro e he
    rw [hm, ho] at he; cases he
  | some e =>
    simp only [Option.toList_some]
    match hl : s.instances n with
    | [] => have := (hm e).2 ho; rw [hl] at this; cases this
    | [x] =>
      have := (hm x).1 (by rw [hl]; simp)
      rw [ho] at this; cases this; rfl
    | x :: y :: l =>
      have h1 := (hm x).1 (by rw [hl]; simp)
      have h2 := (hm y).1 (by rw [hl]; simp)
      rw [h1] at h2; cases h2
      rw [hl] at hnd; simp at hnd

end OpCtl
end Dctl
