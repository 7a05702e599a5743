import Verif.Operator.ErrorsSettle
/-!
# What operators keep, and where statuses come from
-/
set_option autoImplicit false
set_option linter.unusedSectionVars false
namespace Dctl
namespace Pump

/-- What a step leaves of an operator. -/
def Keeps (i j : Inst) : Prop := j.name = i.name ∧ j.ctrls = i.ctrls ∧ (i.pumping = false → j.pumping = false ∧ i.chan <+: j.chan)

theorem keeps_refl (i : Inst) : Keeps i i := ⟨rfl, rfl, fun h => ⟨h, List.prefix_refl _⟩⟩

theorem keeps_trans {i j k : Inst} (h : Keeps i j) (h' : Keeps j k) : Keeps i k :=
  ⟨h'.1.trans h.1, h'.2.1.trans h.2.1, fun hp => ⟨(h'.2.2 (h.2.2 hp).1).1, (h.2.2 hp).2.trans (h'.2.2 (h.2.2 hp).1).2⟩⟩

theorem keeps_upd {f : Nat → Option Inst} {id id' : Nat} {i j k : Inst} (hi : f id = some i) (hk : Keeps i k) (hj : f id' = some j) :
    ∃ j', upd f id (some k) id' = some j' ∧ Keeps j j' := by
  by_cases he : id' = id
  · subst he
    rw [hi] at hj
    cases hj
    exact ⟨k, upd_same _ _ _, hk⟩
  · exact ⟨j, by rw [upd_other _ _ he]; exact hj, keeps_refl j⟩

theorem keeps_cancel {s : St} {name : String} {id : Nat} {i : Inst} (hi : s.insts id = some i) : ∃ j, (s.cancel name).insts id = some j ∧ Keeps i j := by
  rw [cancel_insts, hi]
  split
  · exact ⟨_, rfl, rfl, rfl, fun h => ⟨h, List.prefix_refl _⟩⟩
  · exact ⟨i, rfl, keeps_refl i⟩

theorem step_keeps {es : List Ev} {s s' : St} {e : Ev} (h : Base es s) (hs : s.step e = .ok s') {id : Nat} {i : Inst} (hi : s.insts id = some i) :
    ∃ j, s'.insts id = some j ∧ Keeps i j := by
  cases e with
  | push id' c p =>
    obtain ⟨k, j, hk, hj, rfl⟩ := step_push hs
    have hj' := Inst.push_some hj
    refine keeps_upd hk ⟨by rw [hj'], by rw [hj'], ?_⟩ hi
    intro hp
    rw [hj']
    refine ⟨hp, ?_⟩
    simp only
    split
    · exact List.prefix_append _ _
    · exact List.prefix_refl _
  | take id' =>
    obtain ⟨k, x, xs, hk, hp, hsl, hch, rfl⟩ := step_take hs
    exact keeps_upd hk ⟨rfl, rfl, fun h' => by rw [hp] at h'; simp at h'⟩ hi
  | handOver id' =>
    obtain ⟨k, x, hk, hsl, hcl, hidle, rfl⟩ := step_handOver hs
    exact keeps_upd hk ⟨rfl, rfl, fun h' => ⟨h', List.prefix_refl _⟩⟩ hi
  | pumpEnds id' =>
    obtain ⟨k, hk, hp, hl, rfl⟩ := step_pumpEnds hs
    exact keeps_upd hk ⟨rfl, rfl, fun h' => ⟨rfl, List.prefix_refl _⟩⟩ hi
  | opFails id' =>
    obtain ⟨_, _, rfl⟩ := step_opFails hs
    exact ⟨i, hi, keeps_refl i⟩
  | loopFind =>
    rcases step_loopFind hs with ⟨_, rfl⟩ | ⟨_, _, rfl⟩
    · exact ⟨i, hi, keeps_refl i⟩
    · exact ⟨i, hi, keeps_refl i⟩
  | loopSnap ok =>
    obtain ⟨_, _, _, _, rfl⟩ := step_loopSnap hs
    exact ⟨i, hi, keeps_refl i⟩
  | workerSnap ok =>
    obtain ⟨_, _, _, _, rfl⟩ := step_workerSnap hs
    exact ⟨i, hi, keeps_refl i⟩
  | write a ok =>
    obtain ⟨_, _, rfl⟩ := step_write hs
    exact ⟨i, hi, keeps_refl i⟩
  | upsert name ctrls =>
    obtain ⟨_, rfl⟩ := step_upsert hs
    obtain ⟨e1, _⟩ := cancel_fields s name
    obtain ⟨j, hj, hk⟩ := keeps_cancel (name := name) hi
    refine ⟨j, ?_, hk⟩
    have hlt := base_lt h hi
    simp only [e1]
    rw [upd_other _ _ (by omega)]
    exact hj
  | delete name =>
    obtain ⟨_, rfl⟩ := step_delete hs
    exact keeps_cancel hi
  | stop =>
    have := step_stop hs
    subst this
    exact ⟨i, hi, keeps_refl i⟩
  | loopEnds =>
    obtain ⟨_, _, rfl⟩ := step_loopEnds hs
    exact ⟨i, hi, keeps_refl i⟩

theorem run_keeps {es : List Ev} {s s' : St} (l : List Ev) (h : Base es s) (hs : s.run l = .ok s') {id : Nat} {i : Inst} (hi : s.insts id = some i) :
    ∃ j, s'.insts id = some j ∧ Keeps i j := by
  induction l generalizing es s i with
  | nil =>
    simp [St.run] at hs
    subst hs
    exact ⟨i, hi, keeps_refl i⟩
  | cons e l ih =>
    have hs2 : s.run ([e] ++ l) = .ok s' := hs
    obtain ⟨m, h1, h2⟩ := (run_append _ _ _ _).1 hs2
    rw [run_one] at h1
    obtain ⟨j, hj, hk⟩ := step_keeps h h1 hi
    obtain ⟨j', hj', hk'⟩ := ih (base_step es s e m h h1) h2 hj
    exact ⟨j', hj', keeps_trans hk hk'⟩

/-- A status some operator of the name had. -/
def WasStatus (es : List Ev) (s : St) (n : String) (v : List CtrlStatus) : Prop :=
  ∃ id i pre post, s.insts id = some i ∧ i.name = n ∧ pushesOf id es = pre ++ post ∧ v = statusAfter i.ctrls pre

theorem was_step {es : List Ev} {s s' : St} {e : Ev} (h : Base es s) (hs : s.step e = .ok s') {n : String} {v : List CtrlStatus}
    (hw : WasStatus es s n v) : WasStatus (es ++ [e]) s' n v := by
  obtain ⟨id, i, pre, post, hi, hn, hp, hv⟩ := hw
  obtain ⟨j, hj, hk⟩ := step_keeps h hs hi
  exact ⟨id, j, pre, post ++ pushesOf id [e], hj, by rw [hk.1, hn], by rw [pushesOf_append, hp, List.append_assoc], by rw [hk.2.1, hv]⟩

theorem was_now {es : List Ev} {s : St} (h : Base es s) {id : Nat} {i : Inst} (hi : s.insts id = some i) : WasStatus es s i.name i.status :=
  ⟨id, i, pushesOf id es, [], hi, rfl, by simp, status_eq i _ (entry_of h hi).reps⟩

structure PastInv (es : List Ev) (s : St) : Prop where
  base : Base es s
  holds : ∀ a x, s.holds a = some x → WasStatus es s x.name x.status
  shown : ∀ n v, s.shown n = some v → WasStatus es s n v

theorem past_step (es : List Ev) (s : St) (e : Ev) (s' : St) (h : PastInv es s) (_ : True) (hs : s.step e = .ok s') : PastInv (es ++ [e]) s' := by
  have hb := base_step es s e s' h.base hs
  have hw : ∀ n v, WasStatus es s n v → WasStatus (es ++ [e]) s' n v := fun n v => was_step h.base hs
  have same : s'.holds = s.holds → s'.shown = s.shown → PastInv (es ++ [e]) s' := fun h1 h2 =>
    ⟨hb, fun a x hx => hw _ _ (h.holds a x (h1 ▸ hx)), fun n v hv => hw _ _ (h.shown n v (h2 ▸ hv))⟩
  cases e with
  | push id' c p =>
    obtain ⟨k, j, hk, hj, rfl⟩ := step_push hs
    exact same rfl rfl
  | take id' =>
    obtain ⟨k, x, xs, hk, hp, hsl, hch, rfl⟩ := step_take hs
    exact same rfl rfl
  | handOver id' =>
    obtain ⟨k, x, hk, hsl, hcl, hidle, rfl⟩ := step_handOver hs
    exact same rfl rfl
  | pumpEnds id' =>
    obtain ⟨k, hk, hp, hl, rfl⟩ := step_pumpEnds hs
    exact same rfl rfl
  | opFails id' =>
    obtain ⟨_, _, rfl⟩ := step_opFails hs
    exact same rfl rfl
  | loopFind =>
    rcases step_loopFind hs with ⟨_, rfl⟩ | ⟨_, _, rfl⟩
    · exact same rfl rfl
    · exact same rfl rfl
  | loopSnap ok =>
    obtain ⟨id, i, hg, hi, rfl⟩ := step_loopSnap hs
    refine ⟨hb, ?_, fun n v hv => hw _ _ (h.shown n v hv)⟩
    intro a x hx
    cases ok with
    | false => exact hw _ _ (h.holds a x hx)
    | true =>
      simp only [if_true] at hx
      by_cases ha : a = .loop
      · subst ha
        rw [upd_same] at hx
        cases hx
        exact hw _ _ (was_now h.base hi)
      · rw [upd_other _ _ ha] at hx
        exact hw _ _ (h.holds a x hx)
  | workerSnap ok =>
    obtain ⟨id, i, hg, hi, rfl⟩ := step_workerSnap hs
    refine ⟨hb, ?_, fun n v hv => hw _ _ (h.shown n v hv)⟩
    intro a x hx
    cases ok with
    | false => exact hw _ _ (h.holds a x hx)
    | true =>
      simp only [if_true] at hx
      by_cases ha : a = .worker
      · subst ha
        rw [upd_same] at hx
        cases hx
        exact hw _ _ (was_now h.base hi)
      · rw [upd_other _ _ ha] at hx
        exact hw _ _ (h.holds a x hx)
  | write a ok =>
    obtain ⟨x, hx, rfl⟩ := step_write hs
    refine ⟨hb, ?_, ?_⟩
    · intro b y hy
      simp only [upd] at hy
      split at hy
      · simp at hy
      · exact hw _ _ (h.holds b y hy)
    · intro n v hv
      cases ok with
      | false => exact hw _ _ (h.shown n v hv)
      | true =>
        simp only [if_true] at hv
        by_cases hn : n = x.name
        · subst hn
          rw [upd_same] at hv
          cases hv
          exact hw _ _ (h.holds a x hx)
        · rw [upd_other _ _ hn] at hv
          exact hw _ _ (h.shown n v hv)
  | upsert name ctrls =>
    obtain ⟨_, rfl⟩ := step_upsert hs
    obtain ⟨_, _, _, e4, e5, _⟩ := cancel_fields s name
    exact same e4 e5
  | delete name =>
    obtain ⟨_, rfl⟩ := step_delete hs
    obtain ⟨_, _, _, e4, e5, _⟩ := cancel_fields s name
    exact same e4 e5
  | stop =>
    have := step_stop hs
    subst this
    exact same rfl rfl
  | loopEnds =>
    obtain ⟨_, _, rfl⟩ := step_loopEnds hs
    exact same rfl rfl

theorem past_run (es : List Ev) (s : St) (hr : init.run es = .ok s) : PastInv es s :=
  run_induct (P := fun _ _ => True) ⟨base_init, by simp [init], by simp [init]⟩ past_step es s (always_true _ _) hr

theorem always_join {P : St → Ev → Prop} {s m : St} {a b : List Ev} (ha : Always P s a) (hm : s.run a = .ok m) (hb : Always P m b) : Always P s (a ++ b) := by
  induction a generalizing s with
  | nil =>
    simp only [St.run, Res.ok.injEq] at hm
    subst hm
    exact hb
  | cons e a ih =>
    refine ⟨ha.1, ?_⟩
    intro s' hs'
    simp only [St.run, hs'] at hm
    exact ih (ha.2 s' hs') hm

theorem pushesOf_internal {id : Nat} {l : List Ev} (h : ∀ e, e ∈ l → Internal e) : pushesOf id l = [] := by
  induction l with
  | nil => rfl
  | cons e l ih =>
    have he := h e (by simp)
    have := ih (fun e' he' => h e' (by simp [he']))
    cases e <;> first | exact this | exact he.elim

/-- A check that the steps of a run are tame. -/
def tameB (s : St) : Ev → Bool
  | .upsert _ _ | .delete _ => s.got.isNone && (s.holds .loop).isNone
  | .loopSnap ok => ok && (s.holds .worker).isNone
  | .workerSnap ok => ok && (s.holds .loop).isNone
  | .write _ ok => ok
  | _ => true

theorem tameB_tame {s : St} {e : Ev} (h : tameB s e = true) : Tame s e := by
  cases e <;> simp [tameB] at h <;> simp only [Tame]
  all_goals grind [St.WorkerWrites, St.LoopOn]

def alwaysB (s : St) : List Ev → Bool
  | [] => true
  | e :: es => tameB s e && (match s.step e with | .ok s' => alwaysB s' es | _ => true)

theorem alwaysB_tame {s : St} {es : List Ev} (h : alwaysB s es = true) : Always Tame s es := by
  induction es generalizing s with
  | nil => trivial
  | cons e es ih =>
    simp only [alwaysB, Bool.and_eq_true] at h
    refine ⟨tameB_tame h.1, ?_⟩
    intro s' hs'
    have h2 := h.2
    rw [hs'] at h2
    exact ih h2

end Pump
end Dctl
