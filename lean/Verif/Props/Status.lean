import Verif.Spec.Operator
/-!
# Errors and status (C54, C72)
-/
set_option autoImplicit false
namespace Dctl

/-- The reporter after some pushes. -/
def pushed (ps : List Push) : Reporter := ps.foldl Reporter.push Reporter.init

theorem pushed_append (ps : List Push) (p : Push) : pushed (ps ++ [p]) = (pushed ps).push p := by simp [pushed]

theorem shortened_trim (s : Text) : Shortened s (trimText s) := by
  constructor
  · intro h
    rw [trimText, if_pos (by simpa [trimLen] using h)]
  · intro h
    refine ⟨s.take 119, (s.take (s.length - 120)).drop 119, s.drop (s.length - 120), ?_, ?_, ?_, ?_⟩
    · have h1 : s.take 119 = (s.take (s.length - 120)).take 119 := by rw [List.take_take, Nat.min_eq_left (by omega)]
      rw [h1, List.take_append_drop, List.take_append_drop]
    · simp; omega
    · simp; omega
    · rw [trimText, if_neg (by simp [trimLen]; omega)]
      rfl

theorem pushed_stack (ps : List Push) :
    ∃ pre last, ps.map (·.text) = pre ++ last ∧ last.length = min 10 ps.length ∧ (pushed ps).stack = last := by
  suffices h : ∀ rs : List Push, ∃ pre last, rs.reverse.map (·.text) = pre ++ last ∧ last.length = min 10 rs.reverse.length ∧ (pushed rs.reverse).stack = last by
    simpa using h ps.reverse
  intro rs
  induction rs with
  | nil => exact ⟨[], [], rfl, rfl, rfl⟩
  | cons p rs ih =>
    obtain ⟨pre, last, h1, h2, h3⟩ := ih
    rw [List.reverse_cons, pushed_append]
    by_cases hl : last.length = 10
    · refine ⟨pre ++ last.take 1, last.drop 1 ++ [p.text], ?_, ?_, ?_⟩
      · rw [List.map_append, h1, List.map_cons, List.map_nil]
        conv => lhs; rw [← List.take_append_drop 1 last]
        simp only [List.append_assoc]
      · simp at h2 ⊢; omega
      · simp [Reporter.push, h3, hl, stackSize]
    · refine ⟨pre, last ++ [p.text], ?_, ?_, ?_⟩
      · simp only [List.map_append, h1, List.map_cons, List.map_nil, List.append_assoc]
      · simp at h2 ⊢; omega
      · simp [Reporter.push, h3, hl, stackSize]

theorem pushed_critical (ps : List Push) : (pushed ps).critical = true ↔ ∃ p ∈ ps, p.critical = true := by
  suffices h : ∀ rs : List Push, (pushed rs.reverse).critical = true ↔ ∃ p ∈ rs.reverse, p.critical = true by simpa using h ps.reverse
  intro rs
  induction rs with
  | nil => simp [pushed, Reporter.init]
  | cons p rs ih =>
    rw [List.reverse_cons, pushed_append]
    simp only [Reporter.push, Bool.or_eq_true, ih, List.mem_append, List.mem_singleton]
    constructor
    · rintro (⟨q, hq, h⟩ | h)
      · exact ⟨q, .inl hq, h⟩
      · exact ⟨p, .inr rfl, h⟩
    · rintro ⟨q, hq | rfl, h⟩
      · exact .inl ⟨q, hq, h⟩
      · exact .inr h

/-! ## C54 -/

/-- **C54.** After any errors the status shows the last ten of them (all, if there are fewer), in the order they came, each shortened. -/
theorem report_last_ten (name : String) (ps : List Push) :
    ∃ (pre last : List Text) (f : Text → Text), ps.map (·.text) = pre ++ last ∧ last.length = min 10 ps.length ∧ (∀ s, Shortened s (f s)) ∧
      ((pushed ps).status name).lastErrors = last.map f := by
  obtain ⟨pre, last, h1, h2, h3⟩ := pushed_stack ps
  exact ⟨pre, last, trimText, h1, h2, shortened_trim, by simp [Reporter.status, Reporter.report, h3]⟩

/-- **C54.** A controller is ready exactly if no error was recorded. -/
theorem ready_iff (name : String) (ps : List Push) : ((pushed ps).status name).cond = .ready ↔ ps = [] := by
  obtain ⟨pre, last, -, h2, h3⟩ := pushed_stack ps
  cases ps with
  | nil => simp [pushed, Reporter.init, Reporter.status]
  | cons p ps =>
    have : (pushed (p :: ps)).stack.length ≠ 0 := by rw [h3, h2]; simp
    simp only [Reporter.status, if_neg this]
    split <;> simp

/-- **C54.** A controller is not ready exactly if a critical error was recorded, however many errors came after it. -/
theorem not_ready_iff (name : String) (ps : List Push) : ((pushed ps).status name).cond = .notReady ↔ ∃ p ∈ ps, p.critical = true := by
  obtain ⟨pre, last, -, h2, h3⟩ := pushed_stack ps
  cases ps with
  | nil => simp [pushed, Reporter.init, Reporter.status]
  | cons p ps =>
    have : (pushed (p :: ps)).stack.length ≠ 0 := by rw [h3, h2]; simp
    rw [← pushed_critical]
    simp only [Reporter.status, if_neg this]
    cases (pushed (p :: ps)).critical <;> simp

/-- **C54.** The status of an operator lists every controller once, in order, and each as the controller reports itself: a native one ready, without errors. -/
theorem operator_status_all (l : List StatusOf) :
    (operatorStatus l).map (·.name) = l.map StatusOf.called ∧
    ∀ (i : Nat) (c : StatusOf), l[i]? = some c → ∃ st, (operatorStatus l)[i]? = some st ∧
      (∀ n r, c = .declarative n r → st = r.status n) ∧ (∀ n, c = .native n → st = ⟨n, .ready, []⟩) := by
  induction l with
  | nil => exact ⟨rfl, by intro i c h; simp at h⟩
  | cons a l ih =>
    have hc : ∃ st, operatorStatus (a :: l) = st :: operatorStatus l ∧ st.name = a.called ∧
        (∀ n r, a = .declarative n r → st = r.status n) ∧ (∀ n, a = .native n → st = ⟨n, .ready, []⟩) := by
      cases a with
      | declarative n r => exact ⟨_, rfl, rfl, by rintro _ _ ⟨⟩; rfl, by rintro _ ⟨⟩⟩
      | native n => exact ⟨_, rfl, rfl, by rintro _ _ ⟨⟩, by rintro _ ⟨⟩; rfl⟩
    obtain ⟨st, h1, h2, h3⟩ := hc
    refine ⟨by rw [h1, List.map_cons, List.map_cons, h2, ih.1], ?_⟩
    intro i c h
    rw [h1]
    cases i with
    | zero => cases h; exact ⟨st, rfl, h3⟩
    | succ i => exact ih.2 i c h

example : operatorStatus [.native "n", .declarative "c" (pushed [⟨[1], true, 0⟩]), .declarative "d" (pushed [])] =
    [⟨"n", .ready, []⟩, ⟨"c", .notReady, [[1]]⟩, ⟨"d", .ready, []⟩] := by decide

/-- A long text: 300 bytes. -/
def longText : Text := List.replicate 150 97 ++ List.replicate 150 98

/-- Twelve errors, the first one critical, the last one long. -/
def twelve : List Push := ⟨[0], true, 0⟩ :: ((List.range 10).map (fun i => ⟨[UInt8.ofNat (i + 1)], false, 0⟩) ++ [⟨longText, false, 0⟩])

example : ((pushed twelve).status "c").lastErrors =
    [[2], [3], [4], [5], [6], [7], [8], [9], [10], List.replicate 119 97 ++ [91, 46, 46, 46, 93] ++ List.replicate 120 98] := by decide +kernel
example : ((pushed twelve).status "c").cond = .notReady := by decide +kernel

/-- **C54, not as stated.** There is no lock around the slice although the reconcilers of the sources run at the same time: of two errors pushed at the same
time one can be lost. -/
theorem lost_error (a b : Text) (stack : List Text) :
    ([StackStep.load 0, .load 1, .store 0 a, .store 1 b].foldl StackRace.step ⟨stack, fun _ => []⟩).stack = stack ++ [b] := rfl

/-! ## C72: errors and the status in the cluster -/

theorem limiter_count (ps : List Push) : (pushed ps).limiter.count = ps.length := by
  suffices h : ∀ rs : List Push, (pushed rs.reverse).limiter.count = rs.reverse.length by simpa using h ps.reverse
  intro rs
  induction rs with
  | nil => rfl
  | cons p rs ih =>
    rw [List.reverse_cons, pushed_append]
    simp only [Reporter.push, Limiter.next, ih]
    split <;> simp

theorem follow_append (name : String) (ps : List Push) (p : Push) (r : Reporter) (shown : CtrlStatus) :
    Reporter.follow name r shown (ps ++ [p]) =
      (((Reporter.follow name r shown ps).1.push p),
        if (Reporter.follow name r shown ps).1.signals p then ((Reporter.follow name r shown ps).1.push p).status name else (Reporter.follow name r shown ps).2) := by
  induction ps generalizing r shown with
  | nil => rfl
  | cons q ps ih => simp only [List.cons_append, Reporter.follow]; exact ih _ _

theorem follow_reporter (name : String) (ps : List Push) (r : Reporter) (shown : CtrlStatus) :
    (Reporter.follow name r shown ps).1 = ps.foldl Reporter.push r := by
  induction ps generalizing r shown with
  | nil => rfl
  | cons q ps ih => simp only [Reporter.follow, List.foldl_cons]; exact ih _ _

/-- **C72, partial.** The status in the cluster is the current one after at most three errors. Missing: see `status_stale`. -/
theorem shown_first_partial (name : String) (ps : List Push) (h : ps.length ≤ 3) :
    (Reporter.init.follow name (Reporter.init.status name) ps).2 = (pushed ps).status name := by
  rcases List.eq_nil_or_concat ps with rfl | ⟨l, p, rfl⟩
  · rfl
  · simp only [List.concat_eq_append] at h ⊢
    simp only [List.length_append, List.length_cons, List.length_nil] at h
    rw [follow_append, follow_reporter]
    have hc := limiter_count l
    have hs : (l.foldl Reporter.push Reporter.init).signals p = true := by
      show (pushed l).limiter.allows p.time = true
      rw [Limiter.allows, hc]
      have : l.length < 3 := by omega
      simp [this]
    rw [if_pos hs]
    simp [pushed]

/-- **C72, partial.** The status in the cluster is the current one if all errors are at least two seconds apart. Missing: see `status_stale`. -/
theorem shown_apart_partial (name : String) (ps : List Push) (h : Apart ps) :
    (Reporter.init.follow name (Reporter.init.status name) ps).2 = (pushed ps).status name := by
  suffices hg : ∀ (r : Reporter) (p : Push) (l : List Push), Apart (p :: l) → r.signals p = true → ∀ shown,
      (Reporter.follow name r shown (p :: l)).2 = ((p :: l).foldl Reporter.push r).status name by
    cases ps with
    | nil => rfl
    | cons p l => exact hg _ p l h (by simp [Reporter.signals, Limiter.allows, Reporter.init]) _
  intro r p l
  induction l generalizing r p with
  | nil => intro _ hs shown; simp [Reporter.follow, hs]
  | cons q l ih =>
    intro ha hs shown
    rw [Reporter.follow, List.foldl_cons]
    apply ih (r.push p) q ha.2
    have hn : (r.push p).limiter = ⟨r.limiter.count + 1, p.time⟩ := by
      simp only [Reporter.push, Limiter.next]
      exact if_pos hs
    simp only [Reporter.signals, hn, Limiter.allows]
    simp [ha.1]

theorem InOrder.head_le (q : Push) (l : List Push) (h : InOrder (q :: l)) : ∀ x ∈ l, q.time ≤ x.time := by
  induction l generalizing q with
  | nil => simp
  | cons r l ih =>
    intro x hx
    rcases List.mem_cons.1 hx with rfl | hx
    · exact h.1
    · exact Int.le_trans h.1 (ih r h.2 x hx)

theorem InOrder.init (l : List Push) (p : Push) (h : InOrder (l ++ [p])) : InOrder l ∧ ∀ x ∈ l, x.time ≤ p.time := by
  induction l with
  | nil => exact ⟨trivial, by simp⟩
  | cons q l ih =>
    have hq := InOrder.head_le q (l ++ [p]) h p (by simp)
    cases l with
    | nil => exact ⟨trivial, by simpa using hq⟩
    | cons r l =>
      obtain ⟨h1, h2⟩ := ih h.2
      refine ⟨⟨h.1, h1⟩, ?_⟩
      intro x hx
      rcases List.mem_cons.1 hx with rfl | hx
      · exact hq
      · exact h2 x hx

/-- **C72, partial.** The status in the cluster is less than two seconds behind the last error: it is the one after some of the errors, and those that are missing
came less than two seconds before the last one. Missing: those, see `status_stale`. -/
theorem shown_recent_partial (name : String) (ps : List Push) (p : Push) (h : InOrder (ps ++ [p])) :
    ∃ pre post, ps ++ [p] = pre ++ post ∧ (Reporter.init.follow name (Reporter.init.status name) (ps ++ [p])).2 = (pushed pre).status name ∧
      ∀ q ∈ post, p.time - q.time < 2000000000 := by
  -- the last push that was shown
  have key : ∀ rs : List Push, InOrder rs.reverse → rs ≠ [] → ∃ pre q post, rs.reverse = pre ++ q :: post ∧
      (Reporter.init.follow name (Reporter.init.status name) rs.reverse).2 = (pushed (pre ++ [q])).status name ∧
      (pushed rs.reverse).limiter.last = q.time ∧ (post ≠ [] → ∀ r ∈ rs.head?, r.time - q.time < 2000000000) := by
    intro rs
    induction rs with
    | nil => intro _ h; exact absurd rfl h
    | cons r rs ih =>
      intro ho _
      rw [List.reverse_cons] at ho ⊢
      obtain ⟨ho1, ho2⟩ := InOrder.init _ _ ho
      rw [follow_append, follow_reporter, pushed_append]
      by_cases hs : (pushed rs.reverse).signals r = true
      · refine ⟨rs.reverse, r, [], rfl, ?_, ?_, by simp⟩
        · rw [if_pos (show (rs.reverse.foldl Reporter.push Reporter.init).signals r = true from hs), pushed_append]; rfl
        · simp only [Reporter.push, Limiter.next]
          rw [if_pos (show (pushed rs.reverse).limiter.allows r.time = true from hs)]
      · have hne : rs ≠ [] := by
          rintro rfl
          exact hs (by simp [pushed, Reporter.signals, Limiter.allows, Reporter.init])
        obtain ⟨pre, q, post, h1, h2, h3, h4⟩ := ih ho1 hne
        refine ⟨pre, q, post ++ [r], by rw [h1]; simp, ?_, ?_, ?_⟩
        · rw [if_neg (show ¬ (rs.reverse.foldl Reporter.push Reporter.init).signals r = true from hs), h2]
        · simp only [Reporter.push, Limiter.next]
          rw [if_neg (show ¬ (pushed rs.reverse).limiter.allows r.time = true from hs), h3]
        · intro _ r' hr'
          simp only [List.head?_cons, Option.mem_def, Option.some.injEq] at hr'
          subst hr'
          have : ¬ 2000000000 ≤ r.time - (pushed rs.reverse).limiter.last := by
            intro hc
            apply hs
            simp [Reporter.signals, Limiter.allows, hc]
          rw [h3] at this
          omega
  obtain ⟨pre, q, post, h1, h2, -, h4⟩ := key (p :: ps.reverse) (by simpa using h) (by simp)
  simp only [List.reverse_cons, List.reverse_reverse] at h1 h2
  refine ⟨pre ++ [q], post, by rw [h1]; simp, h2, ?_⟩
  intro x hx
  have h5 := h4 (by rintro rfl; cases hx) p (by simp)
  have h6 : q.time ≤ x.time := by
    have : ∀ (a b : List Push), InOrder (a ++ b) → InOrder b := by
      intro a
      induction a with
      | nil => intro b h; exact h
      | cons y a ih =>
        intro b h
        apply ih
        cases hab : a ++ b with
        | nil => trivial
        | cons z w => rw [List.cons_append, hab] at h; exact h.2
    exact InOrder.head_le q post (this pre _ (h1 ▸ h)) x hx
  omega

/-- The fourth error is dropped, the fifth, two seconds after the third, is shown. -/
example : InOrder [⟨[1], false, 0⟩, ⟨[2], false, 1⟩, ⟨[3], false, 2⟩, ⟨[4], true, 1000000000⟩, ⟨[5], false, 2000000002⟩, ⟨[6], false, 2000000003⟩] ∧
    (Reporter.init.follow "c" (Reporter.init.status "c")
      [⟨[1], false, 0⟩, ⟨[2], false, 1⟩, ⟨[3], false, 2⟩, ⟨[4], true, 1000000000⟩, ⟨[5], false, 2000000002⟩, ⟨[6], false, 2000000003⟩]).2 =
    ⟨"c", .notReady, [[1], [2], [3], [4], [5]]⟩ := ⟨by simp [InOrder], by decide⟩

/-- **C72, not as stated.** Errors that are not signalled never reach the cluster: here the fourth one, although it is critical; the cluster shows a controller
that is not "not ready", and three errors, until another error comes (there is no retry). -/
theorem status_stale :
    let ps : List Push := [⟨[1], false, 0⟩, ⟨[2], false, 1⟩, ⟨[3], false, 2⟩, ⟨[4], true, 3⟩]
    (pushed ps).status "c" = ⟨"c", .notReady, [[1], [2], [3], [4]]⟩ ∧
    (Reporter.init.follow "c" (Reporter.init.status "c") ps).2 = ⟨"c", .failed, [[1], [2], [3]]⟩ := by decide

example : Apart [⟨[1], false, 0⟩, ⟨[2], false, 2000000000⟩, ⟨[3], false, 4000000001⟩, ⟨[4], true, 7000000000⟩] := by simp [Apart]
example : (Reporter.init.follow "c" (Reporter.init.status "c") [⟨[1], false, 0⟩, ⟨[2], false, 2000000000⟩, ⟨[3], false, 4000000001⟩, ⟨[4], true, 7000000000⟩]).2 =
    ⟨"c", .notReady, [[1], [2], [3], [4]]⟩ := by decide

end Dctl
