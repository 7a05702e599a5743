import Verif.Spec.Predicate
/-!
# Predicate logic (C48)
-/
set_option autoImplicit false
set_option linter.unusedSectionVars false
namespace Dctl

/-- Induction over predicates. -/
theorem Pred.ind {P : Pred → Prop} (basic : ∀ s, P (.basic s)) (bool : ∀ m, (∀ kv ∈ m, ∀ p ∈ kv.2, P p) → P (.bool m))
    (both : ∀ s m, P (.both s m)) (empty : P .empty) : ∀ p, P p := by
  intro p
  exact Pred.rec (motive_1 := P) (motive_2 := fun m => ∀ kv ∈ m, ∀ p ∈ kv.2, P p) (motive_3 := fun kv => ∀ p ∈ kv.2, P p)
    (motive_4 := fun l => ∀ p ∈ l, P p)
    basic bool (fun s m _ => both s m) empty (by simp)
    (fun kv m h1 h2 y hy => (List.mem_cons.mp hy).elim (fun e => e ▸ h1) (h2 y))
    (fun _ _ h => h) (by simp)
    (fun x l hx hl y hy => (List.mem_cons.mp hy).elim (fun e => e ▸ hx) (hl y)) p

theorem holdsAll_iff (e : CEv) (l : List Pred) : Pred.HoldsAll e l ↔ ∀ p ∈ l, p.Holds e := by
  induction l with
  | nil => simp [Pred.HoldsAll]
  | cons p l ih => simp [Pred.HoldsAll, ih]

theorem holdsAny_iff (e : CEv) (l : List Pred) : Pred.HoldsAny e l ↔ ∃ p ∈ l, p.Holds e := by
  induction l with
  | nil => simp [Pred.HoldsAny]
  | cons p l ih => simp [Pred.HoldsAny, ih]

theorem validL_iff (l : List Pred) : Pred.ValidL l ↔ ∀ p ∈ l, p.Valid := by
  induction l with
  | nil => simp [Pred.ValidL]
  | cons p l ih => simp [Pred.ValidL, ih]

theorem basicRuntime_isSome (s : String) : (basicRuntime s).isSome ↔ s ∈ basicNames := by
  unfold basicRuntime basicNames
  grind

theorem toRuntimeL_isSome (l : List Pred) (h : ∀ p ∈ l, p.toRuntime.isSome ↔ p.Valid) : (Pred.toRuntimeL l).isSome ↔ Pred.ValidL l := by
  induction l with
  | nil => simp [Pred.toRuntimeL, Pred.ValidL]
  | cons p l ih =>
    have h1 := h p (by simp)
    have h2 := ih (fun q hq => h q (by simp [hq]))
    rw [Pred.toRuntimeL, Pred.ValidL, ← h1, ← h2]
    cases p.toRuntime with
    | none => simp
    | some r => cases Pred.toRuntimeL l <;> simp

theorem toRuntimeL_length (l : List Pred) : ∀ rs, Pred.toRuntimeL l = some rs → rs.length = l.length := by
  induction l with
  | nil => intro rs h; simp [Pred.toRuntimeL] at h; simp [← h]
  | cons p l ih =>
    intro rs h
    rw [Pred.toRuntimeL] at h
    cases hp : p.toRuntime with
    | none => simp [hp] at h
    | some r =>
      cases hl : Pred.toRuntimeL l with
      | none => simp [hp, hl] at h
      | some rs' => simp [hp, hl] at h; simp [← h, ih rs' hl]

theorem boolRuntime_isSome (k : String) (ps : List RPred) :
    (boolRuntime k ps).isSome ↔ (k = "And" ∨ k = "Or" ∨ k = "Not" ∧ ps.length = 1) := by
  unfold boolRuntime
  split
  · simp [*]
  · split
    · simp [*]
    · split
      · match ps with
        | [] => simp [*]
        | [p] => simp [*]
        | _ :: _ :: _ => simp [*]
      · simp [*]

/-- **C48** (which predicates are accepted): a predicate is accepted exactly if every elementary predicate in it is known, every combination has exactly one of
the operations And, Or and Not, and Not has one argument. -/
theorem predicate_accepted_iff (p : Pred) : p.toRuntime.isSome ↔ p.Valid := by
  induction p using Pred.ind with
  | basic s => exact basicRuntime_isSome s
  | both s m => exact basicRuntime_isSome s
  | empty => simp [Pred.toRuntime, Pred.Valid]
  | bool m ih =>
    rw [Pred.toRuntime, Pred.Valid]
    match m with
    | [] => simp [Pred.toRuntimeM]
    | (_, _) :: _ :: _ => simp [Pred.toRuntimeM]
    | [(k, v)] =>
      have hv := toRuntimeL_isSome v (fun p hp => ih (k, v) (by simp) p hp)
      simp only [Pred.toRuntimeM, Pred.ValidM, List.length_singleton, true_and, and_true]
      rw [← hv]
      cases hl : Pred.toRuntimeL v with
      | none => simp
      | some ps => simp [boolRuntime_isSome, toRuntimeL_length v ps hl]

theorem basicRuntime_eval (s : String) (r : RPred) (e : CEv) (h : basicRuntime s = some r) : r.eval e = true ↔ BasicHolds s e := by
  unfold basicRuntime at h
  split at h
  · cases h
    cases e <;> simp_all [RPred.eval, RPred.evalUpd, BasicHolds]
  · split at h
    · cases h
      cases e <;> simp_all [RPred.eval, RPred.evalUpd, BasicHolds]
    · split at h
      · cases h
        cases e <;> simp_all [RPred.eval, RPred.evalUpd, BasicHolds]
      · split at h
        · cases h
          cases e <;> simp_all [RPred.eval, RPred.evalUpd, BasicHolds]
        · simp at h

theorem evalAll_iff (e : CEv) (l : List Pred) (h : ∀ p ∈ l, ∀ r, p.toRuntime = some r → (r.eval e = true ↔ p.Holds e)) :
    ∀ rs, Pred.toRuntimeL l = some rs →
      (RPred.evalAll e rs = true ↔ Pred.HoldsAll e l) ∧ (RPred.evalAny e rs = true ↔ Pred.HoldsAny e l) := by
  induction l with
  | nil => intro rs hr; simp [Pred.toRuntimeL] at hr; subst hr; simp [RPred.evalAll, RPred.evalAny, Pred.HoldsAll, Pred.HoldsAny]
  | cons p l ih =>
    intro rs hr
    rw [Pred.toRuntimeL] at hr
    cases hp : p.toRuntime with
    | none => simp [hp] at hr
    | some r =>
      cases hl : Pred.toRuntimeL l with
      | none => simp [hp, hl] at hr
      | some rs' =>
        simp [hp, hl] at hr
        subst hr
        have h1 := h p (by simp) r hp
        have h2 := ih (fun q hq => h q (by simp [hq])) rs' hl
        rw [RPred.evalAll, RPred.evalAny, Pred.HoldsAll, Pred.HoldsAny, ← h1, ← h2.1, ← h2.2]
        cases r.eval e <;> simp

/-- **C48** (evaluation): an accepted predicate lets an event pass exactly if the boolean combination it spells out holds, at any depth of nesting. -/
theorem predicate_meaning (e : CEv) (p : Pred) : ∀ r, p.toRuntime = some r → (r.eval e = true ↔ p.Holds e) := by
  induction p using Pred.ind with
  | basic s => intro r h; rw [Pred.Holds]; exact basicRuntime_eval s r e (by simpa [Pred.toRuntime] using h)
  | both s m => intro r h; rw [Pred.Holds]; exact basicRuntime_eval s r e (by simpa [Pred.toRuntime] using h)
  | empty => intro r h; simp [Pred.toRuntime] at h
  | bool m ih =>
    intro r h
    rw [Pred.toRuntime] at h
    rw [Pred.Holds]
    match m with
    | [] => simp [Pred.toRuntimeM] at h
    | (_, _) :: _ :: _ => simp [Pred.toRuntimeM] at h
    | [(k, v)] =>
      simp only [Pred.toRuntimeM] at h
      cases hl : Pred.toRuntimeL v with
      | none => simp [hl] at h
      | some ps =>
        have hv := evalAll_iff e v (fun p hp => ih (k, v) (by simp) p hp) ps hl
        simp only [hl] at h
        simp only [Pred.HoldsM, and_true]
        unfold boolRuntime at h
        split at h
        · cases h
          subst k
          simp [RPred.eval, hv.1]
        · split at h
          · cases h
            subst k
            simp [RPred.eval, hv.2]
          · split at h
            · subst k
              split at h
              · rename_i q
                cases h
                have : RPred.evalAll e [q] = RPred.eval e q := by simp [RPred.evalAll]
                rw [this] at hv
                rw [← hv.1]
                simp [RPred.eval]
              · cases h
            · cases h

/-- A nested predicate: either the labels or the annotations changed, and not the generation. -/
def demoPred : Pred :=
  .bool [("And", [.bool [("Or", [.basic "LabelChanged", .basic "AnnotationChanged"])], .bool [("Not", [.basic "GenerationChanged"])]])]

-- Non-vacuity: the nested predicate is accepted; it lets an update of the labels pass, and no creation.
example : demoPred.toRuntime.isSome = true := by decide +kernel
example : (demoPred.toRuntime.map (fun r => (r.eval (.update [] [("metadata", .map [("labels", .map [("a", .str "b")])])]), r.eval (.add [])))) =
    some (true, false) := by decide +kernel
example : (Pred.bool [("Not", [.basic "LabelChanged", .basic "LabelChanged"])]).toRuntime.isNone = true := by decide +kernel

/-- **C48** (And, Or, Not): the three operations on accepted parts. -/
theorem predicate_combinations (e : CEv) (l : List Pred) (p : Pred) (ra ro rn : RPred) (ha : (Pred.bool [("And", l)]).toRuntime = some ra)
    (ho : (Pred.bool [("Or", l)]).toRuntime = some ro) (hn : (Pred.bool [("Not", [p])]).toRuntime = some rn) :
    (ra.eval e = true ↔ ∀ q ∈ l, q.Holds e) ∧ (ro.eval e = true ↔ ∃ q ∈ l, q.Holds e) ∧ (rn.eval e = true ↔ ¬ p.Holds e) := by
  refine ⟨?_, ?_, ?_⟩
  · rw [predicate_meaning e _ _ ha, ← holdsAll_iff]
    simp [Pred.Holds, Pred.HoldsM]
  · rw [predicate_meaning e _ _ ho, ← holdsAny_iff]
    simp [Pred.Holds, Pred.HoldsM]
  · rw [predicate_meaning e _ _ hn]
    simp [Pred.Holds, Pred.HoldsM, Pred.HoldsAll]

example : ((Pred.bool [("And", [.basic "LabelChanged"])]).toRuntime.isSome, (Pred.bool [("Or", [.basic "LabelChanged"])]).toRuntime.isSome,
    (Pred.bool [("Not", [demoPred])]).toRuntime.isSome) = (true, true, true) := by decide +kernel

/-! ### JSON -/

theorem marshalL_spec (l : List Pred) (h : ∀ p ∈ l, p.Plain → ∃ j, p.marshal = some j ∧ Pred.unmarshal j = some p) (hl : Pred.PlainL l) :
    ∃ js, Pred.marshalL l = some js ∧ Pred.unmarshalL js = some l := by
  induction l with
  | nil => exact ⟨[], rfl, rfl⟩
  | cons p l ih =>
    rw [Pred.PlainL] at hl
    obtain ⟨j, hj, hu⟩ := h p (by simp) hl.1
    obtain ⟨js, hjs, hus⟩ := ih (fun q hq => h q (by simp [hq])) hl.2
    exact ⟨j :: js, by simp [Pred.marshalL, hj, hjs], by simp [Pred.unmarshalL, hu, hus]⟩

theorem marshalM_spec (m : List (String × List Pred)) (h : ∀ kv ∈ m, ∀ p ∈ kv.2, p.Plain → ∃ j, p.marshal = some j ∧ Pred.unmarshal j = some p)
    (hm : Pred.PlainM m) : ∃ js, Pred.marshalM m = some js ∧ Pred.unmarshalM js = some m := by
  induction m with
  | nil => exact ⟨[], rfl, rfl⟩
  | cons kv m ih =>
    obtain ⟨k, v⟩ := kv
    rw [Pred.PlainM] at hm
    obtain ⟨x, hx, hux⟩ := marshalL_spec v (h (k, v) (by simp)) hm.1
    obtain ⟨js, hjs, hus⟩ := ih (fun q hq => h q (by simp [hq])) hm.2
    exact ⟨(k, .list x) :: js, by simp [Pred.marshalM, hx, hjs], by simp [Pred.unmarshalM, Pred.unmarshalV, hux, hus]⟩

/-- **C48** (round trip): a predicate in which exactly one of the two alternatives is set everywhere can be written to JSON, and reading gives it back. -/
theorem predicate_roundtrip (p : Pred) (h : p.Plain) : ∃ j, p.marshal = some j ∧ Pred.unmarshal j = some p := by
  induction p using Pred.ind with
  | basic s => exact ⟨.str s, rfl, rfl⟩
  | both s m => simp [Pred.Plain] at h
  | empty => simp [Pred.Plain] at h
  | bool m ih =>
    rw [Pred.Plain] at h
    obtain ⟨js, h1, h2⟩ := marshalM_spec m ih h
    exact ⟨.map js, by simp [Pred.marshal, h1], by simp [Pred.unmarshal, h2]⟩

example : demoPred.Plain := by simp [demoPred, Pred.Plain, Pred.PlainM, Pred.PlainL]
example : demoPred.marshal = some (.map [("And", .list [.map [("Or", .list [.str "LabelChanged", .str "AnnotationChanged"])],
    .map [("Not", .list [.str "GenerationChanged"])]])]) := by decide +kernel

/-- Every predicate read from JSON is one of those that survive. -/
theorem unmarshal_plain (j : Json) : (∀ p, Pred.unmarshal j = some p → p.Plain) ∧ (∀ l, Pred.unmarshalV j = some l → Pred.PlainL l) := by
  induction j using Json.ind with
  | null => exact ⟨fun p h => by simp [Pred.unmarshal] at h; subst h; simp [Pred.Plain], fun l h => by simp [Pred.unmarshalV] at h; subst h; simp [Pred.PlainL]⟩
  | bool b => exact ⟨fun p h => by simp [Pred.unmarshal] at h, fun l h => by simp [Pred.unmarshalV] at h⟩
  | int b => exact ⟨fun p h => by simp [Pred.unmarshal] at h, fun l h => by simp [Pred.unmarshalV] at h⟩
  | float b => exact ⟨fun p h => by simp [Pred.unmarshal] at h, fun l h => by simp [Pred.unmarshalV] at h⟩
  | str s => exact ⟨fun p h => by simp [Pred.unmarshal] at h; subst h; simp [Pred.Plain], fun l h => by simp [Pred.unmarshalV] at h⟩
  | list l ih =>
    refine ⟨fun p h => by simp [Pred.unmarshal] at h, fun x h => ?_⟩
    rw [Pred.unmarshalV] at h
    induction l generalizing x with
    | nil => simp [Pred.unmarshalL] at h; subst h; simp [Pred.PlainL]
    | cons j l ihl =>
      rw [Pred.unmarshalL] at h
      cases hj : Pred.unmarshal j with
      | none => simp [hj] at h
      | some q =>
        cases hl : Pred.unmarshalL l with
        | none => simp [hj, hl] at h
        | some qs =>
          simp [hj, hl] at h
          subst h
          rw [Pred.PlainL]
          exact ⟨(ih j (by simp)).1 q hj, ihl (fun y hy => ih y (by simp [hy])) qs hl⟩
  | map m ih =>
    refine ⟨fun p h => ?_, fun x h => by simp [Pred.unmarshalV] at h⟩
    rw [Pred.unmarshal] at h
    cases hm : Pred.unmarshalM m with
    | none => simp [hm] at h
    | some x =>
      simp [hm] at h
      subst h
      rw [Pred.Plain]
      induction m generalizing x with
      | nil => simp [Pred.unmarshalM] at hm; subst hm; simp [Pred.PlainM]
      | cons kv m ihm =>
        obtain ⟨k, j⟩ := kv
        rw [Pred.unmarshalM] at hm
        cases hj : Pred.unmarshalV j with
        | none => simp [hj] at hm
        | some q =>
          cases hl : Pred.unmarshalM m with
          | none => simp [hj, hl] at hm
          | some qs =>
            simp [hj, hl] at hm
            subst hm
            rw [Pred.PlainM]
            exact ⟨(ih (k, j) (by simp)).2 q hj, ihm (fun y hy => ih y (by simp [hy])) qs hl⟩

/-- **C48** (round trip of a specification): a predicate that was read from a specification is written and read back unchanged. -/
theorem predicate_spec_roundtrip (j : Json) (p : Pred) (h : Pred.unmarshal j = some p) : ∃ j', p.marshal = some j' ∧ Pred.unmarshal j' = some p :=
  predicate_roundtrip p ((unmarshal_plain j).1 p h)

example : Pred.unmarshal (.map [("Not", .list [.str "LabelChanged"])]) = some (.bool [("Not", [.basic "LabelChanged"])]) := rfl

theorem marshalL_runtime (l : List Pred)
    (h : ∀ p ∈ l, (p.marshal = none → p.toRuntime = none) ∧ ∀ j, p.marshal = some j → ∃ q, Pred.unmarshal j = some q ∧ q.toRuntime = p.toRuntime) :
    (Pred.marshalL l = none → Pred.toRuntimeL l = none) ∧
    ∀ js, Pred.marshalL l = some js → ∃ qs, Pred.unmarshalL js = some qs ∧ Pred.toRuntimeL qs = Pred.toRuntimeL l := by
  induction l with
  | nil => exact ⟨by simp [Pred.marshalL], fun js hj => by simp [Pred.marshalL] at hj; subst hj; exact ⟨[], rfl, rfl⟩⟩
  | cons p l ih =>
    obtain ⟨h1, h2⟩ := h p (by simp)
    obtain ⟨i1, i2⟩ := ih (fun q hq => h q (by simp [hq]))
    rw [Pred.marshalL]
    cases hp : p.marshal with
    | none => exact ⟨fun _ => by simp [Pred.toRuntimeL, h1 hp], fun js hj => by simp at hj⟩
    | some j =>
      obtain ⟨q, hq, hqr⟩ := h2 j hp
      cases hl : Pred.marshalL l with
      | none =>
        refine ⟨fun _ => ?_, fun js hj => by simp at hj⟩
        rw [Pred.toRuntimeL, i1 hl]
        cases p.toRuntime <;> rfl
      | some js' =>
        obtain ⟨qs, hqs, hqsr⟩ := i2 js' hl
        refine ⟨fun hn => by simp at hn, fun js hj => ?_⟩
        simp at hj
        subst hj
        exact ⟨q :: qs, by simp [Pred.unmarshalL, hq, hqs], by rw [Pred.toRuntimeL, Pred.toRuntimeL, hqr, hqsr]⟩

theorem marshalM_some (k : String) (v : List Pred) (m : List (String × List Pred)) (xs : SMap Json) (h : Pred.marshalM ((k, v) :: m) = some xs) :
    ∃ x ys, Pred.marshalL v = some x ∧ Pred.marshalM m = some ys ∧ xs = (k, .list x) :: ys := by
  rw [Pred.marshalM] at h
  cases hv : Pred.marshalL v with
  | none => simp [hv] at h
  | some x =>
    cases hm : Pred.marshalM m with
    | none => simp [hv, hm] at h
    | some ys => simp [hv, hm] at h; exact ⟨x, ys, rfl, rfl, h.symm⟩

theorem unmarshalM_isSome (m : List (String × List Pred)) (h : ∀ kv ∈ m, ∀ x, Pred.marshalL kv.2 = some x → (Pred.unmarshalL x).isSome) :
    ∀ xs, Pred.marshalM m = some xs → ∃ y, Pred.unmarshalM xs = some y ∧ y.length = m.length := by
  induction m with
  | nil => intro xs hx; simp [Pred.marshalM] at hx; subst hx; exact ⟨[], rfl, rfl⟩
  | cons kv m ih =>
    obtain ⟨k, v⟩ := kv
    intro xs hx
    obtain ⟨x, ys, hv, hm, he⟩ := marshalM_some k v m xs hx
    subst he
    obtain ⟨z, hz, hzl⟩ := ih (fun q hq => h q (by simp [hq])) ys hm
    have := h (k, v) (by simp) x hv
    obtain ⟨w, hw⟩ := Option.isSome_iff_exists.mp this
    exact ⟨(k, w) :: z, by simp [Pred.unmarshalM, Pred.unmarshalV, hw, hz], by simp [hzl]⟩

/-- Writing and reading never changes how a predicate is translated; a predicate that cannot be written cannot be translated either. -/
theorem marshal_runtime (p : Pred) :
    (p.marshal = none → p.toRuntime = none) ∧ ∀ j, p.marshal = some j → ∃ q, Pred.unmarshal j = some q ∧ q.toRuntime = p.toRuntime := by
  induction p using Pred.ind with
  | basic s => exact ⟨by simp [Pred.marshal], fun j h => by simp [Pred.marshal] at h; subst h; exact ⟨.basic s, rfl, rfl⟩⟩
  | both s m => exact ⟨by simp [Pred.marshal], fun j h => by simp [Pred.marshal] at h; subst h; exact ⟨.basic s, rfl, rfl⟩⟩
  | empty => exact ⟨fun _ => rfl, by simp [Pred.marshal]⟩
  | bool m ih =>
    have hL := fun (kv : String × List Pred) (hkv : kv ∈ m) => marshalL_runtime kv.2 (ih kv hkv)
    refine ⟨fun h => ?_, fun j h => ?_⟩
    · rw [Pred.marshal] at h
      rw [Pred.toRuntime]
      match m, hL with
      | [], _ => rfl
      | (_, _) :: _ :: _, _ => rfl
      | [(k, v)], hL =>
        have hv : Pred.marshalL v = none := by
          cases hv : Pred.marshalL v with
          | none => rfl
          | some x => simp [Pred.marshalM, hv] at h
        simp [Pred.toRuntimeM, (hL (k, v) (by simp)).1 hv]
    · rw [Pred.marshal] at h
      cases hm : Pred.marshalM m with
      | none => simp [hm] at h
      | some xs =>
        simp [hm] at h
        subst h
        obtain ⟨y, hy, hyl⟩ := unmarshalM_isSome m (fun kv hkv x hx => by
          obtain ⟨qs, hqs, _⟩ := (hL kv hkv).2 x hx
          simp [hqs]) xs hm
        refine ⟨.bool y, by simp [Pred.unmarshal, hy], ?_⟩
        rw [Pred.toRuntime, Pred.toRuntime]
        match m, y, hyl with
        | [], [], _ => rfl
        | (_, _) :: _ :: _, (_, _) :: _ :: _, _ => rfl
        | [(k, v)], [(k', w)], _ =>
          obtain ⟨x, ys, hv, hm', he⟩ := marshalM_some k v [] xs hm
          simp [Pred.marshalM] at hm'
          subst hm'
          subst he
          obtain ⟨qs, hqs, hqr⟩ := (hL (k, v) (by simp)).2 x hv
          simp [Pred.unmarshalM, Pred.unmarshalV, hqs] at hy
          obtain ⟨rfl, rfl⟩ := hy
          simp [Pred.toRuntimeM, hqr]

/-- **C48** (copies): the copy of any predicate filters exactly like the predicate (or is rejected like it). -/
theorem predicate_deepCopy (p : Pred) : p.deepCopy.toRuntime = p.toRuntime := by
  unfold Pred.deepCopy
  cases h : p.marshal with
  | none => rw [(marshal_runtime p).1 h]; rfl
  | some j =>
    obtain ⟨q, hq, hr⟩ := (marshal_runtime p).2 j h
    simp [hq, hr]

-- Non-vacuity: a predicate with both alternatives set is not given back, but filters in the same way.
example : (Pred.both "LabelChanged" []).marshal = some (.str "LabelChanged") ∧ Pred.unmarshal (.str "LabelChanged") = some (.basic "LabelChanged") := ⟨rfl, rfl⟩

/-- **C48** is not satisfied by predicates that set both alternatives or none: they are not given back by a round trip. -/
theorem predicate_roundtrip_both_fails :
    ¬ ∀ p : Pred, ∃ j, p.marshal = some j ∧ Pred.unmarshal j = some p := by
  intro h
  obtain ⟨j, h1, h2⟩ := h (.both "LabelChanged" [])
  simp [Pred.marshal] at h1
  subst h1
  simp [Pred.unmarshal] at h2

end Dctl
