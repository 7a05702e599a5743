import Verif.Spec.Rows
import Verif.Spec.Writes
import Verif.Props.JsonPipeline
import Verif.Dbsp.PropLemmas
/-!
# Lemmas on selections, projections and unwinds
-/
set_option autoImplicit false
set_option linter.unusedSectionVars false
namespace Dctl
open ZSet

/-! ## Documents that agree -/

theorem agree_ext : ∀ (n : Nat) (P : List (List String)) (a b : SMap Json), (Json.map a).Canon → (Json.map b).Canon →
    (∀ p ∈ P, p ≠ [] ∧ p.length ≤ n ∧ (∃ v, nested a p = some v) ∧ nested a p = nested b p) →
    (∀ q, q ≠ [] → (∀ p ∈ P, Disjoint p q) → nested a q = nested b q) → a = b
  | 0, P, a, b, ha, hb, h1, h2 => by
    refine nested_ext ha hb (fun k => h2 [k] (by simp) (fun p hp => ?_))
    obtain ⟨h, h', _⟩ := h1 p hp
    exact absurd (List.length_eq_zero_iff.mp (Nat.le_zero.mp h')) h
  | n + 1, P, a, b, ha, hb, h1, h2 => by
    refine nested_ext ha hb (fun k => ?_)
    by_cases hk : [k] ∈ P
    · exact (h1 _ hk).2.2.2
    · by_cases hs : ∃ t, k :: t ∈ P
      · obtain ⟨t, ht⟩ := hs
        obtain ⟨_, _, ⟨v, hv⟩, he⟩ := h1 _ ht
        have htn : t ≠ [] := by rintro rfl; exact hk ht
        obtain ⟨k', t', rfl⟩ := List.exists_cons_of_ne_nil htn
        have getMap : ∀ m : SMap Json, nested m (k :: k' :: t') = some v → ∃ x, SMap.get m k = some (.map x) := by
          intro m hm
          rw [nested_cons, Option.bind_eq_some_iff] at hm
          obtain ⟨j, hj, hj'⟩ := hm
          cases j with
          | map x => exact ⟨x, hj⟩
          | _ => rw [at_not_map (by intro x; simp)] at hj'; cases hj'
        obtain ⟨x, hx⟩ := getMap a hv
        obtain ⟨y, hy⟩ := getMap b (he ▸ hv)
        have ex : ∀ q, nested a (k :: q) = nested x q := fun q => by rw [nested_cons, hx]; rfl
        have ey : ∀ q, nested b (k :: q) = nested y q := fun q => by rw [nested_cons, hy]; rfl
        have hxy : x = y := by
          refine agree_ext n (P.filterMap (fun p => if p.head? = some k then some p.tail else none)) x y (ha.val hx) (hb.val hy) ?_ ?_
          · intro p hp
            obtain ⟨p', hp', e⟩ := List.mem_filterMap.mp hp
            obtain ⟨g1, g2, g3, g4⟩ := h1 p' hp'
            cases p' with
            | nil => simp at e
            | cons c p' =>
              by_cases hc : c = k
              · subst hc
                simp at e
                subst e
                rw [← ex, ← ey]
                refine ⟨?_, by simpa using g2, g3, g4⟩
                rintro rfl
                exact hk hp'
              · simp [hc] at e
          · intro q hq hd
            rw [← ex, ← ey]
            refine h2 _ (by simp) (fun p hp => ?_)
            cases p with
            | nil => exact absurd rfl (h1 _ hp).1
            | cons c p =>
              by_cases hc : c = k
              · subst hc
                have := hd p (List.mem_filterMap.mpr ⟨c :: p, hp, by simp⟩)
                exact ⟨fun h => this.1 (by simpa using h), fun h => this.2 (by simpa using h)⟩
              · exact ⟨fun h => hc (by simpa using (List.cons_prefix_cons.mp h).1), fun h => hc (by simpa using (List.cons_prefix_cons.mp h).1.symm)⟩
        rw [nested_one, nested_one, hx, hy, hxy]
      · refine h2 [k] (by simp) (fun p hp => ?_)
        cases p with
        | nil => exact absurd rfl (h1 _ hp).1
        | cons c p =>
          have hc : c ≠ k := by rintro rfl; exact hs ⟨p, hp⟩
          exact ⟨fun h => hc (by simpa using (List.cons_prefix_cons.mp h).1), fun h => hc (by simpa using (List.cons_prefix_cons.mp h).1.symm)⟩

theorem unwindsTo_unique {k : String} {p : List String} {i : Nat} {d c c' : CDoc} (h : UnwindsTo (k :: p) i d c)
    (h' : UnwindsTo (k :: p) i d c') : c = c' := by
  obtain ⟨l, v, n, h1, h2, h3, h4, h5, h6⟩ := h
  obtain ⟨l', v', n', g1, g2, g3, g4, g5, g6⟩ := h'
  rw [h1] at g1; cases g1
  rw [h2] at g2; cases g2
  rw [h3] at g3; cases g3
  refine Subtype.ext (agree_ext (max (k :: p).length 2) [k :: p, namePath] c.1 c'.1 c.2 c'.2 ?_ ?_)
  · intro q hq
    simp only [List.mem_cons, List.not_mem_nil, or_false] at hq
    rcases hq with rfl | rfl
    · exact ⟨by simp, by omega, ⟨v, h4⟩, by rw [h4, g4]⟩
    · exact ⟨by simp, by simp; omega, ⟨_, h5⟩, by rw [h5, g5]⟩
  · intro q _ hd
    have d1 := hd (k :: p) (by simp)
    have d2 := hd namePath (by simp)
    rw [h6 q d1 d2, g6 q d1 d2]

/-! ## Images -/

theorem get_pos_iff {z : ZSet CDoc} (hz : WF z) (hp : ∀ p ∈ z, 0 < p.2) (d : CDoc) : 0 < get z d ↔ d ∈ z.map Prod.fst := by
  rw [mem_fst_iff_get hz]
  have := pos_nonNeg hz hp d
  omega

theorem copies_pos {f : Ev CDoc} {c x : CDoc} : (0 < copies f c x ↔ ∃ ds, f x = .ok ds ∧ c ∈ ds) ∧ 0 ≤ copies f c x := by
  rw [copies]
  cases f x with
  | error e => simp
  | ok ds =>
    simp only [Except.ok.injEq, exists_eq_left']
    refine ⟨?_, by omega⟩
    have := List.count_pos_iff (a := c) (l := ds)
    rw [← count_inst] at this
    rw [← this]
    omega

theorem sum_pos_iff {α : Type} {f : α → Int} {l : List α} (h : ∀ x ∈ l, 0 ≤ f x) : 0 ≤ (l.map f).sum ∧ (0 < (l.map f).sum ↔ ∃ x ∈ l, 0 < f x) := by
  induction l with
  | nil => simp
  | cons a l ih =>
    obtain ⟨h1, h2⟩ := ih (fun x hx => h x (List.mem_cons_of_mem _ hx))
    have ha := h a List.mem_cons_self
    rw [List.map_cons, List.sum_cons]
    refine ⟨by omega, ?_⟩
    constructor
    · intro hlt
      by_cases h0 : 0 < f a
      · exact ⟨a, List.mem_cons_self, h0⟩
      · obtain ⟨x, hx, hfx⟩ := h2.mp (by omega)
        exact ⟨x, List.mem_cons_of_mem _ hx, hfx⟩
    · rintro ⟨x, hx, hfx⟩
      rcases List.mem_cons.mp hx with rfl | hx
      · omega
      · have := h2.mpr ⟨x, hx, hfx⟩
        omega

/-- The support of an image. -/
theorem mapSpec_pos {f : Ev CDoc} {z m : ZSet CDoc} (hz : WF z) (hp : ∀ p ∈ z, 0 < p.2) (h : MapSpec f z m) :
    WF m ∧ (∀ p ∈ m, 0 < p.2) ∧ ∀ c, 0 < get m c ↔ ∃ d, 0 < get z d ∧ ∃ ds, f d = .ok ds ∧ c ∈ ds := by
  obtain ⟨h1, h2, h3⟩ := h
  have hnn : ∀ c, ∀ q ∈ z, 0 ≤ q.2 * copies f c q.1 := fun c q hq => Int.mul_nonneg (Int.le_of_lt (hp q hq)) copies_pos.2
  refine ⟨h1, nonNeg_pos h1 (fun c => by rw [h3]; exact (sum_pos_iff (hnn c)).1), fun c => ?_⟩
  rw [h3, (sum_pos_iff (hnn c)).2]
  constructor
  · rintro ⟨q, hq, hlt⟩
    have hq0 := hp q hq
    have : 0 < copies f c q.1 := by
      rcases Int.lt_or_le 0 (copies f c q.1) with h | h
      · exact h
      · have := (copies_pos (f := f) (c := c) (x := q.1)).2
        rw [show copies f c q.1 = 0 by omega] at hlt
        simp at hlt
    exact ⟨q.1, (get_pos_iff hz hp _).mpr (List.mem_map_of_mem hq), copies_pos.1.mp this⟩
  · rintro ⟨d, hd, hds⟩
    obtain ⟨q, hq, rfl⟩ := List.mem_map.mp ((get_pos_iff hz hp _).mp hd)
    exact ⟨q, hq, Int.mul_pos (hp q hq) (copies_pos.1.mpr hds)⟩

/-! ## One document -/

theorem row_select {env : Env} {e : Expr} {d c : CDoc} : (∃ ds, selectOp env e d = .ok ds ∧ c ∈ ds) ↔ CondTrue env e d ∧ c = d := by
  constructor
  · rintro ⟨ds, h1, h2⟩
    obtain ⟨b, hb, rfl⟩ := selectOp_ok.mp h1
    cases b
    · simp at h2
    · exact ⟨hb, by simpa using h2⟩
  · rintro ⟨h, rfl⟩
    exact ⟨[c], selectOp_ok.mpr ⟨true, h, rfl⟩, by simp⟩

theorem row_project {env : Env} (H : env.Canon) {e : Expr} {d c : CDoc} : (∃ ds, projectOp env e d = .ok ds ∧ c ∈ ds) ↔ Projects env e d c := by
  constructor
  · rintro ⟨ds, h1, h2⟩
    obtain ⟨c', hc, rfl⟩ := (C78_one env H e d ds).mp h1
    rw [List.mem_singleton] at h2
    exact h2 ▸ hc
  · intro h
    exact ⟨[c], (C78_one env H e d _).mpr ⟨c, h, rfl⟩, by simp⟩

/-- The list of an unwound document. -/
theorem unwind_row (base : Env) {k : String} {p : List String} (hp : Words (k :: p)) (ha : Disjoint (k :: p) namePath)
    {ex : CDoc → Except Err (Option (List AnyVal))} {tr : CDoc → AnyVal → Except Err CDoc}
    (hop : unwindOp (fieldEnv base) (strE (pathString (k :: p))) = .ok (.unwind ex tr)) {d : CDoc} (hn : Named d) {ds : List CDoc} (h : unwindDocs ex tr d = .ok ds) :
    (∀ i c, ds[i]? = some c ↔ UnwindsTo (k :: p) i d c) := by
  obtain ⟨n, hn⟩ := hn
  intro i c
  have hno := C79_no_list base k p hp ex tr hop d
  cases hv : nested d.1 (k :: p) with
  | none =>
    rw [hno.1 (by rw [hv]; rfl)] at h
    cases h
    simp only [List.getElem?_nil, reduceCtorEq, false_iff]
    rintro ⟨l, v, n, h1, _⟩
    rw [hv] at h1; cases h1
  | some v =>
    by_cases hl : ∃ l, v = .list l
    · obtain ⟨l, rfl⟩ := hl
      obtain ⟨ds', h1, h2, h3⟩ := C79_list base k p hp ha ex tr hop d l n hv hn
      rw [h] at h1
      cases h1
      constructor
      · intro hi
        have hlt : i < l.length := by
          rw [← h2]; exact (List.getElem?_eq_some_iff.mp hi).1
        obtain ⟨c', g1, g2⟩ := h3 i hlt
        rw [hi] at g1
        cases g1
        exact g2
      · intro hu
        have hlt : i < l.length := by
          obtain ⟨l', v, n, g1, g2, _⟩ := hu
          rw [hv] at g1
          cases g1
          exact (List.getElem?_eq_some_iff.mp g2).1
        obtain ⟨c', g1, g2⟩ := h3 i hlt
        rw [g1, unwindsTo_unique hu g2]
    · by_cases hnull : v = .null
      · subst hnull
        rw [hno.1 (by rw [hv]; rfl)] at h
        cases h
        simp only [List.getElem?_nil, reduceCtorEq, false_iff]
        rintro ⟨l, v, n, h1, _⟩
        rw [hv] at h1; cases h1
      · obtain ⟨e, he⟩ := hno.2 v hv hnull (fun l hl' => hl ⟨l, hl'⟩)
        rw [he] at h; cases h

theorem pathString_inj {p q : List String} (hp : Words p) (hq : Words q) (h : pathString p = pathString q) : p = q := by
  have h1 := parsePath_pathString p hp
  rw [h, parsePath_pathString q hq] at h1
  exact (Option.some.inj h1).symm

theorem row_unwind (base : Env) {e : Expr} (he : UnwindsField e) {ex : CDoc → Except Err (Option (List AnyVal))} {tr : CDoc → AnyVal → Except Err CDoc}
    (hop : unwindOp (fieldEnv base) e = .ok (.unwind ex tr)) {d : CDoc} (hn : Named d) {ds : List CDoc} (h : unwindDocs ex tr d = .ok ds) (c : CDoc) :
    c ∈ ds ↔ ∃ path i, e = strE (pathString path) ∧ Words path ∧ UnwindsTo path i d c := by
  obtain ⟨k, p, rfl, hp, ha⟩ := he
  have hr := unwind_row base hp ha hop hn h
  rw [List.mem_iff_getElem?]
  constructor
  · rintro ⟨i, hi⟩
    exact ⟨k :: p, i, rfl, hp, (hr i c).mp hi⟩
  · rintro ⟨path, i, e, hw, hu⟩
    simp only [strE, Expr.lit.injEq, Json.str.injEq, true_and] at e
    have := pathString_inj hp hw e
    subst this
    exact ⟨i, (hr i c).mpr hu⟩

/-! ## All stages -/

theorem compileOps_cons {env : Env} {srt : List Json → List Json} {names : List String} {o : SpecOp} {os : List SpecOp} {cfg : List (PipeOp CDoc AnyVal)}
    (h : compileOps env srt names (o :: os) = .ok cfg) : ∃ p ps, cfg = p :: ps ∧ compileOp env srt names o = .ok p ∧ compileOps env srt names os = .ok ps := by
  simp only [compileOps] at h
  split at h
  · cases h
  · rename_i p hp
    split at h
    · cases h
    · rename_i ps hps
      cases h
      exact ⟨p, ps, rfl, hp, hps⟩

theorem compile_unwind {env : Env} {srt : List Json → List Json} {names : List String} {e : Expr} {p : PipeOp CDoc AnyVal}
    (h : compileOp env srt names (.unwind e) = .ok p) : ∃ ex tr, p = .unwind ex tr ∧ unwindOp env e = .ok (.unwind ex tr) := by
  simp only [compileOp] at h
  have h' := h
  simp only [unwindOp] at h
  split at h
  · cases h
  · cases h
    exact ⟨_, _, rfl, h'⟩

/-- What the stages compute. -/
theorem stages_results (base : Env) (H : (fieldEnv base).Canon) {srt : List Json → List Json} {names : List String} :
    ∀ {spec : List SpecOp} {b : Bool} {cfg : List (PipeOp CDoc AnyVal)} {z o : ZSet CDoc}, RowSpec (fieldEnv base) b spec →
      compileOps (fieldEnv base) srt names spec = .ok cfg → StagesSpec cfg z o → WF z → (∀ p ∈ z, 0 < p.2) → (b = true → ∀ d, 0 < get z d → Named d) →
      ∀ c, 0 < get o c ↔ ∃ d, 0 < get z d ∧ Results (fieldEnv base) spec d c
  | [], b, cfg, z, o, _, hc, hs, hz, hp, _ => by
    cases hc
    cases hs with
    | nil hw he =>
      intro c
      rw [← he c]
      constructor
      · exact fun h => ⟨c, h, .nil c⟩
      · rintro ⟨d, h, hr⟩
        cases hr
        exact h
  | op :: spec, b, cfg, z, o, hrow, hc, hs, hz, hp, hn => by
    obtain ⟨p, ps, rfl, hcp, hcs⟩ := compileOps_cons hc
    cases hs with
    | @cons _ _ _ m _ hst hss =>
      cases op with
      | join e => exact absurd hrow (by simp [RowSpec])
      | gather e => exact absurd hrow (by simp [RowSpec])
      | select e =>
        cases hcp
        obtain ⟨hm, hmp, hmg⟩ := mapSpec_pos hz hp hst
        have hsup : ∀ c, 0 < get m c ↔ 0 < get z c ∧ CondTrue (fieldEnv base) e c := by
          intro c
          rw [hmg]
          constructor
          · rintro ⟨d, hd, hx⟩
            obtain ⟨h1, rfl⟩ := row_select.mp hx
            exact ⟨hd, h1⟩
          · rintro ⟨h1, h2⟩
            exact ⟨c, h1, row_select.mpr ⟨h2, rfl⟩⟩
        intro c
        rw [stages_results base H (spec := spec) (b := b) hrow hcs hss hm hmp (fun hb d hd => hn hb d ((hsup d).mp hd).1)]
        constructor
        · rintro ⟨d, hd, hr⟩
          exact ⟨d, ((hsup d).mp hd).1, .select ((hsup d).mp hd).2 hr⟩
        · rintro ⟨d, hd, hr⟩
          cases hr with
          | select h1 h2 => exact ⟨d, (hsup d).mpr ⟨hd, h1⟩, h2⟩
      | project e =>
        cases hcp
        obtain ⟨hm, hmp, hmg⟩ := mapSpec_pos hz hp hst
        have hsup : ∀ c, 0 < get m c ↔ ∃ d, 0 < get z d ∧ Projects (fieldEnv base) e d c := by
          intro c
          rw [hmg]
          exact exists_congr (fun d => and_congr_right (fun _ => row_project H))
        have ih : ∀ c, 0 < get o c ↔ ∃ d, 0 < get m d ∧ Results (fieldEnv base) spec d c := by
          rcases hrow with hrow | ⟨h1, hrow⟩
          · exact stages_results base H hrow hcs hss hm hmp (by simp)
          · refine stages_results base H hrow hcs hss hm hmp (fun _ c hc => ?_)
            obtain ⟨d, hd, hp⟩ := (hsup c).mp hc
            exact h1 d c (fun hb => hn hb d hd) hp
        intro c
        rw [ih]
        constructor
        · rintro ⟨x, hx, hr⟩
          obtain ⟨d, hd, hp⟩ := (hsup x).mp hx
          exact ⟨d, hd, .project hp hr⟩
        · rintro ⟨d, hd, hr⟩
          cases hr with
          | project h1 h2 => exact ⟨_, (hsup _).mpr ⟨d, hd, h1⟩, h2⟩
      | unwind e =>
        obtain ⟨hb, hf, hrow⟩ := hrow
        obtain ⟨ex, tr, rfl, hop⟩ := compile_unwind hcp
        obtain ⟨hm, hmp, hmg⟩ := mapSpec_pos hz hp hst
        have htot : ∀ d, 0 < get z d → ∃ ds, unwindDocs ex tr d = .ok ds := by
          intro d hd
          obtain ⟨q, hq, rfl⟩ := List.mem_map.mp ((get_pos_iff hz hp d).mp hd)
          exact hst.2.1 q hq
        have hsup : ∀ c, 0 < get m c ↔ ∃ d, 0 < get z d ∧ ∃ path i, e = strE (pathString path) ∧ Words path ∧ UnwindsTo path i d c := by
          intro c
          rw [hmg]
          refine exists_congr (fun d => and_congr_right (fun hd => ?_))
          obtain ⟨ds, hds⟩ := htot d hd
          rw [← row_unwind base hf hop (hn hb d hd) hds c, hds]
          simp
        intro c
        rw [stages_results base H hrow hcs hss hm hmp (fun _ x hx => by
          obtain ⟨d, _, path, i, _, _, l, v, n, _, _, _, _, h, _⟩ := (hsup x).mp hx
          exact ⟨_, h⟩)]
        constructor
        · rintro ⟨x, hx, hr⟩
          obtain ⟨d, hd, path, i, rfl, hw, hu⟩ := (hsup x).mp hx
          exact ⟨d, hd, .unwind hw hu hr⟩
        · rintro ⟨d, hd, hr⟩
          generalize hg : SpecOp.unwind e :: spec = l at hr
          cases hr with
          | nil => cases hg
          | select => cases hg
          | project => cases hg
          | @unwind path i ops _ x _ h1 h2 h3 =>
            cases hg
            exact ⟨x, (hsup x).mpr ⟨d, hd, path, i, rfl, h1, h2⟩, h3⟩

/-! ## Names -/

/-- Every document once, and different ones have different names. -/
def UniqueNames (z : ZSet CDoc) : Prop :=
  (∀ d, 0 ≤ get z d ∧ get z d ≤ 1) ∧ ∀ d d', 0 < get z d → 0 < get z d' → objKey d.1 = objKey d'.1 → d = d'

theorem count_le_one {ds : List CDoc} (h : ∀ (i j : Nat) c, ds[i]? = some c → ds[j]? = some c → i = j) (c : CDoc) : ds.count c ≤ 1 := by
  induction ds with
  | nil => simp
  | cons a l ih =>
    rw [List.count_cons]
    have ih' := ih (fun i j c hi hj => by
      have := h (i + 1) (j + 1) c (by simpa using hi) (by simpa using hj)
      omega)
    by_cases e : a = c
    · subst e
      have : a ∉ l := by
        intro hm
        obtain ⟨i, hi⟩ := List.mem_iff_getElem?.mp hm
        have := h 0 (i + 1) a (by simp) (by simpa using hi)
        omega
      rw [List.count_eq_zero_of_not_mem this]
      simp
    · have e' : ¬ a.val = c.val := fun x => e (Subtype.ext x)
      simp [e']; exact ih'

theorem mapSpec_unique {f : Ev CDoc} {z m : ZSet CDoc} (hz : WF z) (hu : UniqueNames z) (h : MapSpec f z m)
    (hA : ∀ d ds, 0 < get z d → f d = .ok ds → ∀ (i j : Nat) c c', ds[i]? = some c → ds[j]? = some c' → objKey c.1 = objKey c'.1 → i = j)
    (hB : ∀ d d' ds ds' c c', 0 < get z d → 0 < get z d' → f d = .ok ds → f d' = .ok ds' → c ∈ ds → c' ∈ ds' → objKey c.1 = objKey c'.1 → d = d') :
    UniqueNames m := by
  have hp : ∀ p ∈ z, 0 < p.2 := nonNeg_pos hz (fun d => (hu.1 d).1)
  obtain ⟨hm, hmp, hmg⟩ := mapSpec_pos hz hp h
  have hcop : ∀ d c, 0 < get z d → copies f c d ≤ 1 := by
    intro d c hd
    rw [copies]
    split
    · rename_i ds hds
      have := count_le_one (fun i j c hi hj => hA d ds hd hds i j c c hi hj rfl) c
      rw [count_inst]
      omega
    · omega
  refine ⟨fun c => ⟨pos_nonNeg hm hmp c, ?_⟩, ?_⟩
  · by_cases h0 : 0 < get m c
    · obtain ⟨d, hd, ds, hds, hc⟩ := (hmg c).mp h0
      rw [h.2.2]
      have : (z.map (fun p => p.2 * copies f c p.1)).sum = (z.map (fun p => if p.1 = d then p.2 * copies f c d else 0)).sum := by
        refine sum_congr (fun q hq => ?_)
        by_cases e : q.1 = d
        · rw [if_pos e, e]
        · rw [if_neg e]
          have hq0 : 0 < get z q.1 := (get_pos_iff hz hp _).mpr (List.mem_map_of_mem hq)
          have h1 := (copies_pos (f := f) (c := c) (x := q.1))
          by_cases h2 : 0 < copies f c q.1
          · obtain ⟨ds', hds', hc'⟩ := h1.1.mp h2
            exact absurd (hB _ _ _ _ _ _ hq0 hd hds' hds hc' hc rfl) e
          · rw [show copies f c q.1 = 0 by omega]; simp
      rw [this, sum_pick hz]
      have h1 := (hu.1 d).2
      rw [show get z d = 1 by omega]
      have := hcop d c hd
      omega
    · omega
  · intro c c' hc hc' hk
    obtain ⟨d, hd, ds, hds, hcm⟩ := (hmg c).mp hc
    obtain ⟨d', hd', ds', hds', hcm'⟩ := (hmg c').mp hc'
    have := hB _ _ _ _ _ _ hd hd' hds hds' hcm hcm' hk
    subst this
    rw [hds] at hds'
    cases hds'
    obtain ⟨i, hi⟩ := List.mem_iff_getElem?.mp hcm
    obtain ⟨j, hj⟩ := List.mem_iff_getElem?.mp hcm'
    have := hA d ds hd hds i j c c' hi hj hk
    subst this
    rw [hi] at hj
    exact Option.some.inj hj

theorem objKey_eq {a b : SMap Json} (h1 : nested a namePath = nested b namePath) (h2 : nested a nsPath = nested b nsPath) : objKey a = objKey b := by
  simp only [objKey, nestedString_congr h1, nestedString_congr h2]

theorem objKey_str {a : SMap Json} {n : String} (h : nested a namePath = some (.str n)) : (objKey a).2 = n := by
  simp [objKey, nestedString, h]

theorem rowSpec_of_safe {env : Env} : ∀ {spec : List SpecOp}, (∀ o ∈ spec, NameSafe env o) → RowSpec env true spec
  | [], _ => trivial
  | op :: spec, h => by
    have h1 := h op (by simp)
    have ih := rowSpec_of_safe (fun o ho => h o (List.mem_cons_of_mem _ ho))
    cases op with
    | select e => exact ih
    | project e => exact .inr ⟨fun d c hd hp => by
        obtain ⟨n, hn⟩ := hd rfl
        exact ⟨n, by rw [(h1 d c ⟨n, hn⟩ hp).1, hn]⟩, ih⟩
    | unwind e =>
      obtain ⟨k, p, e, hw, hd, _⟩ := h1
      exact ⟨rfl, ⟨k, p, e, hw, hd⟩, ih⟩
    | join e => exact h1
    | gather e => exact h1

/-- Names stay unique through the stages. -/
theorem stages_unique (base : Env) (H : (fieldEnv base).Canon) {srt : List Json → List Json} {names : List String} :
    ∀ {spec : List SpecOp} {cfg : List (PipeOp CDoc AnyVal)} {z o : ZSet CDoc}, (∀ op ∈ spec, NameSafe (fieldEnv base) op) →
      compileOps (fieldEnv base) srt names spec = .ok cfg → StagesSpec cfg z o → WF z → UniqueNames z → (∀ d, 0 < get z d → Named d) → UniqueNames o
  | [], cfg, z, o, _, hc, hs, hz, hu, _ => by
    cases hc
    cases hs with
    | nil hw he =>
      refine ⟨fun d => by rw [← he d]; exact hu.1 d, fun d d' h h' => ?_⟩
      rw [← he d] at h
      rw [← he d'] at h'
      exact hu.2 d d' h h'
  | op :: spec, cfg, z, o, hsafe, hc, hs, hz, hu, hn => by
    obtain ⟨p, ps, rfl, hcp, hcs⟩ := compileOps_cons hc
    have hop := hsafe op (by simp)
    have hsafe' : ∀ op ∈ spec, NameSafe (fieldEnv base) op := fun o ho => hsafe o (List.mem_cons_of_mem _ ho)
    have hp : ∀ p ∈ z, 0 < p.2 := nonNeg_pos hz (fun d => (hu.1 d).1)
    cases hs with
    | @cons _ _ _ m _ hst hss =>
      cases op with
      | join e => exact absurd hop (by simp [NameSafe])
      | gather e => exact absurd hop (by simp [NameSafe])
      | select e =>
        cases hcp
        obtain ⟨hm, hmp, hmg⟩ := mapSpec_pos hz hp hst
        refine stages_unique base H hsafe' hcs hss hm (mapSpec_unique hz hu hst ?_ ?_) ?_
        · intro d ds _ hds i j c c' hi hj _
          obtain ⟨b, _, rfl⟩ := selectOp_ok.mp hds
          cases b
          · simp at hi
          · have h1 := (List.getElem?_eq_some_iff.mp hi).1
            have h2 := (List.getElem?_eq_some_iff.mp hj).1
            simp at h1 h2
            omega
        · intro d d' ds ds' c c' h1 h2 h3 h4 h5 h6 h7
          obtain ⟨_, rfl⟩ := row_select.mp ⟨ds, h3, h5⟩
          obtain ⟨_, rfl⟩ := row_select.mp ⟨ds', h4, h6⟩
          exact hu.2 _ _ h1 h2 h7
        · intro c hc
          obtain ⟨d, hd, hx⟩ := (hmg c).mp hc
          obtain ⟨_, rfl⟩ := row_select.mp hx
          exact hn _ hd
      | project e =>
        cases hcp
        obtain ⟨hm, hmp, hmg⟩ := mapSpec_pos hz hp hst
        refine stages_unique base H hsafe' hcs hss hm (mapSpec_unique hz hu hst ?_ ?_) ?_
        · intro d ds _ hds i j c c' hi hj _
          obtain ⟨x, _, rfl⟩ := (C78_one _ H e d ds).mp hds
          have h1 := (List.getElem?_eq_some_iff.mp hi).1
          have h2 := (List.getElem?_eq_some_iff.mp hj).1
          simp at h1 h2
          omega
        · intro d d' ds ds' c c' h1 h2 h3 h4 h5 h6 h7
          have e1 := hop d c (hn d h1) ((row_project H).mp ⟨ds, h3, h5⟩)
          have e2 := hop d' c' (hn d' h2) ((row_project H).mp ⟨ds', h4, h6⟩)
          refine hu.2 _ _ h1 h2 ?_
          rw [← objKey_eq e1.1 e1.2, ← objKey_eq e2.1 e2.2, h7]
        · intro c hc
          obtain ⟨d, hd, hx⟩ := (hmg c).mp hc
          obtain ⟨n, hn⟩ := hn d hd
          exact ⟨n, by rw [(hop d c ⟨n, hn⟩ ((row_project H).mp hx)).1, hn]⟩
      | unwind e =>
        obtain ⟨k, q, rfl, hw, hdn, hdns⟩ := hop
        obtain ⟨ex, tr, rfl, hop⟩ := compile_unwind hcp
        obtain ⟨hm, hmp, hmg⟩ := mapSpec_pos hz hp hst
        have hrow : ∀ d ds, 0 < get z d → unwindDocs ex tr d = .ok ds → ∀ i c, ds[i]? = some c ↔ UnwindsTo (k :: q) i d c :=
          fun d ds hd hds => unwind_row base hw hdn hop (hn d hd) hds
        have hkey : ∀ d c i, UnwindsTo (k :: q) i d c → ∃ n, nested d.1 namePath = some (.str n) ∧ (objKey c.1).2 = elemName n i ∧ nested c.1 nsPath = nested d.1 nsPath := by
          rintro d c i ⟨l, v, n, _, _, h3, _, h5, h6⟩
          exact ⟨n, h3, objKey_str h5, h6 nsPath hdns ⟨by decide, by decide⟩⟩
        refine stages_unique base H hsafe' hcs hss hm (mapSpec_unique hz hu hst ?_ ?_) ?_
        · intro d ds hd hds i j c c' hi hj hk
          obtain ⟨n, a1, a2, _⟩ := hkey d c i ((hrow d ds hd hds i c).mp hi)
          obtain ⟨n', b1, b2, _⟩ := hkey d c' j ((hrow d ds hd hds j c').mp hj)
          rw [hk, b2] at a2
          exact (elemName_inj a2).2.symm
        · intro d d' ds ds' c c' h1 h2 h3 h4 h5 h6 h7
          obtain ⟨i, hi⟩ := List.mem_iff_getElem?.mp h5
          obtain ⟨j, hj⟩ := List.mem_iff_getElem?.mp h6
          obtain ⟨n, a1, a2, a3⟩ := hkey d c i ((hrow d ds h1 h3 i c).mp hi)
          obtain ⟨n', b1, b2, b3⟩ := hkey d' c' j ((hrow d' ds' h2 h4 j c').mp hj)
          refine hu.2 _ _ h1 h2 ?_
          have hn : n' = n := by
            rw [h7, b2] at a2
            exact (elemName_inj a2).1
          have hns : (objKey c.1).1 = (objKey c'.1).1 := by rw [h7]
          simp only [objKey, nestedString_congr a3, nestedString_congr b3] at hns
          simp only [objKey]
          rw [show nestedString d.1 ["metadata", "namespace"] = nestedString d'.1 ["metadata", "namespace"] from hns, nestedString_congr (a := d.1) (b := d'.1)]
          rw [show nested d.1 ["metadata", "name"] = _ from a1, show nested d'.1 ["metadata", "name"] = _ from b1, hn]
        · intro c hc
          obtain ⟨d, hd, ds, hds, hx⟩ := (hmg c).mp hc
          obtain ⟨i, hi⟩ := List.mem_iff_getElem?.mp hx
          obtain ⟨l, v, n, _, _, _, _, h, _⟩ := (hrow d ds hd hds i c).mp hi
          exact ⟨_, h⟩

/-! ## Stages with at most one result per document -/

theorem stages_once (base : Env) (H : (fieldEnv base).Canon) {srt : List Json → List Json} {names : List String} :
    ∀ {spec : List SpecOp} {cfg : List (PipeOp CDoc AnyVal)} {z o : ZSet CDoc}, (∀ op ∈ spec, op.Plain) →
      compileOps (fieldEnv base) srt names spec = .ok cfg → StagesSpec cfg z o → WF z → (∀ p ∈ z, 0 < p.2) →
      (∀ d c, Results (fieldEnv base) spec d c → get z d ≤ 1) →
      (∀ d d' c, 0 < get z d → 0 < get z d' → Results (fieldEnv base) spec d c → Results (fieldEnv base) spec d' c → d = d') →
      ∀ c, 0 ≤ get o c ∧ get o c ≤ 1
  | [], cfg, z, o, _, hc, hs, hz, hp, h1, _ => by
    cases hc
    cases hs with
    | nil hw he =>
      intro c
      rw [← he c]
      exact ⟨pos_nonNeg hz hp c, h1 c c (.nil c)⟩
  | op :: spec, cfg, z, o, hpl, hc, hs, hz, hp, h1, hinj => by
    obtain ⟨p, ps, rfl, hcp, hcs⟩ := compileOps_cons hc
    have hop := hpl op (by simp)
    have hpl' : ∀ op ∈ spec, op.Plain := fun o ho => hpl o (List.mem_cons_of_mem _ ho)
    cases hs with
    | @cons _ _ _ m _ hst hss =>
      have main : ∀ f : Ev CDoc, MapSpec f z m → (∀ d ds, f d = .ok ds → ds.length ≤ 1) →
          (∀ d x c, (∃ ds, f d = .ok ds ∧ x ∈ ds) → Results (fieldEnv base) spec x c → Results (fieldEnv base) (op :: spec) d c) →
          ∀ c, 0 ≤ get o c ∧ get o c ≤ 1 := by
        intro f hf hlen hres
        obtain ⟨hm, hmp, hmg⟩ := mapSpec_pos hz hp hf
        refine stages_once base H hpl' hcs hss hm hmp ?_ ?_
        · intro x c hx
          by_cases h0 : 0 < get m x
          · obtain ⟨d, hd, hdx⟩ := (hmg x).mp h0
            have hd1 := h1 d c (hres d x c hdx hx)
            rw [hf.2.2]
            have : (z.map (fun p => p.2 * copies f x p.1)).sum = (z.map (fun p => if p.1 = d then p.2 * copies f x d else 0)).sum := by
              refine sum_congr (fun q hq => ?_)
              by_cases e : q.1 = d
              · rw [if_pos e, e]
              · rw [if_neg e]
                have hq0 : 0 < get z q.1 := (get_pos_iff hz hp _).mpr (List.mem_map_of_mem hq)
                have hcp := (copies_pos (f := f) (c := x) (x := q.1))
                by_cases h2 : 0 < copies f x q.1
                · exact absurd (hinj _ _ c hq0 hd (hres _ _ _ (hcp.1.mp h2) hx) (hres _ _ _ hdx hx)) e
                · rw [show copies f x q.1 = 0 by omega]; simp
            rw [this, sum_pick hz]
            have hc1 : copies f x d ≤ 1 := by
              obtain ⟨ds, hds, _⟩ := hdx
              rw [copies, hds]
              have := hlen d ds hds
              have := List.count_le_length (a := x) (l := ds)
              simp only
              rw [count_inst]
              omega
            rw [show get z d = 1 by omega]
            omega
          · omega
        · intro x x' c hx hx' hr hr'
          obtain ⟨d, hd, ds, hds, hmx⟩ := (hmg x).mp hx
          obtain ⟨d', hd', ds', hds', hmx'⟩ := (hmg x').mp hx'
          have := hinj d d' c hd hd' (hres _ _ _ ⟨ds, hds, hmx⟩ hr) (hres _ _ _ ⟨ds', hds', hmx'⟩ hr')
          subst this
          rw [hds] at hds'
          cases hds'
          have := hlen d ds hds
          obtain ⟨i, hi⟩ := List.mem_iff_getElem?.mp hmx
          obtain ⟨j, hj⟩ := List.mem_iff_getElem?.mp hmx'
          have hi' := (List.getElem?_eq_some_iff.mp hi).1
          have hj' := (List.getElem?_eq_some_iff.mp hj).1
          have : i = j := by omega
          subst this
          rw [hi] at hj
          exact Option.some.inj hj
      cases op with
      | join e => exact absurd hop (by simp [SpecOp.Plain])
      | gather e => exact absurd hop (by simp [SpecOp.Plain])
      | unwind e => exact absurd hop (by simp [SpecOp.Plain])
      | select e =>
        cases hcp
        refine main _ hst ?_ ?_
        · intro d ds hds
          obtain ⟨b, _, rfl⟩ := selectOp_ok.mp hds
          cases b <;> simp
        · intro d x c hx hr
          obtain ⟨h, rfl⟩ := row_select.mp hx
          exact .select h hr
      | project e =>
        cases hcp
        refine main _ hst ?_ ?_
        · intro d ds hds
          obtain ⟨x, _, rfl⟩ := (C78_one _ H e d ds).mp hds
          simp
        · intro d x c hx hr
          exact .project ((row_project H).mp hx) hr

/-! ## Live objects -/

theorem liveAs_unique {hist : List (Delta CDoc)} {g : GVK} {k : ObjKey} {d d' : CDoc} (h : LiveAs jsonOps hist g k d) (h' : LiveAs jsonOps hist g k d') : d = d' := by
  obtain ⟨pre, δ, post, e, hc, _, hd, hl⟩ := h
  obtain ⟨pre', δ', post', e', hc', _, hd', hl'⟩ := h'
  rw [e] at e'
  rcases List.append_eq_append_iff.mp e' with ⟨a, rfl, h⟩ | ⟨a, rfl, h⟩
  · cases a with
    | nil => simp at h; rw [← hd, ← hd', h.1]
    | cons x a =>
      simp only [List.cons_append, List.cons.injEq] at h
      exact absurd hc' (hl δ' (by rw [h.2]; simp))
  · cases a with
    | nil => simp at h; rw [← hd, ← hd', h.1]
    | cons x a =>
      simp only [List.cons_append, List.cons.injEq] at h
      exact absurd hc (hl' δ (by rw [h.2]; simp))

theorem liveSet_facts {hist : List (Delta CDoc)} {g : GVK} {z : ZSet CDoc} (h : LiveSet jsonOps hist g z) :
    (∀ d, 0 < get z d ↔ LiveObj hist g d) ∧ UniqueNames z := by
  have key : ∀ d, 0 < get z d ↔ LiveObj hist g d := by
    intro d
    by_cases hl : LiveObj hist g d
    · rw [(h.2 d).1 hl]; simp [hl]
    · rw [(h.2 d).2 hl]; simp [hl]
  refine ⟨key, fun d => ?_, ?_⟩
  · by_cases hl : LiveObj hist g d
    · rw [(h.2 d).1 hl]; omega
    · rw [(h.2 d).2 hl]; omega
  · intro d d' hd hd' hk
    have h1 := ((key d).mp hd).2
    have h2 := ((key d').mp hd').2
    rw [← hk] at h2
    exact liveAs_unique h1 h2

theorem live_named {hist : List (Delta CDoc)} (hn : ∀ δ ∈ hist, Named δ.obj) {g : GVK} {d : CDoc} (h : LiveObj hist g d) : Named d := by
  obtain ⟨_, pre, δ, post, rfl, _, _, hd, _⟩ := h
  obtain ⟨n, hn⟩ := hn δ (by simp)
  refine ⟨n, ?_⟩
  rw [← hd]
  exact (removeUID_off δ.obj.2 (by decide) (by decide)).trans hn

theorem mults_live {hist : List (Delta CDoc)} : ∀ {sources : List GVK} {ins : List (ZSet CDoc)} {ds : List CDoc}, LiveInputs jsonOps hist sources ins →
    ds.length = sources.length → (mults ins ds = 0 ∨ mults ins ds = 1) ∧ (0 < mults ins ds ↔ LiveTuple hist sources ds)
  | [], [], [], _, _ => by simp [mults, LiveTuple]
  | [], _ :: _, _, h, _ => by have := h.1; simp at this
  | _ :: _, [], _, h, _ => by have := h.1; simp at this
  | [], [], _ :: _, _, h => by simp at h
  | _ :: _, _ :: _, [], _, h => by simp at h
  | s :: sources, z :: ins, d :: ds, h, hl => by
    obtain ⟨ih1, ih2⟩ := mults_live (sources := sources) (ins := ins) (ds := ds) (hist := hist) ⟨by have := h.1; simpa using this, fun i s' hs => by
      obtain ⟨z', hz', hl'⟩ := h.2 (i + 1) s' (by simpa using hs)
      exact ⟨z', by simpa using hz', hl'⟩⟩ (by simpa using hl)
    obtain ⟨z', hz', hlive⟩ := h.2 0 s (by simp)
    simp only [List.getElem?_cons_zero, Option.some.injEq] at hz'
    subst hz'
    obtain ⟨f1, f2⟩ := liveSet_facts hlive
    have hd := f2.1 d
    have hm : mults (z :: ins) (d :: ds) = get z d * mults ins ds := rfl
    have ht : LiveTuple hist (s :: sources) (d :: ds) ↔ LiveObj hist s d ∧ LiveTuple hist sources ds := by
      constructor
      · rintro ⟨_, h⟩
        refine ⟨h 0 s d (by simp) (by simp), by simpa using hl, fun i s' d' h1 h2 => h (i + 1) s' d' (by simpa using h1) (by simpa using h2)⟩
      · rintro ⟨h1, _, h2⟩
        refine ⟨hl, fun i s' d' a b => ?_⟩
        cases i with
        | zero => simp at a b; subst a; subst b; exact h1
        | succ i => exact h2 i s' d' (by simpa using a) (by simpa using b)
    rw [hm, ht, ← f1 d, ← ih2]
    have hz : get z d = 0 ∨ get z d = 1 := by omega
    rcases hz with h | h <;> rcases ih1 with h' | h' <;> rw [h, h'] <;> simp

/-- The support of a join of live objects. -/
theorem join_live {env : Env} {e : Expr} {hist : List (Delta CDoc)} {sources : List GVK} (hn : (sources.map GVK.kind).Nodup) {ins : List (ZSet CDoc)}
    (hl : LiveInputs jsonOps hist sources ins) {m : ZSet CDoc} (h : JoinSpec (joinOp env e (sources.map GVK.kind)) ins m) :
    WF m ∧ (∀ c, get m c = 0 ∨ get m c = 1) ∧
    ∀ j, 0 < get m j ↔ ∃ ds, LiveTuple hist sources ds ∧ Combines (sources.map GVK.kind) ds j ∧ CondTrue env e j := by
  have hw : ∀ z ∈ ins, WF z := by
    intro z hz
    obtain ⟨i, hi⟩ := List.mem_iff_getElem?.mp hz
    have hlt := (List.getElem?_eq_some_iff.mp hi).1
    rw [hl.1] at hlt
    obtain ⟨z', hz', hs⟩ := hl.2 i sources[i] (List.getElem?_eq_getElem hlt)
    rw [hi] at hz'
    cases hz'
    exact hs.1
  obtain ⟨h1, h2⟩ := C77_join env e _ hn ins (by rw [List.length_map]; exact hl.1) hw m h
  have hval : ∀ c, get m c = 0 ∨ get m c = 1 := by
    intro c
    by_cases h0 : get m c = 0
    · exact .inl h0
    · obtain ⟨ds, hds, hc⟩ := h2 c h0
      by_cases ht : CondTrue env e c
      · rw [(h1 ds c hds hc).1 ht]
        exact (mults_live hl (by simpa using hds)).1
      · exact .inl ((h1 ds c hds hc).2 ht)
  refine ⟨h.1, hval, fun j => ?_⟩
  constructor
  · intro hj
    obtain ⟨ds, hds, hc⟩ := h2 j (by omega)
    by_cases ht : CondTrue env e j
    · rw [(h1 ds j hds hc).1 ht] at hj
      exact ⟨ds, (mults_live hl (by simpa using hds)).2.mp hj, hc, ht⟩
    · rw [(h1 ds j hds hc).2 ht] at hj
      omega
  · rintro ⟨ds, ht, hc, hb⟩
    rw [(h1 ds j (by rw [ht.1]; simp) hc).1 hb]
    exact (mults_live hl ht.1).2.mpr ht

end Dctl
