import Verif.Spec.ListPipeline
import Verif.Pipeline.RowLemmas
/-!
# Lemmas on pipelines on lists of documents
-/
set_option autoImplicit false
set_option linter.unusedSectionVars false
namespace Dctl
open ZSet

/-! ## Lists and collections -/

/-- The list `xs` holds every document as often as `z` says. -/
def Lists (z : ZSet CDoc) (xs : List CDoc) : Prop := ∀ d, get z d = (xs.count d : Int)

theorem Lists.nonNeg {z : ZSet CDoc} {xs : List CDoc} (h : Lists z xs) : NonNeg z := fun d => by rw [h d]; omega

/-- Every document as often as it occurs. -/
def spread (z : ZSet CDoc) : List CDoc := z.flatMap (fun p => List.replicate p.2.toNat p.1)

theorem spread_cons (p : CDoc × Int) (z : ZSet CDoc) : spread (p :: z) = List.replicate p.2.toNat p.1 ++ spread z := by simp [spread]

theorem sum_spread (g : CDoc → Int) : ∀ {z : ZSet CDoc}, (∀ p ∈ z, 0 < p.2) → ((spread z).map g).sum = (z.map (fun p => p.2 * g p.1)).sum
  | [], _ => rfl
  | (x, m) :: z, hp => by
    have ih := sum_spread g (z := z) (fun p hpz => hp p (List.mem_cons_of_mem _ hpz))
    have hm := hp (x, m) (by simp)
    simp only at hm
    have hr : ∀ n : Nat, ((List.replicate n x).map g).sum = (n : Int) * g x := by
      intro n
      induction n with
      | zero => simp
      | succ n ih => rw [List.replicate_succ, List.map_cons, List.sum_cons, ih, Int.natCast_succ, Int.add_mul]; omega
    rw [spread_cons, List.map_append, List.sum_append, ih, hr, List.map_cons, List.sum_cons]
    simp only [Int.toNat_of_nonneg (Int.le_of_lt hm)]

theorem count_sum (xs : List CDoc) (d : CDoc) : (xs.count d : Int) = (xs.map (fun x => if x = d then 1 else 0)).sum := by
  induction xs with
  | nil => rfl
  | cons x xs ih =>
    rw [List.count_cons, List.map_cons, List.sum_cons, ← ih]
    by_cases h : x = d
    · subst h; simp; omega
    · have : (x == d) = false := beq_false_of_ne h
      simp [h, this]

theorem count_spread {z : ZSet CDoc} (hw : WF z) (hp : ∀ p ∈ z, 0 < p.2) (d : CDoc) : ((spread z).count d : Int) = get z d := by
  rw [count_sum, sum_spread _ hp, ← wsum_ind hw d]
  clear hw hp
  induction z with
  | nil => rfl
  | cons p z ih =>
    obtain ⟨x, m⟩ := p
    rw [List.map_cons, List.sum_cons, ih]
    rfl

theorem Lists.perm {z : ZSet CDoc} {xs : List CDoc} (hw : WF z) (h : Lists z xs) : (spread z).Perm xs := by
  rw [List.perm_iff_count]
  intro d
  have := count_spread hw (nonNeg_pos hw h.nonNeg) d
  rw [h d] at this
  omega

theorem Lists.mem {z : ZSet CDoc} {xs : List CDoc} (h : Lists z xs) (d : CDoc) : d ∈ xs ↔ 0 < get z d := by
  rw [h d, ← List.count_pos_iff]; omega

theorem perm_sum {A : Type} (f : A → Int) {l l' : List A} (h : l.Perm l') : (l.map f).sum = (l'.map f).sum := by
  induction h with
  | nil => rfl
  | cons x _ ih => simp [ih]
  | swap x y l => simp; omega
  | trans _ _ ih1 ih2 => rw [ih1, ih2]

theorem lists_of_nodup {z : ZSet CDoc} (hv : ∀ c, get z c = 0 ∨ get z c = 1) {P : CDoc → Prop} (hp : ∀ c, 0 < get z c ↔ P c) (hw : WF z) :
    ∃ xs : List CDoc, xs.Nodup ∧ (∀ c, c ∈ xs ↔ P c) ∧ Lists z xs := by
  have hpos : ∀ p ∈ z, 0 < p.2 := nonNeg_pos hw (fun d => by rcases hv d with h | h <;> omega)
  have hl : Lists z (spread z) := fun d => (count_spread hw hpos d).symm
  refine ⟨spread z, ?_, fun c => by rw [hl.mem, hp], hl⟩
  rw [List.nodup_iff_count]
  intro c
  have := hl c
  rcases hv c with h | h <;> omega

/-! ## Concatenation -/

theorem Concat.mono {A B : Type} {R S : A → List B → Prop} : ∀ {xs : List A} {ys : List B}, (∀ x ∈ xs, ∀ l, R x l → S x l) → Concat R xs ys → Concat S xs ys
  | [], _, _, h => h
  | x :: xs, ys, hrs, ⟨l, r, e, h1, h2⟩ => ⟨l, r, e, hrs x (by simp) l h1, Concat.mono (fun y hy => hrs y (List.mem_cons_of_mem _ hy)) h2⟩

theorem Concat.mem {A B : Type} {R : A → List B → Prop} : ∀ {xs : List A} {ys : List B}, Concat R xs ys → ∀ y, y ∈ ys → ∃ x ∈ xs, ∃ l, R x l ∧ y ∈ l
  | [], _, h, y, hy => by rw [show _ = [] from h] at hy; cases hy
  | x :: xs, ys, ⟨l, r, e, h1, h2⟩, y, hy => by
    rw [e, List.mem_append] at hy
    rcases hy with hy | hy
    · exact ⟨x, by simp, l, h1, hy⟩
    · obtain ⟨x', hx', l', h3, h4⟩ := Concat.mem h2 y hy
      exact ⟨x', List.mem_cons_of_mem _ hx', l', h3, h4⟩

theorem Concat.mem_of {A B : Type} {R : A → List B → Prop} : ∀ {xs : List A} {ys : List B}, Concat R xs ys → ∀ x ∈ xs, ∃ l, R x l ∧ ∀ y ∈ l, y ∈ ys
  | [], _, _, x, hx => by cases hx
  | a :: xs, ys, ⟨l, r, e, h1, h2⟩, x, hx => by
    rw [e]
    rcases List.mem_cons.mp hx with rfl | hx
    · exact ⟨l, h1, fun y hy => List.mem_append_left _ hy⟩
    · obtain ⟨l', h3, h4⟩ := Concat.mem_of h2 x hx
      exact ⟨l', h3, fun y hy => List.mem_append_right _ (h4 y hy)⟩

theorem concat_exists (f : Ev CDoc) : ∀ {xs : List CDoc}, (∀ x ∈ xs, ∃ l, f x = .ok l) →
    ∃ ys, Concat (fun d l => f d = .ok l) xs ys ∧ ∀ d, (ys.count d : Int) = (xs.map (copies f d)).sum
  | [], _ => ⟨[], rfl, fun _ => rfl⟩
  | x :: xs, h => by
    obtain ⟨l, hl⟩ := h x (by simp)
    obtain ⟨r, h1, h2⟩ := concat_exists f (fun y hy => h y (List.mem_cons_of_mem _ hy))
    refine ⟨l ++ r, ⟨l, r, rfl, hl, h1⟩, fun d => ?_⟩
    rw [List.count_append, List.map_cons, List.sum_cons, ← h2 d]
    have : copies f d x = (l.count d : Int) := by
      simp only [copies, hl]
      rw [count_inst]
    rw [this]; omega

theorem mapSpec_lists {f : Ev CDoc} {z m : ZSet CDoc} {xs : List CDoc} (hw : WF z) (hl : Lists z xs) (h : MapSpec f z m) :
    WF m ∧ ∃ ys, Concat (fun d l => f d = .ok l) xs ys ∧ Lists m ys := by
  obtain ⟨h1, h2, h3⟩ := h
  have hp := nonNeg_pos hw hl.nonNeg
  obtain ⟨ys, h4, h5⟩ := concat_exists f (xs := xs) (fun x hx => by
    obtain ⟨q, hq, rfl⟩ := List.mem_map.mp ((get_pos_iff hw hp x).mp ((hl.mem x).mp hx))
    exact h2 q hq)
  refine ⟨h1, ys, h4, fun d => ?_⟩
  rw [h3, h5, ← perm_sum _ (hl.perm hw), sum_spread _ hp]

/-! ## Stages -/

theorem entryVals_spread (env : Env) (kE vE : Expr) (key : Json) (q : CDoc × Int) :
    entryVals env kE vE key q = (List.replicate q.2.toNat q.1).filterMap (rowVal env kE vE key) := by
  have : ∀ (n : Nat) (o : Option Json), rowVal env kE vE key q.1 = o → (List.replicate n q.1).filterMap (rowVal env kE vE key) = (o.map (List.replicate n)).getD [] := by
    intro n o ho
    induction n with
    | zero => cases o <;> rfl
    | succ n ih => cases o <;> simp_all [List.replicate_succ]
  rw [this _ _ rfl]
  unfold entryVals rowVal
  split
  · rename_i k v h1 h2
    simp only [h1, h2]
    split <;> rfl
  · rename_i h
    split
    · rename_i h1 h2
      exact absurd h2 (h _ _ h1)
    · rfl

theorem groupVals_lists {env : Env} {kE vE : Expr} {z : ZSet CDoc} {xs : List CDoc} (hw : WF z) (hl : Lists z xs) (key : Json) :
    (groupVals env kE vE z key).Perm (xs.filterMap (rowVal env kE vE key)) := by
  refine List.Perm.trans (List.Perm.of_eq ?_) ((hl.perm hw).filterMap _)
  clear hl hw
  induction z with
  | nil => rfl
  | cons p z ih =>
    rw [spread_cons, List.filterMap_append, ← ih, ← entryVals_spread]
    rfl

theorem compile_gather {env : Env} {srt : List Json → List Json} {names : List String} {kE vE : Expr} {p : PipeOp CDoc AnyVal}
    (h : compileOp env srt names (.gather (.exprs "@list" [kE, vE])) = .ok p) : p = .gather (gatherOf env srt kE vE) := by
  simp only [compileOp, gatherOp, gatherArgs, if_true, Except.ok.injEq] at h
  exact h.symm

theorem fieldSpecOn_mono {env : Env} {srt : List Json → List Json} : ∀ {ops : List SpecOp} {P Q : CDoc → Prop}, (∀ d, Q d → P d) → FieldSpecOn env srt ops P →
    FieldSpecOn env srt ops Q
  | [], _, _, _, _ => trivial
  | .select e :: ops, P, Q, h, hf => fieldSpecOn_mono (ops := ops) (fun d hd => ⟨h d hd.1, hd.2⟩) hf
  | .project e :: ops, P, Q, h, hf => fieldSpecOn_mono (ops := ops) (fun c ⟨d, hd, hc⟩ => ⟨d, h d hd, hc⟩) hf
  | .unwind e :: ops, P, Q, h, hf => ⟨hf.1, fun d hd => hf.2.1 d (h d hd), fieldSpecOn_mono (ops := ops) (fun c ⟨p, d, i, e, hd, hc⟩ => ⟨p, d, i, e, h d hd, hc⟩) hf.2.2⟩
  | .gather e :: ops, P, Q, h, hf => by
    obtain ⟨path, h1, h2⟩ := hf
    exact ⟨path, h1, fieldSpecOn_mono (ops := ops) (fun c ⟨d, vals, hd, hc⟩ => ⟨d, vals, h d hd, hc⟩) h2⟩
  | .join e :: ops, P, Q, h, hf => hf

theorem fieldSpecOn_of {env : Env} {srt : List Json → List Json} : ∀ {ops : List SpecOp} {b : Bool} {P : CDoc → Prop}, FieldSpec env b ops →
    (b = true → ∀ d, P d → Named d) → FieldSpecOn env srt ops P
  | [], _, _, _, _ => trivial
  | .select e :: ops, b, P, hf, h => fieldSpecOn_of (ops := ops) (b := b) hf (fun hb d hd => h hb d hd.1)
  | .project e :: ops, b, P, hf, h => by
    rcases hf with hf | ⟨h1, hf⟩
    · exact fieldSpecOn_of (ops := ops) hf (by simp)
    · exact fieldSpecOn_of (ops := ops) hf (fun _ c ⟨d, hd, hc⟩ => h1 d c (fun hb => h hb d hd) hc)
  | .unwind e :: ops, b, P, hf, h => ⟨hf.2.1, h hf.1, fieldSpecOn_of (ops := ops) hf.2.2 (fun _ c ⟨p, d, i, _, _, hc⟩ => by
      obtain ⟨_, _, n, _, _, _, _, h, _⟩ := hc
      exact ⟨_, h⟩)⟩
  | .gather e :: ops, b, P, hf, h => by
    obtain ⟨path, h1, hf⟩ := hf
    refine ⟨path, h1, ?_⟩
    rcases hf with hf | ⟨hd, hf⟩
    · exact fieldSpecOn_of (ops := ops) hf (by simp)
    · refine fieldSpecOn_of (ops := ops) hf (fun hb c ⟨d, vals, hd', hc⟩ => ?_)
      obtain ⟨n, hn⟩ := h hb d hd'
      exact ⟨n, (hc.2 namePath hd).trans hn⟩
  | .join e :: ops, b, P, hf, h => absurd hf (by simp [FieldSpec])

theorem stages_rows (base : Env) (H : base.Canon) {srt : List Json → List Json} (hc : ∀ l : List Json, (∀ x ∈ l, x.Canon) → ∀ x ∈ srt l, x.Canon)
    {names : List String} : ∀ {spec : List SpecOp} {P : CDoc → Prop} {cfg : List (PipeOp CDoc AnyVal)} {z o : ZSet CDoc} {xs : List CDoc},
      FieldSpecOn (fieldEnv base) srt spec P → compileOps (fieldEnv base) srt names spec = .ok cfg → StagesSpec cfg z o → WF z → Lists z xs →
      (∀ x ∈ xs, P x) → ∃ ys, PipeRows (fieldEnv base) srt spec xs ys ∧ Lists o ys
  | [], P, cfg, z, o, xs, _, hcfg, hs, hw, hl, _ => by
    cases hcfg
    cases hs with
    | nil hw he => exact ⟨xs, rfl, fun d => by rw [← he d]; exact hl d⟩
  | op :: spec, P, cfg, z, o, xs, hrow, hcfg, hs, hw, hl, hn => by
    have HF := fieldEnv_canon H
    obtain ⟨p, ps, rfl, hcp, hcs⟩ := compileOps_cons hcfg
    cases hs with
    | @cons _ _ _ m _ hst hss =>
      cases op with
      | join e => exact absurd hrow (by simp [FieldSpecOn])
      | select e =>
        cases hcp
        obtain ⟨hm, ms, h1, h2⟩ := mapSpec_lists hw hl hst
        have h3 : StageRows (fieldEnv base) srt (.select e) xs ms := by
          refine Concat.mono (fun d _ l hdl => ?_) h1
          obtain ⟨v, hv, rfl⟩ := selectOp_ok.mp hdl
          cases v
          · exact .inr ⟨hv, rfl⟩
          · exact .inl ⟨hv, rfl⟩
        obtain ⟨ys, h5, h6⟩ := stages_rows base H hc (spec := spec) hrow hcs hss hm h2 (fun y hy => by
          obtain ⟨x, hx, l, hR, hyl⟩ := Concat.mem h3 y hy
          rcases hR with ⟨hc, rfl⟩ | ⟨_, rfl⟩
          · rw [List.mem_singleton.mp hyl]; exact ⟨hn x hx, hc⟩
          · cases hyl)
        exact ⟨ys, ⟨ms, h3, h5⟩, h6⟩
      | project e =>
        cases hcp
        obtain ⟨hm, ms, h1, h2⟩ := mapSpec_lists hw hl hst
        have h3 : StageRows (fieldEnv base) srt (.project e) xs ms := by
          refine Concat.mono (fun d _ l hdl => ?_) h1
          obtain ⟨c, hc', rfl⟩ := (C78_one (fieldEnv base) HF e d l).mp hdl
          exact ⟨c, hc', rfl⟩
        obtain ⟨ys, h5, h6⟩ := stages_rows base H hc (spec := spec) hrow hcs hss hm h2 (fun y hy => by
          obtain ⟨x, hx, l, ⟨c, hp, rfl⟩, hyl⟩ := Concat.mem h3 y hy
          rw [List.mem_singleton.mp hyl]
          exact ⟨x, hn x hx, hp⟩)
        exact ⟨ys, ⟨ms, h3, h5⟩, h6⟩
      | unwind e =>
        obtain ⟨hf, hN, hrow⟩ := hrow
        obtain ⟨ex, tr, rfl, hop⟩ := compile_unwind hcp
        obtain ⟨hm, ms, h1, h2⟩ := mapSpec_lists hw hl hst
        obtain ⟨k, p, rfl, hp, ha⟩ := hf
        have h3 : StageRows (fieldEnv base) srt (.unwind (strE (pathString (k :: p)))) xs ms :=
          ⟨k :: p, rfl, hp, Concat.mono (fun d hd l hdl => unwind_row base hp ha hop (hN d (hn d hd)) hdl) h1⟩
        obtain ⟨ys, h5, h6⟩ := stages_rows base H hc (spec := spec) hrow hcs hss hm h2 (fun y hy => by
          obtain ⟨path, e, _, h4⟩ := h3
          obtain ⟨x, hx, l, hR, hyl⟩ := Concat.mem h4 y hy
          obtain ⟨i, hi⟩ := List.mem_iff_getElem?.mp hyl
          exact ⟨path, x, i, e, hn x hx, (hR i y).mp hi⟩)
        exact ⟨ys, ⟨ms, h3, h5⟩, h6⟩
      | gather e =>
        obtain ⟨path, ⟨kE, rfl, hne, hp⟩, hrow⟩ := hrow
        obtain ⟨k, p, rfl⟩ := List.exists_cons_of_ne_nil hne
        cases compile_gather hcp
        have hm : WF m := hst.1
        obtain ⟨keys, outs, g1, g2, g3, g4, g5⟩ := C80_gather base srt kE k p hp z m hc H hst
        have hpos := nonNeg_pos hw hl.nonNeg
        have hmem : ∀ x, x ∈ xs ↔ x ∈ z.map Prod.fst := fun x => by rw [hl.mem, get_pos_iff hw hpos]
        have h3 : StageRows (fieldEnv base) srt (.gather (.exprs "@list" [kE, strE (pathString (k :: p))])) xs outs := by
          refine ⟨kE, k :: p, rfl, hp, keys, g1, fun key => ?_, g2, fun i key c hi hci => ?_⟩
          · rw [g3]
            constructor
            · rintro ⟨q, hq, h⟩
              exact ⟨q.1, (hmem _).mpr (List.mem_map_of_mem hq), h⟩
            · rintro ⟨x, hx, h⟩
              obtain ⟨q, hq, rfl⟩ := List.mem_map.mp ((hmem x).mp hx)
              exact ⟨q, hq, h⟩
          · obtain ⟨rep, hr, vals, h1, h2, h3, h4⟩ := g4 i key c hi hci
            exact ⟨rep, (hmem rep).mpr hr, ⟨h1, h2⟩, vals, h3.trans (groupVals_lists hw hl key), h4⟩
        obtain ⟨ys, h5, h6⟩ := stages_rows base H hc (spec := spec) hrow hcs hss hm g5 (fun y hy => by
          obtain ⟨i, hi⟩ := List.mem_iff_getElem?.mp hy
          have hlt : i < keys.length := by rw [← g2]; exact (List.getElem?_eq_some_iff.mp hi).1
          obtain ⟨rep, hr, vals, _, _, _, hset⟩ := g4 i _ y (List.getElem?_eq_getElem hlt) hi
          exact ⟨rep, vals, hn rep ((hmem rep).mpr hr), hset⟩)
        exact ⟨ys, ⟨outs, h3, h5⟩, h6⟩

end Dctl
