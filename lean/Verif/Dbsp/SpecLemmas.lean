import Verif.Dbsp.ChainLemmas
import Verif.Spec.Pipeline
/-! The model's operators meet the specification of `Verif/Spec/Pipeline.lean` (helper lemmas). -/
set_option autoImplicit false
set_option linter.unusedSectionVars false
namespace Dctl
variable {D J : Type} [DecidableEq D] [DecidableEq J]
open ZSet

theorem wsum_eq_sum (g : D → Int) (z : ZSet D) : wsum g z = (z.map (fun p => p.2 * g p.1)).sum := by
  induction z with
  | nil => rfl
  | cons p t ih => obtain ⟨x, m⟩ := p; simp [wsum, ih]

theorem evSum_copies (f : Ev D) (d x : D) : evSum f (fun x => if x = d then 1 else 0) x = copies f d x := by
  unfold evSum copies
  split <;> simp_all [dsum_ind]

theorem evSumJ_copies (f : JEv D) (d : D) (x : List D) :
    evSumJ f (fun x => if x = d then 1 else 0) x = copies f d x := by
  unfold evSumJ copies
  split <;> simp_all [dsum_ind]

theorem mapSpec_of_linProc {f : Ev D} {z m : ZSet D} (h : linProc f z = .ok m) : MapSpec f z m := by
  refine ⟨linProc_wf h, fun p hp => linProc_ok_iff.mp ⟨m, h⟩ p.1 (List.mem_map_of_mem hp), fun d => ?_⟩
  rw [linProc_get h, wsum_eq_sum]
  simp only [evSum_copies]

theorem linProc_of_ok {f : Ev D} {z : ZSet D} (h : ∀ p ∈ z, ∃ ds, f p.1 = .ok ds) : ∃ m, linProc f z = .ok m := by
  rw [linProc_ok_iff]
  intro x hx
  obtain ⟨p, hp, rfl⟩ := List.mem_map.mp hx
  exact h p hp

theorem bindDocs_mapM {A B : Type} (tr : A → Except Err B) (es : List A) :
    bindDocs (fun e => match tr e with
      | .error e => .error e
      | .ok d => .ok [d]) es = es.mapM tr := by
  induction es with
  | nil => rfl
  | cons e t ih =>
    rw [List.mapM_cons, bindDocs, ih]
    cases tr e with
    | error _ => rfl
    | ok d => cases List.mapM tr t <;> rfl

theorem unwindDocs_eq (ex : D → Except Err (Option (List J))) (tr : D → J → Except Err D) :
    unwindEv ex tr = unwindDocs ex tr := by
  funext x
  unfold unwindEv unwindDocs
  cases ex x with
  | error _ => rfl
  | ok o => cases o with
    | none => rfl
    | some es => simp only; exact bindDocs_mapM (tr x) es

theorem mapSpec_perm {f : Ev D} {z z' m : ZSet D} (hp : z'.Perm z) (h : MapSpec f z' m) : MapSpec f z m := by
  refine ⟨h.1, fun p hm => h.2.1 p (hp.mem_iff.mpr hm), fun d => ?_⟩
  rw [h.2.2 d, ← wsum_eq_sum, ← wsum_eq_sum, wsum_perm _ hp]

/-! ### join -/

theorem sum_flatMap_mul {A : Type} (l : List (D × Int)) (ts : List (A × Int)) (g : D → A → Int) :
    ((l.flatMap (fun p => ts.map (fun t => (p.1, t.1, p.2 * t.2)))).map (fun q => q.2.2 * g q.1 q.2.1)).sum =
    (l.map (fun p => p.2 * (ts.map (fun t => t.2 * g p.1 t.1)).sum)).sum := by
  induction l with
  | nil => rfl
  | cons p l ih =>
    simp only [List.flatMap_cons, List.map_append, List.sum_append, List.map_cons, List.sum_cons, ih]
    congr 1
    clear ih
    induction ts with
    | nil => simp
    | cons t ts ih => simp only [List.map_cons, List.sum_cons, ih, Int.mul_add, Int.mul_assoc]

theorem joinSum_tuples (g : List D → Int) (zs : List (ZSet D)) (docs : List D) :
    joinSum g zs docs = ((tuples zs).map (fun t => t.2 * g (docs.reverse ++ t.1))).sum := by
  induction zs generalizing docs with
  | nil => simp [joinSum, tuples]
  | cons z zs ih =>
    simp only [joinSum, tuples]
    rw [wsum_eq_sum]
    simp only [ih]
    have := sum_flatMap_mul z (tuples zs) (fun x t => g (docs.reverse ++ (x :: t)))
    simp only [List.reverse_cons, List.append_assoc, List.singleton_append]
    rw [← this]
    congr 1
    simp only [List.map_flatMap, List.map_map]
    rfl

theorem joinOk_tuples (ev : JEv D) (zs : List (ZSet D)) (docs : List D) :
    JoinOk ev zs docs ↔ ∀ t ∈ tuples zs, ∃ ds, ev (docs.reverse ++ t.1) = .ok ds := by
  induction zs generalizing docs with
  | nil => simp [JoinOk, tuples]
  | cons z zs ih =>
    simp only [JoinOk, tuples, ih]
    constructor
    · intro h t ht
      obtain ⟨p, hp, ht⟩ := List.mem_flatMap.mp ht
      obtain ⟨t', ht', rfl⟩ := List.mem_map.mp ht
      simpa using h p.1 (List.mem_map_of_mem hp) t' ht'
    · intro h x hx t ht
      obtain ⟨p, hp, rfl⟩ := List.mem_map.mp hx
      have := h (p.1 :: t.1, p.2 * t.2) (List.mem_flatMap.mpr ⟨p, hp, List.mem_map.mpr ⟨t, ht, rfl⟩⟩)
      simpa using this

theorem joinSpec_of_cart {ev : JEv D} {ins : List (ZSet D)} {m : ZSet D} (h : cartesianJoin ev ins [] 1 = .ok m) :
    JoinSpec ev ins m := by
  obtain ⟨h1, h2, h3⟩ := cart_spec h
  rw [joinOk_tuples] at h3
  refine ⟨h1, by simpa using h3, fun d => ?_⟩
  rw [← wsum_ind h1, h2, joinSum_tuples]
  simp [evSumJ_copies]

theorem cart_of_ok {ev : JEv D} {ins : List (ZSet D)} (h : ∀ t ∈ tuples ins, ∃ ds, ev t.1 = .ok ds) :
    ∃ m, cartesianJoin ev ins [] 1 = .ok m :=
  cart_ok 1 ((joinOk_tuples ev ins []).mpr (by simpa using h))

/-! ### gather -/

/-- Lookup of a group. -/
def findG (gs : List (Group D J)) (k : J) : Option (Group D J) := gs.find? (fun gr => gr.key = k)

theorem findG_cons (a : Group D J) (gs : List (Group D J)) (k : J) :
    findG (a :: gs) k = if a.key = k then some a else findG gs k := by
  unfold findG
  rw [List.find?_cons]
  by_cases h : a.key = k <;> simp [h]

theorem findG_updGroup (k v : J) (x : D) (m : Int) (gs : List (Group D J)) (k' : J) :
    findG (updGroup k v x m gs) k' =
      if k = k' then some (match findG gs k with
        | none => ⟨k, applyMult [] v m, x⟩
        | some a => { a with vals := applyMult a.vals v m })
      else findG gs k' := by
  induction gs with
  | nil => simp [updGroup, findG_cons, findG]
  | cons a t ih =>
    simp only [updGroup]
    by_cases h : a.key = k
    · by_cases hk : k = k'
      · subst hk; simp [h, findG_cons]
      · have : ¬ a.key = k' := fun e => hk (h.symm.trans e)
        simp [h, findG_cons, hk, this]
    · by_cases hk : k = k'
      · subst hk; simp [h, findG_cons, ih]
      · simp [h, findG_cons, ih, hk]

theorem keys_updGroup (k v : J) (x : D) (m : Int) (gs : List (Group D J)) (k' : J) :
    k' ∈ (updGroup k v x m gs).map Group.key ↔ k' = k ∨ k' ∈ gs.map Group.key := by
  induction gs with
  | nil => simp [updGroup]
  | cons a t ih =>
    simp only [updGroup]
    split
    · rename_i h; simp [← h]
    · simp only [List.map_cons, List.mem_cons, ih]
      constructor
      · rintro (h | h | h) <;> simp [h]
      · rintro (h | h | h) <;> simp [h]

theorem nodup_updGroup {k v : J} {x : D} {m : Int} {gs : List (Group D J)} (h : (gs.map Group.key).Nodup) :
    ((updGroup k v x m gs).map Group.key).Nodup := by
  induction gs with
  | nil => simp [updGroup]
  | cons a t ih =>
    simp only [updGroup]
    split
    · simpa using h
    · rename_i hk
      simp only [List.map_cons, List.nodup_cons] at h ⊢
      refine ⟨?_, ih h.2⟩
      rw [keys_updGroup]
      rintro (he | he)
      · exact hk he
      · exact h.1 he

theorem findG_some_iff {gs : List (Group D J)} (h : (gs.map Group.key).Nodup) (gr : Group D J) :
    findG gs gr.key = some gr ↔ gr ∈ gs := by
  induction gs with
  | nil => simp [findG]
  | cons a t ih =>
    simp only [List.map_cons, List.nodup_cons] at h
    rw [findG_cons]
    by_cases hk : a.key = gr.key
    · simp only [hk, if_true, Option.some.injEq, List.mem_cons]
      constructor
      · intro e; exact Or.inl e.symm
      · rintro (e | e)
        · exact e.symm
        · exact absurd (List.mem_map_of_mem (f := Group.key) e) (hk ▸ h.1)
    · simp only [hk, if_false, List.mem_cons, ih h.2]
      constructor
      · exact Or.inr
      · rintro (e | e)
        · exact absurd (congrArg Group.key e.symm) hk
        · exact e

theorem findG_isSome_iff (gs : List (Group D J)) (k : J) :
    k ∈ gs.map Group.key ↔ ∃ gr, findG gs k = some gr ∧ gr.key = k := by
  induction gs with
  | nil => simp [findG]
  | cons a t ih =>
    rw [findG_cons]
    by_cases hk : a.key = k
    · simp [hk]
    · have hk' : ¬ k = a.key := fun e => hk e.symm
      simp only [List.map_cons, List.mem_cons, hk', false_or, hk, if_false]
      exact ih

/-- What the grouping loop leaves for key `k`. -/
def groupAfter (g : Gather D J) (k : J) (a : Option (Group D J)) (z : ZSet D) (r : Option (Group D J)) : Prop :=
  match a with
  | some a => r = some { a with vals := a.vals ++ z.flatMap (contrib g k) }
  | none => (r = none ∧ ∀ p ∈ z, ¬ InGroup g k p.1) ∨
      ∃ p ∈ z, InGroup g k p.1 ∧ r = some ⟨k, z.flatMap (contrib g k), p.1⟩

theorem applyMult_pos (vals : List J) (v : J) {m : Int} (h : 0 < m) :
    applyMult vals v m = vals ++ List.replicate m.toNat v := by
  unfold applyMult; simp [h]

theorem groupAfter_skip {g : Gather D J} {k : J} {a : Option (Group D J)} {p : D × Int} {z : ZSet D}
    {r : Option (Group D J)} (hn : ¬ InGroup g k p.1) (hc : contrib g k p = []) (h : groupAfter g k a z r) :
    groupAfter g k a (p :: z) r := by
  unfold groupAfter at h ⊢
  cases a with
  | some a => simpa [List.flatMap_cons, hc] using h
  | none =>
    rcases h with ⟨h1, h2⟩ | ⟨q, hq, h1, h2⟩
    · refine Or.inl ⟨h1, fun q hq => ?_⟩
      rcases List.mem_cons.mp hq with rfl | hq
      · exact hn
      · exact h2 q hq
    · exact Or.inr ⟨q, List.mem_cons_of_mem _ hq, h1, by simpa [List.flatMap_cons, hc] using h2⟩

theorem gatherGroups_spec {g : Gather D J} {acc : List (Group D J)} {z : ZSet D} {grs : List (Group D J)}
    (hpos : ∀ p ∈ z, 0 < p.2) (hnd : (acc.map Group.key).Nodup)
    (h : gatherGroups g acc z = .ok grs) :
    (grs.map Group.key).Nodup ∧ ∀ k, groupAfter g k (findG acc k) z (findG grs k) := by
  induction z generalizing acc with
  | nil =>
    simp only [gatherGroups, Except.ok.injEq] at h; subst h
    refine ⟨hnd, fun k => ?_⟩
    unfold groupAfter
    cases findG acc k <;> simp
  | cons p t ih =>
    obtain ⟨x, m⟩ := p
    have hpos' : ∀ p ∈ t, 0 < p.2 := fun p hp => hpos p (List.mem_cons_of_mem _ hp)
    have hm : 0 < m := hpos (x, m) (by simp)
    unfold gatherGroups at h
    split at h
    · exact absurd h (by simp)
    · rename_i hk
      obtain ⟨h1, h2⟩ := ih hpos' hnd h
      refine ⟨h1, fun k => groupAfter_skip ?_ ?_ (h2 k)⟩
      · rintro ⟨hk', _⟩; simp [hk] at hk'
      · simp [contrib, hk]
    · rename_i kx hk
      split at h
      · exact absurd h (by simp)
      · rename_i hv
        obtain ⟨h1, h2⟩ := ih hpos' hnd h
        refine ⟨h1, fun k => groupAfter_skip ?_ ?_ (h2 k)⟩
        · rintro ⟨_, v, hv'⟩; simp [hv] at hv'
        · simp [contrib, hk, hv]
      · rename_i v hv
        obtain ⟨h1, h2⟩ := ih hpos' (nodup_updGroup hnd) h
        refine ⟨h1, fun k => ?_⟩
        have h2k := h2 k
        rw [findG_updGroup] at h2k
        by_cases hkk : kx = k
        · subst hkk
          simp only [if_true] at h2k
          have hc : contrib g kx (x, m) = List.replicate m.toNat v := by simp [contrib, hk, hv]
          cases ha : findG acc kx with
          | none =>
            rw [ha] at h2k
            simp only [groupAfter] at h2k ⊢
            refine Or.inr ⟨(x, m), by simp, ⟨hk, v, hv⟩, ?_⟩
            rw [h2k]
            simp [List.flatMap_cons, hc, applyMult_pos _ _ hm]
          | some a =>
            rw [ha] at h2k
            simp only [groupAfter] at h2k ⊢
            rw [h2k]
            simp [List.flatMap_cons, hc, applyMult_pos _ _ hm]
        · simp only [hkk, if_false] at h2k
          refine groupAfter_skip ?_ ?_ h2k
          · rintro ⟨hk', _⟩
            simp only [hk, Except.ok.injEq, Option.some.injEq] at hk'; exact hkk hk'
          · simp [contrib, hk, hv, hkk]

theorem count_foldl_erase (n : Nat) (v w : J) (vals : List J) :
    ((List.replicate n v).foldl removeFirstMatch vals).count w = if v = w then vals.count w - n else vals.count w := by
  induction n generalizing vals with
  | zero => simp
  | succ n ih =>
    rw [List.replicate_succ, List.foldl_cons, ih, removeFirstMatch]
    by_cases h : v = w
    · subst h; simp; omega
    · simp [h, List.count_erase]

theorem count_applyMult (vals : List J) (v w : J) (m : Int) :
    (applyMult vals v m).count w = if v = w then ((vals.count w : Int) + m).toNat else vals.count w := by
  unfold applyMult
  split
  · rename_i h
    rw [List.count_append, List.count_replicate]
    by_cases e : v = w
    · subst e; simp; omega
    · simp [e]
  · rename_i h
    rw [count_foldl_erase]
    by_cases e : v = w
    · subst e; simp; omega
    · simp [e]

/-- The grouping loop for arbitrary multiplicities: number of copies of each value in each group. -/
theorem gatherGroups_counts {g : Gather D J} {acc : List (Group D J)} {z : ZSet D} {grs : List (Group D J)}
    (hnd : (acc.map Group.key).Nodup) (h : gatherGroups g acc z = .ok grs) :
    (grs.map Group.key).Nodup ∧
    (∀ k, k ∈ grs.map Group.key ↔ k ∈ acc.map Group.key ∨ ∃ p ∈ z, InGroup g k p.1) ∧
    ∀ gr ∈ grs, ∀ v, (gr.vals.count v : Nat) =
      (changesOf g gr.key v z).foldl (fun (c : Nat) (m : Int) => ((c : Int) + m).toNat) (((findG acc gr.key).map (fun a => a.vals.count v)).getD 0) := by
  induction z generalizing acc with
  | nil =>
    simp only [gatherGroups, Except.ok.injEq] at h; subst h
    refine ⟨hnd, by simp, fun gr hgr v => ?_⟩
    rw [(findG_some_iff hnd gr).mpr hgr]; rfl
  | cons p t ih =>
    obtain ⟨x, m⟩ := p
    unfold gatherGroups at h
    split at h
    · exact absurd h (by simp)
    · rename_i hk
      obtain ⟨h1, h2, h3⟩ := ih hnd h
      refine ⟨h1, fun k => ?_, fun gr hgr v => ?_⟩
      · rw [h2]; simp [InGroup, hk]
      · rw [h3 gr hgr v]; simp [changesOf, hk]
    · rename_i kx hk
      split at h
      · exact absurd h (by simp)
      · rename_i hv
        obtain ⟨h1, h2, h3⟩ := ih hnd h
        refine ⟨h1, fun k => ?_, fun gr hgr v => ?_⟩
        · rw [h2]; simp [InGroup, hv]
        · rw [h3 gr hgr v]; simp [changesOf, hk, hv]
      · rename_i vx hv
        obtain ⟨h1, h2, h3⟩ := ih (nodup_updGroup hnd) h
        refine ⟨h1, fun k => ?_, fun gr hgr v => ?_⟩
        · rw [h2, keys_updGroup]; simp [InGroup, hk, hv]; grind
        · rw [h3 gr hgr v, findG_updGroup]
          by_cases e : kx = gr.key
          · rw [if_pos e]
            by_cases e' : vx = v
            · have hc : changesOf g gr.key v ((x, m) :: t) = m :: changesOf g gr.key v t := by simp [changesOf, hk, hv, e, e']
              rw [hc, List.foldl_cons, e]
              cases findG acc gr.key <;> simp [count_applyMult, e']
            · have hc : changesOf g gr.key v ((x, m) :: t) = changesOf g gr.key v t := by simp [changesOf, hk, hv, e']
              rw [hc, e]
              cases findG acc gr.key <;> simp [count_applyMult, e']
          · have hc : changesOf g gr.key v ((x, m) :: t) = changesOf g gr.key v t := by simp [changesOf, hk, hv, e]
            rw [hc, if_neg e]

theorem leftOver_sum {ms : List Int} (h : ∀ pre, pre <+: ms → 0 ≤ pre.sum) : (leftOver ms : Int) = ms.sum := by
  suffices gen : ∀ (ms : List Int) (c : Nat), (∀ pre, pre <+: ms → 0 ≤ (c : Int) + pre.sum) →
      ((ms.foldl (fun (c : Nat) (m : Int) => ((c : Int) + m).toNat) c : Nat) : Int) = c + ms.sum by
    have := gen ms 0 (by simpa using h)
    simpa [leftOver] using this
  intro ms
  induction ms with
  | nil => intro c _; simp
  | cons m t ih =>
    intro c hc
    have hm := hc [m] (by simp)
    simp at hm
    rw [List.foldl_cons, ih]
    · simp; omega
    · intro pre hp
      have := hc (m :: pre) (List.cons_prefix_cons.mpr ⟨rfl, hp⟩)
      simp at this; omega

theorem gatherAgg_spec {g : Gather D J} {acc m : ZSet D} {grs : List (Group D J)} (hw : WF acc)
    (h : gatherAgg g acc grs = .ok m) :
    ∃ outs : List D, grs.map (fun gr => g.agg gr.doc gr.key (g.sort gr.vals)) = outs.map Except.ok ∧
      ∀ d, get m d = get acc d + (outs.count d : Int) := by
  induction grs generalizing acc with
  | nil => simp only [gatherAgg, Except.ok.injEq] at h; subst h; exact ⟨[], rfl, by simp⟩
  | cons gr t ih =>
    unfold gatherAgg at h
    split at h
    · exact absurd h (by simp)
    · rename_i o ho
      obtain ⟨outs, h1, h2⟩ := ih (hw.addDoc _ _) h
      refine ⟨o :: outs, by simp [ho, h1], fun d => ?_⟩
      rw [h2, get_addDoc hw, List.count_cons]
      by_cases e : o = d <;> simp [e]; omega

theorem nonNeg_pos {z : ZSet D} (hz : WF z) (h : NonNeg z) : ∀ p ∈ z, 0 < p.2 := by
  rintro ⟨d, m⟩ hp
  have := (mem_iff_get hz d m).mp hp
  have := h d
  simp only; omega

theorem pos_nonNeg {z : ZSet D} (hz : WF z) (h : ∀ p ∈ z, 0 < p.2) : NonNeg z := by
  intro d
  by_cases h0 : get z d = 0
  · omega
  · have := h (d, get z d) ((mem_iff_get hz _ _).mpr ⟨rfl, h0⟩)
    simp at this; omega

theorem gatherSpec_of_proc {g : Gather D J} {z z' m : ZSet D} (hp : z'.Perm z) (hpos : ∀ p ∈ z, 0 < p.2)
    (h : gatherProc g z' = .ok m) : GatherSpec g z m := by
  refine ⟨gatherProc_wf h, ?_⟩
  unfold gatherProc at h
  split at h
  · exact absurd h (by simp)
  · rename_i grs hg
    have hpos' : ∀ p ∈ z', 0 < p.2 := fun p hm => hpos p (hp.mem_iff.mp hm)
    obtain ⟨h1, h2⟩ := gatherGroups_spec hpos' (by simp) hg
    obtain ⟨outs, h3, h4⟩ := gatherAgg_spec WF.nil h
    refine ⟨grs, outs, h1, fun k => ?_, fun gr hgr => ?_, h3, by simpa using h4⟩
    · have := h2 k
      simp only [findG, List.find?_nil, groupAfter] at this
      rw [findG_isSome_iff]
      constructor
      · rintro ⟨gr, h5, h6⟩
        rcases this with ⟨h7, _⟩ | ⟨p, hpz, hin, _⟩
        · rw [findG, h7] at h5; exact absurd h5 (by simp)
        · exact ⟨p, hp.mem_iff.mp hpz, hin⟩
      · rintro ⟨p, hpz, hin⟩
        rcases this with ⟨_, h7⟩ | ⟨q, _, _, h8⟩
        · exact absurd hin (h7 p (hp.mem_iff.mpr hpz))
        · exact ⟨_, h8, rfl⟩
    · have hf := (findG_some_iff h1 gr).mpr hgr
      have := h2 gr.key
      simp only [hf] at this
      simp only [findG, List.find?_nil, groupAfter] at this
      rcases this with ⟨h7, _⟩ | ⟨p, hpz, hin, h8⟩
      · exact absurd h7 (by simp)
      · simp only [Option.some.injEq] at h8
        rw [h8]
        exact ⟨hp.flatMap_right _, hin, (hp.map Prod.fst).mem_iff.mp (List.mem_map_of_mem hpz)⟩

/-! ### stages and pipelines -/

theorem sum_nonneg {l : List Int} (h : ∀ x ∈ l, 0 ≤ x) : 0 ≤ l.sum := by
  induction l with
  | nil => simp
  | cons a t ih =>
    have := h a (by simp)
    have := ih (fun x hx => h x (List.mem_cons_of_mem _ hx))
    simp only [List.sum_cons]; omega

theorem copies_nonneg {A : Type} (f : A → Except Err (List D)) (d : D) (x : A) : 0 ≤ copies f d x := by
  unfold copies; split <;> omega

theorem mapSpec_nonNeg {f : Ev D} {z m : ZSet D} (h : MapSpec f z m) (hpos : ∀ p ∈ z, 0 < p.2) : NonNeg m := by
  intro d
  rw [h.2.2 d]
  apply sum_nonneg
  intro x hx
  obtain ⟨p, hp, rfl⟩ := List.mem_map.mp hx
  exact Int.mul_nonneg (by have := hpos p hp; omega) (copies_nonneg _ _ _)

theorem gatherSpec_nonNeg {g : Gather D J} {z m : ZSet D} (h : GatherSpec g z m) : NonNeg m := by
  obtain ⟨_, _, _, _, _, _, _, h⟩ := h
  intro d; rw [h]; omega

theorem tuples_pos {zs : List (ZSet D)} (h : ∀ z ∈ zs, ∀ p ∈ z, 0 < p.2) : ∀ t ∈ tuples zs, 0 < t.2 := by
  induction zs with
  | nil => simp [tuples]
  | cons z zs ih =>
    intro t ht
    obtain ⟨p, hp, ht⟩ := List.mem_flatMap.mp ht
    obtain ⟨t', ht', rfl⟩ := List.mem_map.mp ht
    exact Int.mul_pos (h z (by simp) p hp) (ih (fun z hz => h z (List.mem_cons_of_mem _ hz)) t' ht')

theorem joinSpec_nonNeg {ev : JEv D} {ins : List (ZSet D)} {m : ZSet D} (h : JoinSpec ev ins m)
    (hpos : ∀ z ∈ ins, ∀ p ∈ z, 0 < p.2) : NonNeg m := by
  intro d
  rw [h.2.2 d]
  apply sum_nonneg
  intro x hx
  obtain ⟨p, hp, rfl⟩ := List.mem_map.mp hx
  exact Int.mul_nonneg (by have := tuples_pos hpos p hp; omega) (copies_nonneg _ _ _)

theorem StagesMean.spec {ss : List (PipeOp D J)} {z o : ZSet D} (h : StagesMean ss z o) (hz : WF z) (ho : WF o)
    (hpos : NonNeg z ∨ hasGather ss = false) : StagesSpec ss z o := by
  induction h with
  | nil he => exact .nil ho he
  | @cons s ss z z' m o hp hs _ ih =>
    have hg : hasGather (s :: ss) = false → hasGather ss = false := by
      intro hg; simp only [hasGather, List.any_cons, Bool.or_eq_false_iff] at hg ⊢; exact hg.2
    cases s with
    | join ev => simp [PipeOp.snap] at hs
    | select ev =>
      have h1 : MapSpec ev z m := mapSpec_perm hp (mapSpec_of_linProc hs)
      refine .cons h1 (ih h1.1 ho ?_)
      exact hpos.imp (fun h => mapSpec_nonNeg h1 (nonNeg_pos hz h)) hg
    | project ev =>
      have h1 : MapSpec ev z m := mapSpec_perm hp (mapSpec_of_linProc hs)
      refine .cons h1 (ih h1.1 ho ?_)
      exact hpos.imp (fun h => mapSpec_nonNeg h1 (nonNeg_pos hz h)) hg
    | unwind ex tr =>
      simp only [PipeOp.snap, unwindProc_eq, unwindDocs_eq] at hs
      have h1 : MapSpec (unwindDocs ex tr) z m := mapSpec_perm hp (mapSpec_of_linProc hs)
      refine .cons h1 (ih h1.1 ho ?_)
      exact hpos.imp (fun h => mapSpec_nonNeg h1 (nonNeg_pos hz h)) hg
    | gather g =>
      rcases hpos with hpos | hpos
      · have h1 := gatherSpec_of_proc hp (nonNeg_pos hz hpos) hs
        exact .cons h1 (ih h1.1 ho (Or.inl (gatherSpec_nonNeg h1)))
      · simp [hasGather] at hpos

theorem PipelineMeans.spec {cfg : List (PipeOp D J)} {ins : List (ZSet D)} {o : ZSet D}
    (h : PipelineMeans cfg ins o) (hw : ∀ z ∈ ins, WF z) (ho : WF o)
    (hpos : (∀ z ∈ ins, NonNeg z) ∨ hasGather cfg = false) : PipelineSpec cfg ins o := by
  unfold PipelineMeans at h
  unfold PipelineSpec
  split at h
  · rename_i ev rest
    obtain ⟨m, h1, h2⟩ := h
    have hj := joinSpec_of_cart h1
    refine ⟨m, hj, h2.spec hj.1 ho ?_⟩
    rcases hpos with hpos | hpos
    · exact Or.inl (joinSpec_nonNeg hj (fun z hz => nonNeg_pos (hw z hz) (hpos z hz)))
    · right; simpa [hasGather] using hpos
  · rename_i hne
    obtain ⟨z, rfl, h2⟩ := h
    split
    · exact absurd rfl (hne _ _)
    · exact ⟨z, rfl, h2.spec (hw z (by simp)) ho (hpos.imp (fun h => h z (by simp)) id)⟩

end Dctl
