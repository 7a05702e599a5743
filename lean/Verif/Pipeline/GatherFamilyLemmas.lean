import Verif.Pipeline.FamilyLemmas
/-!
# Lemmas: gathering labelled documents

When the key of a document is determined by its label, the groups are labelled with the keys.
-/
set_option autoImplicit false
set_option linter.unusedSectionVars false
namespace Dctl
variable {L M : Type}

open Classical in
/-- The values of a group are those of the documents whose labels belong to it. -/
theorem group_vals {env : Env} {keyE valE : Expr} {V : L → Prop} {R : L → CDoc → Prop} {kf : L → M} {keyOf : M → Json} {vf : L → Json}
    (hk : ∀ l x, V l → R l x → eval env keyE ⟨.map x.1, .null⟩ = .ok (keyOf (kf l))) (hv : ∀ l x, V l → R l x → eval env valE ⟨.map x.1, .null⟩ = .ok (vf l))
    (hvn : ∀ l, V l → vf l ≠ .null) {m : M} (hinj : ∀ l, V l → keyOf (kf l) = keyOf m → kf l = m) :
    ∀ (ps : List (L × CDoc)), (∀ p ∈ ps, V p.1 ∧ R p.1 p.2) →
      (ps.map Prod.snd).filterMap (rowVal env keyE valE (keyOf m)) = ((ps.map Prod.fst).filter (fun l => decide (kf l = m))).map vf
  | [], _ => rfl
  | p :: ps, h => by
    have ih := group_vals hk hv hvn hinj ps (fun q hq => h q (List.mem_cons_of_mem _ hq))
    obtain ⟨hv1, hr1⟩ := h p (by simp)
    have e1 := hk _ _ hv1 hr1
    have e2 := hv _ _ hv1 hr1
    simp only [List.map_cons, List.filterMap_cons, rowVal, e1, e2]
    by_cases hm : kf p.1 = m
    · rw [if_pos ⟨by rw [hm], hvn _ hv1⟩, List.filter_cons_of_pos (by simpa using hm), List.map_cons, ← ih]
    · rw [if_neg (fun h => hm (hinj _ hv1 h.1)), List.filter_cons_of_neg (by simpa using hm), ← ih]

/-- Gathered documents, labelled with what determines the key. -/
theorem family_gather {env : Env} {srt : List Json → List Json} {keyE : Expr} {path : List String} (hp : Words path) {V : L → Prop} {R : L → CDoc → Prop}
    (kf : L → M) (keyOf : M → Json) (vf : L → Json) {xs ys : List CDoc} (h : Family V R xs)
    (hs : StageRows env srt (.gather (.exprs "@list" [keyE, strE (pathString path)])) xs ys)
    (hk : ∀ l x, V l → R l x → eval env keyE ⟨.map x.1, .null⟩ = .ok (keyOf (kf l)))
    (hv : ∀ l x, V l → R l x → eval env (strE (pathString path)) ⟨.map x.1, .null⟩ = .ok (vf l))
    (hkn : ∀ l, V l → keyOf (kf l) ≠ .null) (hvn : ∀ l, V l → vf l ≠ .null)
    (hinj : ∀ l l', V l → V l' → keyOf (kf l) = keyOf (kf l') → kf l = kf l') :
    Family (fun m => ∃ l, V l ∧ kf l = m) (fun m c => ∃ l rep, V l ∧ kf l = m ∧ R l rep ∧ ∃ labels : List L, labels.Nodup ∧ (∀ l', l' ∈ labels ↔ V l' ∧ kf l' = m) ∧
      ∃ vals, vals.Perm (labels.map vf) ∧ SetAt path (.list (srt vals)) rep.1 c.1) ys := by
  classical
  obtain ⟨ps, rfl, h2, h3, h4⟩ := h
  have hps : ∀ p ∈ ps, V p.1 ∧ R p.1 p.2 := fun p hp => ⟨(h3 _).mp (List.mem_map.mpr ⟨p, hp, rfl⟩), h4 p hp⟩
  obtain ⟨keyE', path', e, hp', keys, k1, k2, k3, k4⟩ := hs
  simp only [Expr.exprs.injEq, List.cons.injEq, and_true, true_and] at e
  obtain ⟨rfl, e⟩ := e
  have : path = path' := pathString_inj hp hp' (by simpa [strE] using e)
  subst this
  -- the label of a group
  have hm : ∀ key : {k // k ∈ keys}, ∃ m, (∃ l, V l ∧ kf l = m) ∧ keyOf m = key.1 := by
    rintro ⟨key, hkey⟩
    obtain ⟨x, hx, ⟨y, _⟩, _⟩ := (k2 key).mp hkey
    obtain ⟨p, hp, rfl⟩ := List.mem_map.mp hx
    obtain ⟨v, r⟩ := hps p hp
    rw [hk _ _ v r] at y
    exact ⟨kf p.1, ⟨p.1, v, rfl⟩, by simpa using y⟩
  let ms := keys.attach.map (fun k => Classical.choose (hm k))
  have hlen : ms.length = ys.length := by simp [ms, k3]
  have hget : ∀ (i : Nat) m, ms[i]? = some m → ∃ key, keys[i]? = some key ∧ (∃ l, V l ∧ kf l = m) ∧ keyOf m = key := by
    intro i m hi
    simp only [ms, List.getElem?_map, Option.map_eq_some_iff] at hi
    obtain ⟨k, hk', rfl⟩ := hi
    refine ⟨k.1, ?_, Classical.choose_spec (hm k)⟩
    have := List.getElem?_eq_some_iff.mp hk'
    obtain ⟨hi, e⟩ := this
    rw [List.getElem_attach] at e
    exact List.getElem?_eq_some_iff.mpr ⟨by simpa using hi, by rw [← e]⟩
  refine ⟨ms.zip ys, List.map_snd_zip (by omega), ?_, fun m => ?_, fun p hp => ?_⟩
  · rw [List.map_fst_zip (by omega)]
    have hn' : (keys.attach.map (·.1)).Nodup := by rw [List.attach_map_subtype_val]; exact k1
    refine List.pairwise_map.mpr ((List.pairwise_map.mp hn').imp (fun {a b} hab e => hab ?_))
    rw [← (Classical.choose_spec (hm a)).2, ← (Classical.choose_spec (hm b)).2, e]
  · rw [List.map_fst_zip (by omega)]
    constructor
    · intro hmem
      obtain ⟨i, hi⟩ := List.mem_iff_getElem?.mp hmem
      obtain ⟨_, _, h, _⟩ := hget i m hi
      exact h
    · rintro ⟨l, hl, rfl⟩
      obtain ⟨p, hp, rfl⟩ := List.mem_map.mp ((h3 l).mpr hl)
      obtain ⟨v, r⟩ := hps p hp
      have hkey : keyOf (kf p.1) ∈ keys := (k2 _).mpr ⟨p.2, List.mem_map.mpr ⟨p, hp, rfl⟩, ⟨hk _ _ v r, hkn _ v⟩, vf p.1, hv _ _ v r, hvn _ v⟩
      refine List.mem_map.mpr ⟨⟨_, hkey⟩, List.mem_attach _ _, ?_⟩
      obtain ⟨⟨l', v', e'⟩, e⟩ := Classical.choose_spec (hm ⟨_, hkey⟩)
      rw [← e'] at e ⊢
      exact hinj _ _ v' v e
  · obtain ⟨i, hi⟩ := List.mem_iff_getElem?.mp hp
    rw [List.getElem?_zip_eq_some] at hi
    obtain ⟨i1, i2⟩ := hi
    obtain ⟨key, e1, ⟨l, hl, e2⟩, rfl⟩ := hget i _ i1
    obtain ⟨rep, hrep, ⟨y1, _⟩, vals, hvals, hset⟩ := k4 i _ _ e1 i2
    obtain ⟨q, hq, rfl⟩ := List.mem_map.mp hrep
    obtain ⟨v, r⟩ := hps q hq
    have hq1 : kf q.1 = p.1 := by
      have := y1.1
      rw [hk _ _ v r] at this
      rw [← e2] at this ⊢
      exact hinj _ _ v hl (by simpa using this)
    rw [group_vals hk hv hvn (m := p.1) (fun l' v' e => by rw [← hq1] at e ⊢; exact hinj _ _ v' v e) ps hps] at hvals
    refine ⟨q.1, q.2, v, hq1, r, _, h2.filter _, fun l' => ?_, vals, hvals, hset⟩
    rw [List.mem_filter, decide_eq_true_iff, h3]

end Dctl
