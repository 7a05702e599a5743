import Verif.Spec.Writes
import Verif.Dbsp.ZSetLemmas
import Verif.Pipeline.Eval
/-! Helper lemmas about the target side of the adaptor. -/
set_option autoImplicit false
set_option linter.unusedSectionVars false
namespace Dctl
variable {D J : Type} [DecidableEq D] [DecidableEq J]
open ZSet

/-- The objects of the deltas of type `t` for key `k`, in order. -/
def objsOf (O : ObjOps D) (t : DeltaType) (k : ObjKey) (ds : List (Delta D)) : List D :=
  (ds.filter (fun δ => δ.type = t ∧ O.key δ.obj = k)).map Delta.obj

theorem objsOf_cons (O : ObjOps D) (t : DeltaType) (k : ObjKey) (δ : Delta D) (ds : List (Delta D)) :
    objsOf O t k (δ :: ds) = if δ.type = t ∧ O.key δ.obj = k then δ.obj :: objsOf O t k ds else objsOf O t k ds := by
  by_cases h : δ.type = t ∧ O.key δ.obj = k <;> simp [objsOf, h]

theorem mem_objsOf {O : ObjOps D} {t : DeltaType} {k : ObjKey} {ds : List (Delta D)} {x : D} :
    x ∈ objsOf O t k ds ↔ ⟨t, x⟩ ∈ ds ∧ O.key x = k := by
  simp only [objsOf, List.mem_map, List.mem_filter, decide_eq_true_eq]
  constructor
  · rintro ⟨⟨t', x'⟩, ⟨h1, rfl, rfl⟩, rfl⟩; exact ⟨h1, rfl⟩
  · rintro ⟨h1, h2⟩; exact ⟨⟨t, x⟩, ⟨h1, rfl, h2⟩, rfl⟩

theorem groupDeltas_spec {O : ObjOps D} {tgt : Store D} {ds : List (Delta D)} {gs gs' : AMap ObjKey (KeyOps D)}
    (hw : AMap.WF gs) (h : groupDeltas O tgt gs ds = .ok gs') :
    AMap.WF gs' ∧ (∀ δ ∈ ds, δ.type = .added ∨ δ.type = .deleted) ∧
    ∀ k, (k ∈ ds.map (fun δ => O.key δ.obj) →
        gs'.get k = some { adds := (groupOf tgt gs k).adds ++ objsOf O .added k ds,
                           dels := (groupOf tgt gs k).dels ++ objsOf O .deleted k ds,
                           existed := (groupOf tgt gs k).existed }) ∧
      (k ∉ ds.map (fun δ => O.key δ.obj) → gs'.get k = gs.get k) := by
  induction ds generalizing gs with
  | nil =>
    simp only [groupDeltas, Except.ok.injEq] at h
    subst h
    exact ⟨hw, by simp, fun k => ⟨by simp, fun _ => rfl⟩⟩
  | cons δ ds ih =>
    unfold groupDeltas at h
    split at h
    · simp at h
    · rename_i ops hops
      obtain ⟨h1, h2, h3⟩ := ih (hw.set _ _) h
      have ht : δ.type = .added ∨ δ.type = .deleted := by
        unfold KeyOps.push at hops
        split at hops <;> simp_all
      refine ⟨h1, ?_, ?_⟩
      · intro x hx
        rcases List.mem_cons.mp hx with rfl | hx
        · exact ht
        · exact h2 x hx
      · intro k
        have hgo : groupOf tgt (gs.set (O.key δ.obj) ops) k = if O.key δ.obj = k then ops else groupOf tgt gs k := by
          unfold groupOf
          rw [AMap.get_set]
          by_cases hk : O.key δ.obj = k <;> simp [hk]
        obtain ⟨h4, h5⟩ := h3 k
        rw [hgo] at h4
        rw [AMap.get_set] at h5
        by_cases hk : O.key δ.obj = k
        · simp only [hk, if_true] at h4 h5
          refine ⟨fun _ => ?_, fun hn => absurd hk.symm (by simp at hn; exact fun e => hn.1 e)⟩
          have hops' : (groupOf tgt gs k).push δ = .ok ops := by rw [← hk]; exact hops
          have e1 : objsOf O .added k (δ :: ds) = if δ.type = .added then δ.obj :: objsOf O .added k ds else objsOf O .added k ds := by
            rw [objsOf_cons]; simp [hk]
          have e2 : objsOf O .deleted k (δ :: ds) = if δ.type = .deleted then δ.obj :: objsOf O .deleted k ds else objsOf O .deleted k ds := by
            rw [objsOf_cons]; simp [hk]
          have hgs : gs'.get k = some { adds := ops.adds ++ objsOf O .added k ds, dels := ops.dels ++ objsOf O .deleted k ds, existed := ops.existed } := by
            by_cases hm : k ∈ ds.map (fun δ => O.key δ.obj)
            · exact h4 hm
            · rw [h5 hm]
              have e3 : objsOf O .added k ds = [] := by
                rw [List.eq_nil_iff_forall_not_mem]; intro x hx
                obtain ⟨hx1, hx2⟩ := mem_objsOf.mp hx
                exact hm (List.mem_map.mpr ⟨_, hx1, hx2⟩)
              have e4 : objsOf O .deleted k ds = [] := by
                rw [List.eq_nil_iff_forall_not_mem]; intro x hx
                obtain ⟨hx1, hx2⟩ := mem_objsOf.mp hx
                exact hm (List.mem_map.mpr ⟨_, hx1, hx2⟩)
              simp [e3, e4]
          rw [hgs, e1, e2]
          rcases ht with ht | ht
          · simp only [KeyOps.push, ht, Except.ok.injEq] at hops'
            subst hops'; simp [ht]
          · simp only [KeyOps.push, ht, Except.ok.injEq] at hops'
            subst hops'; simp [ht]
        · simp only [hk, if_false] at h4 h5
          have e1 : ∀ t, objsOf O t k (δ :: ds) = objsOf O t k ds := by
            intro t; rw [objsOf_cons]; simp [hk]
          rw [e1, e1]
          refine ⟨fun hm => h4 ?_, fun hm => h5 ?_⟩
          · rcases List.mem_cons.mp hm with e | hm
            · exact absurd e.symm hk
            · exact hm
          · intro hm'; exact hm (List.mem_cons_of_mem _ hm')

theorem groupDeltas_ok {O : ObjOps D} {tgt : Store D} {ds : List (Delta D)} (gs : AMap ObjKey (KeyOps D))
    (h : ∀ δ ∈ ds, δ.type = .added ∨ δ.type = .deleted) : ∃ gs', groupDeltas O tgt gs ds = .ok gs' := by
  induction ds generalizing gs with
  | nil => exact ⟨gs, rfl⟩
  | cons δ ds ih =>
    unfold groupDeltas
    rcases h δ (by simp) with ht | ht <;> simp only [KeyOps.push, ht] <;>
      exact ih _ (fun x hx => h x (List.mem_cons_of_mem _ hx))

/-- The write recorded for one key. -/
def writeOf (ops : KeyOps D) : Option (Delta D) :=
  match ops.adds.getLast?, ops.dels.head? with
  | some a, none => some ⟨.upserted, a⟩
  | none, some d => if ops.existed then some ⟨.deleted, d⟩ else none
  | some a, some _ => if ops.existed then some ⟨.upserted, a⟩ else none
  | none, none => none

/-- The effect of a write on a store. -/
def Store.write (O : ObjOps D) (tgt : Store D) (w : Delta D) : Store D :=
  if w.type = .deleted then tgt.erase (O.key w.obj) else tgt.set (O.key w.obj) w.obj

theorem actOn_eq (O : ObjOps D) (tgt : Store D) (ops : KeyOps D) :
    actOn O tgt ops = (match writeOf ops with | some w => Store.write O tgt w | none => tgt, writeOf ops) := by
  unfold actOn writeOf Store.write
  rcases ops.adds.getLast? with _ | a <;> rcases ops.dels.head? with _ | d <;> cases ops.existed <;> simp

theorem actAll_eq (O : ObjOps D) (tgt : Store D) (gl : List (ObjKey × KeyOps D)) :
    actAll O tgt gl = ((gl.filterMap (fun p => writeOf p.2)).foldl (Store.write O) tgt, gl.filterMap (fun p => writeOf p.2)) := by
  induction gl generalizing tgt with
  | nil => rfl
  | cons p gl ih =>
    obtain ⟨k, ops⟩ := p
    simp only [actAll, actOn_eq, ih]
    cases h : writeOf ops <;> simp [List.filterMap_cons, h]

theorem Store.write_wf {O : ObjOps D} {tgt : Store D} (h : AMap.WF tgt) (w : Delta D) : AMap.WF (Store.write O tgt w) := by
  unfold Store.write; split
  · exact h.erase _
  · exact h.set _ _

theorem Store.write_get {O : ObjOps D} {tgt : Store D} (h : AMap.WF tgt) (w : Delta D) :
    (fun k => (Store.write O tgt w).get k) = Target.write O (fun k => tgt.get k) w := by
  funext k
  unfold Store.write Target.write
  by_cases hd : w.type = .deleted
  · simp only [hd, if_true]; rw [AMap.get_erase h]
  · simp only [hd, if_false]; rw [AMap.get_set]

theorem Store.writes_wf {O : ObjOps D} {tgt : Store D} (h : AMap.WF tgt) (ws : List (Delta D)) :
    AMap.WF (ws.foldl (Store.write O) tgt) := by
  induction ws generalizing tgt with
  | nil => exact h
  | cons w ws ih => exact ih (Store.write_wf h w)

theorem Store.writes_get {O : ObjOps D} {tgt : Store D} (h : AMap.WF tgt) (ws : List (Delta D)) :
    (fun k => (ws.foldl (Store.write O) tgt).get k) = Target.writes O (fun k => tgt.get k) ws := by
  induction ws generalizing tgt with
  | nil => rfl
  | cons w ws ih =>
    simp only [List.foldl_cons, Target.writes]
    rw [ih (Store.write_wf h w), Store.write_get h]; rfl

/-- With distinct keys the effect of a list of writes can be read off key by key. -/
theorem Target.writes_get {O : ObjOps D} (T : Target D) {ws : List (Delta D)} (hn : (ws.map (fun w => O.key w.obj)).Nodup) (k : ObjKey) :
    (∀ w ∈ ws, O.key w.obj = k → Target.writes O T ws k = if w.type = .deleted then none else some w.obj) ∧
    ((∀ w ∈ ws, O.key w.obj ≠ k) → Target.writes O T ws k = T k) := by
  induction ws generalizing T with
  | nil => exact ⟨by simp, fun _ => rfl⟩
  | cons w ws ih =>
    simp only [List.map_cons, List.nodup_cons] at hn
    obtain ⟨h1, h2⟩ := ih (Target.write O T w) hn.2
    simp only [Target.writes, List.foldl_cons] at h1 h2 ⊢
    refine ⟨?_, ?_⟩
    · intro x hx hk
      rcases List.mem_cons.mp hx with rfl | hx
      · rw [h2 (by
          intro y hy e
          exact hn.1 (List.mem_map.mpr ⟨y, hy, by rw [e, hk]⟩))]
        simp [Target.write, hk]
      · exact h1 x hx hk
    · intro h
      rw [h2 (fun y hy => h y (List.mem_cons_of_mem _ hy))]
      simp [Target.write, h w (by simp)]

theorem Target.writes_perm {O : ObjOps D} (T : Target D) {ws ws' : List (Delta D)} (hp : ws.Perm ws')
    (hn : (ws.map (fun w => O.key w.obj)).Nodup) : Target.writes O T ws = Target.writes O T ws' := by
  funext k
  have hn' : (ws'.map (fun w => O.key w.obj)).Nodup := (hp.map _).nodup_iff.mp hn
  by_cases h : ∃ w ∈ ws, O.key w.obj = k
  · obtain ⟨w, hw, hk⟩ := h
    rw [(Target.writes_get T hn k).1 w hw hk, (Target.writes_get T hn' k).1 w (hp.subset hw) hk]
  · have h1 : ∀ w ∈ ws, O.key w.obj ≠ k := fun w hw e => h ⟨w, hw, e⟩
    rw [(Target.writes_get T hn k).2 h1, (Target.writes_get T hn' k).2 (fun w hw => h1 w (hp.symm.subset hw))]

theorem writeOf_type {ops : KeyOps D} {w : Delta D} (h : writeOf ops = some w) : w.type = .deleted ∨ w.type = .upserted := by
  unfold writeOf at h
  split at h
  · simp at h; subst h; exact Or.inr rfl
  · split at h
    · simp at h; subst h; exact Or.inl rfl
    · simp at h
  · split at h
    · simp at h; subst h; exact Or.inr rfl
    · simp at h
  · simp at h

theorem filter_split_perm {α : Type} (p q : α → Bool) (l l1 l2 : List α) (h1 : l1.Perm l) (h2 : l2.Perm l)
    (hx : ∀ x ∈ l, q x = !p x) : (l1.filter p ++ l2.filter q).Perm l := by
  refine ((h1.filter p).append (h2.filter q)).trans ?_
  have e : l.filter q = l.filter (fun x => !p x) := List.filter_congr hx
  rw [e]
  exact List.filter_append_perm p l

/-- Everything about one call of `Reconcile`. -/
theorem reconcile_spec {O : ObjOps D} {ρ : RecOrder D} (hρ : ρ.Valid) {tgt tgt' : Store D} {ds ws : List (Delta D)}
    (h : reconcile O ρ tgt ds = .ok (tgt', ws)) :
    (ws.map (fun w => O.key w.obj)).Nodup ∧
    (∃ dels ups, ws = dels ++ ups ∧ (∀ w ∈ dels, w.type = .deleted) ∧ ∀ w ∈ ups, w.type = .upserted) ∧
    (∀ δ ∈ ds, δ.type = .added ∨ δ.type = .deleted) ∧
    (AMap.WF tgt → AMap.WF tgt' ∧ (fun k => tgt'.get k) = Target.writes O (fun k => tgt.get k) ws) ∧
    ∀ w, w ∈ ws ↔ writeOf (D := D) { adds := objsOf O .added (O.key w.obj) ds, dels := objsOf O .deleted (O.key w.obj) ds, existed := (tgt.get (O.key w.obj)).isSome } = some w := by
  unfold reconcile at h
  split at h
  · simp at h
  · rename_i gs hgs
    obtain ⟨g1, g2, g3⟩ := groupDeltas_spec (by simp [AMap.WF]) hgs
    simp only [actAll_eq, Except.ok.injEq, Prod.mk.injEq] at h
    obtain ⟨ht, hw⟩ := h
    -- the groups
    have hgk : ∀ k ops, (k, ops) ∈ gs → ops = { adds := objsOf O .added k ds, dels := objsOf O .deleted k ds, existed := (tgt.get k).isSome } := by
      intro k ops hm
      have hget := AMap.get_of_mem g1 hm
      by_cases hk : k ∈ ds.map (fun δ => O.key δ.obj)
      · rw [(g3 k).1 hk] at hget
        simp only [Option.some.injEq] at hget
        rw [← hget]
        simp [groupOf, AMap.get]
      · rw [(g3 k).2 hk] at hget; simp [AMap.get] at hget
    have hwk : ∀ k w, writeOf (D := D) { adds := objsOf O .added k ds, dels := objsOf O .deleted k ds, existed := (tgt.get k).isSome } = some w → O.key w.obj = k := by
      intro k w h
      unfold writeOf at h
      split at h
      · rename_i a ha _
        simp at h; subst h
        exact (mem_objsOf.mp (List.mem_of_getLast? ha)).2
      · rename_i d _ hd
        split at h
        · simp at h; subst h
          exact (mem_objsOf.mp (List.mem_of_head? hd)).2
        · simp at h
      · rename_i a d ha hd
        split at h
        · simp at h; subst h
          exact (mem_objsOf.mp (List.mem_of_getLast? ha)).2
        · simp at h
      · simp at h
    generalize hgl : ρ.groups gs = gl at ht hw
    have hperm : gl.Perm gs := hgl ▸ hρ.groups gs
    generalize hraw : gl.filterMap (fun p => writeOf p.2) = raw at ht hw
    have hkeys : (raw.map (fun w => O.key w.obj)).Sublist (gl.map Prod.fst) := by
      rw [← hraw]
      clear hraw hgl
      induction gl generalizing gs with
      | nil => simp
      | cons p gl ih =>
        clear ih
        have : ∀ gl' : List (ObjKey × KeyOps D), (∀ q ∈ gl', q ∈ gs) →
            ((gl'.filterMap (fun p => writeOf p.2)).map (fun w => O.key w.obj)).Sublist (gl'.map Prod.fst) := by
          intro gl'
          induction gl' with
          | nil => simp
          | cons q gl' ih2 =>
            intro hall
            obtain ⟨k, ops⟩ := q
            have hq := hgk k ops (hall _ (by simp))
            have := ih2 (fun q hq => hall q (List.mem_cons_of_mem _ hq))
            simp only [List.filterMap_cons, List.map_cons]
            cases hwo : writeOf ops with
            | none => simp only; exact this.cons _
            | some w =>
              simp only [List.map_cons]
              rw [hwk k w (by rw [← hq]; exact hwo)]
              exact this.cons_cons _
        exact this _ (fun q hq => hperm.subset hq)
    have hnd : (raw.map (fun w => O.key w.obj)).Nodup :=
      List.Nodup.sublist hkeys ((hperm.map Prod.fst).nodup_iff.mpr g1)
    have htype : ∀ w ∈ raw, w.type = .deleted ∨ w.type = .upserted := by
      intro w hw'
      rw [← hraw] at hw'
      obtain ⟨p, _, hp⟩ := List.mem_filterMap.mp hw'
      exact writeOf_type hp
    have hpw : ws.Perm raw := by
      rw [← hw]
      refine filter_split_perm _ _ _ _ _ (hρ.deletes raw) (hρ.upserts raw) ?_
      intro x hx
      rcases htype x hx with e | e <;> simp [e]
    refine ⟨(hpw.map _).nodup_iff.mpr hnd, ⟨_, _, hw.symm, ?_, ?_⟩, g2, ?_, ?_⟩
    · intro w hw'; have := (List.mem_filter.mp hw').2; simpa using this
    · intro w hw'; have := (List.mem_filter.mp hw').2; simpa using this
    · intro hwf
      rw [← ht]
      refine ⟨Store.writes_wf hwf _, ?_⟩
      rw [Store.writes_get hwf]
      exact (Target.writes_perm _ hpw ((hpw.map _).nodup_iff.mpr hnd)).symm
    · intro w
      rw [hpw.mem_iff, ← hraw, List.mem_filterMap]
      constructor
      · rintro ⟨⟨k, ops⟩, hm, hwo⟩
        have := hgk k ops (hperm.subset hm)
        subst this
        have hk := hwk k w hwo
        subst hk; exact hwo
      · intro hwo
        have hk : O.key w.obj ∈ ds.map (fun δ => O.key δ.obj) := by
          apply Classical.byContradiction
          intro hn
          have e : ∀ t, objsOf O t (O.key w.obj) ds = [] := by
            intro t
            rw [List.eq_nil_iff_forall_not_mem]; intro x hx
            obtain ⟨hx1, hx2⟩ := mem_objsOf.mp hx
            exact hn (List.mem_map.mpr ⟨_, hx1, hx2⟩)
          simp [writeOf, e] at hwo
        have := (g3 _).1 hk
        simp only [groupOf, AMap.get, List.nil_append] at this
        exact ⟨_, hperm.symm.subset (AMap.mem_of_get this), hwo⟩

theorem reconcile_ok {O : ObjOps D} {ρ : RecOrder D} {tgt : Store D} {ds : List (Delta D)}
    (h : ∀ δ ∈ ds, δ.type = .added ∨ δ.type = .deleted) : ∃ r, reconcile O ρ tgt ds = .ok r := by
  obtain ⟨gs, hgs⟩ := groupDeltas_ok (O := O) (tgt := tgt) [] h
  unfold reconcile
  rw [hgs]
  exact ⟨_, rfl⟩

theorem convertZSet_spec {O : ObjOps D} {t : GVK} {z : ZSet D} {ds : List (Delta D)} (h : convertZSet O t z = .ok ds) :
    (∀ p ∈ z, p.2 ≠ 0 → ∃ o, O.enforce t p.1 = .ok o) ∧
    (∀ δ, δ ∈ ds ↔ ∃ p ∈ z, O.enforce t p.1 = .ok δ.obj ∧ p.2 ≠ 0 ∧ δ.type = if 0 < p.2 then .added else .deleted) := by
  induction z generalizing ds with
  | nil => simp only [convertZSet, Except.ok.injEq] at h; subst h; simp
  | cons p z ih =>
    obtain ⟨d, m⟩ := p
    unfold convertZSet at h
    split at h
    · rename_i hm
      obtain ⟨h1, h2⟩ := ih h
      subst hm
      refine ⟨?_, ?_⟩
      · intro p hp hne
        rcases List.mem_cons.mp hp with rfl | hp
        · simp at hne
        · exact h1 p hp hne
      · intro δ
        rw [h2]
        constructor
        · rintro ⟨p, hp, h⟩; exact ⟨p, List.mem_cons_of_mem _ hp, h⟩
        · rintro ⟨p, hp, h⟩
          rcases List.mem_cons.mp hp with rfl | hp
          · exact absurd rfl h.2.1
          · exact ⟨p, hp, h⟩
    · rename_i hm
      split at h
      · simp at h
      · rename_i o ho
        split at h
        · simp at h
        · rename_i ds' hds
          simp only [Except.ok.injEq] at h
          obtain ⟨h1, h2⟩ := ih hds
          refine ⟨?_, ?_⟩
          · intro p hp hne
            rcases List.mem_cons.mp hp with rfl | hp
            · exact ⟨o, ho⟩
            · exact h1 p hp hne
          · intro δ
            rw [← h, List.mem_cons, h2]
            constructor
            · rintro (rfl | ⟨p, hp, h⟩)
              · exact ⟨_, List.mem_cons_self .., ho, hm, rfl⟩
              · exact ⟨p, List.mem_cons_of_mem _ hp, h⟩
            · rintro ⟨p, hp, h3, h4, h5⟩
              rcases List.mem_cons.mp hp with rfl | hp
              · left
                simp only at h3 h5
                rw [ho] at h3
                simp only [Except.ok.injEq] at h3
                obtain ⟨ty, ob⟩ := δ
                simp only at h3 h5
                rw [h3, h5]
              · exact Or.inr ⟨p, hp, h3, h4, h5⟩

theorem convertZSet_type {O : ObjOps D} {t : GVK} {z : ZSet D} {ds : List (Delta D)} (h : convertZSet O t z = .ok ds) :
    ∀ δ ∈ ds, δ.type = .added ∨ δ.type = .deleted := by
  intro δ hδ
  obtain ⟨p, _, _, _, h4⟩ := ((convertZSet_spec h).2 δ).mp hδ
  rw [h4]; split
  · exact Or.inl rfl
  · exact Or.inr rfl

theorem head?_isSome_of_mem {α : Type} {l : List α} {x : α} (h : x ∈ l) : ∃ y, l.head? = some y := by
  cases l with
  | nil => simp at h
  | cons a t => exact ⟨a, rfl⟩

theorem getLast?_unique {α : Type} {l : List α} {x : α} (h : x ∈ l) (hu : ∀ y ∈ l, y = x) : l.getLast? = some x := by
  cases hl : l.getLast? with
  | none => rw [List.getLast?_eq_none_iff] at hl; subst hl; simp at h
  | some y => rw [hu y (List.mem_of_getLast? hl)]

/-- The target has an object for exactly the keys of the documents of `o`. -/
def HoldsKeys (O : ObjOps D) (t : GVK) (o : ZSet D) (T : Target D) : Prop :=
  ∀ k, (∃ obj, T k = some obj) ↔ ∃ d x, 0 < get o d ∧ O.enforce t d = .ok x ∧ O.key x = k

/-- What the writes of one reconciliation step do to any target `T`, when the record has the keys of `o`. -/
theorem reconcile_effect {O : ObjOps D} {t : GVK} {ρ : RecOrder D} (hρ : ρ.Valid) {tgt tgt' : Store D} {ws ds : List (Delta D)}
    {o o' z zl : ZSet D} (hwf : AMap.WF tgt) (hz : WF z) (hzl : zl.Perm z) (ho : ∀ d, get o' d = get o d + get z d)
    (h1 : OnePerName O t o) (h2 : OnePerName O t o') (hH : HoldsKeys O t o (fun k => tgt.get k)) (hE : AllEnforced O t o)
    (hc : convertZSet O t zl = .ok ds) (hr : reconcile O ρ tgt ds = .ok (tgt', ws)) :
    AllEnforced O t o' ∧ ∀ (T : Target D) k,
      (∀ d x, 0 < get o' d → O.enforce t d = .ok x → O.key x = k →
        Target.writes O T ws k = if get o d = 0 then some x else T k) ∧
      ((∀ d x, 0 < get o' d → O.enforce t d = .ok x → O.key x ≠ k) → Target.writes O T ws k = if (tgt.get k).isSome then none else T k) := by
  obtain ⟨c1, c2⟩ := convertZSet_spec hc
  obtain ⟨r1, r2, r3, r4, r5⟩ := reconcile_spec hρ hr
  have hmem : ∀ d m, (d, m) ∈ zl ↔ get z d = m ∧ m ≠ 0 := by
    intro d m; rw [hzl.mem_iff, mem_iff_get hz]
  have hE' : AllEnforced O t o' := by
    intro d hd
    by_cases hz0 : get z d = 0
    · rw [ho, hz0] at hd; exact hE d (by omega)
    · exact c1 _ ((hmem d _).mpr ⟨rfl, hz0⟩) hz0
  refine ⟨hE', ?_⟩
  -- which documents are added / deleted
  have hadd : ∀ k x, x ∈ objsOf O .added k ds ↔ ∃ d, get o d = 0 ∧ get o' d = 1 ∧ O.enforce t d = .ok x ∧ O.key x = k := by
    intro k x
    rw [mem_objsOf, c2]
    constructor
    · rintro ⟨⟨⟨d, m⟩, hp, he, hne, hty⟩, hk⟩
      obtain ⟨hg, _⟩ := (hmem d m).mp hp
      have hpos : 0 < m := by
        simp only at hty
        by_cases h : 0 < m
        · exact h
        · rw [if_neg h] at hty; cases hty
      have b1 := h1.1 d; have b2 := h2.1 d; have b3 := ho d
      exact ⟨d, by omega, by omega, he, hk⟩
    · rintro ⟨d, g0, g1, he, hk⟩
      have b3 := ho d
      have : get z d = 1 := by omega
      exact ⟨⟨(d, 1), (hmem d 1).mpr ⟨this, by decide⟩, he, by simp, by simp⟩, hk⟩
  have hdel : ∀ k x, x ∈ objsOf O .deleted k ds ↔ ∃ d, get o d = 1 ∧ get o' d = 0 ∧ O.enforce t d = .ok x ∧ O.key x = k := by
    intro k x
    rw [mem_objsOf, c2]
    constructor
    · rintro ⟨⟨⟨d, m⟩, hp, he, hne, hty⟩, hk⟩
      obtain ⟨hg, hm0⟩ := (hmem d m).mp hp
      have hneg : ¬ 0 < m := by
        intro h; simp only at hty; rw [if_pos h] at hty; cases hty
      have b1 := h1.1 d; have b2 := h2.1 d; have b3 := ho d
      exact ⟨d, by omega, by omega, he, hk⟩
    · rintro ⟨d, g0, g1, he, hk⟩
      have b3 := ho d
      have : get z d = -1 := by omega
      exact ⟨⟨(d, -1), (hmem d (-1)).mpr ⟨this, by decide⟩, he, by simp, by simp⟩, hk⟩
  intro T k
  refine ⟨?_, ?_⟩
  · intro d x hd he hk
    have hd1 : get o' d = 1 := by have := h2.1 d; omega
    by_cases hold : get o d = 0
    · -- newly added
      rw [if_pos hold]
      have hmemA : x ∈ objsOf O .added k ds := (hadd k x).mpr ⟨d, hold, hd1, he, hk⟩
      have hlast : (objsOf O .added k ds).getLast? = some x := by
        refine getLast?_unique hmemA ?_
        intro y hy
        obtain ⟨d', _, g1, he', hk'⟩ := (hadd k y).mp hy
        have := h2.2 d d' x y hd (by omega) he he' (by rw [hk, hk'])
        subst this
        rw [he] at he'; simp only [Except.ok.injEq] at he'; exact he'.symm
      have hw : (⟨.upserted, x⟩ : Delta D) ∈ ws := by
        rw [r5]
        simp only [hk]
        unfold writeOf
        simp only [hlast]
        cases hh : (objsOf O .deleted k ds).head? with
        | none => rfl
        | some y =>
          obtain ⟨d', g0, g1, he', hk'⟩ := (hdel k y).mp (List.mem_of_head? hh)
          obtain ⟨obj, this⟩ := (hH k).mpr ⟨d', y, by omega, he', hk'⟩
          simp only at this
          simp [this]
      rw [(Target.writes_get _ r1 k).1 _ hw hk]; rfl
    · -- unchanged
      rw [if_neg hold]
      have ho1 : 0 < get o d := by have := h1.1 d; omega
      refine (Target.writes_get _ r1 k).2 ?_
      intro w hw hwk
      rw [r5, hwk] at hw
      have hA : objsOf O .added k ds = [] := by
        rw [List.eq_nil_iff_forall_not_mem]; intro y hy
        obtain ⟨d', g0, g1, he', hk'⟩ := (hadd k y).mp hy
        have := h2.2 d d' x y hd (by omega) he he' (by rw [hk, hk'])
        subst this; omega
      have hD : objsOf O .deleted k ds = [] := by
        rw [List.eq_nil_iff_forall_not_mem]; intro y hy
        obtain ⟨d', g0, g1, he', hk'⟩ := (hdel k y).mp hy
        have := h1.2 d d' x y ho1 (by omega) he he' (by rw [hk, hk'])
        subst this; omega
      simp [hA, hD, writeOf] at hw
  · intro hno
    have hA : objsOf O .added k ds = [] := by
      rw [List.eq_nil_iff_forall_not_mem]; intro y hy
      obtain ⟨d', g0, g1, he', hk'⟩ := (hadd k y).mp hy
      exact hno d' y (by omega) he' hk'
    cases hold : tgt.get k with
    | some y =>
      obtain ⟨d, x, hd, he, hk⟩ := (hH k).mp ⟨y, hold⟩
      have hy : x ∈ objsOf O .deleted k ds := by
        refine (hdel k x).mpr ⟨d, by have := h1.1 d; omega, ?_, he, hk⟩
        have b := h2.1 d
        by_cases hp : 0 < get o' d
        · exact absurd hk (hno d x hp he)
        · omega
      obtain ⟨y', hh⟩ := head?_isSome_of_mem hy
      have hk' : O.key y' = k := (mem_objsOf.mp (List.mem_of_head? hh)).2
      have hw : (⟨.deleted, y'⟩ : Delta D) ∈ ws := by
        rw [r5]
        simp only [hk']
        simp [writeOf, hA, hh, hold]
      rw [(Target.writes_get _ r1 k).1 _ hw hk']; rfl
    | none =>
      rw [(Target.writes_get _ r1 k).2 ?_]
      · rfl
      · intro w hw hwk
        rw [r5, hwk] at hw
        have hD : objsOf O .deleted k ds = [] := by
          rw [List.eq_nil_iff_forall_not_mem]; intro y hy
          obtain ⟨d', g0, g1, he', hk'⟩ := (hdel k y).mp hy
          obtain ⟨obj, this⟩ := (hH k).mpr ⟨d', y, by omega, he', hk'⟩
          simp only [hold] at this; cases this
        simp [hA, hD, writeOf] at hw

/-- One reconciliation step from a target with the keys of `o` to a target for `o + z`. -/
theorem reconcile_core {O : ObjOps D} {t : GVK} {ρ : RecOrder D} (hρ : ρ.Valid) {tgt tgt' : Store D} {ws ds : List (Delta D)}
    {o o' z zl : ZSet D} (hwf : AMap.WF tgt) (hz : WF z) (hzl : zl.Perm z) (ho : ∀ d, get o' d = get o d + get z d)
    (h1 : OnePerName O t o) (h2 : OnePerName O t o') (hH : HoldsKeys O t o (fun k => tgt.get k)) (hE : AllEnforced O t o)
    (hc : convertZSet O t zl = .ok ds) (hr : reconcile O ρ tgt ds = .ok (tgt', ws)) :
    AllEnforced O t o' ∧ ∀ k,
      (∀ d x, 0 < get o' d → O.enforce t d = .ok x → O.key x = k →
        tgt'.get k = if get o d = 0 then some x else tgt.get k) ∧
      ((∀ d x, 0 < get o' d → O.enforce t d = .ok x → O.key x ≠ k) → tgt'.get k = none) := by
  obtain ⟨a, b⟩ := reconcile_effect hρ hwf hz hzl ho h1 h2 hH hE hc hr
  obtain ⟨_, _, _, r4, _⟩ := reconcile_spec hρ hr
  obtain ⟨_, r4⟩ := r4 hwf
  refine ⟨a, fun k => ?_⟩
  have hTk : tgt'.get k = Target.writes O (fun k => tgt.get k) ws k := congrFun r4 k
  obtain ⟨b1, b2⟩ := b (fun k => tgt.get k) k
  rw [hTk]
  refine ⟨b1, fun h => ?_⟩
  rw [b2 h]
  cases hg : tgt.get k <;> simp

theorem Holds.keys {O : ObjOps D} {t : GVK} {o : ZSet D} {T : Target D} (h : Holds O t o T) : HoldsKeys O t o T := by
  intro k
  constructor
  · rintro ⟨obj, hobj⟩
    obtain ⟨d, a, b, c⟩ := (h k obj).mp hobj
    exact ⟨d, obj, a, b, c⟩
  · rintro ⟨d, x, a, b, c⟩
    exact ⟨x, (h k x).mpr ⟨d, a, b, c⟩⟩

/-- One reconciliation step takes a target holding `o` to a target holding `o + z`. -/
theorem reconcile_holds {O : ObjOps D} {t : GVK} {ρ : RecOrder D} (hρ : ρ.Valid) {tgt tgt' : Store D} {ws ds : List (Delta D)}
    {o o' z zl : ZSet D} (hwf : AMap.WF tgt) (hz : WF z) (hzl : zl.Perm z) (ho : ∀ d, get o' d = get o d + get z d)
    (h1 : OnePerName O t o) (h2 : OnePerName O t o') (hH : Holds O t o (fun k => tgt.get k)) (hE : AllEnforced O t o)
    (hc : convertZSet O t zl = .ok ds) (hr : reconcile O ρ tgt ds = .ok (tgt', ws)) :
    AllEnforced O t o' ∧ Holds O t o' (fun k => tgt'.get k) := by
  obtain ⟨hE', h⟩ := reconcile_core hρ hwf hz hzl ho h1 h2 hH.keys hE hc hr
  refine ⟨hE', ?_⟩
  intro k obj
  obtain ⟨ha, hb⟩ := h k
  by_cases hnew : ∃ d x, 0 < get o' d ∧ O.enforce t d = .ok x ∧ O.key x = k
  · obtain ⟨d, x, hd, he, hk⟩ := hnew
    have hx : tgt'.get k = some x := by
      rw [ha d x hd he hk]
      by_cases hold : get o d = 0
      · rw [if_pos hold]
      · rw [if_neg hold]
        exact (hH k x).mpr ⟨d, by have := h1.1 d; omega, he, hk⟩
    simp only [hx]
    constructor
    · intro e; simp only [Option.some.injEq] at e; subst e; exact ⟨d, hd, he, hk⟩
    · rintro ⟨d', hd', he', hk'⟩
      have := h2.2 d d' x obj hd hd' he he' (by rw [hk, hk'])
      subst this
      rw [he] at he'; simp only [Except.ok.injEq] at he'; rw [he']
  · have hno : ∀ d x, 0 < get o' d → O.enforce t d = .ok x → O.key x ≠ k := fun d x a b c => hnew ⟨d, x, a, b, c⟩
    simp only [hb hno]
    constructor
    · intro e; cases e
    · rintro ⟨d', hd', he', hk'⟩; exact absurd hk' (hno d' obj hd' he')

end Dctl
