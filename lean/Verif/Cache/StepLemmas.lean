import Verif.Cache.InvLemmas
/-!
# What single operations of the view cache do
-/
set_option autoImplicit false
set_option linter.unusedSectionVars false
namespace Dctl

theorem cacheKey_inj {a b : ObjKey} (ha : ObjKey.NoSlash a) (hb : ObjKey.NoSlash b) (h : cacheKey a = cacheKey b) : a = b := by
  obtain ⟨n, m⟩ := a
  obtain ⟨n', m'⟩ := b
  simp only [ObjKey.NoSlash] at ha hb
  simp only [cacheKey] at h
  have hsl : "/".toList = ['/'] := by decide
  have aux : ∀ x y z w : String, '/' ∉ x.toList → '/' ∉ z.toList → x ++ "/" ++ y = z ++ "/" ++ w → x = z ∧ y = w := by
    intro x y z w hx hz h
    have h1 := congrArg String.toList h
    simp only [String.toList_append, hsl, List.append_assoc, List.singleton_append] at h1
    have : ∀ (a c b d : List Char), '/' ∉ a → '/' ∉ c → a ++ '/' :: b = c ++ '/' :: d → a = c ∧ b = d := by
      intro a
      induction a with
      | nil =>
        intro c b d _ hc h
        cases c with
        | nil => exact ⟨rfl, by simpa using h⟩
        | cons y c => simp only [List.nil_append, List.cons_append, List.cons.injEq] at h; exact absurd (by simp [← h.1]) hc
      | cons x a ih =>
        intro c b d ha hc h
        cases c with
        | nil => simp only [List.nil_append, List.cons_append, List.cons.injEq] at h; exact absurd (by simp [h.1]) ha
        | cons y c =>
          simp only [List.cons_append, List.cons.injEq] at h
          simp only [List.mem_cons, not_or] at ha hc
          obtain ⟨e1, e2⟩ := ih c b d ha.2 hc.2 h.2
          exact ⟨by rw [h.1, e1], e2⟩
    obtain ⟨e1, e2⟩ := this _ _ _ _ hx hz h1
    exact ⟨String.toList_injective e1, String.toList_injective e2⟩
  have hno : ∀ x y z : String, '/' ∉ z.toList → x ++ "/" ++ y ≠ z := by
    intro x y z hz h
    rw [← h] at hz
    simp [String.toList_append] at hz
  split at h
  · next e =>
    split at h
    · next e' => rw [e, e', h]
    · exact absurd h.symm (hno _ _ _ ha.2)
  · split at h
    · exact absurd h (hno _ _ _ hb.2)
    · obtain ⟨e1, e2⟩ := aux _ _ _ _ ha.1 hb.1 h
      rw [e1, e2]

namespace VCache
variable {c : VCache}

theorem notify_stored {g : GVK} {e : CEv} {c' : VCache} (h : c.notify g e = some c') : c'.stored = c.stored := by
  simp only [notify] at h
  split at h
  · next c1 i h1 =>
    cases h
    have : ∀ (L : List Nat) (c : VCache), (L.foldl (fun c i => c.trigger e i) c).stored = c.stored := by
      intro L
      induction L with
      | nil => intro c; rfl
      | cons a L ih => intro c; rw [List.foldl_cons, ih]; rfl
    rw [this]
    exact (getShared_fields h1).1
  · cases h

theorem notify_some {g : GVK} (hv : isViewKind g = true) (e : CEv) : ∃ c', c.notify g e = some c' := by
  obtain ⟨c1, i, h, -⟩ := getShared_view (c := c) g hv
  simp only [notify, h]
  exact ⟨_, rfl⟩

/-- `Get` in a state satisfying the invariant. -/
theorem Inv.get (hi : c.Inv) (g : GVK) (k : ObjKey) : c.get g k = (c.stored g).get (cacheKey k) := by
  simp only [VCache.get]
  split
  · cases h : (c.stored g).get (cacheKey k) with
    | none => rfl
    | some o => rw [Option.map_some, (hi.stored_copy h).1]
  · next hv =>
    cases h : (c.stored g).get (cacheKey k) with
    | none => rfl
    | some o => exact absurd (hi.ent g _ (AMap.mem_of_get h)).2.2.2.2 hv

theorem Inv.get_key (hi : c.Inv) {g : GVK} {k : ObjKey} {o : Obj} (h : c.get g k = some o) : objGVK o = g ∧ cacheKey (objKey o) = cacheKey k ∧ Obj.Ok o ∧ copyObj o = o := by
  rw [hi.get] at h
  have := hi.ent g _ (AMap.mem_of_get h)
  exact ⟨this.2.2.2.1, this.1.symm, this.2.2.1, this.2.1.copy this.2.2.1⟩

theorem add_spec (hi : c.Inv) (hash : String → String) {o : Obj} (ho : Obj.Ok o) (g : GVK) (k : ObjKey) :
    (c.step hash (.add o)).get g k = if objGVK o = g ∧ cacheKey (objKey o) = cacheKey k ∧ isViewKind g = true then some (written hash o) else c.get g k := by
  have hi' := hi.step hash (op := .add o) ho
  rw [hi'.get, hi.get]
  simp only [VCache.step, VCache.add]
  by_cases hv : isViewKind (objGVK o) = true
  · rw [if_pos hv]
    obtain ⟨c', hc'⟩ := notify_some (c := { c with stored := upd c.stored (objGVK o) ((c.stored (objGVK o)).set (cacheKey (objKey (withUID hash (copyObj o)))) (withUID hash (copyObj o))) }) hv (.add (copyObj (withUID hash (copyObj o))))
    rw [hc', Option.getD_some, notify_stored hc']
    simp only [upd]
    by_cases e : g = objGVK o
    · subst e
      rw [if_pos rfl, AMap.get_set]
      rw [show objKey (withUID hash (copyObj o)) = objKey o from written_key ho]
      simp only [true_and, hv, and_true]
      rfl
    · rw [if_neg e, if_neg (fun h => e h.1.symm)]
  · rw [if_neg hv, Option.getD_none, if_neg]
    rintro ⟨rfl, -, h⟩; exact hv h

theorem update_spec (hi : c.Inv) (hash : String → String) {old o : Obj} (ho : Obj.Ok o) (hold : Obj.Ok old) (g : GVK) (k : ObjKey) :
    (c.step hash (.update old o)).get g k =
      if objGVK o = g ∧ cacheKey (objKey o) = cacheKey k ∧ isViewKind g = true ∧ old ≠ written hash o then some (written hash o) else c.get g k := by
  have hi' := hi.step hash (op := .update old o) ⟨hold, ho⟩
  rw [hi'.get, hi.get]
  simp only [VCache.step, VCache.update]
  rw [show withUID hash (copyObj o) = written hash o from rfl]
  by_cases hv : isViewKind (objGVK o) = true
  · rw [written_gvk ho hv, if_pos hv]
    by_cases hs : old = written hash o
    · rw [if_pos hs, Option.getD_some, if_neg (fun h => h.2.2.2 hs)]
    · rw [if_neg hs]
      obtain ⟨c', hc'⟩ := notify_some (c := { c with stored := upd c.stored (objGVK o) ((c.stored (objGVK o)).set (cacheKey (objKey (written hash o))) (written hash o)) }) hv (.update old (copyObj (written hash o)))
      rw [hc', Option.getD_some, notify_stored hc']
      simp only [upd]
      by_cases e : g = objGVK o
      · subst e
        rw [if_pos rfl, AMap.get_set, written_key ho]
        simp only [true_and, hv, ne_eq, hs, not_false_eq_true, and_true]
      · rw [if_neg e, if_neg (fun h => e h.1.symm)]
  · have hv' : ¬ isViewKind (objGVK (written hash o)) = true := fun h => hv (copyObj_not_view ho (written_gvk' ho ▸ h))
    rw [if_neg hv', Option.getD_none, if_neg]
    rintro ⟨rfl, -, h, -⟩; exact hv h

theorem delete_spec (hi : c.Inv) (hash : String → String) {o : Obj} (ho : Obj.Ok o) (g : GVK) (k : ObjKey) :
    (c.step hash (.delete o)).get g k = if objGVK o = g ∧ cacheKey (objKey o) = cacheKey k ∧ isViewKind g = true then none else c.get g k := by
  have hi' := hi.step hash (op := .delete o) ho
  rw [hi'.get, hi.get]
  simp only [VCache.step, VCache.delete]
  by_cases hv : isViewKind (objGVK o) = true
  · rw [if_pos hv]
    cases hg : (c.stored (objGVK o)).get (cacheKey (objKey o)) with
    | none =>
      simp only [Option.getD_none]
      split
      · next h => obtain ⟨rfl, h, -⟩ := h; rw [← h]; exact hg
      · rfl
    | some x =>
      simp only
      obtain ⟨-, hk⟩ := hi.stored_copy hg
      obtain ⟨c', hc'⟩ := notify_some (c := { c with stored := upd c.stored (objGVK o) ((c.stored (objGVK o)).erase (cacheKey (objKey x))) }) hv (.delete (copyObj x))
      rw [hc', Option.getD_some, notify_stored hc']
      simp only [upd]
      by_cases e : g = objGVK o
      · subst e
        rw [if_pos rfl, AMap.get_erase (hi.wf _), ← hk]
        simp only [true_and, hv, and_true]
      · rw [if_neg e, if_neg (fun h => e h.1.symm)]
  · rw [if_neg hv, Option.getD_none, if_neg]
    rintro ⟨rfl, -, h⟩; exact hv h

/-- The other operations do not touch the objects. -/
theorem other_stored (hash : String → String) (op : VOp) (h1 : ∀ o, op ≠ .add o) (h2 : ∀ a b, op ≠ .update a b) (h3 : ∀ o, op ≠ .delete o) :
    (c.step hash op).stored = c.stored := by
  cases op with
  | add o => exact absurd rfl (h1 o)
  | update a b => exact absurd rfl (h2 a b)
  | delete o => exact absurd rfl (h3 o)
  | getShared g =>
    rw [step]
    cases h : c.getShared g with
    | none => rfl
    | some p => exact (getShared_fields h).1
  | removeShared g => rfl
  | getLocal n g =>
    simp only [step, getLocal]
    split
    · split <;> rfl
    · rfl
  | removeLocal n g =>
    simp only [step, removeLocal]
    split <;> rfl
  | stop n => rfl
  | addHandler i order => rfl
  | removeHandler i h => rfl

theorem other_get (hash : String → String) (op : VOp) (h1 : ∀ o, op ≠ .add o) (h2 : ∀ a b, op ≠ .update a b) (h3 : ∀ o, op ≠ .delete o) (g : GVK) (k : ObjKey) :
    (c.step hash op).get g k = c.get g k := by
  simp only [VCache.get, other_stored hash op h1 h2 h3]

/-! ## Events -/

theorem notify_log (hi : c.Inv) {g : GVK} {e : CEv} {s : GVK → Indexer} {c' : VCache} (hx : ({ c with stored := s } : VCache).notify g e = some c')
    {i h : Nat} (hlt : i < c.next) (hl : h ∈ c.live i) :
    c'.log i h = if c.Registered g i then c.log i h ++ [e] else c.log i h := by
  have hv : isViewKind g = true := by
    simp only [notify, getShared] at hx
    by_cases hv : isViewKind g = true
    · exact hv
    · rw [if_neg hv] at hx; cases hx
  obtain ⟨c1, j, h1, hi1, h2⟩ := notify_eq hi hv s e
  rw [h2] at hx; cases hx
  have hf := getShared_fields h1
  have ho := getShared_old h1 hlt
  have hr : c1.Registered g i ↔ c.Registered g i := by
    simp only [Registered, hf.2.1, hf.2.2.2.1, upd, if_true]
    constructor
    · rintro (h | h)
      · rcases hs : c.shared g with _ | i0
        · exfalso
          simp only [VCache.getShared, hv, if_true, hs] at h1
          cases h1
          simp at h; omega
        · simp only [VCache.getShared, hv, if_true, hs] at h1
          cases h1
          exact Or.inl h
      · exact Or.inr h
    · rintro (h | h)
      · simp only [VCache.getShared, hv, if_true, h] at h1
        cases h1; exact Or.inl rfl
      · exact Or.inr h
  simp only [ho.1, ho.2.1, hr, hl, and_true]

/-- Every handler of a registered informer gets exactly the event of the operation, all other handlers get nothing. -/
theorem step_log (hi : c.Inv) (hash : String → String) {op : VOp} (ho : op.Ok) {i h : Nat} (hlt : i < c.next) (hl : h ∈ c.live i) :
    (c.step hash op).log i h = c.log i h ++ if c.Registered (c.kindOf i) i then op.events hash c (c.kindOf i) else [] := by
  have hreg : ∀ g, c.Registered g i → g = c.kindOf i := fun g hr => (hi.kind hr).symm
  cases op with
  | add o =>
    simp only [step, VCache.add, VOp.events]
    by_cases hv : isViewKind (objGVK o) = true
    · rw [if_pos hv]
      obtain ⟨c', hc'⟩ := notify_some (c := { c with stored := upd c.stored (objGVK o) ((c.stored (objGVK o)).set (cacheKey (objKey (withUID hash (copyObj o)))) (withUID hash (copyObj o))) }) hv (.add (copyObj (withUID hash (copyObj o))))
      rw [hc', Option.getD_some, notify_log hi hc' hlt hl, show copyObj (withUID hash (copyObj o)) = withUID hash (copyObj o) from written_copy ho hv]
      by_cases hr : c.Registered (objGVK o) i
      · have e := hreg _ hr
        rw [if_pos hr, ← e, if_pos hr, if_pos ⟨hv, rfl⟩]
      · rw [if_neg hr]
        split
        · next hr' =>
          rw [if_neg, List.append_nil]
          rintro ⟨-, e⟩; rw [e] at hr; exact hr hr'
        · rw [List.append_nil]
    · rw [if_neg hv, Option.getD_none]
      have : ¬ (isViewKind (c.kindOf i) = true ∧ objGVK o = c.kindOf i) := by rintro ⟨h1, h2⟩; rw [h2] at hv; exact hv h1
      simp [this]
  | update old o =>
    simp only [step, VCache.update, VOp.events]
    rw [show withUID hash (copyObj o) = written hash o from rfl]
    by_cases hv : isViewKind (objGVK o) = true
    · rw [written_gvk ho.2 hv, if_pos hv]
      by_cases hs : old = written hash o
      · rw [if_pos hs]; simp [hs]
      · rw [if_neg hs]
        obtain ⟨c', hc'⟩ := notify_some (c := { c with stored := upd c.stored (objGVK o) ((c.stored (objGVK o)).set (cacheKey (objKey (written hash o))) (written hash o)) }) hv (.update old (copyObj (written hash o)))
        rw [hc', Option.getD_some, notify_log hi hc' hlt hl, written_copy ho.2 hv]
        by_cases hr : c.Registered (objGVK o) i
        · have e := hreg _ hr
          rw [if_pos hr, ← e, if_pos hr, if_pos ⟨hv, rfl, hs⟩]
        · rw [if_neg hr]
          split
          · next hr' =>
            rw [if_neg, List.append_nil]
            rintro ⟨-, e, -⟩; rw [e] at hr; exact hr hr'
          · rw [List.append_nil]
    · have hv' : ¬ isViewKind (objGVK (written hash o)) = true := fun h => hv (copyObj_not_view ho.2 (written_gvk' ho.2 ▸ h))
      rw [if_neg hv', Option.getD_none]
      have : ¬ (isViewKind (c.kindOf i) = true ∧ objGVK o = c.kindOf i ∧ old ≠ written hash o) := by rintro ⟨h1, h2, -⟩; rw [h2] at hv; exact hv h1
      rw [if_neg this]; simp
  | delete o =>
    simp only [step, VCache.delete, VOp.events]
    by_cases hv : isViewKind (objGVK o) = true
    · rw [if_pos hv]
      cases hg : (c.stored (objGVK o)).get (cacheKey (objKey o)) with
      | none =>
        simp only [Option.getD_none]
        split
        · by_cases hk : isViewKind (c.kindOf i) = true ∧ objGVK o = c.kindOf i
          · rw [if_pos hk, ← hk.2, hi.get, hg]; simp
          · rw [if_neg hk, List.append_nil]
        · rw [List.append_nil]
      | some x =>
        simp only
        obtain ⟨hcx, hk⟩ := hi.stored_copy hg
        obtain ⟨c', hc'⟩ := notify_some (c := { c with stored := upd c.stored (objGVK o) ((c.stored (objGVK o)).erase (cacheKey (objKey x))) }) hv (.delete (copyObj x))
        rw [hc', Option.getD_some, notify_log hi hc' hlt hl, hcx]
        by_cases hr : c.Registered (objGVK o) i
        · have e := hreg _ hr
          rw [if_pos hr, ← e, if_pos hr, if_pos ⟨hv, rfl⟩, hi.get, hg]
        · rw [if_neg hr]
          split
          · next hr' =>
            rw [if_neg, List.append_nil]
            rintro ⟨-, e⟩; rw [e] at hr; exact hr hr'
          · rw [List.append_nil]
    · rw [if_neg hv, Option.getD_none]
      have : ¬ (isViewKind (c.kindOf i) = true ∧ objGVK o = c.kindOf i) := by rintro ⟨h1, h2⟩; rw [h2] at hv; exact hv h1
      rw [if_neg this]; simp
  | getShared g =>
    simp only [step, VOp.events, ite_self, List.append_nil]
    cases h : c.getShared g with
    | none => rfl
    | some p => simp only [Option.map_some, Option.getD_some, (getShared_old h hlt).1]
  | removeShared g => simp [step, VOp.events, removeShared]
  | getLocal n g =>
    simp only [step, VOp.events, ite_self, List.append_nil, getLocal]
    split
    · split
      · rfl
      · have : i ≠ c.next := by omega
        simp [registerDelegating, newInformer, upd, this]
    · rfl
  | removeLocal n g =>
    simp only [step, VOp.events, ite_self, List.append_nil, removeLocal]
    split <;> rfl
  | stop n => simp [step, VOp.events, stop]
  | addHandler j order =>
    simp only [step, VOp.events, ite_self, List.append_nil, addHandler, upd]
    split
    · next e =>
      subst e
      have := hi.fresh i h hl
      simp only [upd]
      rw [if_neg (by omega)]
    · rfl
  | removeHandler j h' => simp [step, VOp.events, removeHandler]

end VCache
end Dctl
