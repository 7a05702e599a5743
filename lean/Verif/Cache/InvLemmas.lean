import Verif.Spec.Cache
import Verif.Cache.ViewLemmas
/-!
# The invariant of the view cache
-/
set_option autoImplicit false
set_option linter.unusedSectionVars false
namespace Dctl

theorem idxOf?_split {a b : List Nat} {x : Nat} (h : x ∉ a) : (a ++ x :: b).idxOf? x = some a.length := by
  induction a with
  | nil => simp [List.idxOf?_cons]
  | cons y a ih =>
    simp only [List.mem_cons, not_or] at h
    have hy : (y == x) = false := by simpa using fun e : y = x => h.1 e.symm
    rw [List.cons_append, List.idxOf?_cons, hy, ih h.2]
    simp

theorem swapRemove_perm (l : List Nat) (x : Nat) : (swapRemove l x).Perm (l.erase x) := by
  by_cases h : x ∈ l
  · obtain ⟨a, b, rfl, ha⟩ := List.eq_append_cons_of_mem h
    rw [swapRemove, idxOf?_split ha, List.erase_append, if_neg ha, List.erase_cons_head]
    simp only [List.set_append, Nat.lt_irrefl, if_false, Nat.sub_self, List.set_cons_zero]
    rcases List.eq_nil_or_concat b with rfl | ⟨b', y, rfl⟩
    · simp
    · simp only [List.concat_eq_append]
      have h1 : (a ++ x :: (b' ++ [y])).getLastD x = y := by
        rw [← List.cons_append, ← List.append_assoc, List.getLastD_concat]
      rw [h1, ← List.cons_append, ← List.append_assoc, List.dropLast_concat]
      refine List.Perm.append_left a ?_
      exact (List.perm_append_singleton y b').symm
  · rw [swapRemove, List.idxOf?_eq_none_iff.mpr h, List.erase_of_not_mem h]

theorem mem_swapRemove {l : List Nat} (hn : l.Nodup) {x y : Nat} : y ∈ swapRemove l x ↔ y ∈ l ∧ y ≠ x := by
  rw [(swapRemove_perm l x).mem_iff, hn.mem_erase_iff, and_comm]

theorem nodup_swapRemove {l : List Nat} (hn : l.Nodup) (x : Nat) : (swapRemove l x).Nodup :=
  (swapRemove_perm l x).nodup_iff.mpr (hn.erase x)

/-! ## Mirrors -/

theorem mirror_append (l : List CEv) (e : CEv) : mirror (l ++ [e]) = Mirror.apply (mirror l) e := by
  simp [mirror, List.foldl_append]

theorem foldl_add_other {l : List (String × Obj)} {k : String} (h : ∀ p ∈ l, cacheKey (objKey p.2) ≠ k) (m : String → Option Obj) :
    (l.map (fun p => CEv.add p.2)).foldl Mirror.apply m k = m k := by
  induction l generalizing m with
  | nil => rfl
  | cons p l ih =>
    simp only [List.map_cons, List.foldl_cons]
    rw [ih (fun q hq => h q (List.mem_cons_of_mem _ hq))]
    exact if_neg (fun e => h p (by simp) e.symm)

/-- The initial list shows exactly the store. -/
theorem mirror_initial {s : Indexer} (hw : AMap.WF s) (hk : ∀ p ∈ s, p.1 = cacheKey (objKey p.2)) (k : String) :
    mirror (s.map (fun p => CEv.add p.2)) k = AMap.get s k := by
  have key : ∀ (s : Indexer) (m : String → Option Obj), AMap.WF s → (∀ p ∈ s, p.1 = cacheKey (objKey p.2)) →
      (s.map (fun p => CEv.add p.2)).foldl Mirror.apply m k = (AMap.get s k).or (m k) := by
    intro s
    induction s with
    | nil => intro m _ _; rfl
    | cons p s ih =>
      intro m hw hk
      obtain ⟨k0, o⟩ := p
      have hw' : AMap.WF s := (List.nodup_cons.mp hw).2
      have hk0 := hk (k0, o) (by simp)
      simp only at hk0
      simp only [List.map_cons, List.foldl_cons]
      rw [ih _ hw' (fun q hq => hk q (List.mem_cons_of_mem _ hq))]
      simp only [Mirror.apply, AMap.get]
      by_cases e : k0 = k
      · have : AMap.get s k = none := AMap.get_none_iff.mpr (e ▸ (List.nodup_cons.mp hw).1)
        rw [this, if_pos e, if_pos (by rw [← hk0, e])]; rfl
      · rw [if_neg e, if_neg (by rw [← hk0]; exact fun h => e h.symm)]
  rw [mirror, key s _ hw hk]
  cases AMap.get s k <;> rfl

/-- A log never deletes anything but the object the handler holds. -/
def Faithful (l : List CEv) : Prop := ∀ p o s, l = p ++ CEv.delete o :: s → mirror p (cacheKey (objKey o)) = some o

theorem faithful_snoc {l : List CEv} {e : CEv} (h : Faithful l) (he : ∀ o, e = .delete o → mirror l (cacheKey (objKey o)) = some o) : Faithful (l ++ [e]) := by
  intro p o s hs
  rcases List.eq_nil_or_concat s with rfl | ⟨s', x, rfl⟩
  · have h1 := List.append_inj_left' hs (by simp)
    have h2 := List.append_inj_right' hs (by simp)
    simp only [List.cons.injEq, and_true] at h2
    rw [← h1]; exact he o h2
  · rw [List.concat_eq_append, ← List.cons_append, ← List.append_assoc] at hs
    exact h p o s' (List.append_inj_left' hs (by simp))

theorem faithful_adds (l : List (String × Obj)) : Faithful (l.map (fun p => CEv.add p.2)) := by
  intro p o s hs
  have : CEv.delete o ∈ l.map (fun p => CEv.add p.2) := by rw [hs]; simp
  simp at this

/-! ## The invariant -/

/-- A stored object. -/
def StoredOk (g : GVK) (p : String × Obj) : Prop := p.1 = cacheKey (objKey p.2) ∧ Copied p.2 ∧ Obj.Ok p.2 ∧ objGVK p.2 = g ∧ isViewKind g = true

/-- The invariant of the view cache. -/
structure VCache.Inv (c : VCache) : Prop where
  wf : ∀ g, AMap.WF (c.stored g)
  ent : ∀ g, ∀ p ∈ c.stored g, StoredOk g p
  shared : ∀ g i, c.shared g = some i → i < c.next ∧ c.kindOf i = g ∧ i ∉ c.deleg g ∧ isViewKind g = true
  deleg : ∀ g i, i ∈ c.deleg g → i < c.next ∧ c.kindOf i = g
  nodup : ∀ g, (c.deleg g).Nodup
  locals : ∀ n g i, c.locals n g = some i → i < c.next ∧ c.kindOf i = g ∧ c.shared g ≠ some i
  fresh : ∀ i h, h ∈ c.live i → h ≤ c.counter i
  liveNodup : ∀ i, (c.live i).Nodup
  mirror : ∀ g i h, c.Registered g i → h ∈ c.live i → (∀ k, mirror (c.log i h) k = (c.stored g).get k) ∧ Faithful (c.log i h)

theorem VCache.inv_init : VCache.init.Inv := by
  constructor <;> simp [VCache.init, AMap.WF, VCache.Registered]

namespace VCache
variable {c : VCache}

theorem Inv.lt (hi : c.Inv) {g : GVK} {i : Nat} (h : c.Registered g i) : i < c.next := by
  rcases h with h | h
  · exact (hi.shared g i h).1
  · exact (hi.deleg g i h).1

theorem Inv.kind (hi : c.Inv) {g : GVK} {i : Nat} (h : c.Registered g i) : c.kindOf i = g := by
  rcases h with h | h
  · exact (hi.shared g i h).2.1
  · exact (hi.deleg g i h).2

theorem newInformer_stored (g : GVK) : (c.newInformer g).stored = c.stored := rfl

/-- A new informer, registered as shared one or not at all, keeps the invariant. -/
theorem Inv.newShared (hi : c.Inv) {g : GVK} (hv : isViewKind g = true) (hn : c.shared g = none) :
    ({ c.newInformer g with shared := upd c.shared g (some c.next) } : VCache).Inv := by
  constructor
  · exact hi.wf
  · exact hi.ent
  · intro g' i h
    simp only [newInformer, upd] at h ⊢
    by_cases e : g' = g
    · subst e
      simp only [if_true, Option.some.injEq] at h
      subst h
      refine ⟨by omega, by simp, fun hm => ?_, hv⟩
      exact absurd (hi.deleg _ _ hm).1 (by omega)
    · simp only [e, if_false] at h
      have := hi.shared g' i h
      have hne : i ≠ c.next := by have := this.1; omega
      simp only [hne, if_false]
      exact ⟨by omega, this.2⟩
  · intro g' i h
    have := hi.deleg g' i h
    have hne : i ≠ c.next := by have := this.1; omega
    simp only [newInformer, upd, hne, if_false]
    exact ⟨by omega, this.2⟩
  · exact hi.nodup
  · intro n g' i h
    have := hi.locals n g' i h
    have hne : i ≠ c.next := by have := this.1; omega
    simp only [newInformer, upd, hne, if_false]
    refine ⟨by omega, this.2.1, ?_⟩
    by_cases e : g' = g
    · simp only [e, if_true, ne_eq, Option.some.injEq]; omega
    · simp only [e, if_false]; exact this.2.2
  · intro i h hm
    simp only [newInformer, upd] at hm ⊢
    split at hm
    · simp at hm
    · next hne => rw [if_neg hne]; exact hi.fresh i h hm
  · intro i
    simp only [newInformer, upd]
    split
    · simp
    · exact hi.liveNodup i
  · intro g' i h hr hm
    simp only [newInformer, upd] at hm ⊢
    split at hm
    · simp at hm
    · next hne =>
      simp only [if_neg hne]
      refine hi.mirror g' i h ?_ hm
      rcases hr with hr | hr
      · simp only [newInformer, upd] at hr
        by_cases e : g' = g
        · subst e
          simp only [if_true, Option.some.injEq] at hr
          exact absurd hr.symm hne
        · rw [if_neg e] at hr; exact Or.inl hr
      · exact Or.inr hr

theorem getShared_view (g : GVK) (hv : isViewKind g = true) : ∃ c' i, c.getShared g = some (c', i) ∧ c'.shared g = some i := by
  simp only [getShared, hv, if_true]
  cases h : c.shared g with
  | some i => exact ⟨_, _, rfl, h⟩
  | none => exact ⟨_, _, rfl, by simp [upd]⟩

theorem Inv.getShared (hi : c.Inv) {g : GVK} {c' : VCache} {i : Nat} (h : c.getShared g = some (c', i)) : c'.Inv := by
  simp only [VCache.getShared] at h
  split at h
  · next hv =>
    split at h
    · cases h; exact hi
    · next hn => cases h; exact hi.newShared hv hn
  · cases h

theorem getShared_fields {g : GVK} {c' : VCache} {i : Nat} (h : c.getShared g = some (c', i)) :
    c'.stored = c.stored ∧ c'.deleg = c.deleg ∧ c'.locals = c.locals ∧ c'.shared = upd c.shared g (some i) ∧ c'.shared g = some i := by
  simp only [VCache.getShared] at h
  split at h
  · split at h
    · next hs =>
      cases h
      refine ⟨rfl, rfl, rfl, ?_, hs⟩
      funext x; simp only [upd]; split
      · next e => rw [e]; exact hs
      · rfl
    · cases h; exact ⟨rfl, rfl, rfl, rfl, by simp [upd]⟩
  · cases h

/-- The logs and handlers of existing informers do not change when the shared informer is looked up. -/
theorem getShared_old {g : GVK} {c' : VCache} {i : Nat} (h : c.getShared g = some (c', i)) {j : Nat} (hj : j < c.next) :
    c'.log j = c.log j ∧ c'.live j = c.live j ∧ c'.kindOf j = c.kindOf j := by
  simp only [VCache.getShared] at h
  split at h
  · split at h
    · cases h; exact ⟨rfl, rfl, rfl⟩
    · cases h
      have : j ≠ c.next := by omega
      simp [newInformer, upd, this]
  · cases h

theorem getShared_stored (s : GVK → Indexer) (g : GVK) :
    ({ c with stored := s } : VCache).getShared g = (c.getShared g).map (fun p => ({ p.1 with stored := s }, p.2)) := by
  simp only [VCache.getShared]
  split
  · cases c.shared g <;> rfl
  · rfl

/-- Events delivered to a list of informers. -/
theorem trigger_all (e : CEv) (L : List Nat) (hn : L.Nodup) (c : VCache) :
    L.foldl (fun c i => c.trigger e i) c = { c with log := fun i h => if i ∈ L ∧ h ∈ c.live i then c.log i h ++ [e] else c.log i h } := by
  induction L generalizing c with
  | nil => simp
  | cons a L ih =>
    have hn' := List.nodup_cons.mp hn
    rw [List.foldl_cons, ih hn'.2]
    simp only [trigger, VCache.mk.injEq, true_and, and_true]
    funext i h
    by_cases e1 : i = a
    · subst e1
      simp [upd, hn'.1]
    · simp [upd, e1]

theorem notify_eq (hi : c.Inv) {g : GVK} (hv : isViewKind g = true) (s : GVK → Indexer) (e : CEv) :
    ∃ c1 i, c.getShared g = some (c1, i) ∧ c1.Inv ∧
      ({ c with stored := s } : VCache).notify g e = some { c1 with stored := s, log := fun j h => if (c1.Registered g j) ∧ h ∈ c1.live j then c1.log j h ++ [e] else c1.log j h } := by
  obtain ⟨c1, i, h1, h2⟩ := getShared_view (c := c) g hv
  have hi1 := hi.getShared h1
  refine ⟨c1, i, h1, hi1, ?_⟩
  rw [notify, getShared_stored, h1]
  simp only [Option.map_some, Option.some.injEq]
  have hn : (i :: c1.deleg g).Nodup := List.nodup_cons.mpr ⟨(hi1.shared g i h2).2.2.1, hi1.nodup g⟩
  have := trigger_all e (i :: c1.deleg g) hn { c1 with stored := s }
  rw [List.foldl_cons] at this
  rw [show ({ c1 with stored := s } : VCache).deleg g = c1.deleg g from rfl, this]
  have hr : ∀ j, (j ∈ i :: c1.deleg g) ↔ c1.Registered g j := by
    intro j
    rw [List.mem_cons, Registered, h2, Option.some.injEq, eq_comm]
  simp only [hr]

/-- A write to the store of `g`, delivered as an event that has the same effect on a handler's copy, keeps the invariant. -/
theorem Inv.write (hi : c.Inv) {g : GVK} (hv : isViewKind g = true) {S : Indexer} {e : CEv} (hw : AMap.WF S) (hS : ∀ p ∈ S, StoredOk g p)
    (he : ∀ m : String → Option Obj, (∀ k, m k = (c.stored g).get k) → ∀ k, Mirror.apply m e k = S.get k)
    (hd : ∀ o, e = .delete o → (c.stored g).get (cacheKey (objKey o)) = some o)
    {c' : VCache} (h : ({ c with stored := upd c.stored g S } : VCache).notify g e = some c') : c'.Inv := by
  obtain ⟨c1, i, h1, hi1, h2⟩ := notify_eq hi hv (upd c.stored g S) e
  have hf := getShared_fields h1
  rw [h2] at h
  cases h
  constructor
  · intro g'
    simp only [upd]; split
    · exact hw
    · exact hi.wf g'
  · intro g'
    simp only [upd]; split
    · next e => rw [e]; exact hS
    · exact hi.ent g'
  · exact hi1.shared
  · exact hi1.deleg
  · exact hi1.nodup
  · exact hi1.locals
  · exact hi1.fresh
  · exact hi1.liveNodup
  · intro g' j h hr hm
    have hr' : c1.Registered g' j := hr
    have hm' : h ∈ c1.live j := hm
    obtain ⟨hmir, hfa⟩ := hi1.mirror g' j h hr' hm'
    rw [hf.1] at hmir
    simp only [upd]
    by_cases eg : g' = g
    · subst eg
      rw [if_pos rfl, if_pos ⟨hr', hm'⟩]
      refine ⟨fun k => ?_, faithful_snoc hfa (fun o ho => ?_)⟩
      · rw [mirror_append]; exact he _ hmir k
      · rw [hmir]; exact hd o ho
    · rw [if_neg eg]
      have : ¬ (c1.Registered g j ∧ h ∈ c1.live j) := by
        rintro ⟨hr2, -⟩
        exact eg ((hi1.kind hr').symm.trans (hi1.kind hr2))
      rw [if_neg this]
      exact ⟨hmir, hfa⟩

theorem Inv.set_ok (hi : c.Inv) {hash : String → String} {o : Obj} (ho : Obj.Ok o) (hv : isViewKind (objGVK o) = true) :
    ∀ p ∈ (c.stored (objGVK o)).set (cacheKey (objKey (written hash o))) (written hash o), StoredOk (objGVK o) p := by
  rintro ⟨k, x⟩ hp
  have hw := (hi.wf (objGVK o)).set (cacheKey (objKey (written hash o))) (written hash o)
  have hg := AMap.get_of_mem hw hp
  rw [AMap.get_set] at hg
  split at hg
  · next e =>
    cases hg
    exact ⟨e.symm, written_copied ho hv, written_canon ho, written_gvk ho hv, hv⟩
  · exact hi.ent _ _ (AMap.mem_of_get hg)

theorem Inv.add (hi : c.Inv) {hash : String → String} {o : Obj} (ho : Obj.Ok o) {c' : VCache} (h : c.add hash o = some c') : c'.Inv := by
  simp only [VCache.add] at h
  split at h
  · next hv =>
    rw [show withUID hash (copyObj o) = written hash o from rfl, written_copy ho hv] at h
    refine hi.write hv ((hi.wf _).set _ _) (hi.set_ok ho hv) (fun m hm k => ?_) (fun o h => by cases h) h
    rw [AMap.get_set]
    simp only [Mirror.apply]
    by_cases e : k = cacheKey (objKey (written hash o))
    · rw [if_pos e, if_pos e.symm]
    · rw [if_neg e, if_neg (fun h => e h.symm), hm]
  · cases h

theorem Inv.update (hi : c.Inv) {hash : String → String} {old o : Obj} (ho : Obj.Ok o) {c' : VCache} (h : c.update hash old o = some c') : c'.Inv := by
  simp only [VCache.update] at h
  rw [show withUID hash (copyObj o) = written hash o from rfl] at h
  split at h
  · next hv =>
    have hv' : isViewKind (objGVK o) = true := copyObj_not_view ho (written_gvk' ho ▸ hv)
    rw [written_gvk ho hv', written_copy ho hv'] at h
    split at h
    · cases h; exact hi
    · refine hi.write hv' ((hi.wf _).set _ _) (hi.set_ok ho hv') (fun m hm k => ?_) (fun o h => by cases h) h
      rw [AMap.get_set]
      simp only [Mirror.apply]
      by_cases e : k = cacheKey (objKey (written hash o))
      · rw [if_pos e, if_pos e.symm]
      · rw [if_neg e, if_neg (fun h => e h.symm), hm]
  · cases h

theorem Inv.stored_copy (hi : c.Inv) {g : GVK} {k : String} {o : Obj} (h : (c.stored g).get k = some o) : copyObj o = o ∧ k = cacheKey (objKey o) := by
  have := hi.ent g _ (AMap.mem_of_get h)
  exact ⟨this.2.1.copy this.2.2.1, this.1⟩

theorem Inv.delete (hi : c.Inv) {o : Obj} {c' : VCache} (h : c.delete o = some c') : c'.Inv := by
  simp only [VCache.delete] at h
  split at h
  · next hv =>
    split at h
    · cases h
    · next x hx =>
      obtain ⟨hc, hk⟩ := hi.stored_copy hx
      rw [hc, ← hk] at h
      refine hi.write hv ((hi.wf _).erase _) (fun p hp => ?_) (fun m hm k => ?_) (fun o' h => ?_) h
      · have hw := (hi.wf (objGVK o)).erase (cacheKey (objKey o))
        have hg := AMap.get_of_mem hw (k := p.1) (v := p.2) hp
        rw [AMap.get_erase (hi.wf _)] at hg
        split at hg
        · cases hg
        · exact hi.ent _ _ (AMap.mem_of_get hg)
      · rw [AMap.get_erase (hi.wf _)]
        simp only [Mirror.apply, ← hk]
        by_cases e : k = cacheKey (objKey o)
        · rw [if_pos e, if_pos e.symm]
        · rw [if_neg e, if_neg (fun h => e h.symm), hm]
      · cases h; rw [← hk]; exact hx
  · cases h

theorem Inv.removeShared (hi : c.Inv) (g : GVK) : (c.removeShared g).Inv := by
  have hs : ∀ g' i, (c.removeShared g).shared g' = some i → c.shared g' = some i := by
    intro g' i h
    simp only [VCache.removeShared, upd] at h
    split at h
    · cases h
    · exact h
  constructor
  · exact hi.wf
  · exact hi.ent
  · intro g' i h; exact hi.shared g' i (hs g' i h)
  · exact hi.deleg
  · exact hi.nodup
  · intro n g' i h
    refine ⟨(hi.locals n g' i h).1, (hi.locals n g' i h).2.1, fun h' => (hi.locals n g' i h).2.2 (hs g' i h')⟩
  · exact hi.fresh
  · exact hi.liveNodup
  · intro g' i h hr hm
    refine hi.mirror g' i h ?_ hm
    rcases hr with hr | hr
    · exact Or.inl (hs g' i hr)
    · exact Or.inr hr

/-- Fewer delegating informers. -/
theorem Inv.shrink (hi : c.Inv) {d : GVK → List Nat} (hd : ∀ g i, i ∈ d g → i ∈ c.deleg g) (hn : ∀ g, (d g).Nodup)
    {l : Nat → GVK → Option Nat} (hl : ∀ n g i, l n g = some i → c.locals n g = some i) : ({ c with deleg := d, locals := l } : VCache).Inv := by
  constructor
  · exact hi.wf
  · exact hi.ent
  · intro g i h
    have := hi.shared g i h
    exact ⟨this.1, this.2.1, fun hm => this.2.2.1 (hd g i hm), this.2.2.2⟩
  · intro g i h; exact hi.deleg g i (hd g i h)
  · exact hn
  · intro n g i h; exact hi.locals n g i (hl n g i h)
  · exact hi.fresh
  · exact hi.liveNodup
  · intro g i h hr hm
    refine hi.mirror g i h ?_ hm
    rcases hr with hr | hr
    · exact Or.inl hr
    · exact Or.inr (hd g i hr)

theorem Inv.removeLocal (hi : c.Inv) (n : Nat) (g : GVK) : (c.removeLocal n g).Inv := by
  simp only [VCache.removeLocal]
  split
  · next i h =>
    refine hi.shrink (fun g' j hm => ?_) (fun g' => ?_) (fun n' g' j hl => ?_)
    · simp only [upd] at hm
      split at hm
      · next e => rw [e]; exact ((mem_swapRemove (hi.nodup g)).mp hm).1
      · exact hm
    · simp only [upd]; split
      · exact nodup_swapRemove (hi.nodup g) i
      · exact hi.nodup g'
    · simp only [upd] at hl
      split at hl
      · next e =>
        simp only [upd] at hl
        split at hl
        · cases hl
        · rw [e]; exact hl
      · exact hl
  · exact hi

theorem Inv.stop (hi : c.Inv) (n : Nat) : (c.stop n).Inv := by
  refine hi.shrink (fun g j hm => ?_) (fun g => ?_) (fun _ _ _ h => h)
  · split at hm
    · exact ((mem_swapRemove (hi.nodup g)).mp hm).1
    · exact hm
  · split
    · exact nodup_swapRemove (hi.nodup g) _
    · exact hi.nodup g

theorem Inv.removeHandler (hi : c.Inv) (i h : Nat) : (c.removeHandler i h).Inv := by
  have hl : ∀ j h', h' ∈ (c.removeHandler i h).live j → h' ∈ c.live j := by
    intro j h' hm
    simp only [VCache.removeHandler, upd] at hm
    split at hm
    · next e => rw [e]; exact List.mem_of_mem_erase hm
    · exact hm
  constructor
  · exact hi.wf
  · exact hi.ent
  · exact hi.shared
  · exact hi.deleg
  · exact hi.nodup
  · exact hi.locals
  · intro j h' hm; exact hi.fresh j h' (hl j h' hm)
  · intro j
    simp only [VCache.removeHandler, upd]; split
    · exact (hi.liveNodup i).erase h
    · exact hi.liveNodup j
  · intro g j h' hr hm; exact hi.mirror g j h' hr (hl j h' hm)

theorem Inv.addHandler (hi : c.Inv) (i : Nat) {order : Indexer → Indexer} (ho : ∀ l, (order l).Perm l) : (c.addHandler i order).Inv := by
  constructor
  · exact hi.wf
  · exact hi.ent
  · exact hi.shared
  · exact hi.deleg
  · exact hi.nodup
  · exact hi.locals
  · intro j h hm
    simp only [VCache.addHandler, upd] at hm ⊢
    split at hm
    · next e =>
      rw [if_pos e]
      rcases List.mem_cons.mp hm with rfl | hm
      · omega
      · have := hi.fresh i h hm; omega
    · next e => rw [if_neg e]; exact hi.fresh j h hm
  · intro j
    simp only [VCache.addHandler, upd]; split
    · refine List.nodup_cons.mpr ⟨fun hm => ?_, hi.liveNodup i⟩
      have := hi.fresh i _ hm; omega
    · exact hi.liveNodup j
  · intro g j h hr hm
    have hr' : c.Registered g j := hr
    simp only [VCache.addHandler, upd] at hm ⊢
    by_cases e : j = i
    · subst e
      simp only [if_true] at hm ⊢
      by_cases eh : h = c.counter j + 1
      · subst eh
        simp only [upd_same]
        rw [hi.kind hr']
        have hp := ho (c.stored g)
        have hent : ∀ p ∈ order (c.stored g), StoredOk g p := fun p hp' => hi.ent g p (hp.mem_iff.mp hp')
        have hmap : (order (c.stored g)).map (fun p => CEv.add (copyObj p.2)) = (order (c.stored g)).map (fun p => CEv.add p.2) :=
          List.map_congr_left (fun p hp' => by rw [(hent p hp').2.1.copy (hent p hp').2.2.1])
        rw [hmap]
        have hw := (hi.wf g).perm hp.symm
        refine ⟨fun k => ?_, faithful_adds _⟩
        rw [mirror_initial hw (fun p hp' => (hent p hp').1), AMap.get_perm hw hp]
      · simp only [upd_other _ _ eh]
        rcases List.mem_cons.mp hm with h' | hm
        · exact absurd h' eh
        · exact hi.mirror g j h hr' hm
    · simp only [e, if_false] at hm ⊢
      exact hi.mirror g j h hr' hm

theorem Inv.getLocal (hi : c.Inv) {n : Nat} {g : GVK} {c' : VCache} {i : Nat} (h : c.getLocal n g = some (c', i)) : c'.Inv := by
  simp only [VCache.getLocal] at h
  split at h
  · split at h
    · cases h; exact hi
    · next hn =>
      cases h
      have hne : ∀ j, j < c.next → j ≠ c.next := by omega
      constructor
      · exact hi.wf
      · exact hi.ent
      · intro g' j h
        have h' : c.shared g' = some j := h
        have := hi.shared g' j h'
        simp only [registerDelegating, newInformer, upd, hne j this.1, if_false]
        refine ⟨by omega, this.2.1, ?_, this.2.2.2⟩
        split
        · next e =>
          subst e
          simp only [List.mem_append, List.mem_singleton, not_or]
          exact ⟨this.2.2.1, hne j this.1⟩
        · exact this.2.2.1
      · intro g' j h
        simp only [registerDelegating, newInformer, upd] at h ⊢
        split at h
        · next e =>
          subst e
          rcases List.mem_append.mp h with h | h
          · have := hi.deleg _ _ h
            rw [if_neg (hne j this.1)]; exact ⟨by omega, this.2⟩
          · have : j = c.next := by simpa using h
            subst this; simp
        · have := hi.deleg _ _ h
          rw [if_neg (hne j this.1)]; exact ⟨by omega, this.2⟩
      · intro g'
        simp only [registerDelegating, newInformer, upd]
        split
        · rw [List.nodup_append]
          refine ⟨hi.nodup _, by simp, ?_⟩
          intro a ha b hb
          have hb' : b = c.next := by simpa using hb
          rw [hb']; exact hne a (hi.deleg _ _ ha).1
        · exact hi.nodup _
      · intro n' g' j h
        simp only [registerDelegating, newInformer, upd] at h ⊢
        have hold : ∀ n'', c.locals n'' g' = some j → (j < c.next + 1 ∧ (if j = c.next then g else c.kindOf j) = g' ∧ c.shared g' ≠ some j) := by
          intro n'' hl
          have := hi.locals n'' g' j hl
          rw [if_neg (hne j this.1)]; exact ⟨by omega, this.2⟩
        split at h
        · next e =>
          simp only [upd] at h
          split at h
          · next e2 =>
            cases h
            rw [if_pos rfl]
            refine ⟨by omega, e2.symm, fun hs => ?_⟩
            exact absurd (hi.shared _ _ hs).1 (by omega)
          · exact hold n h
        · exact hold n' h
      · intro j h hm
        simp only [registerDelegating, newInformer, upd] at hm ⊢
        split at hm
        · simp at hm
        · next e => rw [if_neg e]; exact hi.fresh j h hm
      · intro j
        simp only [registerDelegating, newInformer, upd]
        split
        · simp
        · exact hi.liveNodup j
      · intro g' j h hr hm
        simp only [registerDelegating, newInformer, upd] at hm ⊢
        split at hm
        · simp at hm
        · next e =>
          simp only [if_neg e]
          refine hi.mirror g' j h ?_ hm
          rcases hr with hr | hr
          · exact Or.inl hr
          · simp only [registerDelegating, newInformer, upd] at hr
            split at hr
            · next eg =>
              subst eg
              rcases List.mem_append.mp hr with hr | hr
              · exact Or.inr hr
              · exact absurd (by simpa using hr) e
            · exact Or.inr hr
  · cases h

theorem Inv.step (hi : c.Inv) (hash : String → String) {op : VOp} (ho : op.Ok) : (c.step hash op).Inv := by
  cases op with
  | add o =>
    rw [VCache.step]
    cases h : c.add hash o with
    | none => exact hi
    | some c' => exact hi.add ho h
  | update old o =>
    rw [VCache.step]
    cases h : c.update hash old o with
    | none => exact hi
    | some c' => exact hi.update ho.2 h
  | delete o =>
    rw [VCache.step]
    cases h : c.delete o with
    | none => exact hi
    | some c' => exact hi.delete h
  | getShared g =>
    rw [VCache.step]
    cases h : c.getShared g with
    | none => exact hi
    | some p => exact hi.getShared h
  | removeShared g => exact hi.removeShared g
  | getLocal n g =>
    rw [VCache.step]
    cases h : c.getLocal n g with
    | none => exact hi
    | some p => exact hi.getLocal h
  | removeLocal n g => exact hi.removeLocal n g
  | stop n => exact hi.stop n
  | addHandler i order => exact hi.addHandler i ho
  | removeHandler i h => exact hi.removeHandler i h

theorem run_cons (hash : String → String) (c : VCache) (op : VOp) (ops : List VOp) : c.run hash (op :: ops) = (c.step hash op).run hash ops := rfl

theorem run_append (hash : String → String) (c : VCache) (a b : List VOp) : c.run hash (a ++ b) = (c.run hash a).run hash b := by
  simp [VCache.run, List.foldl_append]

theorem Inv.run (hi : c.Inv) (hash : String → String) {ops : List VOp} (ho : ∀ op ∈ ops, op.Ok) : (c.run hash ops).Inv := by
  induction ops generalizing c with
  | nil => exact hi
  | cons op ops ih => exact ih (hi.step hash (ho op (by simp))) (fun o h => ho o (List.mem_cons_of_mem _ h))

end VCache
end Dctl
