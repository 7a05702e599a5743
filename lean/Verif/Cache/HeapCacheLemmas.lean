import Verif.Cache.HeapObjLemmas
import Verif.Cache.StepLemmas
/-!
# The view cache in memory does what the view cache on values does

Lemmas for C122: what the cache holds and what the rest of the program can get at are apart, whatever both do.
-/
set_option autoImplicit false
set_option linter.unusedSectionVars false
namespace Dctl
namespace Mem

/-! ### lists in relation -/

theorem All2.get {A B : Type} {R : A → B → Prop} {as : List A} {bs : List B} (h : All2 R as bs) : ∀ (i : Nat),
    (as[i]? = none ∧ bs[i]? = none) ∨ ∃ a b, as[i]? = some a ∧ bs[i]? = some b ∧ R a b := by
  induction h with
  | nil => intro i; exact .inl ⟨rfl, rfl⟩
  | cons hr _ ih =>
    intro i
    cases i with
    | zero => exact .inr ⟨_, _, rfl, rfl, hr⟩
    | succ i => simpa using ih i

theorem All2.eraseIdx {A B : Type} {R : A → B → Prop} {as : List A} {bs : List B} (h : All2 R as bs) : ∀ (i : Nat), All2 R (as.eraseIdx i) (bs.eraseIdx i) := by
  induction h with
  | nil => intro i; exact .nil
  | cons hr ht ih =>
    intro i
    cases i with
    | zero => exact ht
    | succ i => exact .cons hr (ih i)

theorem All2.app {A B : Type} {R : A → B → Prop} {as as' : List A} {bs bs' : List B} (h : All2 R as bs) (h' : All2 R as' bs') : All2 R (as ++ as') (bs ++ bs') := by
  induction h with
  | nil => exact h'
  | cons hr _ ih => exact .cons hr ih

theorem All2.rep {A B : Type} {R : A → B → Prop} {a : A} {b : B} (h : R a b) : ∀ n, All2 R (List.replicate n a) (List.replicate n b)
  | 0 => .nil
  | n + 1 => .cons h (All2.rep h n)

theorem All2.map_rel {A B : Type} {R S : A → B → Prop} {as : List A} {bs : List B} (h : All2 R as bs) (hi : ∀ a b, a ∈ as → b ∈ bs → R a b → S a b) : All2 S as bs := by
  induction h with
  | nil => exact .nil
  | cons hr _ ih => exact .cons (hi _ _ (by simp) (by simp) hr) (ih (fun a b ha hb => hi a b (by simp [ha]) (by simp [hb])))

theorem All2.left {A B : Type} {R : A → B → Prop} {as : List A} {bs : List B} (h : All2 R as bs) {a : A} (ha : a ∈ as) : ∃ b ∈ bs, R a b := by
  induction h with
  | nil => cases ha
  | cons hr _ ih =>
    rcases List.mem_cons.mp ha with e | e
    · exact ⟨_, by simp, e ▸ hr⟩
    · obtain ⟨b, hb, hr⟩ := ih e; exact ⟨b, by simp [hb], hr⟩

theorem All2.len {A B : Type} {R : A → B → Prop} {as : List A} {bs : List B} (h : All2 R as bs) : as.length = bs.length := by
  induction h with
  | nil => rfl
  | cons _ _ ih => simp [ih]

/-- Entries of an indexer in memory and of an indexer on values. -/
def EntryAt (h : Heap) (p : String × Nat) (q : String × Obj) : Prop := p.1 = q.1 ∧ ObjAt h p.2 q.2

/-- The event in memory stands for the event, leaving aside old versions. -/
def PendAt (h : Heap) : PEv → CEv → Prop
  | .add a, .add o => ObjAt h a o
  | .update _ a, .update _ o => ObjAt h a o
  | .delete a, .delete o => ObjAt h a o
  | _, _ => False

theorem all2_lookup {h : Heap} {m : AMap String Nat} {c : Indexer} (hm : All2 (EntryAt h) m c) (k : String) :
    (m.get k = none ∧ c.get k = none) ∨ ∃ a o, m.get k = some a ∧ c.get k = some o ∧ ObjAt h a o := by
  induction hm with
  | nil => exact .inl ⟨rfl, rfl⟩
  | @cons p q t t' hr _ ih =>
    obtain ⟨k1, a⟩ := p
    obtain ⟨k2, o⟩ := q
    obtain ⟨e, ho⟩ := hr
    simp only at e; subst e
    rw [AMap.get, AMap.get]
    by_cases hk : k1 = k
    · rw [if_pos hk, if_pos hk]; exact .inr ⟨_, _, rfl, rfl, ho⟩
    · rw [if_neg hk, if_neg hk]; exact ih

theorem all2_set {h : Heap} {m : AMap String Nat} {c : Indexer} (hm : All2 (EntryAt h) m c) (k : String) {a : Nat} {o : Obj} (ho : ObjAt h a o) :
    All2 (EntryAt h) (m.set k a) (c.set k o) := by
  induction hm with
  | nil => exact .cons ⟨rfl, ho⟩ .nil
  | @cons p q t t' hr ht ih =>
    obtain ⟨k1, a1⟩ := p
    obtain ⟨k2, o2⟩ := q
    obtain ⟨e, ho2⟩ := hr
    simp only at e; subst e
    rw [AMap.set, AMap.set]
    by_cases hk : k1 = k
    · rw [if_pos hk, if_pos hk]; exact .cons ⟨rfl, ho⟩ ht
    · rw [if_neg hk, if_neg hk]; exact .cons ⟨rfl, ho2⟩ ih

theorem all2_erase {h : Heap} {m : AMap String Nat} {c : Indexer} (hm : All2 (EntryAt h) m c) (k : String) : All2 (EntryAt h) (m.erase k) (c.erase k) := by
  induction hm with
  | nil => exact .nil
  | @cons p q t t' hr ht ih =>
    obtain ⟨k1, a1⟩ := p
    obtain ⟨k2, o2⟩ := q
    obtain ⟨e, ho2⟩ := hr
    simp only at e; subst e
    rw [AMap.erase, AMap.erase]
    by_cases hk : k1 = k
    · rw [if_pos hk, if_pos hk]; exact ht
    · rw [if_neg hk, if_neg hk]; exact .cons ⟨rfl, ho2⟩ ih

theorem mem_amap_set {V : Type} {m : AMap String V} {k : String} {v : V} {p : String × V} (h : p ∈ m.set k v) : p = (k, v) ∨ p ∈ m := by
  induction m with
  | nil => simpa [AMap.set] using h
  | cons q t ih =>
    obtain ⟨k1, v1⟩ := q
    rw [AMap.set] at h
    split at h
    · rcases List.mem_cons.mp h with e | e
      · exact .inl e
      · exact .inr (List.mem_cons_of_mem _ e)
    · rcases List.mem_cons.mp h with e | e
      · exact .inr (by simp [e])
      · rcases ih e with e | e
        · exact .inl e
        · exact .inr (List.mem_cons_of_mem _ e)

theorem mem_amap_erase {V : Type} {m : AMap String V} {k : String} {p : String × V} (h : p ∈ m.erase k) : p ∈ m := by
  induction m with
  | nil => exact h
  | cons q t ih =>
    obtain ⟨k1, v1⟩ := q
    rw [AMap.erase] at h
    split at h
    · exact List.mem_cons_of_mem _ h
    · rcases List.mem_cons.mp h with e | e
      · simp [e]
      · exact List.mem_cons_of_mem _ (ih e)

/-! ### the invariant -/

/-- An address the cache keeps. -/
def HState.Root (s : HState) (a : Nat) : Prop := (∃ g, ∃ p ∈ s.stored g, p.2 = a) ∨ ∃ e ∈ s.pending, e.obj = a

theorem holds_iff {s : HState} {b : Nat} : s.Holds b ↔ ∃ a, s.Root a ∧ Reach s.heap (.ref a) b := by
  constructor
  · rintro (⟨g, p, hp, hr⟩ | ⟨e, he, hr⟩)
    · exact ⟨p.2, .inl ⟨g, p, hp, rfl⟩, hr⟩
    · exact ⟨e.obj, .inr ⟨e, he, rfl⟩, hr⟩
  · rintro ⟨a, (⟨g, p, hp, rfl⟩ | ⟨e, he, rfl⟩), hr⟩
    · exact .inl ⟨g, p, hp, hr⟩
    · exact .inr ⟨e, he, hr⟩

/-- The state in memory stands for the state on values; what the cache holds is its own. -/
structure HInv (s : HState) (c : VCache) (es : List CEv) : Prop where
  stored : ∀ g, All2 (EntryAt s.heap) (s.stored g) (c.stored g)
  pending : All2 (PendAt s.heap) s.pending es
  apart : ∀ b, s.Holds b → ¬ s.Knows b
  known : ∀ b, s.Knows b → b < s.heap.length
  copied : ∀ g, ∀ q ∈ c.stored g, copyObj q.2 = q.2

theorem PendAt.obj {h : Heap} {p : PEv} {e : CEv} (hp : PendAt h p e) : ∃ o, ObjAt h p.obj o := by
  cases p <;> cases e <;> first | exact ⟨_, hp⟩ | exact hp.elim

theorem HInv.root {s : HState} {c : VCache} {es : List CEv} (hi : HInv s c es) {a : Nat} (ha : s.Root a) : ∃ o, ObjAt s.heap a o := by
  rcases ha with ⟨g, p, hp, rfl⟩ | ⟨e, he, rfl⟩
  · obtain ⟨q, _, hq⟩ := (hi.stored g).left hp; exact ⟨_, hq.2⟩
  · obtain ⟨q, _, hq⟩ := hi.pending.left he; exact hq.obj

theorem ObjAt.grow {h h' : Heap} {a : Nat} {o : Obj} (ho : ObjAt h a o) (he : Ext nowhere h h') : ObjAt h' a o :=
  Reads.frame ho (fun _ hb => he.get (ho.lt hb))

theorem EntryAt.grow {h h' : Heap} {p : String × Nat} {q : String × Obj} (hp : EntryAt h p q) (he : Ext nowhere h h') : EntryAt h' p q := ⟨hp.1, ObjAt.grow hp.2 he⟩

theorem PendAt.grow {h h' : Heap} {p : PEv} {e : CEv} (hp : PendAt h p e) (he : Ext nowhere h h') : PendAt h' p e := by
  cases p <;> cases e <;> first | exact ObjAt.grow hp he | exact hp.elim

theorem Reach.step {h : Heap} {v : Val} {a b : Nat} {c : Cell} (hr : Reach h v a) (ha : h[a]? = some c) (hb : c.Refers b) : Reach h v b := by
  induction hr with
  | here a =>
    cases c with
    | map m => obtain ⟨k, hk⟩ := hb; exact .field ha hk (.here b)
    | list l => exact .elem ha hb (.here b)
  | field h1 h2 _ ih => exact .field h1 h2 (ih ha)
  | elem h1 h2 _ ih => exact .elem h1 h2 (ih ha)

/-- What is reached from a set of cells that is closed is in the set. -/
theorem reach_closed {h : Heap} {A : Region} (hA : ∀ a c b, A a → h[a]? = some c → c.Refers b → A b) {v : Val} {b : Nat} (hr : Reach h v b) :
    ∀ a, v = .ref a → A a → A b := by
  induction hr with
  | here a => intro a' e ha; injection e with e; exact e ▸ ha
  | @field a b m k v h1 h2 hr ih =>
    intro a' e ha
    injection e with e; subst e
    cases v with
    | ref x => exact ih x rfl (hA _ _ x ha h1 ⟨k, h2⟩)
    | _ => exact absurd hr (no_reach (by simp))
  | @elem a b l v h1 h2 hr ih =>
    intro a' e ha
    injection e with e; subst e
    cases v with
    | ref x => exact ih x rfl (hA _ _ x ha h1 h2)
    | _ => exact absurd hr (no_reach (by simp))

theorem Knows.step {s : HState} {a b : Nat} {c : Cell} (ha : s.Knows a) (hc : s.heap[a]? = some c) (hb : c.Refers b) : s.Knows b := by
  obtain ⟨x, hx, hr⟩ := ha
  exact ⟨x, hx, hr.step hc hb⟩

/-- A step that allocates only, and gives something new either to the cache or to the rest of the program. -/
theorem HInv.next {s s' : HState} {c c' : VCache} {es es' : List CEv} (hi : HInv s c es) (he : Ext nowhere s.heap s'.heap)
    (hst : ∀ g, All2 (EntryAt s'.heap) (s'.stored g) (c'.stored g)) (hpd : All2 (PendAt s'.heap) s'.pending es')
    (hkn : ∀ a ∈ s'.known, s.Knows a ∨ ∀ b, Reach s'.heap (.ref a) b → s.heap.length ≤ b ∧ b < s'.heap.length)
    (hro : ∀ a, s'.Root a → s.Root a ∨ ∀ b, Reach s'.heap (.ref a) b → s.heap.length ≤ b)
    (hor : (∀ a ∈ s'.known, s.Knows a) ∨ ∀ a, s'.Root a → s.Root a)
    (hco : ∀ g, ∀ q ∈ c'.stored g, copyObj q.2 = q.2) : HInv s' c' es' := by
  have hold : ∀ {a}, s.Knows a → ∀ b, Reach s'.heap (.ref a) b → s.Knows b := fun {a} ha b hb => by
    refine reach_closed (A := s.Knows) ?_ hb a rfl ha
    intro a c' b ha hget href
    rw [he.get (hi.known a ha)] at hget
    exact Knows.step ha hget href
  have hroot : ∀ {a}, s.Root a → ∀ b, Reach s'.heap (.ref a) b → s.Holds b ∧ b < s.heap.length := fun {a} ha b hb => by
    obtain ⟨o, ho⟩ := hi.root ha
    have hb' := reach_frame hb (fun b hb => he.get (ho.lt hb))
    exact ⟨holds_iff.mpr ⟨a, ha, hb'⟩, ho.lt hb'⟩
  refine ⟨hst, hpd, ?_, ?_, hco⟩
  · rintro b hb ⟨a, ha, hab⟩
    obtain ⟨r, hr, hrb⟩ := holds_iff.mp hb
    rcases hro r hr with hr1 | hr1
    · obtain ⟨h1, h2⟩ := hroot hr1 b hrb
      rcases hkn a ha with ha1 | ha1
      · exact hi.apart b h1 (hold ha1 b hab)
      · exact absurd (ha1 b hab).1 (by omega)
    · rcases hkn a ha with ha1 | ha1
      · exact absurd (hi.known b (hold ha1 b hab)) (by have := hr1 b hrb; omega)
      · rcases hor with h | h
        · exact absurd (hi.known b (hold (h a ha) b hab)) (by have := hr1 b hrb; omega)
        · exact absurd (hroot (h r hr) b hrb).2 (by have := hr1 b hrb; omega)
  · rintro b ⟨a, ha, hab⟩
    rcases hkn a ha with ha1 | ha1
    · exact Nat.lt_of_lt_of_le (hi.known b (hold ha1 b hab)) he.1
    · exact (ha1 b hab).2

/-! ### the rest of the program -/

theorem EntryAt.frame {h h' : Heap} {p : String × Nat} {q : String × Obj} (hp : EntryAt h p q) (he : ∀ b, Reach h (.ref p.2) b → h'[b]? = h[b]?) : EntryAt h' p q :=
  ⟨hp.1, Reads.frame hp.2 he⟩

theorem PendAt.frame {h h' : Heap} {p : PEv} {e : CEv} (hp : PendAt h p e) (he : ∀ b, Reach h (.ref p.obj) b → h'[b]? = h[b]?) : PendAt h' p e := by
  cases p <;> cases e <;> first | exact Reads.frame hp he | exact hp.elim

/-- Whatever the rest of the program does, cells the cache holds stay as they are. -/
theorem HInv.other {s s' : HState} {c : VCache} {es : List CEv} (hi : HInv s c es) (ho : Other s s') :
    HInv s' c es ∧ ∀ b, s.Holds b → s'.heap[b]? = s.heap[b]? := by
  cases ho with
  | alloc cell hc =>
    have he : Ext nowhere s.heap (s.heap ++ [cell]) := Ext.append _ _ _
    have hkn : ∀ a, (s.Knows a ∨ a = s.heap.length) → ∀ b, Reach (s.heap ++ [cell]) (.ref a) b → s.Knows b ∨ b = s.heap.length := by
      intro a ha b hb
      refine reach_closed (A := fun b => s.Knows b ∨ b = s.heap.length) ?_ hb a rfl ha
      rintro a c' b (ha | rfl) hget href
      · rw [he.get (hi.known a ha)] at hget
        exact .inl (Knows.step ha hget href)
      · rw [List.getElem?_append_right (Nat.le_refl _)] at hget
        simp at hget; subst hget
        exact .inl (hc b href)
    have hknow : ∀ b, ({ s with heap := s.heap ++ [cell], known := s.heap.length :: s.known } : HState).Knows b → s.Knows b ∨ b = s.heap.length := by
      rintro b ⟨a, ha, hb⟩
      rcases List.mem_cons.mp ha with e | e
      · exact hkn a (.inr e) b hb
      · exact hkn a (.inl ⟨a, e, .here a⟩) b hb
    have hhold : ∀ b, ({ s with heap := s.heap ++ [cell], known := s.heap.length :: s.known } : HState).Holds b → s.Holds b ∧ b < s.heap.length := by
      intro b hb
      obtain ⟨r, hr, hrb⟩ := holds_iff.mp hb
      obtain ⟨o, ho⟩ := hi.root (a := r) hr
      have hb' := reach_frame hrb (fun b hb => he.get (ho.lt hb))
      exact ⟨holds_iff.mpr ⟨r, hr, hb'⟩, ho.lt hb'⟩
    refine ⟨⟨fun g => (hi.stored g).map_rel (fun _ _ _ _ h => h.grow he), hi.pending.map_rel (fun _ _ _ _ h => h.grow he), ?_, ?_, hi.copied⟩, ?_⟩
    · intro b hb hk
      obtain ⟨h1, h2⟩ := hhold b hb
      rcases hknow b hk with h3 | h3
      · exact hi.apart b h1 h3
      · omega
    · intro b hk
      show b < (s.heap ++ [cell]).length
      rw [List.length_append, List.length_singleton]
      rcases hknow b hk with h3 | h3
      · have := hi.known b h3; omega
      · omega
    · intro b hb
      obtain ⟨r, hr, hrb⟩ := holds_iff.mp hb
      obtain ⟨o, ho⟩ := hi.root hr
      exact he.get (ho.lt hrb)
  | write x cell hx hc =>
    have hne : ∀ b, s.Holds b → (s.heap.set x cell)[b]? = s.heap[b]? := fun b hb => set_other (fun e => hi.apart b hb (e ▸ hx))
    have hknow : ∀ b, ({ s with heap := s.heap.set x cell } : HState).Knows b → s.Knows b := by
      rintro b ⟨a, ha, hb⟩
      refine reach_closed (A := s.Knows) ?_ hb a rfl ⟨a, ha, .here a⟩
      intro a c' b ha hget href
      by_cases e : a = x
      · subst e
        rw [List.getElem?_set_self (hi.known _ hx)] at hget
        injection hget with hget; subst hget
        exact hc b href
      · rw [set_other e] at hget
        exact Knows.step ha hget href
    have hroot : ∀ r, s.Root r → ∀ b, Reach s.heap (.ref r) b → (s.heap.set x cell)[b]? = s.heap[b]? := fun r hr b hb => hne b (holds_iff.mpr ⟨r, hr, hb⟩)
    have hhold : ∀ b, ({ s with heap := s.heap.set x cell } : HState).Holds b → s.Holds b := by
      intro b hb
      obtain ⟨r, hr, hrb⟩ := holds_iff.mp hb
      exact holds_iff.mpr ⟨r, hr, reach_frame hrb (hroot r hr)⟩
    refine ⟨⟨fun g => (hi.stored g).map_rel (fun p _ hp _ h => h.frame (hroot _ (.inl ⟨g, p, hp, rfl⟩))),
      hi.pending.map_rel (fun p _ hp _ h => h.frame (hroot _ (.inr ⟨p, hp, rfl⟩))), fun b hb hk => hi.apart b (hhold b hb) (hknow b hk), ?_, hi.copied⟩, hne⟩
    intro b hk
    show b < (s.heap.set x cell).length
    rw [List.length_set]
    exact hi.known b (hknow b hk)

/-! ### the cache on values -/

theorem step_add {hash : String → String} {c : VCache} {o : Obj} (hv : isViewKind (objGVK o) = true) :
    (c.step hash (.add o)).stored = upd c.stored (objGVK o) ((c.stored (objGVK o)).set (cacheKey (objKey (withUID hash (copyObj o)))) (withUID hash (copyObj o))) := by
  rw [VCache.step, VCache.add, if_pos hv]
  simp only
  obtain ⟨c', hc'⟩ := VCache.notify_some (c := { c with stored := upd c.stored (objGVK o) ((c.stored (objGVK o)).set (cacheKey (objKey (withUID hash (copyObj o)))) (withUID hash (copyObj o))) }) hv
    (.add (copyObj (withUID hash (copyObj o))))
  rw [hc', Option.getD_some, VCache.notify_stored hc']

theorem step_update {hash : String → String} {c : VCache} {old o : Obj} (hv : isViewKind (objGVK (withUID hash (copyObj o))) = true) (hne : old ≠ withUID hash (copyObj o)) :
    (c.step hash (.update old o)).stored = upd c.stored (objGVK (withUID hash (copyObj o))) ((c.stored (objGVK (withUID hash (copyObj o)))).set
      (cacheKey (objKey (withUID hash (copyObj o)))) (withUID hash (copyObj o))) := by
  rw [VCache.step, VCache.update, if_pos hv, if_neg hne]
  obtain ⟨c', hc'⟩ := VCache.notify_some (c := { c with stored := upd c.stored (objGVK (withUID hash (copyObj o))) ((c.stored (objGVK (withUID hash (copyObj o)))).set
      (cacheKey (objKey (withUID hash (copyObj o)))) (withUID hash (copyObj o))) }) hv (.update old (copyObj (withUID hash (copyObj o))))
  rw [hc', Option.getD_some, VCache.notify_stored hc']

theorem step_delete {hash : String → String} {c : VCache} {o x : Obj} (hv : isViewKind (objGVK o) = true) (hx : (c.stored (objGVK o)).get (cacheKey (objKey o)) = some x) :
    (c.step hash (.delete o)).stored = upd c.stored (objGVK o) ((c.stored (objGVK o)).erase (cacheKey (objKey x))) := by
  rw [VCache.step, VCache.delete, if_pos hv, hx]
  simp only
  obtain ⟨c', hc'⟩ := VCache.notify_some (c := { c with stored := upd c.stored (objGVK o) ((c.stored (objGVK o)).erase (cacheKey (objKey x))) }) hv (.delete (copyObj x))
  rw [hc', Option.getD_some, VCache.notify_stored hc']

/-- The kind of what is stored is that of what was given. -/
theorem view_written {hash : String → String} {o : Obj} (hc : Obj.Ok o) : isViewKind (objGVK (withUID hash (copyObj o))) = isViewKind (objGVK o) := by
  cases h : isViewKind (objGVK o) with
  | true => rw [show objGVK (withUID hash (copyObj o)) = objGVK o from written_gvk hc h, h]
  | false =>
    cases h' : isViewKind (objGVK (withUID hash (copyObj o))) with
    | false => rfl
    | true =>
      rw [show objGVK (withUID hash (copyObj o)) = objGVK (copyObj o) from written_gvk' hc] at h'
      rw [copyObj_not_view hc h'] at h; cases h

/-- A copy that gets a UID: `Add` and `Update`. -/
theorem written_spec {hash : String → String} (hh : ∀ s, hash s ≠ "") {n : Nat} {h h1 h2 : Heap} {a a' : Nat} {o : Obj} (ho : ObjAt h a o) (hc : Obj.Ok o)
    (h1' : copyObjH n h a = some (h1, a')) (h2' : withUIDH hash n h1 a' = some h2) :
    ObjAt h2 a' (withUID hash (copyObj o)) ∧ (∀ b, Reach h2 (.ref a') b → h.length ≤ b) ∧ Ext nowhere h h2 := by
  obtain ⟨hf, he⟩ := copyObjH_fresh ho h1'
  obtain ⟨h3, h4, h5⟩ := withUIDH_spec hh hf he.1 (copyObj_canon hc).sorted h2'
  exact ⟨h3, h4, ext_of_above he h5⟩

theorem upd_self {A B : Type} [DecidableEq A] (f : A → B) (a : A) (b : B) : upd f a b a = b := by rw [upd, if_pos rfl]

theorem upd_ne {A B : Type} [DecidableEq A] (f : A → B) {a x : A} (b : B) (h : x ≠ a) : upd f a b x = f x := by rw [upd, if_neg h]

/-- Something new is stored and handlers are to be called with it. -/
theorem HInv.store {s : HState} {c c' : VCache} {es : List CEv} (hi : HInv s c es) {h' : Heap} {a : Nat} {o : Obj} {g : GVK} {k : String} {p : PEv} {e : CEv} {tg : Nat} {kn : List Nat}
    (hkn : ∀ x ∈ kn, s.Knows x) (he : Ext nowhere s.heap h') (ho : ObjAt h' a o) (hnew : ∀ b, Reach h' (.ref a) b → s.heap.length ≤ b) (hp : PendAt h' p e) (hpa : p.obj = a)
    (hco : copyObj o = o) (hst : c'.stored = upd c.stored g ((c.stored g).set k o)) :
    HInv ({ s with heap := h', stored := upd s.stored g ((s.stored g).set k a), known := kn }.notify p tg) c' (es ++ List.replicate tg e) := by
  have hstg : ∀ g', All2 (EntryAt h') (s.stored g') (c.stored g') := fun g' => (hi.stored g').map_rel (fun _ _ _ _ h => h.grow he)
  have hroot : ∀ x, ({ s with heap := h', stored := upd s.stored g ((s.stored g).set k a), known := kn }.notify p tg).Root x → s.Root x ∨ x = a := by
    rintro x (⟨g', q, hq, rfl⟩ | ⟨q, hq, rfl⟩)
    · simp only [HState.notify] at hq
      by_cases hg : g' = g
      · subst hg
        rw [upd_self] at hq
        rcases mem_amap_set hq with e | e
        · exact .inr (by rw [e])
        · exact .inl (.inl ⟨_, q, e, rfl⟩)
      · rw [upd_ne _ _ hg] at hq
        exact .inl (.inl ⟨_, q, hq, rfl⟩)
    · simp only [HState.notify] at hq
      rcases List.mem_append.mp hq with h | h
      · exact .inl (.inr ⟨q, h, rfl⟩)
      · rw [(List.mem_replicate.mp h).2]; exact .inr hpa
  refine hi.next he (fun g' => ?_) ((hi.pending.map_rel (fun _ _ _ _ h => h.grow he)).app (All2.rep hp tg)) (fun x hx => .inl (hkn x hx)) (fun x hx => ?_) (.inl fun x hx => hkn x hx)
    (fun g' q hq => ?_)
  · show All2 _ (upd s.stored g ((s.stored g).set k a) g') _
    rw [hst]
    by_cases hg : g' = g
    · subst hg; rw [upd_self, upd_self]; exact all2_set (hstg g') k ho
    · rw [upd_ne _ _ hg, upd_ne _ _ hg]; exact hstg g'
  · rcases hroot x hx with h | h
    · exact .inl h
    · exact .inr (by rw [h]; exact hnew)
  · rw [hst] at hq
    by_cases hg : g' = g
    · subst hg
      rw [upd_self] at hq
      rcases mem_amap_set hq with e | e
      · rw [e]; exact hco
      · exact hi.copied g' q e
    · rw [upd_ne _ _ hg] at hq; exact hi.copied g' q hq

/-- Memory is allocated and nothing kept. -/
theorem HInv.grow {s : HState} {c : VCache} {es : List CEv} (hi : HInv s c es) {h' : Heap} (he : Ext nowhere s.heap h') : HInv { s with heap := h' } c es :=
  hi.next he (fun g => (hi.stored g).map_rel (fun _ _ _ _ h => h.grow he)) (hi.pending.map_rel (fun _ _ _ _ h => h.grow he)) (fun x hx => .inl ⟨x, hx, .here x⟩) (fun _ hx => .inl hx)
    (.inl fun x hx => ⟨x, hx, .here x⟩) hi.copied

/-- New objects are given to the rest of the program, which may no longer be the business of the cache. -/
theorem HInv.give {s : HState} {c : VCache} {es es' : List CEv} (hi : HInv s c es) {h' : Heap} (he : Ext nowhere s.heap h') {as : List Nat} {pd : List PEv}
    (hnew : ∀ a ∈ as, ∀ b, Reach h' (.ref a) b → s.heap.length ≤ b ∧ b < h'.length) (hpd : All2 (PendAt h') pd es') (hsub : ∀ p ∈ pd, p ∈ s.pending) :
    HInv ({ s with pending := pd }.give h' as) c es' := by
  refine hi.next he (fun g => (hi.stored g).map_rel (fun _ _ _ _ h => h.grow he)) hpd (fun x hx => ?_) (fun x hx => ?_) (.inr fun x hx => ?_) hi.copied
  · rcases List.mem_append.mp hx with h | h
    · exact .inr (hnew x h)
    · exact .inl ⟨x, h, .here x⟩
  · refine .inl ?_
    rcases hx with h | ⟨q, hq, e⟩
    · exact .inl h
    · exact .inr ⟨q, hsub q hq, e⟩
  · rcases hx with h | ⟨q, hq, e⟩
    · exact .inl h
    · exact .inr ⟨q, hsub q hq, e⟩

/-- The loop of `List`. -/
theorem listGo_spec {n : Nat} {sel : Select} : ∀ {as : List Nat} {os : List Obj} {h h' : Heap} {rs : List Nat}, All2 (ObjAt h) as os → (∀ o ∈ os, copyObj o = o) →
    HState.listGo n sel h as = some (h', rs) → Ext nowhere h h' ∧ All2 (ObjAt h') rs ((os.filter sel.includes).map copyObj) ∧
    ∀ r ∈ rs, ∀ b, Reach h' (.ref r) b → h.length ≤ b
  | [], os, h, h', rs, ha, _, hl => by
    cases ha
    rw [HState.listGo] at hl; injection hl with hl; injection hl with e1 e2; subst e1; subst e2
    exact ⟨Ext.refl _ _, .nil, fun r hr => absurd hr (by simp)⟩
  | a :: as, os, h, h', rs, ha, hco, hl => by
    cases ha with
    | @cons _ o _ os ho hos =>
    rw [HState.listGo] at hl
    split at hl
    case h_2 => cases hl
    rename_i o' hr
    have heq := ho.read hr
    injection heq with heq; subst heq
    split at hl
    · rename_i hinc
      split at hl
      case h_1 => cases hl
      rename_i h1 a1 hc1
      split at hl
      case h_1 => cases hl
      rename_i h2 a2 hc2
      split at hl
      case h_1 => cases hl
      rename_i h3 rs' hl'
      injection hl with hl; injection hl with e1 e2; subst e1; subst e2
      obtain ⟨hf1, he1⟩ := copyObjH_fresh ho hc1
      obtain ⟨hf2, he2⟩ := copyObjH_fresh hf1.reads hc2
      have he12 : Ext nowhere h h2 := he1.trans he2 (fun _ _ h => h)
      obtain ⟨he3, hr3, hn3⟩ := listGo_spec (hos.map_rel (fun _ _ _ _ h => ObjAt.grow h he12)) (fun o ho => hco o (by simp [ho])) hl'
      rw [List.filter_cons_of_pos hinc, List.map_cons]
      have e : copyObj (copyObj o') = copyObj o' := by rw [hco o' (by simp), hco o' (by simp)]
      have hf2r := hf2.reads
      rw [e] at hf2r
      refine ⟨he12.trans he3 (fun _ _ h => h), .cons (hf2r.grow he3) hr3, fun r hr b hb => ?_⟩
      rcases List.mem_cons.mp hr with e | e
      · subst e
        have := hf2.new b (reach_frame hb (fun b hb => he3.get (hf2r.lt hb)))
        exact Nat.le_trans he1.1 this
      · exact Nat.le_trans he12.1 (hn3 r e b hb)
    · rename_i hinc
      rw [List.filter_cons_of_neg hinc]
      exact listGo_spec hos (fun o ho => hco o (by simp [ho])) hl

/-- Each call has the result it has on values, and leaves the cells that the cache holds as they are. -/
theorem HInv.call {hash : String → String} (hh : ∀ s, hash s ≠ "") {s s' : HState} {c : VCache} {es : List CEv} {x : HCall} (hi : HInv s c es) (hs : HStep hash s x s') :
    (∃ c' es', VStep hash (c, es) x (c', es') ∧ HInv s' c' es') ∧ Ext nowhere s.heap s'.heap := by
  cases hs with
  | @add _ n a tg o ok hk ho hc hx =>
    rw [HState.add] at hx
    split at hx
    case h_2 => cases hx
    rename_i o1 hr
    have heq := ho.read hr
    injection heq with heq; subst heq
    split at hx
    · rename_i hv
      split at hx
      case h_1 => cases hx
      rename_i h1 a' h1'
      split at hx
      case h_1 => cases hx
      rename_i h2 h2'
      split at hx
      case h_2 => cases hx
      rename_i o2 hr2
      injection hx with hx; injection hx with e1 e2; subst e1; subst e2
      obtain ⟨hw, hn, he⟩ := written_spec hh ho hc h1' h2'
      have heq := hw.read hr2
      injection heq with heq; subst heq
      exact ⟨⟨_, _, .add c es _ tg hv, hi.store (fun x hx => ⟨x, hx, .here x⟩) he hw hn (p := .add a') (e := .add _) hw rfl (written_copy hc hv) (step_add hv)⟩, he⟩
    · rename_i hv
      injection hx with hx; injection hx with e1 e2; subst e1; subst e2
      exact ⟨⟨_, _, .addFails c es _ tg (by simpa using hv), hi⟩, Ext.refl _ _⟩
  | @update _ n old a tg oldO o ok hk1 hk2 ho1 ho2 hc hx =>
    rw [HState.update] at hx
    split at hx
    case h_1 => cases hx
    rename_i h1 a' h1'
    split at hx
    case h_1 => cases hx
    rename_i h2 h2'
    obtain ⟨hw, hn, he⟩ := written_spec hh ho2 hc h1' h2'
    split at hx
    case h_2 => cases hx
    rename_i o2 j2 hr2 hr3
    have heq := hw.read hr2
    injection heq with heq; subst heq
    have heq2 := (ho1.grow he).read hr3
    subst heq2
    split at hx
    · rename_i hv
      have hvo : isViewKind (objGVK o) = true := by rw [← view_written (hash := hash) hc]; exact hv
      split at hx
      · rename_i heq
        injection heq with heq
        injection hx with hx; injection hx with e1 e2; subst e1; subst e2
        exact ⟨⟨_, _, .updateSame c es _ _ tg hvo heq, hi.grow he⟩, he⟩
      · rename_i hne
        injection hx with hx; injection hx with e1 e2; subst e1; subst e2
        have hknown : ∀ x ∈ old :: s.known, s.Knows x := fun x hx => by
          rcases List.mem_cons.mp hx with e | e
          · rw [e]; exact hk1
          · exact ⟨x, e, .here x⟩
        have hne' : oldO ≠ withUID hash (copyObj o) := fun e => hne (by rw [e])
        exact ⟨⟨_, _, .update c es _ _ tg hvo hne', hi.store (kn := old :: s.known) hknown he hw hn (p := .update old a') (e := .update oldO _) hw rfl (written_copy hc hvo) (step_update hv hne')⟩, he⟩
    · rename_i hv
      have hvo : isViewKind (objGVK o) = false := by rw [← view_written (hash := hash) hc]; simpa using hv
      injection hx with hx; injection hx with e1 e2; subst e1; subst e2
      exact ⟨⟨_, _, .updateFails c es _ _ tg hvo, hi.grow he⟩, he⟩
  | @delete _ n a tg o ok hk ho hx =>
    rw [HState.delete] at hx
    split at hx
    case h_2 => cases hx
    rename_i o1 hr
    have heq := ho.read hr
    injection heq with heq; subst heq
    split at hx
    · rename_i hv
      rcases all2_lookup (hi.stored (objGVK o1)) (cacheKey (objKey o1)) with ⟨h1, h2⟩ | ⟨y, yo, h1, h2, hy⟩
      · rw [h1] at hx
        injection hx with hx; injection hx with e1 e2; subst e1; subst e2
        refine ⟨⟨_, _, .deleteFails c es _ tg ?_, hi⟩, Ext.refl _ _⟩
        rw [VCache.get, if_pos hv, h2]; rfl
      · rw [h1] at hx
        simp only at hx
        split at hx
        case h_2 => cases hx
        rename_i yo' hry
        have heq := hy.read hry
        injection heq with heq; subst heq
        injection hx with hx; injection hx with e1 e2; subst e1; subst e2
        refine ⟨⟨_, _, .delete c es _ _ tg hv h2, ?_⟩, Ext.refl _ _⟩
        have hst := step_delete (hash := hash) hv h2
        have hroot : ∀ z, ({ s with stored := upd s.stored (objGVK o1) ((s.stored (objGVK o1)).erase (cacheKey (objKey yo'))) }.notify (.delete y) tg).Root z → s.Root z := by
          rintro z (⟨g', q, hq, rfl⟩ | ⟨q, hq, rfl⟩)
          · simp only [HState.notify] at hq
            by_cases hg : g' = objGVK o1
            · subst hg; rw [upd_self] at hq; exact .inl ⟨_, q, mem_amap_erase hq, rfl⟩
            · rw [upd_ne _ _ hg] at hq; exact .inl ⟨_, q, hq, rfl⟩
          · simp only [HState.notify] at hq
            rcases List.mem_append.mp hq with h | h
            · exact .inr ⟨q, h, rfl⟩
            · rw [(List.mem_replicate.mp h).2]; exact .inl ⟨_, _, AMap.mem_of_get h1, rfl⟩
        refine hi.next (Ext.refl _ _) (fun g' => ?_) (hi.pending.app (All2.rep (a := PEv.delete y) (b := CEv.delete yo') hy tg)) (fun z hz => .inl ⟨z, hz, .here z⟩) (fun z hz => .inl (hroot z hz))
          (.inl fun z hz => ⟨z, hz, .here z⟩) (fun g' q hq => ?_)
        · show All2 _ (upd s.stored (objGVK o1) _ g') _
          rw [hst]
          by_cases hg : g' = objGVK o1
          · subst hg; rw [upd_self, upd_self]; exact all2_erase (hi.stored _) _
          · rw [upd_ne _ _ hg, upd_ne _ _ hg]; exact hi.stored g'
        · rw [hst] at hq
          by_cases hg : g' = objGVK o1
          · subst hg; rw [upd_self] at hq; exact hi.copied _ q (mem_amap_erase hq)
          · rw [upd_ne _ _ hg] at hq; exact hi.copied g' q hq
    · rename_i hv
      injection hx with hx; injection hx with e1 e2; subst e1; subst e2
      refine ⟨⟨_, _, .deleteFails c es _ tg ?_, hi⟩, Ext.refl _ _⟩
      rw [VCache.get, if_neg hv]
  | @get _ n g k a r hx hr =>
    rw [HState.get] at hx
    have key : ∀ r', c.get g k = r' → r = r' → VStep hash (c, es) (.get g k r) (c, es) := fun r' h1 h2 => by rw [h2, ← h1]; exact .get c es g k
    split at hx
    · rename_i hv
      rcases all2_lookup (hi.stored g) (cacheKey k) with ⟨h1, h2⟩ | ⟨y, yo, h1, h2, hy⟩
      · rw [h1] at hx
        injection hx with hx; injection hx with e1 e2; subst e1; subst e2
        have hcg : c.get g k = none := by rw [VCache.get, if_pos hv, h2]; rfl
        refine ⟨⟨_, _, key none hcg ?_, hi⟩, Ext.refl _ _⟩
        cases r with
        | none => rfl
        | some _ => exact hr.elim
      · rw [h1] at hx
        simp only at hx
        split at hx
        case h_1 => cases hx
        rename_i h' a' hcp
        injection hx with hx; injection hx with e1 e2; subst e1; subst e2
        obtain ⟨hf, he⟩ := copyObjH_fresh hy hcp
        have hcg : c.get g k = some (copyObj yo) := by rw [VCache.get, if_pos hv, h2]; rfl
        refine ⟨⟨_, _, key _ hcg ?_, hi.give he (fun z hz b hb => ?_) (hi.pending.map_rel (fun _ _ _ _ h => h.grow he)) (fun _ h => h)⟩, he⟩
        · cases r with
          | none => exact hr.elim
          | some ro => rw [ObjAt.unique hr hf.reads]
        · rw [List.mem_singleton.mp hz] at hb
          exact ⟨hf.new b hb, hf.reads.lt hb⟩
    · rename_i hv
      injection hx with hx; injection hx with e1 e2; subst e1; subst e2
      have hcg : c.get g k = none := by rw [VCache.get, if_neg hv]
      refine ⟨⟨_, _, key none hcg ?_, hi⟩, Ext.refl _ _⟩
      cases r with
      | none => rfl
      | some _ => exact hr.elim
  | @list _ n g sel as r hx hr =>
    rw [HState.list] at hx
    have key : ∀ r', c.list g sel = r' → r = r' → VStep hash (c, es) (.list g sel r) (c, es) := fun r' h1 h2 => by rw [h2, ← h1]; exact .list c es g sel
    split at hx
    · rename_i hv
      split at hx
      case h_1 => cases hx
      rename_i h' rs hl
      injection hx with hx; injection hx with e1 e2; subst e1; subst e2
      have hall : All2 (ObjAt s.heap) ((s.stored (objFromList g)).map (·.2)) ((c.stored (objFromList g)).map (·.2)) := by
        have hst := hi.stored (objFromList g)
        generalize s.stored (objFromList g) = l1 at hst
        generalize c.stored (objFromList g) = l2 at hst
        induction hst with
        | nil => exact .nil
        | cons hr _ ih => exact .cons hr.2 ih
      obtain ⟨he, ha, hn⟩ := listGo_spec hall (fun o ho => by
        obtain ⟨q, hq, e⟩ := List.mem_map.mp ho
        rw [← e]; exact hi.copied _ q hq) hl
      have hcl : c.list g sel = some ((((c.stored (objFromList g)).map (·.2)).filter sel.includes).map copyObj) := by rw [VCache.list]; simp only [if_pos hv]
      refine ⟨⟨_, _, key _ hcl ?_, hi.give he (fun z hz b hb => ?_) (hi.pending.map_rel (fun _ _ _ _ h => h.grow he)) (fun _ h => h)⟩, he⟩
      · cases r with
        | none => exact hr.elim
        | some ro =>
          have hr' : All2 (ObjAt h') rs ro := hr
          refine congrArg some ?_
          clear hr hn hl key
          generalize List.map copyObj (((c.stored (objFromList g)).map (·.2)).filter sel.includes) = l at ha
          clear hcl hall
          induction ha generalizing ro with
          | nil => cases hr'; rfl
          | cons h1 _ ih =>
            cases hr' with
            | cons h2 h3 => rw [ObjAt.unique h2 h1, ih _ h3]
      · obtain ⟨o, _, ho⟩ := ha.left hz
        exact ⟨hn z hz b hb, ho.lt hb⟩
    · rename_i hv
      injection hx with hx; injection hx with e1 e2; subst e1; subst e2
      have hcl : c.list g sel = none := by rw [VCache.list]; simp only [if_neg hv]
      refine ⟨⟨_, _, key none hcl ?_, hi⟩, Ext.refl _ _⟩
      cases r with
      | none => rfl
      | some _ => exact hr.elim
  | @deliver _ n i p e hx hev =>
    rw [HState.deliver] at hx
    rcases hi.pending.get i with ⟨h1, h2⟩ | ⟨q, f, h1, h2, hq⟩
    · rw [h1] at hx; cases hx
    · rw [h1] at hx
      simp only at hx
      split at hx
      case h_1 => cases hx
      rename_i h' a' hcp
      injection hx with hx; injection hx with e1 e2; subst e1; subst e2
      have hsub : ∀ p ∈ s.pending.eraseIdx i, p ∈ s.pending := fun p hp => List.mem_of_mem_eraseIdx hp
      have main : ∀ o, ObjAt s.heap q.obj o → (∀ o', ObjAt h' a' o' → o' = copyObj o) ∧ Ext nowhere s.heap h' ∧
          HInv ({ s with pending := s.pending.eraseIdx i }.give h' [a']) c (es.eraseIdx i) := by
        intro o hqo
        obtain ⟨hf, he⟩ := copyObjH_fresh hqo hcp
        refine ⟨fun o' ho' => ObjAt.unique ho' hf.reads, he, hi.give he (fun z hz b hb => ?_) ((hi.pending.map_rel (fun _ _ _ _ h => h.grow he)).eraseIdx i) hsub⟩
        rw [List.mem_singleton.mp hz] at hb
        exact ⟨hf.new b hb, hf.reads.lt hb⟩
      cases q with
      | add y =>
        cases f with
        | add o =>
          obtain ⟨h3, h4, h5⟩ := main o hq
          cases e with
          | add o' => exact ⟨⟨_, _, .deliver c es i _ _ h2 (h3 o' hev), h5⟩, h4⟩
          | _ => exact hev.elim
        | _ => exact hq.elim
      | update old y =>
        cases f with
        | update oldO o =>
          obtain ⟨h3, h4, h5⟩ := main o hq
          cases e with
          | update oldO' o' => exact ⟨⟨_, _, .deliver c es i _ _ h2 (h3 o' hev.2), h5⟩, h4⟩
          | _ => exact hev.elim
        | _ => exact hq.elim
      | delete y =>
        cases f with
        | delete o =>
          obtain ⟨h3, h4, h5⟩ := main o hq
          cases e with
          | delete o' => exact ⟨⟨_, _, .deliver c es i _ _ h2 (h3 o' hev), h5⟩, h4⟩
          | _ => exact hev.elim
        | _ => exact hq.elim
  | @register g is hp =>
    refine ⟨⟨_, _, .register c es g is (by rw [← (hi.stored g).len]; exact hp), ?_⟩, Ext.refl _ _⟩
    have hall : All2 (PendAt s.heap) ((is.filterMap (fun i => ((s.stored g)[i]?).map (·.2))).map .add) ((is.filterMap (fun i => ((c.stored g)[i]?).map (·.2))).map .add) := by
      clear hp
      induction is with
      | nil => exact .nil
      | cons i is ih =>
        rcases (hi.stored g).get i with ⟨h1, h2⟩ | ⟨q, f, h1, h2, hq⟩
        · rw [List.filterMap_cons, List.filterMap_cons, h1, h2]; exact ih
        · rw [List.filterMap_cons, List.filterMap_cons, h1, h2]
          exact .cons hq.2 ih
    have hroot : ∀ z, (s.register g is).Root z → s.Root z := by
      rintro z (h | ⟨q, hq, rfl⟩)
      · exact .inl h
      · rcases List.mem_append.mp hq with h | h
        · exact .inr ⟨q, h, rfl⟩
        · obtain ⟨y, hy, rfl⟩ := List.mem_map.mp h
          obtain ⟨i, _, hi'⟩ := List.mem_filterMap.mp hy
          obtain ⟨p, hp', e⟩ := Option.map_eq_some_iff.mp hi'
          exact .inl ⟨g, p, List.mem_of_getElem? hp', e⟩
    exact hi.next (Ext.refl _ _) hi.stored (hi.pending.app hall) (fun z hz => .inl ⟨z, hz, .here z⟩) (fun z hz => .inl (hroot z hz)) (.inl fun z hz => ⟨z, hz, .here z⟩) hi.copied

/-- Every run in memory is a run on values. -/
theorem HRun.inv {hash : String → String} (hh : ∀ s, hash s ≠ "") {tr : List HCall} {s : HState} (hr : HRun hash tr s) :
    ∃ c es, VRun hash tr (c, es) ∧ HInv s c es := by
  induction hr with
  | start =>
    refine ⟨_, _, .start, fun g => .nil, .nil, ?_, ?_, fun g q hq => absurd hq (by simp [VCache.init])⟩
    · rintro b (⟨g, p, hp, _⟩ | ⟨e, he, _⟩)
      · exact absurd hp (by simp [HState.init])
      · exact absurd he (by simp [HState.init])
    · rintro b ⟨a, ha, _⟩; exact absurd ha (by simp [HState.init])
  | other _ ho ih =>
    obtain ⟨c, es, hv, hi⟩ := ih
    exact ⟨c, es, hv, (hi.other ho).1⟩
  | call _ hs ih =>
    obtain ⟨c, es, hv, hi⟩ := ih
    obtain ⟨⟨c', es', h1, h2⟩, -⟩ := hi.call hh hs
    exact ⟨c', es', hv.call h1, h2⟩

/-! ### calls end -/

theorem withUIDH_ends {hash : String → String} {h : Heap} {a : Nat} {o : Obj} (ho : ObjAt h a o) : ∃ N h', ∀ n, N ≤ n → withUIDH hash n h a = some h' := by
  obtain ⟨N, hN⟩ := ho
  by_cases hc : (!isViewKind (objGVK o) || objUID o != "") = true
  · refine ⟨N, h, fun n hn => ?_⟩
    rw [withUIDH, read_mono hN hn]; simp only [if_pos hc]
  · refine ⟨N, setNestedH ["metadata", "uid"] h a (.str (newUID hash (objGVK o) (objKey o).1 (objKey o).2)), fun n hn => ?_⟩
    rw [withUIDH, read_mono hN hn]; simp only [if_neg hc]

theorem ObjAt.ends {h : Heap} {a : Nat} {o : Obj} (ho : ObjAt h a o) : ∃ N, ∀ n, N ≤ n → Mem.read n h (.ref a) = some (.map o) := by
  obtain ⟨N, hN⟩ := ho
  exact ⟨N, fun n hn => read_mono hN hn⟩

/-- The first two steps of `Add` and `Update` end. -/
theorem written_ends {hash : String → String} (hh : ∀ s, hash s ≠ "") {h : Heap} {a : Nat} {o : Obj} (ho : ObjAt h a o) (hc : Obj.Ok o) :
    ∃ N h1 a' h2, ∀ n, N ≤ n → copyObjH n h a = some (h1, a') ∧ withUIDH hash n h1 a' = some h2 ∧ Mem.read n h2 (.ref a') = some (.map (withUID hash (copyObj o))) ∧
      Ext nowhere h h2 := by
  obtain ⟨N1, h1, a', H1⟩ := copyObjH_ends ho
  have hf := (copyObjH_fresh ho (H1 N1 (Nat.le_refl _))).1
  obtain ⟨N2, h2, H2⟩ := withUIDH_ends (hash := hash) hf.reads
  obtain ⟨hw, -, he⟩ := written_spec hh ho hc (H1 (max N1 N2) (by omega)) (H2 (max N1 N2) (by omega))
  obtain ⟨N3, H3⟩ := ObjAt.ends hw
  exact ⟨max N1 (max N2 N3), h1, a', h2, fun n hn => ⟨H1 n (by omega), H2 n (by omega), H3 n (by omega), he⟩⟩

theorem add_ends {hash : String → String} (hh : ∀ s, hash s ≠ "") {s : HState} {a tg : Nat} {o : Obj} (ho : ObjAt s.heap a o) (hc : Obj.Ok o) :
    ∃ N s', ∀ n, N ≤ n → s.add hash n a tg = some (s', isViewKind (objGVK o)) := by
  obtain ⟨N1, h1, a', h2, H⟩ := written_ends hh ho hc
  obtain ⟨N2, H2⟩ := ObjAt.ends ho
  cases hv : isViewKind (objGVK o) with
  | true =>
    refine ⟨max N1 N2, { s with heap := h2, stored := upd s.stored (objGVK o) ((s.stored (objGVK o)).set (cacheKey (objKey (withUID hash (copyObj o)))) a') }.notify (.add a') tg, fun n hn => ?_⟩
    obtain ⟨e1, e2, e3, -⟩ := H n (by omega)
    rw [HState.add, H2 n (by omega)]; simp only [if_pos hv]; rw [e1]; simp only []; rw [e2]; simp only []; rw [e3]
  | false =>
    refine ⟨max N1 N2, s, fun n hn => ?_⟩
    rw [HState.add, H2 n (by omega)]; simp [hv]

theorem update_ends {hash : String → String} (hh : ∀ s, hash s ≠ "") {s : HState} {old a tg : Nat} {oldO o : Obj} (ho1 : ObjAt s.heap old oldO) (ho : ObjAt s.heap a o) (hc : Obj.Ok o) :
    ∃ N s', ∀ n, N ≤ n → s.update hash n old a tg = some (s', isViewKind (objGVK o)) := by
  obtain ⟨N1, h1, a', h2, H⟩ := written_ends hh ho hc
  obtain ⟨N2, H2⟩ := ObjAt.ends (ho1.grow (H N1 (Nat.le_refl _)).2.2.2)
  have hvw := view_written (hash := hash) hc
  cases hv : isViewKind (objGVK o) with
  | true =>
    rw [hv] at hvw
    by_cases he : Json.map oldO = .map (withUID hash (copyObj o))
    · refine ⟨max N1 N2, { s with heap := h2 }, fun n hn => ?_⟩
      obtain ⟨e1, e2, e3, -⟩ := H n (by omega)
      rw [HState.update, e1]; simp only []; rw [e2]; simp only []; rw [e3, H2 n (by omega)]; simp only [if_pos hvw, if_pos he]
    · refine ⟨max N1 N2, { s with
        heap := h2, stored := upd s.stored (objGVK (withUID hash (copyObj o))) ((s.stored (objGVK (withUID hash (copyObj o)))).set
          (cacheKey (objKey (withUID hash (copyObj o)))) a'), known := old :: s.known }.notify (.update old a') tg, fun n hn => ?_⟩
      obtain ⟨e1, e2, e3, -⟩ := H n (by omega)
      rw [HState.update, e1]; simp only []; rw [e2]; simp only []; rw [e3, H2 n (by omega)]; simp only [if_pos hvw, if_neg he]
  | false =>
    rw [hv] at hvw
    refine ⟨max N1 N2, { s with heap := h2 }, fun n hn => ?_⟩
    obtain ⟨e1, e2, e3, -⟩ := H n (by omega)
    rw [HState.update, e1]; simp only []; rw [e2]; simp only []; rw [e3, H2 n (by omega)]; simp [hvw]

theorem HInv.delete_ends {s : HState} {c : VCache} {es : List CEv} (hi : HInv s c es) {a tg : Nat} {o : Obj} (ho : ObjAt s.heap a o) :
    ∃ N s' ok, ∀ n, N ≤ n → s.delete n a tg = some (s', ok) := by
  obtain ⟨N1, H1⟩ := ObjAt.ends ho
  by_cases hv : isViewKind (objGVK o) = true
  · rcases all2_lookup (hi.stored (objGVK o)) (cacheKey (objKey o)) with ⟨h1, h2⟩ | ⟨y, yo, h1, h2, hy⟩
    · refine ⟨N1, s, false, fun n hn => ?_⟩
      rw [HState.delete, H1 n hn]; simp only [if_pos hv]; rw [h1]
    · obtain ⟨N2, H2⟩ := ObjAt.ends hy
      refine ⟨max N1 N2, { s with stored := upd s.stored (objGVK o) ((s.stored (objGVK o)).erase (cacheKey (objKey yo))) }.notify (.delete y) tg, true, fun n hn => ?_⟩
      rw [HState.delete, H1 n (by omega)]; simp only [if_pos hv]; rw [h1]; simp only []; rw [H2 n (by omega)]
  · refine ⟨N1, s, false, fun n hn => ?_⟩
    rw [HState.delete, H1 n hn]; simp only [if_neg hv]

theorem HInv.get_ends {s : HState} {c : VCache} {es : List CEv} (hi : HInv s c es) (g : GVK) (k : ObjKey) : ∃ N s' r, ∀ n, N ≤ n → s.get n g k = some (s', r) := by
  by_cases hv : isViewKind g = true
  · rcases all2_lookup (hi.stored g) (cacheKey k) with ⟨h1, h2⟩ | ⟨y, yo, h1, h2, hy⟩
    · refine ⟨0, s, none, fun n hn => ?_⟩
      rw [HState.get, if_pos hv, h1]
    · obtain ⟨N, h', a', H⟩ := copyObjH_ends hy
      refine ⟨N, s.give h' [a'], some a', fun n hn => ?_⟩
      rw [HState.get, if_pos hv, h1]; simp only []; rw [H n hn]
  · exact ⟨0, s, none, fun n _ => by rw [HState.get, if_neg hv]⟩

theorem listGo_ends {sel : Select} : ∀ {as : List Nat} {os : List Obj} {h : Heap}, All2 (ObjAt h) as os → ∃ N r, ∀ n, N ≤ n → HState.listGo n sel h as = some r
  | [], _, h, _ => ⟨0, _, fun n _ => by rw [HState.listGo]⟩
  | a :: as, _, h, ha => by
    cases ha with
    | @cons _ o _ os ho hos =>
    obtain ⟨N0, H0⟩ := ObjAt.ends ho
    by_cases hs : sel.includes o = true
    · obtain ⟨N1, h1, a1, H1⟩ := copyObjH_ends ho
      obtain ⟨hf1, he1⟩ := copyObjH_fresh ho (H1 N1 (Nat.le_refl _))
      obtain ⟨N2, h2, a2, H2⟩ := copyObjH_ends hf1.reads
      obtain ⟨hf2, he2⟩ := copyObjH_fresh hf1.reads (H2 N2 (Nat.le_refl _))
      obtain ⟨N3, r, H3⟩ := listGo_ends (sel := sel) (hos.map_rel (fun _ _ _ _ h => (ObjAt.grow h he1).grow he2))
      refine ⟨max (max N0 N1) (max N2 N3), (r.1, a2 :: r.2), fun n hn => ?_⟩
      rw [HState.listGo, H0 n (by omega)]; simp only [if_pos hs]
      rw [H1 n (by omega)]; simp only []; rw [H2 n (by omega)]; simp only []; rw [H3 n (by omega)]
    · obtain ⟨N3, r, H3⟩ := listGo_ends (sel := sel) hos
      refine ⟨max N0 N3, r, fun n hn => ?_⟩
      rw [HState.listGo, H0 n (by omega)]; simp only [if_neg hs]
      exact H3 n (by omega)

theorem HInv.list_ends {s : HState} {c : VCache} {es : List CEv} (hi : HInv s c es) (g : GVK) (sel : Select) : ∃ N s' r, ∀ n, N ≤ n → s.list n g sel = some (s', r) := by
  by_cases hv : isViewKind (objFromList g) = true
  · have hall : ∃ os, All2 (ObjAt s.heap) ((s.stored (objFromList g)).map (·.2)) os := by
      have hst := hi.stored (objFromList g)
      generalize s.stored (objFromList g) = l1 at hst
      generalize c.stored (objFromList g) = l2 at hst
      induction hst with
      | nil => exact ⟨[], .nil⟩
      | cons hr _ ih => obtain ⟨os, h⟩ := ih; exact ⟨_ :: os, .cons hr.2 h⟩
    obtain ⟨os, hos⟩ := hall
    obtain ⟨N, r, H⟩ := listGo_ends (sel := sel) hos
    refine ⟨N, s.give r.1 r.2, some r.2, fun n hn => ?_⟩
    rw [HState.list, if_pos hv, H n hn]
  · exact ⟨0, s, none, fun n _ => by rw [HState.list, if_neg hv]⟩

theorem HInv.deliver_ends {s : HState} {c : VCache} {es : List CEv} (hi : HInv s c es) {i : Nat} (hl : i < s.pending.length) :
    ∃ N s' p, ∀ n, N ≤ n → s.deliver n i = some (s', p) := by
  rcases hi.pending.get i with ⟨h1, h2⟩ | ⟨q, f, h1, h2, hq⟩
  · rw [List.getElem?_eq_none_iff] at h1; omega
  · obtain ⟨o, ho⟩ := hq.obj
    obtain ⟨N, h', a', H⟩ := copyObjH_ends ho
    refine ⟨N, { s with pending := s.pending.eraseIdx i }.give h' [a'], q.withObj a', fun n hn => ?_⟩
    rw [HState.deliver, h1]; simp only []; rw [H n hn]

/-! ### what is handed out is new -/

theorem HInv.get_new {s s' : HState} {c : VCache} {es : List CEv} (hi : HInv s c es) {n a : Nat} {g : GVK} {k : ObjKey} (hx : s.get n g k = some (s', some a)) (b : Nat)
    (hb : Reach s'.heap (.ref a) b) : s.heap.length ≤ b := by
  rw [HState.get] at hx
  split at hx
  · rcases all2_lookup (hi.stored g) (cacheKey k) with ⟨h1, h2⟩ | ⟨y, yo, h1, h2, hy⟩
    · rw [h1] at hx; injection hx with hx; injection hx with e1 e2; cases e2
    · rw [h1] at hx
      simp only at hx
      split at hx
      case h_1 => cases hx
      rename_i h' a' hcp
      injection hx with hx; injection hx with e1 e2; subst e1; injection e2 with e2; subst e2
      exact (copyObjH_fresh hy hcp).1.new b hb
  · injection hx with hx; injection hx with e1 e2; cases e2

theorem HInv.list_new {s s' : HState} {c : VCache} {es : List CEv} (hi : HInv s c es) {n a : Nat} {g : GVK} {sel : Select} {as : List Nat}
    (hx : s.list n g sel = some (s', some as)) (ha : a ∈ as) (b : Nat) (hb : Reach s'.heap (.ref a) b) : s.heap.length ≤ b := by
  rw [HState.list] at hx
  split at hx
  · split at hx
    case h_1 => cases hx
    rename_i h' rs hl
    injection hx with hx; injection hx with e1 e2; subst e1; injection e2 with e2; subst e2
    have hall : All2 (ObjAt s.heap) ((s.stored (objFromList g)).map (·.2)) ((c.stored (objFromList g)).map (·.2)) := by
      have hst := hi.stored (objFromList g)
      generalize s.stored (objFromList g) = l1 at hst
      generalize c.stored (objFromList g) = l2 at hst
      induction hst with
      | nil => exact .nil
      | cons hr _ ih => exact .cons hr.2 ih
    exact (listGo_spec hall (fun o ho => by
        obtain ⟨q, hq, e⟩ := List.mem_map.mp ho
        rw [← e]; exact hi.copied _ q hq) hl).2.2 a ha b hb
  · injection hx with hx; injection hx with e1 e2; cases e2

theorem withObj_obj (p : PEv) (a : Nat) : (p.withObj a).obj = a := by cases p <;> rfl

theorem HInv.deliver_new {s s' : HState} {c : VCache} {es : List CEv} (hi : HInv s c es) {n i : Nat} {p : PEv} (hx : s.deliver n i = some (s', p)) (b : Nat)
    (hb : Reach s'.heap (.ref p.obj) b) : s.heap.length ≤ b := by
  rw [HState.deliver] at hx
  rcases hi.pending.get i with ⟨h1, h2⟩ | ⟨q, f, h1, h2, hq⟩
  · rw [h1] at hx; cases hx
  · rw [h1] at hx
    simp only at hx
    split at hx
    case h_1 => cases hx
    rename_i h' a' hcp
    injection hx with hx; injection hx with e1 e2; subst e1; subst e2
    obtain ⟨o, ho⟩ := hq.obj
    rw [withObj_obj] at hb
    exact (copyObjH_fresh ho hcp).1.new b hb

end Mem
end Dctl
