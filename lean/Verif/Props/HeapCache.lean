import Verif.Cache.HeapCacheLemmas
import Verif.Props.Cache
/-!
# C122: objects in the view cache share no memory with anybody
-/
set_option autoImplicit false
set_option linter.unusedSectionVars false
namespace Dctl
namespace Mem
variable {hash : String → String}

/-- C122, in part: in every run of the view cache, with the rest of the program overwriting at any time anything it can get at (objects it gave to
the cache, objects it got from the cache, objects of events), every call has the results, and leaves the indexers with the content, that it has with
objects as values that nobody can change. Missing: the old version in updates, which is not copied (`C122_old_shared`), and programs that use
`GetStore` or `GetIndexer` (`C122_indexer`); neither is part of the results compared. -/
theorem C122_values_partial (hh : ∀ s, hash s ≠ "") {tr : List HCall} {s : HState} (hr : HRun hash tr s) : ∃ c es, VRun hash tr (c, es) ∧ s.Is c := by
  obtain ⟨c, es, hv, hi⟩ := hr.inv hh
  exact ⟨c, es, hv, hi.stored⟩

/-- C122: nothing of what is stored, or is about to be handed to handlers, can be got at by the rest of the program. -/
theorem C122_private (hh : ∀ s, hash s ≠ "") {tr : List HCall} {s : HState} (hr : HRun hash tr s) (b : Nat) (hb : s.Holds b) : ¬ s.Knows b := by
  obtain ⟨c, es, -, hi⟩ := hr.inv hh
  exact hi.apart b hb

/-- C122: once an object is stored, or is about to be handed to handlers, nobody writes to its memory any more: neither a call of the cache nor
the rest of the program. Reading it meanwhile is safe without a lock. -/
theorem C122_untouched (hh : ∀ s, hash s ≠ "") {tr : List HCall} {s s' : HState} {x : HCall} (hr : HRun hash tr s) (hs : Other s s' ∨ HStep hash s x s') (b : Nat)
    (hb : s.Holds b) : b < s.heap.length ∧ s'.heap[b]? = s.heap[b]? := by
  obtain ⟨c, es, -, hi⟩ := hr.inv hh
  obtain ⟨r, hr, hrb⟩ := holds_iff.mp hb
  obtain ⟨o, ho⟩ := hi.root hr
  refine ⟨ho.lt hrb, ?_⟩
  rcases hs with h | h
  · exact (hi.other h).2 b hb
  · exact (hi.call hh h).2.get (ho.lt hrb)

/-- C122: what a call hands out is new: no cell of it was there before, so it is shared neither with the cache nor with what anybody else has got. -/
theorem C122_new (hh : ∀ s, hash s ≠ "") {tr : List HCall} {s s' : HState} (hr : HRun hash tr s) {n : Nat} {a : Nat}
    (hs : (∃ g k, s.get n g k = some (s', some a)) ∨ (∃ g sel as, s.list n g sel = some (s', some as) ∧ a ∈ as) ∨ ∃ i p, s.deliver n i = some (s', p) ∧ p.obj = a)
    (b : Nat) (hb : Reach s'.heap (.ref a) b) : s.heap.length ≤ b := by
  obtain ⟨c, es, -, hi⟩ := hr.inv hh
  rcases hs with ⟨g, k, h⟩ | ⟨g, sel, as, h, ha⟩ | ⟨i, p, h, hp⟩
  · exact hi.get_new h b hb
  · exact hi.list_new h ha b hb
  · subst hp; exact hi.deliver_new h b hb

/-- C122: calls with JSON objects end, and so do the calls of handlers, whatever the rest of the program has done to its memory. -/
theorem C122_ends (hh : ∀ s, hash s ≠ "") {tr : List HCall} {s : HState} (hr : HRun hash tr s) {old a tg i : Nat} {oldO o : Obj} (hold : ObjAt s.heap old oldO)
    (ho : ObjAt s.heap a o) (hc : Obj.Ok o) (hl : i < s.pending.length) (g : GVK) (k : ObjKey) (sel : Select) : ∃ N, ∀ n, N ≤ n →
    (∃ s', s.add hash n a tg = some (s', isViewKind (objGVK o))) ∧ (∃ s', s.update hash n old a tg = some (s', isViewKind (objGVK o))) ∧
    (∃ s' ok, s.delete n a tg = some (s', ok)) ∧ (∃ s' r, s.get n g k = some (s', r)) ∧ (∃ s' r, s.list n g sel = some (s', r)) ∧
    ∃ s' p, s.deliver n i = some (s', p) := by
  obtain ⟨c, es, -, hi⟩ := hr.inv hh
  obtain ⟨N1, s1, H1⟩ := add_ends (tg := tg) hh ho hc
  obtain ⟨N2, s2, H2⟩ := update_ends (tg := tg) hh hold ho hc
  obtain ⟨N3, s3, k3, H3⟩ := hi.delete_ends (tg := tg) ho
  obtain ⟨N4, s4, k4, H4⟩ := hi.get_ends g k
  obtain ⟨N5, s5, k5, H5⟩ := hi.list_ends g sel
  obtain ⟨N6, s6, k6, H6⟩ := hi.deliver_ends hl
  refine ⟨N1 + N2 + N3 + N4 + N5 + N6, fun n hn => ⟨⟨s1, H1 n (by omega)⟩, ⟨s2, H2 n (by omega)⟩, ⟨s3, k3, H3 n (by omega)⟩, ⟨s4, k4, H4 n (by omega)⟩,
    ⟨s5, k5, H5 n (by omega)⟩, ⟨s6, k6, H6 n (by omega)⟩⟩⟩

/-! ### examples -/

/-- The state after a call, for examples. -/
def after {A : Type} (x : Option (HState × A)) : HState := (x.map (·.1)).getD .init

theorem after_eq {A : Type} {x : Option (HState × A)} {a : A} (h : x.map (·.2) = some a) : x = some (after x, a) := by
  cases x with
  | none => cases h
  | some p => obtain ⟨s, b⟩ := p; simp at h; rw [h]; rfl

/-- A hash for examples. -/
def demoHash : String → String := fun _ => "u"

/-- The map of `demoView "a" "b" [("d", n)]`, its metadata at the address `x`. -/
def demoCell (n : Int) (x : Nat) : Cell :=
  .map [("apiVersion", .str "op.view.dcontroller.io/v1alpha1"), ("d", .int n), ("kind", .str "V"), ("metadata", .ref x)]

/-- What `demoCell` stands for. -/
def demoObj (n : Int) : Obj := demoView "a" "b" [("d", .int n)]

/-- The program makes an object, ... -/
def demo1 : HState := { HState.init with heap := [.map [("name", .str "b"), ("namespace", .str "a")]], known := [0] }

/-- ..., of which this is the outer map, ... -/
def demo2 : HState := { demo1 with heap := demo1.heap ++ [demoCell 1 0], known := 1 :: demo1.known }

/-- ... makes another one with the same metadata, ... -/
def demo3 : HState := { demo2 with heap := demo2.heap ++ [demoCell 2 0], known := 2 :: demo2.known }

theorem demo3_run : HRun demoHash [] demo3 := by
  have h1 : HRun demoHash [] demo1 := HRun.other .start (.alloc _ (.map [("name", .str "b"), ("namespace", .str "a")]) (by rintro b ⟨k, hk⟩; simp at hk))
  have h2 : HRun demoHash [] demo2 := HRun.other h1 (.alloc _ (demoCell 1 0) (by
    rintro b ⟨k, hk⟩
    simp at hk
    rw [hk.2]; exact ⟨0, by simp [demo1], .here 0⟩))
  exact HRun.other h2 (.alloc _ (demoCell 2 0) (by
    rintro b ⟨k, hk⟩
    simp at hk
    rw [hk.2]; exact ⟨0, by simp [demo1, demo2], .here 0⟩))

/-- ... gives the first one to the cache, ... -/
def demo4 : HState := after (demo3.add demoHash 9 1 2)

/-- ... and overwrites what it gave, ... -/
def demo5 : HState := { demo4 with heap := demo4.heap.set 1 (demoCell 7 0) }

theorem demo4_run : HRun demoHash [.add (demoObj 1) 2 true] demo4 :=
  .call demo3_run (.add (n := 9) (a := 1) ⟨1, by simp [demo3, demo2], .here 1⟩ ⟨9, by decide +kernel⟩ (by decide +kernel) (after_eq (by decide +kernel)))

theorem demo5_run : HRun demoHash [.add (demoObj 1) 2 true] demo5 :=
  .other demo4_run (.write demo4 1 (demoCell 7 0) ⟨1, by decide +kernel, .here 1⟩ (by
    rintro b ⟨k, hk⟩
    simp at hk
    rw [hk.2]; exact ⟨0, by decide +kernel, .here 0⟩))

/-- ... and asks for it. -/
def demo6 : HState := after (demo5.get 9 demoGVK ("a", "b"))

-- the caller gets what it stored, although it has overwritten its own object meanwhile
example : HRun demoHash ([.add (demoObj 1) 2 true] ++ [.get demoGVK ("a", "b") (some (withUID demoHash (demoObj 1)))]) demo6 ∧ ObjAt demo6.heap 1 (demoObj 7) := by
  refine ⟨.call demo5_run (.get (n := 9) (a := some 6) (after_eq (by decide +kernel)) ?_), ⟨9, by decide +kernel⟩⟩
  exact ⟨9, by decide +kernel⟩

-- two calls of handlers are under way, and the object stored is apart from all that the program has
example : ∃ b, demo5.Holds b ∧ ¬ demo5.Knows b ∧ demo5.pending.length = 2 :=
  have hb : demo5.Holds (demo5.pending.headD (.add 0)).obj := .inr ⟨_, by decide +kernel, .here _⟩
  ⟨_, hb, C122_private (fun _ => by simp [demoHash]) demo5_run _ hb, by decide +kernel⟩

example : ObjAt demo5.heap 1 (demoObj 7) ∧ ObjAt demo5.heap 2 (demoObj 2) ∧ Obj.Ok (demoObj 2) ∧ 1 < demo5.pending.length :=
  ⟨⟨9, by decide +kernel⟩, ⟨9, by decide +kernel⟩, by decide +kernel, by decide +kernel⟩

/-! ### what is not so -/

/-- An update with two handlers, ... -/
def demoU1 : HState := after (demo3.update demoHash 9 1 2 2)

/-- ... of which the first is called ... -/
def demoU2 : HState := after (demoU1.deliver 9 0)

/-- ... and writes to the old version it got, ... -/
def demoU3 : HState := { demoU2 with heap := demoU2.heap.set 1 (demoCell 7 0) }

/-- ... and then the other. -/
def demoU4 : HState := after (demoU3.deliver 9 0)

/-- C122, negation: the old version in updates is not copied. What one handler, or the caller of `Update`, writes to it is seen by the
handlers called after that: the update was from `oldO`, the second handler is told of another old version. -/
theorem C122_old_shared : ∃ (oldO o oldO' : Obj) (s1 s2 s3 : HState) (a b n : Nat),
    HRun demoHash [.update oldO o 2 true, .deliver 0 (.update oldO (withUID demoHash o))] s1 ∧ Other s1 s2 ∧ s2.deliver n 0 = some (s3, .update a b) ∧
    ObjAt s3.heap a oldO' ∧ oldO' ≠ oldO := by
  refine ⟨demoObj 1, demoObj 2, demoObj 7, demoU2, demoU3, demoU4, 1, 8, 9, ?_, ?_, after_eq (by decide +kernel), ⟨9, by decide +kernel⟩, by decide⟩
  · have h1 : HRun demoHash ([] ++ [.update (demoObj 1) (demoObj 2) 2 true]) demoU1 := .call demo3_run
      (.update (n := 9) (old := 1) (a := 2) ⟨1, by simp [demo3, demo2], .here 1⟩ ⟨2, by simp [demo3], .here 2⟩ ⟨9, by decide +kernel⟩ ⟨9, by decide +kernel⟩
        (by decide +kernel) (after_eq (by decide +kernel)))
    refine .call (tr := [_]) h1 (.deliver (n := 9) (p := .update 1 6) (after_eq (by decide +kernel)) ⟨fun x hx => ?_, ⟨9, by decide +kernel⟩⟩)
    exact hx.unique ⟨9, by decide +kernel⟩
  · exact .write demoU2 1 (demoCell 7 0) ⟨1, by decide +kernel, .here 1⟩ (by
      rintro b ⟨k, hk⟩
      simp at hk
      rw [hk.2]; exact ⟨0, by decide +kernel, .here 0⟩)

/-- What `GetIndexer` gives is overwritten. -/
def demoI : HState := { demo4.indexer demoGVK with heap := (demo4.indexer demoGVK).heap.set (((demo4.indexer demoGVK).known).headD 0) (demoCell 7 0) }

/-- C122, negation: `GetStore` and `GetIndexer` of an informer give access to the stored objects themselves. Whoever writes to one of them
changes what `Get` answers from then on. -/
theorem C122_indexer : ∃ (o r : Obj) (s1 s2 s3 : HState) (a n : Nat), HRun demoHash [.add o 2 true] s1 ∧ Other (s1.indexer demoGVK) s2 ∧
    s2.get n demoGVK (objKey o) = some (s3, some a) ∧ ObjAt s3.heap a r ∧ r ≠ withUID demoHash o := by
  refine ⟨demoObj 1, demoObj 7, demo4, demoI, after (demoI.get 9 demoGVK ("a", "b")), 6, 9, demo4_run, ?_, after_eq (by decide +kernel), ⟨9, by decide +kernel⟩, by decide +kernel⟩
  exact .write (demo4.indexer demoGVK) _ (demoCell 7 0) ⟨_, by decide +kernel, .here _⟩ (by
    rintro b ⟨k, hk⟩
    simp at hk
    rw [hk.2]; exact ⟨0, by decide +kernel, .here 0⟩)

end Mem
end Dctl
