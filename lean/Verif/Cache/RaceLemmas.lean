import Verif.Cache.StepLemmas
import Verif.Cache.Race
/-!
# Lemmas about histories, overlapping operations and watches
-/
set_option autoImplicit false
set_option linter.unusedSectionVars false
namespace Dctl

theorem current_snoc {h : List VOp} {op : VOp} {g : GVK} {k : ObjKey} {x : Obj} :
    Current (h ++ [op]) g k x ↔ ((op = .add x ∨ ∃ old, op = .update old x) ∧ objGVK x = g ∧ objKey x = k) ∨ (Current h g k x ∧ ¬ op.Concerns g k) := by
  constructor
  · rintro ⟨pre, w, post, e, hw, hg, hk, hp⟩
    rcases List.eq_nil_or_concat post with rfl | ⟨q, y, rfl⟩
    · have h2 := List.append_inj_right' e (by simp)
      simp only [List.cons.injEq, and_true] at h2
      subst h2
      exact Or.inl ⟨hw, hg, hk⟩
    · rw [List.concat_eq_append, ← List.cons_append, ← List.append_assoc] at e
      have h1 := List.append_inj_left' e (by simp)
      have h2 := List.append_inj_right' e (by simp)
      simp only [List.cons.injEq, and_true] at h2
      subst h2
      exact Or.inr ⟨⟨pre, w, q, h1, hw, hg, hk, fun o ho => hp o (by simp [ho])⟩, hp _ (by simp)⟩
  · rintro (⟨hw, hg, hk⟩ | ⟨⟨pre, w, post, rfl, hw, hg, hk, hp⟩, hc⟩)
    · exact ⟨h, op, [], rfl, hw, hg, hk, by simp⟩
    · refine ⟨pre, w, post ++ [op], by simp, hw, hg, hk, fun o ho => ?_⟩
      rcases List.mem_append.mp ho with ho | ho
      · exact hp o ho
      · rw [List.mem_singleton] at ho; rw [ho]; exact hc

theorem apply_key (m m' : String → Option Obj) (e : CEv) : Mirror.apply m e e.key = Mirror.apply m' e e.key := by
  cases e <;> simp [Mirror.apply, CEv.key]

theorem apply_other (m : String → Option Obj) {e : CEv} {k : String} (h : k ≠ e.key) : Mirror.apply m e k = m k := by
  cases e <;> exact if_neg h

/-- The invariant of serial runs. -/
structure Race.SInv (r : Race) : Prop where
  keys : ∀ k o, r.store k = some o → cacheKey (objKey o) = k
  effect : ∀ x, x ∈ r.pending ∨ x ∈ r.joining → ∀ m, Mirror.apply m x x.key = r.store x.key
  rest : r.phase ≠ .off → ∀ k, (∀ x, x ∈ r.pending ∨ x ∈ r.joining → x.key ≠ k) → mirror r.log k = r.store k ∨ (r.phase = .registered ∧ mirror r.log k = none)
  off : r.phase = .off → r.log = []
  early : r.phase ≠ .listed → r.joining = []

theorem Race.SInv.deliver' {r : Race} {e : CEv} (hi : r.SInv) (he : e ∈ r.pending ∨ e ∈ r.joining) (hph : r.phase ≠ .off) {pe jo : List CEv}
    (hsub : ∀ x, x ∈ pe ∨ x ∈ jo → x ∈ r.pending ∨ x ∈ r.joining)
    (hsup : ∀ x, x ∈ r.pending ∨ x ∈ r.joining → x = e ∨ x ∈ pe ∨ x ∈ jo) (hjo : r.phase ≠ .listed → jo = []) :
    ({ r with pending := pe, joining := jo, log := r.log ++ [e] } : Race).SInv := by
  refine ⟨hi.keys, fun x hx => hi.effect x (hsub x hx), fun _ k hk => ?_, fun h => absurd h hph, hjo⟩
  simp only [mirror_append]
  by_cases ek : k = e.key
  · left; rw [ek]; exact hi.effect e he _
  · rw [apply_other _ ek]
    refine hi.rest hph k (fun x hx => ?_)
    rcases hsup x hx with rfl | hx
    · exact fun h => ek h.symm
    · exact hk x hx

theorem Race.SInv.step {r r' : Race} (hi : r.SInv) (h : Race.Step r r')
    (hs : ∀ e, r'.pending = e :: r.pending → ∀ x, x ∈ r.pending ∨ x ∈ r.joining → x.key ≠ e.key) : r'.SInv := by
  cases h with
  | write e =>
    have hs' := hs e rfl
    constructor
    · intro k o h
      by_cases ek : k = e.key
      · cases e <;> simp only [Mirror.apply, CEv.key] at h ek <;> rw [if_pos ek] at h
        · cases h; exact ek.symm
        · cases h; exact ek.symm
        · cases h
      · simp only [apply_other _ ek] at h; exact hi.keys k o h
    · intro x hx m
      by_cases hxe : x = e
      · subst hxe; exact apply_key _ _ _
      · have hx' : x ∈ r.pending ∨ x ∈ r.joining := by
          rcases hx with hx | hx
          · rcases List.mem_cons.mp hx with hx | hx
            · exact absurd hx hxe
            · exact Or.inl hx
          · exact Or.inr hx
        simp only [apply_other _ (hs' x hx')]
        exact hi.effect x hx' m
    · intro hph k hk
      have hke : k ≠ e.key := fun h => hk e (Or.inl (by simp)) h.symm
      simp only [apply_other _ hke]
      exact hi.rest hph k (fun x hx => hk x (hx.imp (fun h => List.mem_cons_of_mem _ h) id))
    · exact hi.off
    · exact hi.early
  | fire e p q hp =>
    by_cases hph : r.phase = .off
    · simp only [hph, if_true]
      refine ⟨hi.keys, fun x hx => hi.effect x ?_, fun h => absurd rfl (hph ▸ h), fun _ => hi.off hph, fun _ => hi.early (by rw [hph]; simp)⟩
      rcases hx with hx | hx
      · left; rw [hp]
        rcases List.mem_append.mp hx with hx | hx <;> simp [hx]
      · exact Or.inr hx
    · simp only [if_neg hph]
      refine hi.deliver' (e := e) (Or.inl (by rw [hp]; simp)) hph (fun x hx => ?_) (fun x hx => ?_) hi.early
      · rcases hx with hx | hx
        · left; rw [hp]
          rcases List.mem_append.mp hx with hx | hx <;> simp [hx]
        · exact Or.inr hx
      · rcases hx with hx | hx
        · rw [hp] at hx
          rcases List.mem_append.mp hx with hx | hx
          · exact Or.inr (Or.inl (by simp [hx]))
          · rcases List.mem_cons.mp hx with hx | hx
            · exact Or.inl hx
            · exact Or.inr (Or.inl (by simp [hx]))
        · exact Or.inr (Or.inr hx)
  | register hph =>
    refine ⟨hi.keys, hi.effect, fun _ k _ => ?_, (fun h => by cases h), fun _ => hi.early (by rw [hph]; simp)⟩
    right; rw [hi.off hph]; exact ⟨rfl, rfl⟩
  | list hph l hl =>
    have hph' : r.phase ≠ .off := by rw [hph]; simp
    constructor
    · exact hi.keys
    · intro x hx m
      rcases hx with hx | hx
      · exact hi.effect x (Or.inl hx) m
      · obtain ⟨o, ho, rfl⟩ := List.mem_map.mp hx
        obtain ⟨k, hk⟩ := (hl o).mp ho
        have := hi.keys k o hk
        simp only [CEv.key, Mirror.apply, if_true, this, hk]
    · intro _ k hk
      left
      have hnone : r.store k = none := by
        rcases hst : r.store k with _ | o
        · rfl
        · exact absurd (hi.keys k o hst) (hk (.add o) (Or.inr (List.mem_map.mpr ⟨o, (hl o).mpr ⟨k, hst⟩, rfl⟩)))
      have hj := hi.early (by rw [hph]; simp)
      rcases hi.rest hph' k (fun x hx => hk x (Or.inl (by rw [hj] at hx; simpa using hx))) with h | h
      · exact h
      · rw [h.2]; exact hnone.symm
    · intro h; cases h
    · intro h; exact absurd rfl h
  | deliver e es hj =>
    have hl : r.phase = .listed := Classical.byContradiction (fun h => by rw [hi.early h] at hj; cases hj)
    have hph : r.phase ≠ .off := by rw [hl]; simp
    refine hi.deliver' (e := e) (Or.inr (by rw [hj]; simp)) hph (fun x hx => ?_) (fun x hx => ?_) (fun h => absurd hl h)
    · rcases hx with hx | hx
      · exact Or.inl hx
      · exact Or.inr (by rw [hj]; simp [hx])
    · rcases hx with hx | hx
      · exact Or.inr (Or.inl hx)
      · rw [hj] at hx
        rcases List.mem_cons.mp hx with hx | hx
        · exact Or.inl hx
        · exact Or.inr (Or.inr hx)


theorem Race.SInv.serial {r r' : Race} (hi : r.SInv) (h : Race.Serial r r') : r'.SInv := by
  induction h with
  | refl => exact hi
  | tail _ hs hc ih => exact ih.step hs hc

theorem Race.sinv_init : Race.init.SInv := by
  refine ⟨?_, ?_, ?_, ?_, ?_⟩ <;> simp [Race.init]

/-! ## Watches -/

theorem wmirror_append (l : List WEv) (e : WEv) : wmirror (l ++ [e]) = WMirror.apply (wmirror l) e := by
  simp [wmirror, List.foldl_append]

theorem stream_mirror (s : Select) (l : List CEv) (hf : Faithful l) (hn : NoLeave s l) (k : String) :
    wmirror (l.filterMap (watchEv s)) k = (mirror l k).filter s.includes := by
  induction l using rev_induct generalizing k with
  | h0 => rfl
  | h1 l e ih =>
    have ih' := ih (fun p o q h => hf p o (q ++ [e]) (by rw [h]; simp)) (fun p e' q h => hn p e' (q ++ [e]) (by rw [h]; simp))
    rw [List.filterMap_append, mirror_append]
    have hput : ∀ o, (e = .add o ∨ ∃ old, e = .update old o) → s.includes o = false →
        (mirror l (cacheKey (objKey o))).filter s.includes = none := by
      intro o ho hi
      cases hm : mirror l (cacheKey (objKey o)) with
      | none => rfl
      | some x =>
        cases hx : s.includes x with
        | false => simp [Option.filter, hx]
        | true => rw [hn l e [] rfl o x ho hm hx] at hi; cases hi
    cases e with
    | add o =>
      cases hi : s.includes o with
      | true =>
        simp only [List.filterMap_cons, watchEv, hi, if_true, List.filterMap_nil, wmirror_append, WMirror.apply, Mirror.apply]
        split
        · simp [Option.filter, hi]
        · exact ih' k
      | false =>
        simp only [List.filterMap_cons, watchEv, hi, Bool.false_eq_true, if_false, List.filterMap_nil, List.append_nil, Mirror.apply]
        split
        · next hk => rw [ih', hk, hput o (Or.inl rfl) hi]; simp [Option.filter, hi]
        · exact ih' k
    | update old o =>
      cases hi : s.includes o with
      | true =>
        simp only [List.filterMap_cons, watchEv, hi, if_true, List.filterMap_nil, wmirror_append, WMirror.apply, Mirror.apply]
        split
        · simp [Option.filter, hi]
        · exact ih' k
      | false =>
        simp only [List.filterMap_cons, watchEv, hi, Bool.false_eq_true, if_false, List.filterMap_nil, List.append_nil, Mirror.apply]
        split
        · next hk => rw [ih', hk, hput o (Or.inr ⟨_, rfl⟩) hi]; simp [Option.filter, hi]
        · exact ih' k
    | delete o =>
      have hm := hf l o [] rfl
      cases hi : s.includes o with
      | true =>
        simp only [List.filterMap_cons, watchEv, hi, if_true, List.filterMap_nil, wmirror_append, WMirror.apply, Mirror.apply]
        split
        · rfl
        · exact ih' k
      | false =>
        simp only [List.filterMap_cons, watchEv, hi, Bool.false_eq_true, if_false, List.filterMap_nil, List.append_nil, Mirror.apply]
        split
        · next hk => rw [ih', hk, hm]; simp [Option.filter, hi]
        · exact ih' k

theorem handle_room (s : Select) (w : Watcher) (e : CEv) (h : w.chan.length < watchBuffer) :
    (w.handle s e).got ++ (w.handle s e).chan = w.got ++ w.chan ++ ([e].filterMap (watchEv s)) := by
  simp only [Watcher.handle, List.filterMap_cons, List.filterMap_nil]
  split
  · next x hx => simp [Watcher.send, h, hx]
  · next hx => simp [hx]

theorem recv_same (w : Watcher) : w.recv.got ++ w.recv.chan = w.got ++ w.chan := by
  simp only [Watcher.recv]
  split <;> simp_all

theorem schedule_stream (s : Select) (w : Watcher) (steps : List WStep) (h : NoOverflow s w steps) :
    (steps.foldl (Watcher.step s) w).got ++ (steps.foldl (Watcher.step s) w).chan = w.got ++ w.chan ++ (WStep.calls steps).filterMap (watchEv s) := by
  induction steps generalizing w with
  | nil => simp [WStep.calls]
  | cons a steps ih =>
    rw [List.foldl_cons, ih _ (fun p e q hp => h (a :: p) e q (by rw [hp]; rfl))]
    cases a with
    | call e =>
      cases hs : watchEv s e with
      | none => simp [Watcher.step, Watcher.handle, WStep.calls, List.filterMap_cons, hs]
      | some x => rw [Watcher.step, handle_room s w e (h [] e steps rfl (by rw [hs]; rfl))]; simp [WStep.calls, List.filterMap_cons, hs]
    | recv => rw [Watcher.step, recv_same]; simp [WStep.calls]

theorem open_chan (s : Select) (l : List Obj) (w : Watcher) :
    (l.map CEv.add).foldl (Watcher.handle s) w = { w with chan := w.chan ++ ((l.filter s.includes).take (watchBuffer - w.chan.length)).map WEv.added } := by
  induction l generalizing w with
  | nil => simp
  | cons o l ih =>
    rw [List.map_cons, List.foldl_cons, ih]
    cases hi : s.includes o with
    | false => simp [Watcher.handle, watchEv, hi]
    | true =>
      simp only [Watcher.handle, watchEv, hi, if_true, Watcher.send]
      by_cases hl : w.chan.length < watchBuffer
      · simp only [if_pos hl, List.filter_cons, hi, if_true, List.length_append, List.length_singleton]
        rw [show watchBuffer - w.chan.length = (watchBuffer - (w.chan.length + 1)) + 1 by omega, List.take_succ_cons]
        simp
      · simp [if_neg hl, show watchBuffer - w.chan.length = 0 by omega]

/-! ## Informers of several operators -/

theorem locals_step {c : VCache} (hash : String → String) (hi : c.Inv) (hl : ∀ n m g i, c.locals n g = some i → c.locals m g = some i → n = m) (op : VOp) :
    ∀ n m g i, (c.step hash op).locals n g = some i → (c.step hash op).locals m g = some i → n = m := by
  have hnot : ∀ (c : VCache) g e c', c.notify g e = some c' → c'.locals = c.locals := by
    intro c g e c' h
    simp only [VCache.notify] at h
    split at h
    · next c1 i h1 =>
      cases h
      have : ∀ (L : List Nat) (c : VCache), (L.foldl (fun c i => c.trigger e i) c).locals = c.locals := by
        intro L
        induction L with
        | nil => intro c; rfl
        | cons a L ih => intro c; rw [List.foldl_cons, ih]; rfl
      rw [this]
      exact (VCache.getShared_fields h1).2.2.1
    · cases h
  have hsame : (c.step hash op).locals = c.locals → ∀ n m g i, (c.step hash op).locals n g = some i → (c.step hash op).locals m g = some i → n = m := by
    intro h; rw [h]; exact hl
  cases op with
  | add o =>
    refine hsame ?_
    simp only [VCache.step]
    cases h : c.add hash o with
    | none => rfl
    | some c' =>
      simp only [VCache.add] at h
      split at h
      · have := hnot _ _ _ _ h; rw [Option.getD_some, this]
      · cases h
  | update a o =>
    refine hsame ?_
    simp only [VCache.step]
    cases h : c.update hash a o with
    | none => rfl
    | some c' =>
      simp only [VCache.update] at h
      split at h
      · split at h
        · cases h; rfl
        · have := hnot _ _ _ _ h; rw [Option.getD_some, this]
      · cases h
  | delete o =>
    refine hsame ?_
    simp only [VCache.step]
    cases h : c.delete o with
    | none => rfl
    | some c' =>
      simp only [VCache.delete] at h
      split at h
      · split at h
        · cases h
        · have := hnot _ _ _ _ h; rw [Option.getD_some, this]
      · cases h
  | getShared g =>
    refine hsame ?_
    simp only [VCache.step]
    cases h : c.getShared g with
    | none => rfl
    | some p => exact (VCache.getShared_fields (show c.getShared g = some (p.1, p.2) from h)).2.2.1
  | removeShared g => exact hsame rfl
  | stop n => exact hsame rfl
  | addHandler i o => exact hsame rfl
  | removeHandler i h => exact hsame rfl
  | removeLocal n g =>
    have : ∀ n' g' i, (c.step hash (.removeLocal n g)).locals n' g' = some i → c.locals n' g' = some i := by
      intro n' g' i
      simp only [VCache.step, VCache.removeLocal]
      split
      · simp only [VCache.unregisterDelegating, upd]
        intro h
        split at h
        · next e => subst e; simp only [upd] at h; split at h
                    · cases h
                    · exact h
        · exact h
      · exact id
    exact fun n' m g' i h1 h2 => hl n' m g' i (this _ _ _ h1) (this _ _ _ h2)
  | getLocal n g =>
    simp only [VCache.step, VCache.getLocal]
    split
    · split
      · exact hl
      · next hnone =>
        have : ∀ n' g' i, (c.newInformer g).locals n' g' = some i → i < c.next := fun n' g' i h => (hi.locals n' g' i h).1
        intro n' m g' i
        simp only [Option.map_some, Option.getD_some, VCache.registerDelegating, upd]
        intro h1 h2
        have key : ∀ n', (if n' = n then (fun x => if x = g then some c.next else c.locals n x) else c.locals n') g' = some i →
            (n' = n ∧ g' = g ∧ i = c.next) ∨ (c.locals n' g' = some i) := by
          intro n' h
          split at h
          · next e =>
            subst e
            dsimp only at h
            split at h
            · next e' => cases h; exact Or.inl ⟨rfl, e', rfl⟩
            · exact Or.inr h
          · exact Or.inr h
        rcases key n' h1 with ⟨a1, a2, a3⟩ | a <;> rcases key m h2 with ⟨b1, b2, b3⟩ | b
        · rw [a1, b1]
        · have := this m g' i b; omega
        · have := this n' g' i a; omega
        · exact hl _ _ _ _ a b
    · exact hl

theorem locals_run (hash : String → String) (ops : List VOp) (ho : ∀ op ∈ ops, op.Ok) :
    ∀ n m g i, (VCache.init.run hash ops).locals n g = some i → (VCache.init.run hash ops).locals m g = some i → n = m := by
  induction ops using rev_induct with
  | h0 => intro n m g i h; simp [VCache.run, VCache.init] at h
  | h1 ops op ih =>
    have ho' : ∀ op ∈ ops, op.Ok := fun o h => ho o (by simp [h])
    rw [VCache.run_append]
    exact locals_step hash (VCache.inv_init.run hash ho') (ih ho') op

/-! ## Going through the list of informers -/

/-- No informer is unregistered. -/
structure Notify.Inv (s : Slice) (w : Notify) : Prop where
  len : w.len = s.len
  pos : w.pos ≤ w.len
  arr : (w.own.getD w.cur.arr).take w.len = s.toList
  size : w.len ≤ (w.own.getD w.cur.arr).length
  cur : w.own = none → w.len ≤ w.cur.len
  called : w.called = s.toList.take w.pos

theorem Notify.Inv.step {s : Slice} {w : Notify} (hi : w.Inv s) {op : NOp} (h : ∀ x, op ≠ .unregister x) : (w.step op).Inv s := by
  cases op with
  | call =>
    simp only [Notify.step]
    split
    · next hlt =>
      refine ⟨hi.len, hlt, hi.arr, hi.size, hi.cur, ?_⟩
      have hlt' : w.pos < (w.own.getD w.cur.arr).length := Nat.lt_of_lt_of_le hlt hi.size
      have hget : s.toList[w.pos]? = (w.own.getD w.cur.arr)[w.pos]? := by rw [← hi.arr, List.getElem?_take, if_pos hlt]
      rw [List.take_add_one, ← hi.called, hget, List.getD_eq_getElem?_getD, List.getElem?_eq_getElem hlt']
      rfl
    · exact hi
  | register x =>
    simp only [Notify.step]
    by_cases hc : w.cur.len < w.cur.arr.length
    · simp only [if_pos hc]
      cases ho : w.own with
      | none =>
        have hcur := hi.cur ho
        refine ⟨hi.len, hi.pos, ?_, ?_, fun _ => ?_, hi.called⟩
        · have := hi.arr
          rw [ho] at this
          simp only [Slice.append, if_pos hc, ho, Option.getD_none] at this ⊢
          rw [List.take_set_of_le hcur]; exact this
        · have := hi.size
          rw [ho] at this
          simpa [Slice.append, if_pos hc, ho] using this
        · simp only [Slice.append, if_pos hc]; omega
      | some a =>
        refine ⟨hi.len, hi.pos, ?_, ?_, fun h => ?_, hi.called⟩
        · have := hi.arr; rw [ho] at this; simpa [ho] using this
        · have := hi.size; rw [ho] at this; simpa [ho] using this
        · cases h
    · simp only [if_neg hc]
      exact ⟨hi.len, hi.pos, hi.arr, hi.size, (fun h => by cases h), hi.called⟩
  | unregister x => exact absurd rfl (h x)

theorem Notify.inv_start {s : Slice} (h : s.len ≤ s.arr.length) : (Notify.start s).Inv s :=
  ⟨rfl, Nat.zero_le _, rfl, h, fun _ => Nat.le_refl _, rfl⟩

theorem Notify.Inv.run {s : Slice} (h : s.len ≤ s.arr.length) (ops : List NOp) (ho : ∀ op ∈ ops, ∀ x, op ≠ .unregister x) : (Notify.run s ops).Inv s := by
  induction ops using rev_induct with
  | h0 => exact Notify.inv_start h
  | h1 ops op ih =>
    rw [Notify.run, List.foldl_append]
    exact (ih (fun o hm => ho o (by simp [hm]))).step (ho op (by simp))

end Dctl
