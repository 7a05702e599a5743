import Verif.Spec.Source
import Verif.Cache.GroupLemmas
/-!
# Lemmas about sources
-/
set_option autoImplicit false
set_option linter.unusedSectionVars false
namespace Dctl

/-- Invariant of the work queue, with the request being processed. -/
structure Wq.Inv (q : Wq) (cur : Option Request) : Prop where
  proc : q.processing = cur.toList
  qd : ∀ r, r ∈ q.queue → r ∈ q.dirty
  dq : ∀ r, r ∈ q.dirty → r ∈ q.queue ∨ cur = some r
  qn : q.queue.Nodup
  dn : q.dirty.Nodup
  cn : ∀ r, cur = some r → r ∉ q.queue

theorem Wq.Inv.add {q : Wq} {cur : Option Request} (h : q.Inv cur) (r : Request) : (q.add r).Inv cur := by
  obtain ⟨h1, h2, h3, h4, h5, h6⟩ := h
  unfold Wq.add
  split
  · exact ⟨h1, h2, h3, h4, h5, h6⟩
  · rename_i hd
    split
    · rename_i hp
      have hc : cur = some r := by
        rw [h1] at hp
        cases cur with
        | none => simp at hp
        | some c => simp at hp; rw [hp]
      refine ⟨h1, ?_, ?_, h4, ?_, h6⟩
      · intro x hx; simp [h2 x hx]
      · intro x hx
        simp at hx
        rcases hx with hx | hx
        · exact h3 x hx
        · right; rw [hx]; exact hc
      · rw [List.nodup_append]
        exact ⟨h5, by simp, by intro a ha b hb; simp at hb; subst hb; intro he; subst he; exact hd ha⟩
    · rename_i hp
      have hq : r ∉ q.queue := fun hq => hd (h2 r hq)
      refine ⟨h1, ?_, ?_, ?_, ?_, ?_⟩
      · intro x hx
        simp at hx ⊢
        rcases hx with hx | hx
        · exact Or.inl (h2 x hx)
        · exact Or.inr hx
      · intro x hx
        simp at hx ⊢
        rcases hx with hx | hx
        · rcases h3 x hx with h | h
          · exact Or.inl (Or.inl h)
          · exact Or.inr h
        · exact Or.inl (Or.inr hx)
      · rw [List.nodup_append]
        exact ⟨h4, by simp, by intro a ha b hb; simp at hb; subst hb; intro he; subst he; exact hq ha⟩
      · rw [List.nodup_append]
        exact ⟨h5, by simp, by intro a ha b hb; simp at hb; subst hb; intro he; subst he; exact hd ha⟩
      · intro x hx hm
        simp at hm
        rcases hm with hm | hm
        · exact h6 x hx hm
        · subst hm
          rw [h1, hx] at hp
          simp at hp

theorem Wq.Inv.get {q q' : Wq} {r : Request} (h : q.Inv none) (hg : q.get = some (r, q')) : q'.Inv (some r) ∧ q.queue = r :: q'.queue := by
  obtain ⟨h1, h2, h3, h4, h5, h6⟩ := h
  unfold Wq.get at hg
  split at hg
  · cases hg
  · rename_i x t hq
    cases hg
    rw [hq] at h4
    have hr : r ∉ t := (List.nodup_cons.mp h4).1
    refine ⟨⟨by simp [h1], ?_, ?_, (List.nodup_cons.mp h4).2, h5.erase _, ?_⟩, hq⟩
    · intro x hx
      have : x ≠ r := fun he => hr (he ▸ hx)
      rw [List.mem_erase_of_ne this]
      exact h2 x (by rw [hq]; simp [hx])
    · intro x hx
      by_cases hx' : x = r
      · right; rw [hx']
      · left
        rw [List.mem_erase_of_ne hx'] at hx
        rcases h3 x hx with h | h
        · rw [hq] at h
          simp [hx'] at h
          exact h
        · cases h
    · intro x hx
      cases hx
      exact hr

theorem Wq.Inv.done {q : Wq} {r : Request} (h : q.Inv (some r)) : (q.finish r).Inv none := by
  obtain ⟨h1, h2, h3, h4, h5, h6⟩ := h
  have hr := h6 r rfl
  unfold Wq.finish
  split
  · rename_i hd
    refine ⟨by simp [h1], ?_, ?_, ?_, h5, by simp⟩
    · intro x hx
      simp at hx
      rcases hx with hx | hx
      · exact h2 x hx
      · rw [hx]; exact hd
    · intro x hx
      simp
      rcases h3 x hx with h | h
      · exact Or.inl h
      · cases h; exact Or.inr rfl
    · rw [List.nodup_append]
      exact ⟨h4, by simp, by intro a ha b hb; simp at hb; subst hb; intro he; subst he; exact hr ha⟩
  · rename_i hd
    refine ⟨by simp [h1], h2, ?_, h4, h5, by simp⟩
    intro x hx
    rcases h3 x hx with h | h
    · exact Or.inl h
    · cases h; exact absurd hx hd

theorem Src.wq_inv (b64 : String → Option String) (fs : List RPred) (g : GVK) (steps : List SStep) :
    (Src.run b64 fs g steps).wq.Inv (Src.run b64 fs g steps).cur := by
  induction steps using rev_induct with
  | h0 => exact ⟨rfl, by simp [Src.run], by simp [Src.run], by simp [Src.run], by simp [Src.run], by simp [Src.run]⟩
  | h1 l a ih =>
    unfold Src.run at ih ⊢
    rw [List.foldl_append]
    generalize List.foldl (Src.step b64 fs g) {} l = s at ih
    simp only [List.foldl_cons, List.foldl_nil]
    cases a with
    | event e =>
      simp only [Src.step]
      split
      · cases e <;> exact ih.add _
      · exact ih
    | tick => exact ih.add _
    | take =>
      simp only [Src.step, Src.take]
      split
      · exact ih
      · rename_i hc
        rw [hc] at ih
        split
        · rwa [← hc] at ih
        · rename_i r q hg
          have := (ih.get hg).1
          split <;> exact this
    | finish ok =>
      simp only [Src.step, Src.finish]
      split
      · exact ih
      · rename_i r hc
        rw [hc] at ih
        split <;> exact ih.done
    | due r =>
      simp only [Src.step, Src.due]
      split
      · exact ih.add _
      · exact ih

theorem run_append (b64 : String → Option String) (fs : List RPred) (g : GVK) (l : List SStep) (a : SStep) :
    Src.run b64 fs g (l ++ [a]) = (Src.run b64 fs g l).step b64 fs g a := by
  simp [Src.run]

theorem passing_append (fs : List RPred) (l l' : List SStep) : passing fs (l ++ l') = passing fs l ++ passing fs l' := by
  simp [passing]

theorem passing_event (fs : List RPred) (e : CEv) : passing fs [.event e] = if passes fs e then [e] else [] := by
  unfold passing
  by_cases h : passes fs e = true <;> simp [h]

theorem passing_other (fs : List RPred) (a : SStep) (h : ∀ e, a ≠ .event e) : passing fs [a] = [] := by
  cases a <;> simp [passing] at *

theorem handle_eq (s : Src) (e : CEv) : s.handle e = s.enqueue e.obj e.deltaType := by cases e <;> rfl

/-- The requests of the events that passed. -/
def eventReqs (fs : List RPred) (steps : List SStep) : List Request := (passing fs steps).zipIdx.map (fun x => eventReq x.2 x.1)

theorem mem_eventReqs {fs : List RPred} {steps : List SStep} {r : Request} :
    r ∈ eventReqs fs steps ↔ ∃ (i : Nat) (e : CEv), (passing fs steps)[i]? = some e ∧ r = eventReq i e := by
  unfold eventReqs
  simp only [List.mem_map, Prod.exists, List.mem_zipIdx_iff_getElem?]
  constructor
  · rintro ⟨e, i, h, rfl⟩; exact ⟨i, e, h, rfl⟩
  · rintro ⟨i, e, h, rfl⟩; exact ⟨e, i, h, rfl⟩

theorem eventReqs_nodup (fs : List RPred) (steps : List SStep) : (eventReqs fs steps).Nodup := by
  unfold eventReqs
  generalize passing fs steps = l
  rw [List.Nodup, List.pairwise_map]
  have : ((l.zipIdx).map (·.2)).Nodup := by
    rw [List.zipIdx_map_snd]
    exact List.nodup_range'
  rw [List.Nodup, List.pairwise_map] at this
  refine this.imp ?_
  intro a b hab h
  apply hab
  have := congrArg Request.ptr h
  simpa [eventReq] using this

theorem eventReqs_append_event (fs : List RPred) (l : List SStep) (e : CEv) (h : passes fs e = true) :
    eventReqs fs (l ++ [.event e]) = eventReqs fs l ++ [eventReq (passing fs l).length e] := by
  unfold eventReqs
  rw [passing_append, passing_event, if_pos h, List.zipIdx_append]
  simp

theorem eventReqs_append_other (fs : List RPred) (l : List SStep) (a : SStep) (h : passing fs [a] = []) : eventReqs fs (l ++ [a]) = eventReqs fs l := by
  unfold eventReqs
  rw [passing_append, h, List.append_nil]

theorem add_queue_fresh {q : Wq} {cur : Option Request} (h : q.Inv cur) (r : Request) (h1 : r ∉ q.queue) (h2 : cur ≠ some r) :
    (q.add r).queue = q.queue ++ [r] := by
  unfold Wq.add
  have hd : r ∉ q.dirty := by
    intro hd
    rcases h.dq r hd with h | h
    · exact h1 h
    · exact h2 h
  have hp : r ∉ q.processing := by
    rw [h.proc]
    cases cur with
    | none => simp
    | some c => simp; intro e; exact h2 (by rw [e])
  rw [if_neg hd, if_neg hp]

theorem add_queue_count {q : Wq} (r x : Request) (h : x ≠ r) : (q.add r).queue.count x = q.queue.count x := by
  unfold Wq.add
  split
  · rfl
  · split
    · rfl
    · simp [List.count_append, List.count_singleton]
      intro he
      exact h he.symm

/-- Bookkeeping of the requests of events. -/
structure SourceInv (fs : List RPred) (steps : List SStep) (s : Src) : Prop where
  next : s.next = (passing fs steps).length
  occ : ∀ r, r.ptr.isSome → s.occurrences r = (eventReqs fs steps).count r
  nd : ∀ r, r.ptr.isSome → s.cur = some r → r ∉ s.wq.dirty

theorem mem_add_dirty {q : Wq} {r x : Request} (h : x ∈ (q.add r).dirty) : x ∈ q.dirty ∨ x = r := by
  unfold Wq.add at h
  split at h
  · exact Or.inl h
  · split at h <;> simpa using h

theorem finish_count (q : Wq) (x r : Request) (h : r = x → x ∉ q.dirty) : (q.finish x).queue.count r = q.queue.count r := by
  unfold Wq.finish
  split
  · rename_i hd
    have : r ≠ x := fun he => h he hd
    simp [List.count_append, List.count_singleton]
    intro he; exact this he.symm
  · rfl

theorem count_toList (o : Option Request) (r : Request) : o.toList.count r = if o = some r then 1 else 0 := by
  cases o with
  | none => simp
  | some x => simp [List.count_singleton]

theorem sourceInv (b64 : String → Option String) (fs : List RPred) (g : GVK) (steps : List SStep) : SourceInv fs steps (Src.run b64 fs g steps) := by
  induction steps using rev_induct with
  | h0 => exact ⟨rfl, fun r _ => by simp [Src.run, Src.occurrences, eventReqs, passing], fun r _ h => by simp [Src.run] at h⟩
  | h1 l a ih =>
    rw [run_append]
    have hw := Src.wq_inv b64 fs g l
    generalize Src.run b64 fs g l = s at ih hw
    obtain ⟨i1, i2, i3⟩ := ih
    -- a step that moves requests only
    have move : ∀ s' : Src, passing fs [a] = [] → s'.next = s.next → (∀ r, r.ptr.isSome → s'.occurrences r = s.occurrences r) →
        (∀ r, r.ptr.isSome → s'.cur = some r → r ∉ s'.wq.dirty) → SourceInv fs (l ++ [a]) s' := by
      intro s' hp hn ho hd
      refine ⟨by rw [passing_append, hp, List.append_nil, hn, i1], fun r hr => ?_, hd⟩
      rw [ho r hr, i2 r hr, eventReqs_append_other fs l a hp]
    cases a with
    | event e =>
      simp only [Src.step]
      split
      · rename_i hp
        rw [handle_eq]
        have he : (⟨objKey e.obj, e.deltaType, objGVK e.obj, some s.next⟩ : Request) = eventReq (passing fs l).length e := by rw [i1]; rfl
        have h0 : (eventReqs fs l).count (eventReq (passing fs l).length e) = 0 := by
          rw [List.count_eq_zero]
          intro hm
          obtain ⟨i, e', h1, h2⟩ := mem_eventReqs.mp hm
          have := congrArg Request.ptr h2
          simp [eventReq] at this
          have := (List.getElem?_eq_some_iff.mp h1).1
          omega
        have this := i2 (eventReq (passing fs l).length e) (by simp [eventReq])
        rw [h0] at this
        simp only [Src.occurrences, count_toList] at this
        have hc : s.cur ≠ some (eventReq (passing fs l).length e) := by
          intro hc; simp [hc] at this
        refine ⟨by simp [Src.enqueue, passing_append, passing_event, hp, i1], fun r hr => ?_, ?_⟩
        rotate_left
        · intro r hr hcr hm
          simp only [Src.enqueue] at hcr hm
          rw [he] at hm
          rcases mem_add_dirty hm with hm | hm
          · exact i3 r hr hcr hm
          · rw [hm] at hcr; exact hc hcr
        rw [eventReqs_append_event fs l e hp]
        simp only [Src.enqueue, Src.occurrences]
        rw [he]
        by_cases hre : r = eventReq (passing fs l).length e
        · subst hre
          have hq : eventReq (passing fs l).length e ∉ s.wq.queue := by
            rw [← List.count_eq_zero]; omega
          rw [add_queue_fresh hw _ hq hc, List.count_append, List.count_append, h0]
          simp [count_toList, hc]
          rw [if_neg hc] at this
          omega
        · rw [add_queue_count _ _ hre, List.count_append]
          have := i2 r hr
          simp only [Src.occurrences] at this
          rw [this]
          simp [List.count_singleton]
          intro h; exact hre h.symm
      · rename_i hp
        exact move s (by simp [passing_event, hp]) rfl (fun r _ => rfl) i3
    | tick =>
      have hne : ∀ r : Request, r.ptr.isSome → r ≠ tickReq g := by
        intro r hr h
        rw [h] at hr
        simp [tickReq] at hr
      refine move _ (passing_other fs _ (by simp)) rfl (fun r hr => ?_) (fun r hr hc hm => ?_)
      · simp only [Src.occurrences, Src.step]
        rw [add_queue_count _ _ (hne r hr)]
      · simp only [Src.step] at hm hc
        rcases mem_add_dirty hm with hm | hm
        · exact i3 r hr hc hm
        · exact hne r hr hm
    | take =>
      refine move _ (passing_other fs _ (by simp)) ?_ ?_ ?_
      · simp only [Src.step, Src.take]
        repeat' split
        all_goals rfl
      · intro r hr
        simp only [Src.step, Src.take]
        split
        · rfl
        · rename_i hc
          rw [hc] at hw
          split
          · rfl
          · rename_i x q hg
            have hq := (hw.get hg).2
            split
            all_goals
              simp only [Src.occurrences, hc, hq, Option.toList, List.count_cons, List.count_nil]
              omega
      · intro r hr
        simp only [Src.step, Src.take]
        split
        · exact i3 r hr
        · rename_i hc
          rw [hc] at hw
          split
          · intro h; rw [hc] at h; cases h
          · rename_i x q hg
            have hq : q.dirty = s.wq.dirty.erase x := by
              unfold Wq.get at hg
              split at hg
              · cases hg
              · cases hg; rfl
            split
            all_goals
              intro h
              cases h
              simp only [hq]
              intro hm
              exact (hw.dn.mem_erase_iff.mp hm).1 rfl
    | finish ok =>
      refine move _ (passing_other fs _ (by simp)) ?_ ?_ ?_
      · simp only [Src.step, Src.finish]
        repeat' split
        all_goals rfl
      · intro r hr
        simp only [Src.step, Src.finish]
        split
        · rfl
        · rename_i x hc
          have hf := finish_count s.wq x r (fun he => by subst he; exact i3 r hr hc)
          split
          · simp only [Src.occurrences, hf, hc, count_toList, List.count_append, List.count_singleton, Option.some.injEq, reduceCtorEq, if_false, beq_iff_eq]
            omega
          · have hocc := i2 r hr
            have hle : (eventReqs fs l).count r ≤ 1 := List.nodup_iff_count.mp (eventReqs_nodup fs l) r
            rw [← hocc] at hle
            simp only [Src.occurrences, hc, count_toList, Option.some.injEq] at hle
            split
            · rename_i hm
              have : r ≠ x := by
                intro he
                have : 1 ≤ s.delayed.count r := List.one_le_count_iff.mpr (he ▸ hm)
                rw [if_pos he.symm] at hle
                omega
              simp only [Src.occurrences, hf, hc, count_toList, Option.some.injEq, reduceCtorEq, if_false]
              rw [if_neg (fun e => this e.symm)]
            · simp only [Src.occurrences, hf, hc, count_toList, List.count_append, List.count_singleton, Option.some.injEq, reduceCtorEq, if_false, beq_iff_eq]
              omega
      · intro r hr
        simp only [Src.step, Src.finish]
        split
        · exact i3 r hr
        · split <;> intro h <;> cases h
    | due x =>
      refine move _ (passing_other fs _ (by simp)) ?_ ?_ ?_
      · simp only [Src.step, Src.due]
        repeat' split
        all_goals rfl
      · intro r hr
        simp only [Src.step, Src.due]
        split
        · rename_i hx
          by_cases hrx : r = x
          · subst hrx
            have hocc := i2 r hr
            have hle : (eventReqs fs l).count r ≤ 1 := List.nodup_iff_count.mp (eventReqs_nodup fs l) r
            rw [← hocc] at hle
            have h1 : 1 ≤ s.delayed.count r := List.one_le_count_iff.mpr hx
            simp only [Src.occurrences, count_toList] at hle ⊢
            have hq : r ∉ s.wq.queue := by rw [← List.count_eq_zero]; omega
            have hc : s.cur ≠ some r := by intro hc; rw [if_pos hc] at hle; omega
            rw [add_queue_fresh hw r hq hc, List.count_append, List.count_erase_self]
            simp
            omega
          · simp only [Src.occurrences]
            rw [add_queue_count _ _ hrx, List.count_erase_of_ne hrx]
        · rfl
      · intro r hr
        simp only [Src.step, Src.due]
        split
        · rename_i hx
          intro hc hm
          rcases mem_add_dirty hm with hm | hm
          · exact i3 r hr hc hm
          · subst hm
            have hocc := i2 r hr
            have hle : (eventReqs fs l).count r ≤ 1 := List.nodup_iff_count.mp (eventReqs_nodup fs l) r
            rw [← hocc] at hle
            have h1 : 1 ≤ s.delayed.count r := List.one_le_count_iff.mpr hx
            simp only at hc
            simp only [Src.occurrences, count_toList, if_pos hc] at hle
            omega
        · exact i3 r hr

/-- Requests without a snapshot are ticks. -/
structure TickInv (g : GVK) (steps : List SStep) (s : Src) : Prop where
  queue : ∀ r ∈ s.wq.queue, r.ptr = none → r = tickReq g ∧ SStep.tick ∈ steps
  cur : ∀ r, s.cur = some r → r.ptr = none → r = tickReq g ∧ SStep.tick ∈ steps
  delayed : ∀ r ∈ s.delayed, r.ptr = none → r = tickReq g ∧ SStep.tick ∈ steps

theorem mem_add_queue {q : Wq} {r x : Request} (h : x ∈ (q.add r).queue) : x ∈ q.queue ∨ x = r := by
  unfold Wq.add at h
  split at h
  · exact Or.inl h
  · split at h
    · exact Or.inl h
    · simpa using h

theorem mem_finish_queue {q : Wq} {r x : Request} (h : x ∈ (q.finish r).queue) : x ∈ q.queue ∨ x = r := by
  unfold Wq.finish at h
  split at h
  · simpa using h
  · exact Or.inl h

theorem get_queue {q q' : Wq} {r : Request} (hg : q.get = some (r, q')) : q.queue = r :: q'.queue := by
  unfold Wq.get at hg
  split at hg
  · cases hg
  · rename_i x t hq
    cases hg
    exact hq

theorem tickInv (b64 : String → Option String) (fs : List RPred) (g : GVK) (steps : List SStep) : TickInv g steps (Src.run b64 fs g steps) := by
  induction steps using rev_induct with
  | h0 => exact ⟨by simp [Src.run], by simp [Src.run], by simp [Src.run]⟩
  | h1 l a ih =>
    rw [run_append]
    generalize Src.run b64 fs g l = s at ih
    have weak : ∀ {r : Request}, r = tickReq g ∧ SStep.tick ∈ l → r = tickReq g ∧ SStep.tick ∈ l ++ [a] := fun h => ⟨h.1, by simp [h.2]⟩
    obtain ⟨i1, i2, i3⟩ := ih
    have same : TickInv g (l ++ [a]) s := ⟨fun r h h' => weak (i1 r h h'), fun r h h' => weak (i2 r h h'), fun r h h' => weak (i3 r h h')⟩
    cases a with
    | event e =>
      simp only [Src.step]
      split
      · rw [handle_eq]
        refine ⟨fun r h h' => ?_, fun r h h' => weak (i2 r h h'), fun r h h' => weak (i3 r h h')⟩
        simp only [Src.enqueue] at h
        rcases mem_add_queue h with h | h
        · exact weak (i1 r h h')
        · rw [h] at h'; simp at h'
      · exact same
    | tick =>
      simp only [Src.step]
      refine ⟨fun r h h' => ?_, fun r h h' => weak (i2 r h h'), fun r h h' => weak (i3 r h h')⟩
      rcases mem_add_queue h with h | h
      · exact weak (i1 r h h')
      · exact ⟨h, by simp⟩
    | take =>
      simp only [Src.step, Src.take]
      split
      · exact same
      · split
        · exact same
        · rename_i x q hg
          have hq := get_queue hg
          have h1 : ∀ r ∈ q.queue, r.ptr = none → r = tickReq g ∧ SStep.tick ∈ l ++ [SStep.take] :=
            fun r h h' => weak (i1 r (by rw [hq]; simp [h]) h')
          have h2 : ∀ r, some x = some r → r.ptr = none → r = tickReq g ∧ SStep.tick ∈ l ++ [SStep.take] := by
            intro r h h'
            cases h
            exact weak (i1 x (by rw [hq]; simp) h')
          split
          · exact ⟨h1, h2, fun r h h' => weak (i3 r h h')⟩
          · exact ⟨h1, h2, fun r h h' => weak (i3 r h h')⟩
    | finish ok =>
      simp only [Src.step, Src.finish]
      split
      · exact same
      · rename_i x hc
        have hx : x.ptr = none → x = tickReq g ∧ SStep.tick ∈ l ++ [SStep.finish ok] := fun h' => weak (i2 x hc h')
        have h1 : ∀ r ∈ (s.wq.finish x).queue, r.ptr = none → r = tickReq g ∧ SStep.tick ∈ l ++ [SStep.finish ok] := by
          intro r h h'
          rcases mem_finish_queue h with h | h
          · exact weak (i1 r h h')
          · rw [h] at h' ⊢; exact hx h'
        split
        · exact ⟨h1, fun r h => (by cases h), fun r h h' => weak (i3 r h h')⟩
        · refine ⟨h1, fun r h => (by cases h), fun r h h' => ?_⟩
          simp only at h
          split at h
          · exact weak (i3 r h h')
          · simp at h
            rcases h with h | h
            · exact weak (i3 r h h')
            · rw [h] at h' ⊢; exact hx h'
    | due x =>
      simp only [Src.step, Src.due]
      split
      · rename_i hx
        refine ⟨fun r h h' => ?_, fun r h h' => weak (i2 r h h'), fun r h h' => weak (i3 r (List.mem_of_mem_erase h) h')⟩
        rcases mem_add_queue h with h | h
        · exact weak (i1 r h h')
        · rw [h] at h' ⊢; exact weak (i3 x hx h')
      · exact same

/-- The request at the head of the queue of a source. -/
theorem queue_req {b64 : String → Option String} {fs : List RPred} {g : GVK} {steps : List SStep} {r : Request}
    (h : r ∈ (Src.run b64 fs g steps).wq.queue) :
    (r = tickReq g ∧ SStep.tick ∈ steps) ∨ ∃ (i : Nat) (e : CEv), (passing fs steps)[i]? = some e ∧ r = eventReq i e := by
  cases hr : r.ptr with
  | none => exact Or.inl ((tickInv b64 fs g steps).queue r h hr)
  | some i =>
    right
    have := (sourceInv b64 fs g steps).occ r (by simp [hr])
    have h1 : 1 ≤ (Src.run b64 fs g steps).wq.queue.count r := List.one_le_count_iff.mpr h
    simp only [Src.occurrences] at this
    exact mem_eventReqs.mp (List.one_le_count_iff.mp (by omega))

/-- Content of the snapshots and of what the reconciler was given. -/
structure LogInv (b64 : String → Option String) (fs : List RPred) (g : GVK) (steps : List SStep) (s : Src) : Prop where
  heap : ∀ (i : Nat) (e : CEv), (passing fs steps)[i]? = some e →
    s.heap i = iter (decodeSecret b64) (Src.attempts s.log (eventReq i e)) (copyObj e.obj)
  log : ∀ (k : Nat) (r : Request) (ty : DeltaType) (x : Option Obj), s.log[k]? = some (r, ty, x) →
    (r = tickReq g ∧ ty = .updated ∧ x = none ∧ SStep.tick ∈ steps) ∨
    ∃ (i : Nat) (e : CEv), (passing fs steps)[i]? = some e ∧ r = eventReq i e ∧ ty = e.deltaType ∧
      x = some (iter (decodeSecret b64) (Src.attempts (s.log.take (k + 1)) r) (copyObj e.obj))

theorem attempts_append (l : List (Request × DeltaType × Option Obj)) (x : Request × DeltaType × Option Obj) (r : Request) :
    Src.attempts (l ++ [x]) r = Src.attempts l r + if x.1 = r then 1 else 0 := by
  unfold Src.attempts
  rw [List.filter_append, List.length_append]
  by_cases h : x.1 = r <;> simp [h]

theorem attempts_fresh {fs : List RPred} {steps : List SStep} {b64 : String → Option String} {g : GVK} {s : Src} (h : LogInv b64 fs g steps s) (e : CEv) :
    Src.attempts s.log (eventReq (passing fs steps).length e) = 0 := by
  unfold Src.attempts
  rw [List.length_eq_zero_iff, List.filter_eq_nil_iff]
  rintro ⟨r, ty, x⟩ hm hr
  simp at hr
  subst hr
  obtain ⟨k, hk⟩ := List.getElem?_of_mem hm
  rcases h.log k _ _ _ hk with ⟨h1, _⟩ | ⟨i, e', h1, h2, _⟩
  · have := congrArg Request.ptr h1
    simp [eventReq, tickReq] at this
  · have := congrArg Request.ptr h2
    simp [eventReq] at this
    have := (List.getElem?_eq_some_iff.mp h1).1
    omega

theorem eventReq_inj {i j : Nat} {e e' : CEv} (h : eventReq i e = eventReq j e') : i = j := by
  have := congrArg Request.ptr h
  simpa [eventReq] using this

theorem logInv (b64 : String → Option String) (fs : List RPred) (g : GVK) (steps : List SStep) : LogInv b64 fs g steps (Src.run b64 fs g steps) := by
  induction steps using rev_induct with
  | h0 => exact ⟨by simp [passing], by simp [Src.run]⟩
  | h1 l a ih =>
    rw [run_append]
    have hs := sourceInv b64 fs g l
    have hh := @queue_req b64 fs g l
    generalize Src.run b64 fs g l = s at ih hs hh
    have weakT : SStep.tick ∈ l → SStep.tick ∈ l ++ [a] := fun h => by simp [h]
    have weakP : ∀ (i : Nat) (e : CEv), (passing fs l)[i]? = some e → (passing fs (l ++ [a]))[i]? = some e := by
      intro i e h
      rw [passing_append, List.getElem?_append_left (List.getElem?_eq_some_iff.mp h).1]
      exact h
    have weakL : ∀ (k : Nat) (r : Request) (ty : DeltaType) (x : Option Obj), s.log[k]? = some (r, ty, x) →
        (r = tickReq g ∧ ty = .updated ∧ x = none ∧ SStep.tick ∈ l ++ [a]) ∨
        ∃ (i : Nat) (e : CEv), (passing fs (l ++ [a]))[i]? = some e ∧ r = eventReq i e ∧ ty = e.deltaType ∧
          x = some (iter (decodeSecret b64) (Src.attempts (s.log.take (k + 1)) r) (copyObj e.obj)) := by
      intro k r ty x h
      rcases ih.log k r ty x h with ⟨h1, h2, h3, h4⟩ | ⟨i, e, h1, h2⟩
      · exact Or.inl ⟨h1, h2, h3, weakT h4⟩
      · exact Or.inr ⟨i, e, weakP i e h1, h2⟩
    -- a step that changes neither the snapshots nor the log
    have same : ∀ s' : Src, passing fs [a] = [] → s'.heap = s.heap → s'.log = s.log → LogInv b64 fs g (l ++ [a]) s' := by
      intro s' hp h1 h2
      refine ⟨fun i e h => ?_, ?_⟩
      · rw [passing_append, hp, List.append_nil] at h
        rw [h1, h2]
        exact ih.heap i e h
      · rw [h2]; exact weakL
    cases a with
    | event e =>
      simp only [Src.step]
      split
      · rename_i hp
        rw [handle_eq]
        refine ⟨fun i e' h => ?_, weakL⟩
        simp only [Src.enqueue]
        rw [passing_append, passing_event, if_pos hp] at h
        by_cases hi : i < (passing fs l).length
        · rw [List.getElem?_append_left hi] at h
          rw [upd, if_neg (by rw [hs.next]; omega)]
          exact ih.heap i e' h
        · have hi' : i = (passing fs l).length := by
            have := (List.getElem?_eq_some_iff.mp h).1
            simp at this
            omega
          subst hi'
          simp at h
          subst h
          rw [upd, if_pos hs.next.symm, attempts_fresh ih]
          rfl
      · rename_i hp
        exact same s (by simp [passing_event, hp]) rfl rfl
    | tick => exact same _ (passing_other fs _ (by simp)) rfl rfl
    | take =>
      simp only [Src.step, Src.take]
      have hp : passing fs [SStep.take] = [] := passing_other fs _ (by simp)
      split
      · exact same _ hp rfl rfl
      · split
        · exact same _ hp rfl rfl
        · rename_i r q hg
          have hr := hh (r := r) (by rw [get_queue hg]; simp)
          split
          · rename_i hn
            have hr : r = tickReq g ∧ SStep.tick ∈ l := by
              rcases hr with hr | ⟨i, e, h1, h2⟩
              · exact hr
              · rw [h2] at hn; simp [eventReq] at hn
            refine ⟨fun i e h => ?_, fun k x ty y h => ?_⟩
            · rw [passing_append, hp, List.append_nil] at h
              simp only [attempts_append]
              rw [if_neg (by rw [hr.1]; intro h; have := congrArg Request.ptr h; simp [eventReq, tickReq] at this)]
              exact ih.heap i e h
            · simp only at h ⊢
              by_cases hk : k < s.log.length
              · rw [List.getElem?_append_left hk] at h
                rw [List.take_append_of_le_length (by omega)]
                exact weakL k x ty y h
              · have hk' : k = s.log.length := by
                  have := (List.getElem?_eq_some_iff.mp h).1
                  simp at this
                  omega
                subst hk'
                simp at h
                obtain ⟨rfl, rfl, rfl⟩ := h
                left
                refine ⟨hr.1, by rw [hr.1]; rfl, rfl, weakT hr.2⟩
          · rename_i j hj
            obtain ⟨i, e, h1, h2⟩ : ∃ (i : Nat) (e : CEv), (passing fs l)[i]? = some e ∧ r = eventReq i e := by
              rcases hr with hr | hr
              · rw [hr.1] at hj; simp [tickReq] at hj
              · exact hr
            have hij : i = j := by rw [h2] at hj; simpa [eventReq] using hj
            subst hij
            have hheap := ih.heap i e h1
            rw [← h2] at hheap
            refine ⟨fun i' e' h => ?_, fun k x ty y h => ?_⟩
            · rw [passing_append, hp, List.append_nil] at h
              simp only [attempts_append]
              by_cases hii : i' = i
              · subst hii
                have : e' = e := by rw [h1] at h; cases h; rfl
                subst this
                rw [upd, if_pos rfl, if_pos h2, ← h2, hheap]
                rfl
              · rw [upd, if_neg hii, if_neg (by rw [h2]; intro h; exact hii (eventReq_inj h).symm)]
                exact ih.heap i' e' h
            · simp only at h ⊢
              by_cases hk : k < s.log.length
              · rw [List.getElem?_append_left hk] at h
                rw [List.take_append_of_le_length (by omega)]
                exact weakL k x ty y h
              · have hk' : k = s.log.length := by
                  have := (List.getElem?_eq_some_iff.mp h).1
                  simp at this
                  omega
                subst hk'
                simp at h
                obtain ⟨rfl, rfl, rfl⟩ := h
                right
                refine ⟨i, e, weakP i e h1, h2, by rw [h2]; rfl, ?_⟩
                rw [List.take_of_length_le (by simp), attempts_append, if_pos rfl, hheap]
                rfl
    | finish ok =>
      have hp : passing fs [SStep.finish ok] = [] := passing_other fs _ (by simp)
      simp only [Src.step, Src.finish]
      repeat' split
      all_goals exact same _ hp rfl rfl
    | due x =>
      have hp : passing fs [SStep.due x] = [] := passing_other fs _ (by simp)
      simp only [Src.step, Src.due]
      repeat' split
      all_goals exact same _ hp rfl rfl

/-- Without failures and ticks the requests are taken in the order of the events. -/
theorem fifo (b64 : String → Option String) (fs : List RPred) (g : GVK) (steps : List SStep) (hf : SStep.finish false ∉ steps) (ht : SStep.tick ∉ steps) :
    (Src.run b64 fs g steps).log.map (·.1) ++ (Src.run b64 fs g steps).wq.queue = eventReqs fs steps ∧ (Src.run b64 fs g steps).delayed = [] ∧
    ((Src.run b64 fs g steps).log.map (·.1) = (Src.run b64 fs g steps).finished ++ (Src.run b64 fs g steps).cur.toList) := by
  induction steps using rev_induct with
  | h0 => exact ⟨rfl, rfl, rfl⟩
  | h1 l a ih =>
    have ih := ih (fun h => hf (by simp [h])) (fun h => ht (by simp [h]))
    rw [run_append]
    have hs := sourceInv b64 fs g l
    have hw := Src.wq_inv b64 fs g l
    have htk := tickInv b64 fs g l
    generalize Src.run b64 fs g l = s at ih hs hw htk
    obtain ⟨i1, i2, i3⟩ := ih
    cases a with
    | event e =>
      simp only [Src.step]
      split
      · rename_i hp
        rw [handle_eq]
        have he : (⟨objKey e.obj, e.deltaType, objGVK e.obj, some s.next⟩ : Request) = eventReq (passing fs l).length e := by rw [hs.next]; rfl
        have h0 : (eventReqs fs l).count (eventReq (passing fs l).length e) = 0 := by
          rw [List.count_eq_zero]
          intro hm
          obtain ⟨i, e', h1, h2⟩ := mem_eventReqs.mp hm
          have := eventReq_inj h2
          have := (List.getElem?_eq_some_iff.mp h1).1
          omega
        have hocc := hs.occ (eventReq (passing fs l).length e) (by simp [eventReq])
        rw [h0] at hocc
        simp only [Src.occurrences, count_toList] at hocc
        have hc : s.cur ≠ some (eventReq (passing fs l).length e) := by
          intro hc; simp [hc] at hocc
        have hq : eventReq (passing fs l).length e ∉ s.wq.queue := by
          rw [← List.count_eq_zero]; omega
        refine ⟨?_, i2, i3⟩
        simp only [Src.enqueue]
        rw [he, add_queue_fresh hw _ hq hc, ← List.append_assoc, i1, eventReqs_append_event fs l e hp]
      · rename_i hp
        rw [eventReqs_append_other fs l _ (by simp [passing_event, hp])]
        exact ⟨i1, i2, i3⟩
    | tick => exact absurd (by simp) ht
    | take =>
      rw [eventReqs_append_other fs l _ (passing_other fs _ (by simp))]
      simp only [Src.step, Src.take]
      split
      · exact ⟨i1, i2, i3⟩
      · rename_i hc
        rw [hc] at i3
        split
        · exact ⟨i1, i2, by rw [hc]; exact i3⟩
        · rename_i r q hg
          have hq := get_queue hg
          rw [hq] at i1
          simp at i3
          split
          · refine ⟨?_, i2, ?_⟩
            · simp [← i1]
            · simp [i3]
          · refine ⟨?_, i2, ?_⟩
            · simp [← i1]
            · simp [i3]
    | finish ok =>
      rw [eventReqs_append_other fs l _ (passing_other fs _ (by simp))]
      have hok : ok = true := by
        cases ok with
        | true => rfl
        | false => exact absurd (by simp) hf
      subst hok
      simp only [Src.step, Src.finish]
      split
      · exact ⟨i1, i2, i3⟩
      · rename_i r hc
        simp only [if_true]
        have hd : r ∉ s.wq.dirty := by
          refine hs.nd r ?_ hc
          cases hr : r.ptr with
          | some i => rfl
          | none => exact absurd (htk.cur r hc hr).2 (fun h => ht (by simp [h]))
        refine ⟨?_, i2, ?_⟩
        · rw [← i1]; simp [Wq.finish, hd]
        · simp [i3, hc]
    | due x =>
      rw [eventReqs_append_other fs l _ (passing_other fs _ (by simp))]
      simp only [Src.step, Src.due]
      rw [i2]
      simp
      exact ⟨i1, i2, i3⟩

end Dctl
