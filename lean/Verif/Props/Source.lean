import Verif.Reconciler.SourceLemmas
import Verif.Props.Predicate
import Verif.Cache.StepLemmas
/-!
# Events and requests (C47, C66–C68)
-/
set_option autoImplicit false
set_option linter.unusedSectionVars false
namespace Dctl

/-! ## C47: one request per event -/

/-- **C47** (filters): a source with a valid specification lets an event pass exactly if its predicate holds, the labels of the object match the label selector
and the object is in the namespace, as far as they are given. -/
theorem source_filters (sp : SourceSpec) (fs : List RPred) (h : sp.filters = some fs) (e : CEv) :
    passes fs e = true ↔ (∀ p, sp.predicate = some p → p.Holds e) ∧
      (∀ f, sp.labels = some (some f) → f ((getStrings e.obj "labels").getD []) = true) ∧
      (∀ ns, sp.namespace' = some ns → (objKey e.obj).1 = ns) := by
  obtain ⟨pr, lb, nsp⟩ := sp
  unfold SourceSpec.filters at h
  have hobj : ∀ f : Obj → Bool, RPred.evalObj f e = f e.obj := fun f => by cases e <;> rfl
  cases pr with
  | none =>
    rcases lb with _ | _ | f <;> cases nsp <;> simp at h <;> subst h <;> simp [passes, RPred.eval, hobj]
  | some p =>
    cases hp : p.toRuntime with
    | none => simp [hp] at h
    | some r =>
      have := predicate_meaning e p r hp
      rcases lb with _ | _ | f <;> cases nsp <;> simp [hp] at h <;> subst h <;> simp [passes, RPred.eval, hobj, this]

example : ({ predicate := some demoPred, namespace' := some "default" } : SourceSpec).filters.isSome = true := by decide +kernel

/-- **C47** (exactly one request): in every reachable state of a source, every event that passed the filters has exactly one request, with the name, namespace and
kind of its object and the right delta type: it is waiting, being reconciled, waiting for a retry, or done. -/
theorem one_request_per_event (b64 : String → Option String) (fs : List RPred) (g : GVK) (steps : List SStep) (i : Nat) (e : CEv)
    (h : (passing fs steps)[i]? = some e) : (Src.run b64 fs g steps).occurrences (eventReq i e) = 1 := by
  rw [(sourceInv b64 fs g steps).occ _ (by simp [eventReq])]
  have h1 : 1 ≤ (eventReqs fs steps).count (eventReq i e) := List.one_le_count_iff.mpr (mem_eventReqs.mpr ⟨i, e, h, rfl⟩)
  have h2 := List.nodup_iff_count.mp (eventReqs_nodup fs steps) (eventReq i e)
  omega

/-- **C47** (no other requests): every request at a source is the one of an event that passed the filters, or that of a tick. -/
theorem no_other_request (b64 : String → Option String) (fs : List RPred) (g : GVK) (steps : List SStep) (r : Request)
    (h : r ∈ (Src.run b64 fs g steps).wq.queue) :
    (r = tickReq g ∧ SStep.tick ∈ steps) ∨ ∃ (i : Nat) (e : CEv), (passing fs steps)[i]? = some e ∧ r = eventReq i e := queue_req h

/-- **C47** (drained sources): when nothing is waiting, being reconciled or waiting for a retry, every event that passed the filters has been reconciled with success
exactly once. -/
theorem drained_all_done (b64 : String → Option String) (fs : List RPred) (g : GVK) (steps : List SStep)
    (hq : (Src.run b64 fs g steps).wq.queue = []) (hc : (Src.run b64 fs g steps).cur = none) (hd : (Src.run b64 fs g steps).delayed = [])
    (i : Nat) (e : CEv) (h : (passing fs steps)[i]? = some e) : (Src.run b64 fs g steps).finished.count (eventReq i e) = 1 := by
  have := one_request_per_event b64 fs g steps i e h
  simpa [Src.occurrences, hq, hc, hd] using this

/-- **C47** (type and content): everything the reconciler is given for an event has the type of the event and the content of its object at the time of the
event; of a Secret the data is decoded, once per attempt. -/
theorem delta_content (b64 : String → Option String) (fs : List RPred) (g : GVK) (steps : List SStep) (k : Nat) (r : Request) (ty : DeltaType)
    (x : Option Obj) (hnt : SStep.tick ∉ steps) (h : (Src.run b64 fs g steps).log[k]? = some (r, ty, x)) :
    ∃ (i : Nat) (e : CEv), (passing fs steps)[i]? = some e ∧ r = eventReq i e ∧ ty = e.deltaType ∧
      x = some (iter (decodeSecret b64) (Src.attempts ((Src.run b64 fs g steps).log.take (k + 1)) r) (copyObj e.obj)) := by
  rcases (logInv b64 fs g steps).log k r ty x h with ⟨_, _, _, h4⟩ | h'
  · exact absurd h4 hnt
  · exact h'

theorem iter_fix {A : Type} (f : A → A) (a : A) (h : f a = a) (n : Nat) : iter f n a = a := by
  induction n with
  | zero => rfl
  | succ n ih => rw [iter, ih, h]

/-- **C47** (objects other than Secrets): on every attempt the reconciler is given the object as it was at the time of the event. -/
theorem delta_content_exact_partial (b64 : String → Option String) (fs : List RPred) (g : GVK) (steps : List SStep) (k : Nat) (r : Request) (ty : DeltaType)
    (x : Option Obj) (hnt : SStep.tick ∉ steps) (h : (Src.run b64 fs g steps).log[k]? = some (r, ty, x))
    (hobj : ∀ e ∈ passing fs steps, Obj.Ok e.obj ∧ Copied e.obj ∧ nestedString e.obj ["kind"] ≠ "Secret") :
    ∃ (i : Nat) (e : CEv), (passing fs steps)[i]? = some e ∧ r = eventReq i e ∧ ty = e.deltaType ∧ x = some e.obj := by
  obtain ⟨i, e, h1, h2, h3, h4⟩ := delta_content b64 fs g steps k r ty x hnt h
  obtain ⟨o1, o2, o3⟩ := hobj e (List.mem_of_getElem? h1)
  refine ⟨i, e, h1, h2, h3, ?_⟩
  rw [h4, o2.copy o1, iter_fix]
  rw [decodeSecret, if_neg o3]

/-- An object with a field. -/
def demoObj (v : String) (labels : SMap Json := []) : Obj :=
  [("apiVersion", .str "test.view.dcontroller.io/v1alpha1"), ("kind", .str "view"),
   ("metadata", .map [("labels", .map labels), ("name", .str "a"), ("namespace", .str "default")]), ("spec", .str v)]

/-- A kind. -/
def demoKind : GVK := ⟨"test.view.dcontroller.io", "v1alpha1", "view"⟩

/-- A run with a failed attempt: the first event fails, the second succeeds, the first is retried. -/
def demoSteps : List SStep :=
  [.event (.add (demoObj "1")), .event (.update (demoObj "1") (demoObj "2")), .take, .finish false, .take, .finish true,
   .due (eventReq 0 (.add (demoObj "1"))), .take, .finish true]

-- Non-vacuity: both events pass, are well formed, and have been reconciled in the end, the first one in two attempts.
example : passing [] demoSteps = [.add (demoObj "1"), .update (demoObj "1") (demoObj "2")] := by decide +kernel
example : ((Src.run (fun _ => none) [] demoKind demoSteps).wq.queue, (Src.run (fun _ => none) [] demoKind demoSteps).cur,
    (Src.run (fun _ => none) [] demoKind demoSteps).delayed, (Src.run (fun _ => none) [] demoKind demoSteps).log.length) = ([], none, [], 3) := by decide +kernel
example : copyObj (demoObj "1") = demoObj "1" ∧ nestedString (demoObj "1") ["kind"] ≠ "Secret" := by decide +kernel

/-- **C47** is violated by retries for Secrets: the second attempt is given data decoded twice (see also C62). -/
theorem retry_decodes_twice : ¬ ∀ (b64 : String → Option String) (fs : List RPred) (g : GVK) (steps : List SStep) (k : Nat) (r : Request) (ty : DeltaType)
    (x : Option Obj), SStep.tick ∉ steps → (Src.run b64 fs g steps).log[k]? = some (r, ty, x) →
    ∃ (i : Nat) (e : CEv), (passing fs steps)[i]? = some e ∧ r = eventReq i e ∧ ty = e.deltaType ∧ x = some (decodeSecret b64 (copyObj e.obj)) := by
  intro h
  let o : Obj := [("apiVersion", .str "v1"), ("data", .map [("k", .str "YWJj")]), ("kind", .str "Secret"), ("metadata", .map [("name", .str "s")])]
  let b64 : String → Option String := fun s => if s = "YWJj" then some "abc" else if s = "abc" then some "i" else none
  let steps : List SStep := [.event (.add o), .take, .finish false, .due (eventReq 0 (.add o)), .take]
  have hlog : (Src.run b64 [] demoKind steps).log[1]? = some (eventReq 0 (.add o), .added, some (decodeSecret b64 (decodeSecret b64 (copyObj o)))) := by
    decide +kernel
  obtain ⟨i, e, h1, _, _, h4⟩ := h b64 [] demoKind steps 1 _ _ _ (by simp [steps]) hlog
  have hp : passing [] steps = [.add o] := by decide +kernel
  rw [hp] at h1
  have : e = .add o := by
    have := List.mem_of_getElem? h1
    simpa using this
  subst this
  exact absurd h4 (by decide +kernel)

/-! ## C67: order -/

theorem eventReqs_getElem? (fs : List RPred) (steps : List SStep) (k : Nat) :
    (eventReqs fs steps)[k]? = (passing fs steps)[k]?.map (fun e => eventReq k e) := by
  unfold eventReqs
  rw [List.getElem?_map, List.getElem?_zipIdx]
  cases (passing fs steps)[k]? <;> simp

/-- **C67** (as long as no reconciliation fails): the reconciler is given the events that passed the filters in their order, each of them once, with the
content at the time of the event. Missing: after a failure the order is not kept, see `retry_reorders`. -/
theorem events_in_order_partial (b64 : String → Option String) (fs : List RPred) (g : GVK) (steps : List SStep) (hf : SStep.finish false ∉ steps)
    (hnt : SStep.tick ∉ steps) :
    (∃ n, (Src.run b64 fs g steps).log.map (fun x => (x.2.1, x.2.2)) =
      ((passing fs steps).take n).map (fun e => (e.deltaType, some (decodeSecret b64 (copyObj e.obj))))) ∧
    ((Src.run b64 fs g steps).wq.queue = [] → (Src.run b64 fs g steps).log.map (fun x => (x.2.1, x.2.2)) =
      (passing fs steps).map (fun e => (e.deltaType, some (decodeSecret b64 (copyObj e.obj))))) := by
  have hfifo := (fifo b64 fs g steps hf hnt).1
  have hlog := (logInv b64 fs g steps).log
  generalize hS : Src.run b64 fs g steps = s at hfifo hlog
  have hnd := eventReqs_nodup fs steps
  -- the k-th entry of the log is the k-th event
  have key : ∀ k : Nat, k < s.log.length → ∃ e, (passing fs steps)[k]? = some e ∧
      (s.log[k]?).map (fun x => (x.2.1, x.2.2)) = some (e.deltaType, some (decodeSecret b64 (copyObj e.obj))) := by
    intro k hk
    obtain ⟨⟨r, ty, x⟩, hx⟩ : ∃ x, s.log[k]? = some x := ⟨s.log[k], List.getElem?_eq_getElem hk⟩
    have hr : (eventReqs fs steps)[k]? = some r := by
      rw [← hfifo, List.getElem?_append_left (by simpa using hk), List.getElem?_map, hx]
      rfl
    rcases hlog k r ty x hx with ⟨_, _, _, h4⟩ | ⟨i, e, h1, h2, h3, h4⟩
    · exact absurd h4 hnt
    · have hi : i = k := by
        rw [eventReqs_getElem?] at hr
        cases hp : (passing fs steps)[k]? with
        | none => rw [hp] at hr; cases hr
        | some e' =>
          rw [hp] at hr
          simp at hr
          rw [h2] at hr
          exact (eventReq_inj hr).symm
      subst hi
      refine ⟨e, h1, ?_⟩
      rw [hx]
      simp only [Option.map_some, h3, h4]
      have : Src.attempts (s.log.take (i + 1)) r = 1 := by
        have hnd' : (s.log.map (·.1)).Nodup := by
          rw [← hfifo] at hnd
          exact (List.nodup_append.mp hnd).1
        unfold Src.attempts
        have e1 : s.log.take (i + 1) = s.log.take i ++ [(r, ty, x)] := by
          rw [List.take_add_one, hx]; rfl
        rw [e1, List.filter_append, List.length_append]
        have e2 : (s.log.take i).filter (fun x => x.1 = r) = [] := by
          rw [List.filter_eq_nil_iff]
          intro y hy hyr
          simp at hyr
          have hsub : (s.log.take (i + 1)).map (·.1) <+: s.log.map (·.1) := (List.take_prefix _ _).map _
          have := hnd'.sublist hsub.sublist
          rw [e1, List.map_append, List.nodup_append] at this
          exact this.2.2 y.1 (List.mem_map_of_mem hy) r (by simp) hyr
        rw [e2]
        simp
      rw [this]
      rfl
  have hlen : s.log.length ≤ (passing fs steps).length := by
    have := congrArg List.length hfifo
    simp [eventReqs] at this
    omega
  have main : s.log.map (fun x => (x.2.1, x.2.2)) =
      ((passing fs steps).take s.log.length).map (fun e => (e.deltaType, some (decodeSecret b64 (copyObj e.obj)))) := by
    apply List.ext_getElem?
    intro k
    by_cases hk : k < s.log.length
    · obtain ⟨e, h1, h2⟩ := key k hk
      rw [List.getElem?_map, List.getElem?_map, List.getElem?_take, if_pos hk, h1, h2]
      rfl
    · rw [List.getElem?_eq_none (by simp; omega), List.getElem?_eq_none (by simp; omega)]
  refine ⟨⟨_, main⟩, fun hq => ?_⟩
  rw [main]
  have : s.log.length = (passing fs steps).length := by
    rw [hq, List.append_nil] at hfifo
    have := congrArg List.length hfifo
    simpa [eventReqs] using this
  rw [this, List.take_length]

example : SStep.finish false ∉ [SStep.event (.add (demoObj "1")), .take, .finish true] ∧ SStep.tick ∉ [SStep.event (.add (demoObj "1")), .take, .finish true] := by simp

/-- **C67** is violated after a failed reconciliation: the retried request carries its old snapshot and is put behind the newer one, so the last delta the pipeline
is given for the object is the first, outdated one. -/
theorem retry_reorders : ¬ ∀ (b64 : String → Option String) (fs : List RPred) (g : GVK) (steps : List SStep),
    (Src.run b64 fs g steps).wq.queue = [] → (Src.run b64 fs g steps).cur = none → (Src.run b64 fs g steps).delayed = [] →
    (∀ e ∈ passing fs steps, e.obj ≠ [] ∧ objKey e.obj = ("default", "a") ∧ nestedString e.obj ["kind"] ≠ "Secret" ∧ copyObj e.obj = e.obj) →
    (Src.run b64 fs g steps).log.getLast?.map (fun x => x.2.2) = (passing fs steps).getLast?.map (fun e => some e.obj) := by
  intro h
  have := h (fun _ => none) [] demoKind demoSteps (by decide +kernel) (by decide +kernel) (by decide +kernel) (by decide +kernel)
  exact absurd this (by decide +kernel)

/-! ## C68: ticks -/

/-- **C68** (coalescing): at any time at most one tick of a periodic source is waiting. -/
theorem ticks_coalesce (b64 : String → Option String) (fs : List RPred) (g : GVK) (steps : List SStep) :
    (Src.run b64 fs g steps).wq.queue.count (tickReq g) ≤ 1 := List.nodup_iff_count.mp (Src.wq_inv b64 fs g steps).qn _

theorem mem_add_self (q : Wq) (r : Request) : r ∈ (q.add r).dirty := by
  unfold Wq.add
  split
  · assumption
  · split <;> simp

theorem mem_add_of_mem (q : Wq) (r x : Request) (h : x ∈ q.dirty) : x ∈ (q.add r).dirty := by
  unfold Wq.add
  split
  · assumption
  · split <;> simp [h]

/-- **C68** (no tick is lost): when the source is idle again after a tick, a synchronisation was started after that tick. -/
theorem tick_not_lost (b64 : String → Option String) (fs : List RPred) (g : GVK) (a b : List SStep)
    (hq : (Src.run b64 fs g (a ++ .tick :: b)).wq.queue = []) (hc : (Src.run b64 fs g (a ++ .tick :: b)).cur = none) :
    ∃ (k : Nat) (x : Request × DeltaType × Option Obj), (Src.run b64 fs g a).log.length ≤ k ∧
      (Src.run b64 fs g (a ++ .tick :: b)).log[k]? = some x ∧ x.1 = tickReq g := by
  have key : ∀ b : List SStep, (tickReq g ∈ (Src.run b64 fs g (a ++ .tick :: b)).wq.dirty ∧
        (Src.run b64 fs g a).log.length ≤ (Src.run b64 fs g (a ++ .tick :: b)).log.length) ∨
      ∃ (k : Nat) (x : Request × DeltaType × Option Obj), (Src.run b64 fs g a).log.length ≤ k ∧
        (Src.run b64 fs g (a ++ .tick :: b)).log[k]? = some x ∧ x.1 = tickReq g := by
    intro b
    induction b using rev_induct with
    | h0 =>
      left
      rw [run_append]
      exact ⟨mem_add_self _ _, Nat.le_refl _⟩
    | h1 l y ih =>
      have e : a ++ SStep.tick :: (l ++ [y]) = (a ++ SStep.tick :: l) ++ [y] := by simp
      rw [e, run_append]
      generalize Src.run b64 fs g (a ++ SStep.tick :: l) = s at ih
      rcases ih with ⟨ih, hl⟩ | ⟨k, x, h1, h2, h3⟩
      · cases y with
        | event e =>
          simp only [Src.step]
          split
          · left
            rw [handle_eq]
            exact ⟨mem_add_of_mem _ _ _ ih, hl⟩
          · exact Or.inl ⟨ih, hl⟩
        | tick => exact Or.inl ⟨mem_add_of_mem _ _ _ ih, hl⟩
        | take =>
          simp only [Src.step, Src.take]
          split
          · exact Or.inl ⟨ih, hl⟩
          · split
            · exact Or.inl ⟨ih, hl⟩
            · rename_i r q hg
              have hd : q.dirty = s.wq.dirty.erase r := by
                unfold Wq.get at hg
                split at hg
                · cases hg
                · cases hg; rfl
              by_cases hr : r = tickReq g
              · right
                split
                · exact ⟨s.log.length, (r, r.type, none), hl, by simp, hr⟩
                · rename_i i hi
                  exact ⟨s.log.length, (r, r.type, some (decodeSecret b64 (s.heap i))), hl, by simp, hr⟩
              · left
                split
                · refine ⟨?_, by simp; omega⟩
                  simp only [hd]
                  rw [List.mem_erase_of_ne (fun e => hr e.symm)]
                  exact ih
                · refine ⟨?_, by simp; omega⟩
                  simp only [hd]
                  rw [List.mem_erase_of_ne (fun e => hr e.symm)]
                  exact ih
        | finish ok =>
          left
          simp only [Src.step, Src.finish]
          repeat' split
          all_goals first
            | exact ⟨ih, hl⟩
            | (refine ⟨?_, hl⟩; simp only [Wq.finish]; split <;> exact ih)
        | due r =>
          left
          simp only [Src.step, Src.due]
          split
          · exact ⟨mem_add_of_mem _ _ _ ih, hl⟩
          · exact ⟨ih, hl⟩
      · right
        refine ⟨k, x, h1, ?_, h3⟩
        have hpre : s.log <+: (Src.step b64 fs g s y).log := by
          cases y with
          | event e =>
            simp only [Src.step]
            split
            · rw [handle_eq]; exact List.prefix_refl _
            · exact List.prefix_refl _
          | tick => exact List.prefix_refl _
          | take =>
            simp only [Src.step, Src.take]
            repeat' split
            all_goals first
              | exact List.prefix_refl _
              | exact List.prefix_append _ _
          | finish ok =>
            simp only [Src.step, Src.finish]
            repeat' split
            all_goals exact List.prefix_refl _
          | due r =>
            simp only [Src.step, Src.due]
            repeat' split
            all_goals exact List.prefix_refl _
        obtain ⟨t, ht⟩ := hpre
        rw [← ht, List.getElem?_append_left (List.getElem?_eq_some_iff.mp h2).1]
        exact h2
  rcases key b with ⟨h, _⟩ | h
  · rcases (Src.wq_inv b64 fs g (a ++ .tick :: b)).dq _ h with h | h
    · rw [hq] at h; simp at h
    · rw [hc] at h; cases h
  · exact h

-- Non-vacuity: two ticks while a synchronisation runs lead to one more synchronisation.
example : ((Src.run (fun _ => none) [] demoKind [.tick, .take, .tick, .tick, .finish true, .take, .finish true]).wq.queue,
    (Src.run (fun _ => none) [] demoKind [.tick, .take, .tick, .tick, .finish true, .take, .finish true]).log.length) = ([], 2) := by decide +kernel

/-! ## C66: filtered sources -/

/-- No event makes an object that passes the filter one that does not. -/
def StaysIn (keep : Obj → Bool) (l : List CEv) : Prop :=
  ∀ p e s, l = p ++ e :: s → (∀ o, e ≠ .delete o) → ∀ a, mirror p (cacheKey (objKey e.obj)) = some a → keep a = true → keep e.obj = true

theorem mirror_key (l : List CEv) (k : String) (o : Obj) (h : mirror l k = some o) : cacheKey (objKey o) = k := by
  induction l using rev_induct with
  | h0 => simp [mirror] at h
  | h1 l e ih =>
    rw [mirror_append] at h
    cases e <;> simp only [Mirror.apply] at h <;> grind

/-- **C66** (objects that never leave the filter): if no update makes an object that passes the filter one that does not, what the source has passed on adds up to exactly
the existing objects that pass the filter. Missing: objects that leave the filter stay behind, see `filtered_source_stale`. -/
theorem filtered_source_exact_partial (fs : List RPred) (keep : Obj → Bool) (l : List CEv) (hfs : ∀ e, passes fs e = keep e.obj) (hf : Faithful l)
    (hs : StaysIn keep l) (k : String) : mirror (l.filter (passes fs)) k = (mirror l k).filter keep := by
  induction l using rev_induct with
  | h0 => rfl
  | h1 l e ih =>
    have ih := ih (fun p o s h => hf p o (s ++ [e]) (by simp [h])) (fun p x s h => hs p x (s ++ [e]) (by simp [h]))
    have hs' := hs l e [] rfl
    have hf' : ∀ o, e = .delete o → mirror l (cacheKey (objKey o)) = some o := fun o h => hf l o [] (by rw [h])
    rw [List.filter_append, mirror_append]
    have key : ∀ o, e.obj = o → (∀ x, e ≠ .delete x) → (∀ m x, Mirror.apply m e x = if x = cacheKey (objKey o) then some o else m x) →
        mirror (List.filter (passes fs) l ++ List.filter (passes fs) [e]) k = (Mirror.apply (mirror l) e k).filter keep := by
      intro o ho hd hm
      subst ho
      rw [hm]
      by_cases hp : keep e.obj = true
      · rw [List.filter_cons_of_pos (by rw [hfs]; exact hp), List.filter_nil, mirror_append, hm, ih]
        split
        · simp [Option.filter, hp]
        · rfl
      · rw [List.filter_cons_of_neg (by rw [hfs]; exact hp), List.filter_nil, List.append_nil, ih]
        split
        · rename_i hk
          subst hk
          cases hmm : mirror l (cacheKey (objKey e.obj)) with
          | none => simp [Option.filter, hp]
          | some a =>
            have := hs' hd a hmm
            by_cases ha : keep a = true
            · exact absurd (this ha) hp
            · simp [Option.filter, hp, ha]
        · rfl
    cases e with
    | add o => exact key o rfl (by simp) (fun m x => by simp [Mirror.apply])
    | update a o => exact key o rfl (by simp) (fun m x => by simp [Mirror.apply])
    | delete o =>
      have hdel := hf' o rfl
      by_cases hp : keep o = true
      · rw [List.filter_cons_of_pos (by rw [hfs]; exact hp), List.filter_nil, mirror_append]
        simp only [Mirror.apply]
        split
        · rfl
        · exact ih
      · rw [List.filter_cons_of_neg (by rw [hfs]; exact hp), List.filter_nil, List.append_nil, ih]
        simp only [Mirror.apply]
        split
        · rename_i hk
          subst hk
          rw [hdel]
          simp [Option.filter, hp]
        · rfl

/-- **C66** (namespace filters): a source restricted to a namespace has passed on exactly the existing objects of that namespace, whatever happened. -/
theorem namespace_source_exact (sp : SourceSpec) (ns : String) (fs : List RPred) (hsp : sp = { namespace' := some ns }) (hfs : sp.filters = some fs)
    (l : List CEv) (hf : Faithful l) (hn : ∀ e ∈ l, ObjKey.NoSlash (objKey e.obj)) (k : String) :
    mirror (l.filter (passes fs)) k = (mirror l k).filter (fun o => (objKey o).1 == ns) := by
  subst hsp
  have hpass : ∀ e, passes fs e = ((objKey e.obj).1 == ns) := by
    intro e
    have := source_filters _ fs hfs e
    simp at this
    cases h : ((objKey e.obj).1 == ns) with
    | true => rw [this]; simpa using h
    | false =>
      rw [Bool.eq_false_iff]
      intro hp
      rw [this] at hp
      simp [hp] at h
  refine filtered_source_exact_partial fs _ l hpass hf ?_ k
  intro p e s hl _ a ha hk
  simp only [beq_iff_eq] at hk ⊢
  have hmem : ∀ x, mirror p x = some a → ∃ e' ∈ p, e'.obj = a := by
    clear ha hl
    intro x hx
    induction p using rev_induct with
    | h0 => simp [mirror] at hx
    | h1 p y ih =>
      rw [mirror_append] at hx
      cases y with
      | add o =>
        simp only [Mirror.apply] at hx
        split at hx
        · exact ⟨.add o, by simp, Option.some.inj hx⟩
        · obtain ⟨e', h1, h2⟩ := ih hx; exact ⟨e', by simp [h1], h2⟩
      | update q o =>
        simp only [Mirror.apply] at hx
        split at hx
        · exact ⟨.update q o, by simp, Option.some.inj hx⟩
        · obtain ⟨e', h1, h2⟩ := ih hx; exact ⟨e', by simp [h1], h2⟩
      | delete o =>
        simp only [Mirror.apply] at hx
        split at hx
        · cases hx
        · obtain ⟨e', h1, h2⟩ := ih hx; exact ⟨e', by simp [h1], h2⟩
  obtain ⟨e', h1, h2⟩ := hmem _ ha
  have n1 := hn e' (by rw [hl]; simp [h1])
  have n2 := hn e (by rw [hl]; simp)
  rw [h2] at n1
  have := cacheKey_inj n1 n2 (mirror_key _ _ _ ha)
  rw [← this]
  exact hk

-- Non-vacuity: an object in the namespace and one outside.
example : ∃ fs, ({ namespace' := some "default" } : SourceSpec).filters = some fs ∧
    ([CEv.add (demoObj "1"), CEv.add [("metadata", .map [("name", .str "a"), ("namespace", .str "other")])]].filter (passes fs)) = [.add (demoObj "1")] :=
  ⟨[.inNamespace "default"], rfl, by decide +kernel⟩

/-- A label filter: the label `app` is `x`. -/
def demoSel : SMap String → Bool := fun m => SMap.get m "app" == some "x"

/-- **C66** is violated by label selectors: after an object has lost the label and has then been deleted, the pipeline still holds it, because neither event
passes the filter. -/
theorem filtered_source_stale : ¬ ∀ (sp : SourceSpec) (fs : List RPred) (l : List CEv), sp.predicate = none → sp.filters = some fs → Faithful l → ∀ k,
    mirror l k = none → mirror (l.filter (passes fs)) k = none := by
  intro h
  let a := demoObj "1" [("app", .str "x")]
  let b := demoObj "1" []
  let l : List CEv := [.add a, .update a b, .delete b]
  have hf : Faithful l := by
    have e : l = ([] ++ [.add a] ++ [.update a b]) ++ [.delete b] := rfl
    rw [e]
    refine faithful_snoc (faithful_snoc (faithful_snoc ?_ ?_) ?_) ?_
    · intro p o s hs; simp at hs
    · intro o ho; cases ho
    · intro o ho; cases ho
    · intro o ho
      cases ho
      decide +kernel
  have := h { labels := some (some demoSel) } [.labels demoSel] l rfl rfl hf "default/a" (by decide +kernel)
  exact absurd this (by decide +kernel)

/-- **C66** is violated by negated elementary predicates: they block every creation and deletion. -/
theorem negated_predicate_blocks (s : String) (r : RPred) (h : (Pred.bool [("Not", [.basic s])]).toRuntime = some r) (o : Obj) :
    passes [r] (.add o) = false ∧ passes [r] (.delete o) = false := by
  have hm := fun e => predicate_meaning e _ r h
  constructor
  · have := hm (.add o)
    simp [Pred.Holds, Pred.HoldsM, Pred.HoldsAll, BasicHolds] at this
    simp [passes, this]
  · have := hm (.delete o)
    simp [Pred.Holds, Pred.HoldsM, Pred.HoldsAll, BasicHolds] at this
    simp [passes, this]

example : (Pred.bool [("Not", [.basic "LabelChanged"])]).toRuntime.isSome = true := by decide +kernel

end Dctl
