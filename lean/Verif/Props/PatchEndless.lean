import Verif.Props.PatchLoop
import Verif.Props.Views
/-!
# C118: a controller that works for ever
-/
set_option autoImplicit false
set_option linter.unusedSectionVars false
namespace Dctl

/-! ### Controllers that use what users change -/

/-- A controller that reads the pods and patches them: half of the number of a pod is the field of the controller, the remainder belongs to the users; the controller copies
the remainder, plus one, to its field. -/
def copyCfg : List (PipeOp ExObj Nat) := [.project (fun x => .ok [{ x with val := 2 * (x.val % 2 + 1) }])]
def copyPipe : Pipe ExObj Nat :=
  match Pipe.new podK [podK] copyCfg with
  | .ok p => p
  | .error _ => { sources := [], target := podK, graph := {} }
/-- The patches leave the remainder. -/
def copyPatching : Patching ExObj where
  upsert b x := { b with val := b.val % 2 + 2 * (x.val / 2) }
  remove b _ := { b with val := b.val % 2 }

theorem copyPatching_sound : copyPatching.Sound exOps [podK] (fun _ => True) (fun _ => True) (fun d => d.val / 2) 0 := by
  constructor
  · intro t _ b x _ _ _ hg hk
    exact ⟨hg, hk, trivial, by simp only [copyPatching]; omega⟩
  · intro t _ b x _ _ _ hg hk
    exact ⟨hg, hk, trivial, by simp only [copyPatching]; omega⟩

/-- The number of a pod with remainder `f` after the controller was there. -/
abbrev copied (f : Nat) : Nat := f + 2 * (f + 1)

/-- The pipeline after the pod was seen with remainder 0, and with remainder 1. -/
def copy0 : Pipe ExObj Nat := (((copyPipe.evaluate exOps ω0 (pod .added "a" 0)).1.evaluate exOps ω0 (pod .updated "a" 1)).1.evaluate exOps ω0 (pod .updated "a" 2)).1
def copy1 : Pipe ExObj Nat := (copy0.evaluate exOps ω0 (pod .updated "a" 5)).1

theorem copy0_step : copy0.evaluate exOps ω0 (pod .updated "a" 5) = (copy1, .ok [pod .upserted "a" 4]) := rfl
theorem copy1_step : copy1.evaluate exOps ω0 (pod .updated "a" 2) = (copy0, .ok [pod .upserted "a" 2]) := by
  have h : copy1.evaluate exOps ω0 (pod .updated "a" 2) = ({ copy0 with src := (copy1.evaluate exOps ω0 (pod .updated "a" 2)).1.src }, .ok [pod .upserted "a" 2]) := rfl
  have e : ∀ g, (copy1.evaluate exOps ω0 (pod .updated "a" 2)).1.src g = copy0.src g := by
    intro g
    by_cases hg : g = podK
    · subst hg; rfl
    · have e1 : ∀ (c : SrcCache ExObj) (l : Store ExObj), SrcCache.put c podK l g = c g := fun c l => if_neg hg
      exact (e1 copy1.src _).trans ((e1 copy0.src _))
  rw [h, funext e]

def copyAt (f : Nat) : Pipe ExObj Nat := if f = 0 then copy0 else copy1

theorem copy_step {f : Nat} (hf : f = 0 ∨ f = 1) : (copyAt (1 - f)).evaluate exOps ω0 (pod .updated "a" (copied f)) = (copyAt f, .ok [pod .upserted "a" (2 * (f + 1))]) := by
  rcases hf with rfl | rfl
  · exact copy1_step
  · exact copy0_step

theorem copyAt_pipe (f : Nat) : podK ∈ (copyAt f).sources ∧ (copyAt f).target = podK := by
  unfold copyAt
  split <;> exact ⟨by decide +kernel, by decide +kernel⟩

/-- The events queued, the remainders in the snapshots of the writes to be sent, the remainder last seen, and that in the store. -/
structure Copying (W : PWorld ExObj Nat) (evs outs : List Nat) (last cur : Nat) (s : PStation ExObj Nat) : Prop where
  st : W.stations = [s]
  pipe : s.base.pipe = copyAt last
  ev : s.base.pending podK = evs.map (fun f => pod .updated "a" (copied f))
  out : s.base.out = outs.map (fun f => pod .upserted "a" (2 * (f + 1)))
  snaps : s.snaps = outs.map (fun f => (pod .updated "a" (copied f)).obj)
  store : W.store podK ("default", "a") = some (pod .updated "a" (copied cur)).obj

theorem copying_work {W : PWorld ExObj Nat} {f st : Nat} {ev out : List Nat} {s : PStation ExObj Nat} (hf : f = 0 ∨ f = 1) (h : Copying W (f :: ev) out (1 - f) st s) :
    ∃ W' s', W.act exOps copyPatching (.work 0 podK ω0) = some W' ∧ Copying W' ev (out ++ [f]) f st s' := by
  have hsp := copyAt_pipe (1 - f)
  have hev : s.base.pipe.evaluate exOps ω0 (pod .updated "a" (copied f)) = (copyAt f, .ok [pod .upserted "a" (2 * (f + 1))]) := by rw [h.pipe]; exact copy_step hf
  have hpen := h.ev
  rw [List.map_cons] at hpen
  let b : Station ExObj Nat := { pipe := copyAt f, pending := fun g => if g = podK then ev.map (fun f => pod .updated "a" (copied f)) else s.base.pending g,
                                 out := s.base.out ++ [pod .upserted "a" (2 * (f + 1))], done := s.base.done ++ [(ω0, pod .updated "a" (copied f))] }
  have hw : s.base.work exOps ω0 podK = some b := by
    simp only [Station.work, h.pipe, if_pos hsp.1, hpen]
    rw [← h.pipe, hev]
  have hwork : s.work exOps ω0 podK = some { base := b, snaps := s.snaps ++ [(pod .updated "a" (copied f)).obj] } := by
    simp only [PStation.work, hpen, hw]
    simp [b]
  refine ⟨{ W with stations := [{ base := b, snaps := s.snaps ++ [(pod .updated "a" (copied f)).obj] }] }, _, ?_, ⟨rfl, rfl, ?_, ?_, ?_, h.store⟩⟩
  · simp only [PWorld.act, h.st, List.getElem?_cons_zero, hwork, List.set_cons_zero]
  · simp [b]
  · simp [b, h.out]
  · simp [h.snaps]

theorem copying_send {W : PWorld ExObj Nat} {f st last : Nat} {ev out : List Nat} {s : PStation ExObj Nat} (hf : f = 0 ∨ f = 1) (hne : st = 1 - f)
    (h : Copying W ev (f :: out) last st s) :
    ∃ W' s', W.act exOps copyPatching (.send 0 0) = some W' ∧ Copying W' (ev ++ [f]) out last f s' := by
  have hout := h.out
  have hsnaps := h.snaps
  rw [List.map_cons] at hout hsnaps
  let s1 : PStation ExObj Nat := { base := { s.base with out := out.map (fun f => pod .upserted "a" (2 * (f + 1))) }, snaps := out.map (fun f => (pod .updated "a" (copied f)).obj) }
  have hs : s.send exOps 0 = some (pod .upserted "a" (2 * (f + 1)), (pod .updated "a" (copied f)).obj, s1) := by
    simp only [PStation.send, Station.send, hout, hsnaps, List.getElem?_cons_zero, List.take_zero, List.all_nil, if_true, List.eraseIdx_cons_zero, s1]
  have hsp := copyAt_pipe last
  have ht : s.base.pipe.target = podK := by rw [h.pipe]; exact hsp.2
  have hpw : patchWrite exOps copyPatching W.store podK (pod .upserted "a" (2 * (f + 1))) (pod .updated "a" (copied f)).obj =
      some (storePut W.store podK ("default", "a") (some (pod .updated "a" (copied f)).obj), some (pod .updated "a" (copied f))) := by
    have hb : patchBase exOps W.store podK (pod .upserted "a" (2 * (f + 1))) (pod .updated "a" (copied f)).obj = some (pod .updated "a" (copied f)).obj := by
      unfold patchBase
      rw [if_pos ⟨rfl, rfl⟩]
    have hup : copyPatching.upsert (pod .updated "a" (copied f)).obj (pod .upserted "a" (2 * (f + 1))).obj = (pod .updated "a" (copied f)).obj := by
      simp only [copyPatching, pod, copied]
      congr 1
      rcases hf with rfl | rfl <;> rfl
    unfold patchWrite
    simp only [hb]
    have : (pod .upserted "a" (2 * (f + 1))).type = .upserted := rfl
    rw [this]
    simp only [hup]
    unfold storeReplace
    rw [show exOps.key (pod .upserted "a" (2 * (f + 1))).obj = ("default", "a") from rfl, h.store]
    simp only
    rw [if_neg]
    · rfl
    · subst hne
      simp only [pod, copied]
      rcases hf with rfl | rfl <;> decide
  refine ⟨PWorld.notify exOps { W with stations := [s1] } (storePut W.store podK ("default", "a") (some (pod .updated "a" (copied f)).obj), some (pod .updated "a" (copied f))),
    { s1 with base := s1.base.notify exOps (pod .updated "a" (copied f)) }, ?_, ⟨rfl, ?_, ?_, ?_, rfl, ?_⟩⟩
  · simp only [PWorld.act, h.st, List.getElem?_cons_zero, hs, ht, hpw, List.set_cons_zero]
  · rw [show (s1.base.notify exOps (pod .updated "a" (copied f))).pipe = s.base.pipe by unfold Station.notify; split <;> rfl]
    exact h.pipe
  · have hm : exOps.gvk (pod .updated "a" (copied f)).obj ∈ s1.base.pipe.sources := by
      show podK ∈ s.base.pipe.sources
      rw [h.pipe]; exact hsp.1
    simp only [Station.notify, if_pos hm]
    show (if podK = podK then s.base.pending podK ++ _ else _) = _
    rw [if_pos rfl, h.ev]
    simp
  · show (s1.base.notify exOps (pod .updated "a" (copied f))).out = s1.base.out
    unfold Station.notify
    split <;> rfl
  · show storePut W.store podK ("default", "a") (some (pod .updated "a" (copied f)).obj) podK ("default", "a") = some (pod .updated "a" (copied f)).obj
    rw [storePut, if_pos ⟨rfl, rfl⟩]

/-- Three states of the controller, with the roles of the remainders as they are or swapped. -/
def Busy (W : PWorld ExObj Nat) : Prop :=
  ∃ f s, (f = 0 ∨ f = 1) ∧ (Copying W [1 - f, f] [] f f s ∨ Copying W [f] [1 - f] (1 - f) f s ∨ Copying W [] [1 - f, f] f f s)

theorem one_sub {f : Nat} (hf : f = 0 ∨ f = 1) : (1 - f = 0 ∨ 1 - f = 1) ∧ 1 - (1 - f) = f := by omega

theorem busy_next {W : PWorld ExObj Nat} (h : Busy W) : ∃ W', PatchStep exOps copyPatching W' W ∧ Busy W' := by
  obtain ⟨f, s, hf, h⟩ := h
  obtain ⟨hf', hff⟩ := one_sub hf
  rcases h with h | h | h
  · obtain ⟨W', s', h1, h2⟩ := copying_work hf' (by rw [hff]; exact h)
    exact ⟨W', ⟨_, show LoopAct.Own (.work 0 podK ω0) from ω0_valid, h1⟩, f, s', hf, .inr (.inl h2)⟩
  · obtain ⟨W', s', h1, h2⟩ := copying_work hf h
    exact ⟨W', ⟨_, show LoopAct.Own (.work 0 podK ω0) from ω0_valid, h1⟩, f, s', hf, .inr (.inr h2)⟩
  · obtain ⟨W', s', h1, h2⟩ := copying_send hf' hff.symm h
    exact ⟨W', ⟨_, show LoopAct.Own (.send 0 0) from trivial, h1⟩, 1 - f, s', hf', .inr (.inl (by rw [hff]; exact h2))⟩

theorem copying_acts {W W' : PWorld ExObj Nat} {evs outs : List Nat} {last cur : Nat} {s : PStation ExObj Nat} (h : Copying W evs outs last cur s) {a : LoopAct ExObj} (ha : a.Own)
    (hω : ∀ i g ω, a = .work i g ω → ω = ω0) (hact : W.act exOps copyPatching a = some W') : (a = .work 0 podK ω0 ∧ evs ≠ []) ∨ (a = .send 0 0 ∧ outs ≠ []) := by
  cases a with
  | user w => exact ha.elim
  | work i g ω =>
    left
    obtain ⟨t, t', ht, hwk, rfl⟩ := pact_work hact
    rw [h.st] at ht
    have hi : i = 0 := by
      cases i with
      | zero => rfl
      | succ i => simp at ht
    subst hi
    cases hω _ _ _ rfl
    simp only [List.getElem?_cons_zero, Option.some.injEq] at ht
    subst ht
    have hg : g ∈ s.base.pipe.sources := (pwork_some hwk).1
    have hgp : g = podK := by
      rw [h.pipe] at hg
      unfold copyAt at hg
      split at hg <;> exact List.mem_singleton.mp hg
    subst hgp
    refine ⟨rfl, ?_⟩
    rintro rfl
    have : s.base.pending podK = [] := h.ev
    simp only [PStation.work, this] at hwk
    cases hwk
  | send i n =>
    right
    obtain ⟨t, t', w, o, r, ht, hsd, hpw, rfl⟩ := pact_send hact
    rw [h.st] at ht
    have hi : i = 0 := by
      cases i with
      | zero => rfl
      | succ i => simp at ht
    subst hi
    simp only [List.getElem?_cons_zero, Option.some.injEq] at ht
    subst ht
    have hsend : ∃ b, s.base.send exOps n = some (w, b) := by
      unfold PStation.send at hsd
      split at hsd
      · rename_i w' b o' hb _
        cases hsd
        exact ⟨b, hb⟩
      · cases hsd
    obtain ⟨b, hb⟩ := hsend
    obtain ⟨d1, d2, _⟩ := send_some hb
    rw [h.out] at d1 d2
    cases outs with
    | nil => simp at d1
    | cons f outs =>
      refine ⟨?_, by simp⟩
      cases n with
      | zero => rfl
      | succ n =>
        exfalso
        have hw : exOps.key w.obj = ("default", "a") := by
          have := List.mem_of_getElem? d1
          obtain ⟨f', _, rfl⟩ := List.mem_map.mp this
          rfl
        have := d2 (pod .upserted "a" (2 * (f + 1))) (by simp)
        exact this (by rw [hw]; rfl)

theorem busy_act {W W' : PWorld ExObj Nat} (h : Busy W) {a : LoopAct ExObj} (ha : a.Own) (hω : ∀ i g ω, a = .work i g ω → ω = ω0)
    (hact : W.act exOps copyPatching a = some W') : Busy W' := by
  obtain ⟨f, s, hf, h⟩ := h
  obtain ⟨hf', hff⟩ := one_sub hf
  rcases h with h | h | h
  · rcases copying_acts h ha hω hact with ⟨rfl, _⟩ | ⟨_, hne⟩
    · obtain ⟨W1, s', h1, h2⟩ := copying_work hf' (by rw [hff]; exact h)
      rw [hact] at h1; cases h1
      exact ⟨f, s', hf, .inr (.inl h2)⟩
    · exact absurd rfl hne
  · rcases copying_acts h ha hω hact with ⟨rfl, _⟩ | ⟨rfl, _⟩
    · obtain ⟨W1, s', h1, h2⟩ := copying_work hf h
      rw [hact] at h1; cases h1
      exact ⟨f, s', hf, .inr (.inr h2)⟩
    · obtain ⟨W1, s', h1, h2⟩ := copying_send hf' hff.symm h
      rw [hact] at h1; cases h1
      exact ⟨1 - f, s', hf', .inl (by rw [hff]; exact h2)⟩
  · rcases copying_acts h ha hω hact with ⟨_, hne⟩ | ⟨rfl, _⟩
    · exact absurd rfl hne
    · obtain ⟨W1, s', h1, h2⟩ := copying_send hf' hff.symm h
      rw [hact] at h1; cases h1
      exact ⟨1 - f, s', hf', .inr (.inl (by rw [hff]; exact h2))⟩

theorem busy_not_stopped {W : PWorld ExObj Nat} (h : Busy W) : ¬ W.Stopped exOps := by
  intro hs
  obtain ⟨f, s, hf, h⟩ := h
  rcases h with h | h | h
  all_goals
    obtain ⟨h1, h2⟩ := hs 0 s (by rw [h.st]; rfl)
    have hm : podK ∈ s.base.pipe.sources := by rw [h.pipe]; exact (copyAt_pipe _).1
  · have := (h1 podK hm).symm.trans h.ev
    cases this
  · have := (h1 podK hm).symm.trans h.ev
    cases this
  · have := h2 (pod .upserted "a" (2 * (1 - f + 1))) (by rw [h.out]; simp)
    rw [h.pipe, (copyAt_pipe _).2] at this
    have hst := h.store
    rw [show exOps.key (pod .upserted "a" (2 * (1 - f + 1))).obj = ("default", "a") from rfl, hst] at this
    cases this

/-- What happens: a user makes a pod, the controller evaluates it; before it sends the patch, the user changes the pod, once, and not in the field of the controller. -/
def copyActs : List (LoopAct ExObj) :=
  [.user (pod .upserted "a" 0), .work 0 podK ω0, .user (pod .upserted "a" 1), .send 0 0, .work 0 podK ω0, .work 0 podK ω0, .send 0 0]

/-- Not **C118** in general: if the pipeline uses a field of the patched objects that users change, then one change of that field between an evaluation and its patch is enough
that the controller works for ever and switches the object between the old and the new value of the field of the user, in whatever order it evaluates and sends. -/
theorem C118_livelock : ∃ W, (PWorld.init [copyPipe]).acts exOps copyPatching copyActs = some W ∧
    (PWorld.init [copyPipe]).PoliteRun exOps copyPatching [podK] (fun _ => True) (fun d => d.val / 2) 0 copyActs ∧
    ¬ Acc (PatchStep exOps copyPatching) W ∧
    ∀ bs W', (∀ b ∈ bs, b.Own ∧ ∀ i g ω, b = .work i g ω → ω = ω0) → W.acts exOps copyPatching bs = some W' →
      ¬ W'.Stopped exOps ∧ ∃ W'', PatchStep exOps copyPatching W'' W' := by
  have hno : ∀ W : PWorld ExObj Nat, Acc (PatchStep exOps copyPatching) W → ¬ Busy W := by
    intro W h
    induction h with
    | intro W _ ih =>
      intro hb
      obtain ⟨W', h1, h2⟩ := busy_next hb
      exact ih W' h1 h2
  have hkeep : ∀ bs W W', (∀ b ∈ bs, b.Own ∧ ∀ i g ω, b = .work i g ω → ω = ω0) → Busy W → W.acts exOps copyPatching bs = some W' → Busy W' := by
    intro bs
    induction bs with
    | nil => intro W W' _ h h'; cases h'; exact h
    | cons b bs ih =>
      intro W W' hb h h'
      simp only [PWorld.acts] at h'
      split at h'
      · cases h'
      · rename_i W1 hW1
        have hb0 := hb b (by simp)
        exact ih W1 W' (fun c hc => hb c (List.mem_cons_of_mem _ hc)) (busy_act h hb0.1 hb0.2 hW1) h'
  have hrun : ∃ W, (PWorld.init [copyPipe]).acts exOps copyPatching copyActs = some W ∧ Busy W := ⟨_, rfl, 1, _, .inr rfl, .inr (.inl ⟨rfl, rfl, rfl, rfl, rfl, rfl⟩)⟩
  obtain ⟨W, hW, hb⟩ := hrun
  refine ⟨W, hW, politeRun_of_check (by decide +kernel) (fun _ _ => trivial) ?_, fun h => hno W h hb, ?_⟩
  · intro i g ω hw
    simp only [copyActs, List.mem_cons, List.not_mem_nil, or_false, LoopAct.work.injEq, reduceCtorEq, false_or] at hw
    rcases hw with ⟨_, _, rfl⟩ | ⟨_, _, rfl⟩ | ⟨_, _, rfl⟩ <;> exact ω0_valid
  · intro bs W' hbs hW'
    have := hkeep bs W W' hbs hb hW'
    obtain ⟨W'', h1, _⟩ := busy_next this
    exact ⟨busy_not_stopped this, W'', h1⟩

end Dctl
