import Verif.Operator.PatchLoopLemmas
import Verif.Props.Loop
/-! Helper lemmas about controllers that patch what they watch: whole runs, the end of the work, and the state at rest. -/
set_option autoImplicit false
set_option linter.unusedSectionVars false
namespace Dctl
variable {D J V : Type} [DecidableEq D] [DecidableEq J]

/-! ### Streams along steps -/

/-- The queues hold events of their own kind. -/
def QueuesOk (O : ObjOps D) (W : PWorld D J) : Prop := ∀ (i : Nat) s, W.stations[i]? = some s → ∀ g, ∀ δ ∈ s.base.pending g, O.gvk δ.obj = g

/-- The stream of a kind: the events evaluated and those queued. -/
def stream (O : ObjOps D) (g : GVK) (s : PStation D J) : List (Delta D) := kindEvents O g (s.base.done.map Prod.snd) ++ s.base.pending g

theorem told_stream (O : ObjOps D) (s : PStation D J) (ev : Option (Delta D)) (g : GVK) : (s.told O ev).base.pipe = s.base.pipe ∧ (s.told O ev).base.done = s.base.done ∧
    (s.told O ev).base.out = s.base.out ∧
    ((s.told O ev).base.pending g = s.base.pending g ∨ ∃ δ, ev = some δ ∧ g = O.gvk δ.obj ∧ (s.told O ev).base.pending g = s.base.pending g ++ [δ]) := by
  cases ev with
  | none => exact ⟨rfl, rfl, rfl, .inl rfl⟩
  | some δ =>
    obtain ⟨n1, n2, n3⟩ := notify_done O δ s.base
    refine ⟨n2, n1, n3, ?_⟩
    rcases (streams_notify (O := O) (s := s.base) (δ := δ) (g := g)).2.2 with h | ⟨h1, h2⟩
    · exact .inl h
    · exact .inr ⟨δ, rfl, h1, h2⟩

/-- What a step does to the controller number `j`. -/
theorem act_streams {O : ObjOps D} {P : Patching D} {W W' : PWorld D J} (hk : QueuesOk O W) {a : LoopAct D} (h : W.act O P a = some W') {j : Nat} {s : PStation D J}
    (hs : W.stations[j]? = some s) : ∃ s', W'.stations[j]? = some s' ∧ s'.base.pipe.sources = s.base.pipe.sources ∧ ∀ g, stream O g s <+: stream O g s' := by
  have hnot : ∀ (W1 : PWorld D J) r s1, W1.stations[j]? = some s1 → s1.base.pipe = s.base.pipe → s1.base.done = s.base.done → s1.base.pending = s.base.pending →
      ∃ s', (W1.notify O r).stations[j]? = some s' ∧ s'.base.pipe.sources = s.base.pipe.sources ∧ ∀ g, stream O g s <+: stream O g s' := by
    intro W1 r s1 h1 h2 h3 h4
    refine ⟨s1.told O r.2, ?_, ?_, fun g => ?_⟩
    · obtain ⟨S, ev⟩ := r
      cases ev <;> simp [PWorld.notify, PStation.told, h1]
    · rw [(told_stream O s1 r.2 ⟨"", "", ""⟩).1, h2]
    · obtain ⟨t1, t2, _, t3⟩ := told_stream O s1 r.2 g
      unfold stream
      rw [t2, h3]
      rcases t3 with t3 | ⟨δ, _, _, t3⟩
      · rw [t3, h4]; exact List.prefix_refl _
      · rw [t3, h4, ← List.append_assoc]; exact List.prefix_append _ _
  cases a with
  | user w =>
    simp only [PWorld.act, Option.some.injEq] at h
    subst h
    exact hnot _ _ s hs rfl rfl rfl
  | work i g ω =>
    obtain ⟨s1, s1', h1, h2, rfl⟩ := pact_work h
    by_cases e : i = j
    · subst e
      rw [hs] at h1
      cases h1
      refine ⟨s1', List.getElem?_set_self (List.getElem?_eq_some_iff.mp hs).1, work_sources h2, fun g' => ?_⟩
      rw [show stream O g' s1' = stream O g' s from work_stream (hk _ s hs g) h2 g']
      exact List.prefix_refl _
    · exact ⟨s, by simp only; rw [List.getElem?_set_ne e]; exact hs, rfl, fun g => List.prefix_refl _⟩
  | send i n =>
    obtain ⟨s1, s1', w, o, r, h1, h2, h3, rfl⟩ := pact_send h
    obtain ⟨q1, q2, q3⟩ := psend_some h2
    by_cases e : i = j
    · subst e
      rw [hs] at h1
      cases h1
      exact hnot _ _ s1' (List.getElem?_set_self (List.getElem?_eq_some_iff.mp hs).1) (by rw [q3]) (by rw [q3]) (by rw [q3])
    · exact hnot _ _ s (by simp only; rw [List.getElem?_set_ne e]; exact hs) rfl rfl rfl

theorem queuesOk_told {O : ObjOps D} {s : PStation D J} (h : ∀ g, ∀ δ ∈ s.base.pending g, O.gvk δ.obj = g) (ev : Option (Delta D)) :
    ∀ g, ∀ δ ∈ (s.told O ev).base.pending g, O.gvk δ.obj = g := by
  intro g δ hδ
  rcases (told_stream O s ev g).2.2.2 with t | ⟨ε, _, e, t⟩
  · rw [t] at hδ; exact h g δ hδ
  · rw [t] at hδ
    rcases List.mem_append.mp hδ with hδ | hδ
    · exact h g δ hδ
    · rw [List.mem_singleton.mp hδ]; exact e.symm

theorem queuesOk_act {O : ObjOps D} {P : Patching D} {W W' : PWorld D J} (hk : QueuesOk O W) {a : LoopAct D} (h : W.act O P a = some W') : QueuesOk O W' := by
  intro j t ht
  cases a with
  | user w =>
    simp only [PWorld.act, Option.some.injEq] at h
    subst h
    obtain ⟨s, hs, rfl⟩ := pnotify_get ht
    exact queuesOk_told (hk j s hs) _
  | work i g ω =>
    obtain ⟨s1, s1', h1, h2, rfl⟩ := pact_work h
    simp only at ht
    by_cases e : i = j
    · subst e
      rw [List.getElem?_set_self (List.getElem?_eq_some_iff.mp h1).1] at ht
      cases ht
      obtain ⟨hg, δ, q, p', ws, hq, he, hbw, hb, hsn⟩ := pwork_some h2
      intro g' ε hε
      rw [hb] at hε
      simp only at hε
      split at hε
      · rename_i e; subst e
        exact hk _ s1 h1 g' ε (by rw [hq]; exact List.mem_cons_of_mem _ hε)
      · exact hk _ s1 h1 g' ε hε
    · rw [List.getElem?_set_ne e] at ht
      exact hk j t ht
  | send i n =>
    obtain ⟨s1, s1', w, o, r, h1, h2, h3, rfl⟩ := pact_send h
    obtain ⟨q1, q2, q3⟩ := psend_some h2
    obtain ⟨s, hs, rfl⟩ := pnotify_get ht
    refine queuesOk_told ?_ _
    simp only at hs
    by_cases e : i = j
    · subst e
      rw [List.getElem?_set_self (List.getElem?_eq_some_iff.mp h1).1] at hs
      cases hs
      rw [q3]
      exact hk _ s1 h1
    · rw [List.getElem?_set_ne e] at hs
      exact hk j s hs

theorem fine_prefix {Fine : GVK → List (Delta D) → Prop} (hF : ∀ g h δ, Fine g (h ++ [δ]) → Fine g h) {g : GVK} {a b : List (Delta D)} (hab : a <+: b) (h : Fine g b) : Fine g a := by
  obtain ⟨c, rfl⟩ := hab
  revert h
  exact list_snoc_ind (P := fun c => Fine g (a ++ c) → Fine g a) (by simp) (fun l δ ih hh => ih (hF g _ δ (by rw [List.append_assoc]; exact hh))) c

/-- If the events are fine after a step, they are fine before it. -/
theorem fine_before {O : ObjOps D} {P : Patching D} {ts : List GVK} {Fine : GVK → List (Delta D) → Prop} (hF : ∀ g h δ, Fine g (h ++ [δ]) → Fine g h) {W W' : PWorld D J}
    (hk : QueuesOk O W) {a : LoopAct D} (h : W.act O P a = some W') (hf : W'.FineEvents O ts Fine) : W.FineEvents O ts Fine := by
  intro i s hs g hg hn
  obtain ⟨s', h1, h2, h3⟩ := act_streams hk h hs
  exact fine_prefix hF (h3 g) (hf i s' h1 g (by rw [h2]; exact hg) hn)

theorem fine_before_acts {O : ObjOps D} {P : Patching D} {ts : List GVK} {Fine : GVK → List (Delta D) → Prop} (hF : ∀ g h δ, Fine g (h ++ [δ]) → Fine g h)
    (as : List (LoopAct D)) {W W' : PWorld D J} (hk : QueuesOk O W) (h : W.acts O P as = some W') (hf : W'.FineEvents O ts Fine) : W.FineEvents O ts Fine := by
  induction as generalizing W with
  | nil => cases h; exact hf
  | cons a as ih =>
    simp only [PWorld.acts] at h
    split at h
    · cases h
    · rename_i W1 h1
      exact fine_before hF hk h1 (ih (queuesOk_act hk h1) h)

theorem queuesOk_init (O : ObjOps D) (ps : List (Pipe D J)) : QueuesOk O (PWorld.init ps) := by
  intro i s hs g δ hδ
  simp only [PWorld.init, List.getElem?_map, Option.map_eq_some_iff] at hs
  obtain ⟨p, _, rfl⟩ := hs
  cases hδ

theorem queuesOk_acts {O : ObjOps D} {P : Patching D} (as : List (LoopAct D)) {W W' : PWorld D J} (hk : QueuesOk O W) (h : W.acts O P as = some W') : QueuesOk O W' := by
  induction as generalizing W with
  | nil => cases h; exact hk
  | cons a as ih =>
    simp only [PWorld.acts] at h
    split at h
    · cases h
    · rename_i W1 h1
      exact ih (queuesOk_act hk h1) h

theorem pinv_acts {O : ObjOps D} (L : O.Lawful) {P : Patching D} {ts : List GVK} {Good Res : D → Prop} {Fine : GVK → List (Delta D) → Prop} {fld : D → V} {blank : V}
    (hP : P.Sound O ts Good Res fld blank) (hF : ∀ g h δ, Fine g (h ++ [δ]) → Fine g h) {ps : List (Pipe D J)} (hnd : (ps.map Pipe.target).Nodup)
    (hts : ∀ p ∈ ps, p.target ∈ ts) (hsp : ∀ p ∈ ps, SelfPatching O ts Good Fine Res p) (as : List (LoopAct D)) {W W' : PWorld D J} (h : PInv O Good Res fld blank ps W)
    (hk : QueuesOk O W) (hf : W'.FineEvents O ts Fine) (hpol : W.PoliteRun O P ts Good fld blank as) (hrun : W.acts O P as = some W') : PInv O Good Res fld blank ps W' := by
  induction as generalizing W with
  | nil => cases hrun; exact h
  | cons a as ih =>
    have hfW := fine_before_acts hF (a :: as) hk hrun hf
    simp only [PWorld.acts] at hrun
    split at hrun
    · cases hrun
    · rename_i W1 h1
      exact ih (pinv_act L hP hF hnd hts hsp h hfW hpol.1 h1) (queuesOk_act hk h1) (hpol.2 W1 h1) hrun

/-! ### The end of the work -/

/-- An event that may lead to writes: anything but an update of an object of the kinds `ts`. -/
def loud (O : ObjOps D) (ts : List GVK) (δ : Delta D) : Bool := decide (δ.type ≠ .updated ∨ O.gvk δ.obj ∉ ts)

/-- What there is to do at a controller: loud events, writes, events. -/
def PStation.load (O : ObjOps D) (ts : List GVK) (s : PStation D J) : Nat → Nat
  | 0 => (s.base.pipe.sources.map (fun g => ((s.base.pending g).filter (loud O ts)).length)).sum
  | 1 => s.base.out.length
  | _ => s.base.queued

/-- What there is to do. -/
def PWorld.load (O : ObjOps D) (ts : List GVK) (W : PWorld D J) (c : Nat) : Nat := (W.stations.map (fun s => s.load O ts c)).sum

theorem sum_set {A : Type} (f : A → Nat) : ∀ {l : List A} {i : Nat} {a : A} (b : A), l[i]? = some a → ((l.set i b).map f).sum + f a = (l.map f).sum + f b
  | [], i, a, b, h => by simp at h
  | x :: l, 0, a, b, h => by
    simp only [List.getElem?_cons_zero, Option.some.injEq] at h
    subst h
    simp only [List.set_cons_zero, List.map_cons, List.sum_cons]; omega
  | x :: l, i + 1, a, b, h => by
    have := sum_set f (l := l) (i := i) b (by simpa using h)
    simp only [List.set_cons_succ, List.map_cons, List.sum_cons]; omega

theorem load_told {O : ObjOps D} {ts : List GVK} {s : PStation D J} {ev : Option (Delta D)} (h : ∀ δ, ev = some δ → loud O ts δ = false) (c : Nat) (hc : c < 2) :
    (s.told O ev).load O ts c = s.load O ts c := by
  have t := told_stream O s ev
  match c, hc with
  | 0, _ =>
    simp only [PStation.load]
    rw [(t ⟨"", "", ""⟩).1]
    congr 1
    refine List.map_congr_left (fun g _ => ?_)
    rcases (t g).2.2.2 with e | ⟨δ, h1, _, e⟩
    · rw [e]
    · rw [e, List.filter_append]
      simp [h δ h1]
  | 1, _ =>
    simp only [PStation.load]
    rw [(t ⟨"", "", ""⟩).2.2.1]

theorem load_notify {O : ObjOps D} {ts : List GVK} {W : PWorld D J} {r : (GVK → Target D) × Option (Delta D)} (h : ∀ δ, r.2 = some δ → loud O ts δ = false) (c : Nat) (hc : c < 2) :
    (W.notify O r).load O ts c = W.load O ts c := by
  have : (W.notify O r).stations = W.stations.map (fun s => s.told O r.2) := by
    obtain ⟨S, ev⟩ := r
    cases ev with
    | none => simp [PWorld.notify, PStation.told]
    | some δ => rfl
  unfold PWorld.load
  rw [this, List.map_map]
  congr 1
  exact List.map_congr_left (fun s _ => load_told h c hc)

/-- What a step of the controllers leaves: the invariant, fine events, and less to do. -/
theorem own_step {O : ObjOps D} {P : Patching D} {ts : List GVK} {Good Res : D → Prop} {Fine : GVK → List (Delta D) → Prop} {fld : D → V} {blank : V}
    (hP : P.Sound O ts Good Res fld blank) (hF : ∀ g h δ, Fine g (h ++ [δ]) → Fine g h) {ps : List (Pipe D J)}
    (hts : ∀ p ∈ ps, p.target ∈ ts) (hsp : ∀ p ∈ ps, SelfPatching O ts Good Fine Res p) {W W' : PWorld D J} (h : PInv O Good Res fld blank ps W) (hk : QueuesOk O W)
    (hfin : W.FineEvents O ts Fine) {a : LoopAct D} (ha : a.Own) (hact : W.act O P a = some W') :
    W'.FineEvents O ts Fine ∧ tupLt 2 (tup 2 (W'.load O ts)) (tup 2 (W.load O ts)) := by
  cases a with
  | user w => exact ha.elim
  | work i g ω =>
    obtain ⟨s, s', hs, hwk, rfl⟩ := pact_work hact
    have hi : i < ps.length := by rw [← h.len]; exact (List.getElem?_eq_some_iff.mp hs).1
    have hp0 : ps[i]? = some ps[i] := List.getElem?_eq_getElem hi
    have hlt := (List.getElem?_eq_some_iff.mp hs).1
    refine ⟨?_, ?_⟩
    · intro j t ht g' hg' hn
      simp only at ht
      by_cases e : i = j
      · subst e
        rw [List.getElem?_set_self hlt] at ht
        cases ht
        rw [show kindEvents O g' (s'.base.done.map Prod.snd) ++ s'.base.pending g' = _ from work_stream (hk _ s hs g) hwk g']
        exact hfin i s hs g' (by rw [← work_sources hwk]; exact hg') hn
      · rw [List.getElem?_set_ne e] at ht
        exact hfin j t ht g' hg' hn
    · obtain ⟨hg, δ, q, p', ws, hq, he, hbw, hb, hsn⟩ := pwork_some hwk
      have hsrc := work_sources hwk
      have hsum : ∀ c, PWorld.load O ts { W with stations := W.stations.set i s' } c + s.load O ts c = W.load O ts c + s'.load O ts c := fun c => sum_set (fun t : PStation D J => t.load O ts c) (l := W.stations) s' hs
      have hkd : O.gvk δ.obj = g := hk _ s hs g δ (by rw [hq]; simp)
      have hpend : ∀ g', s'.base.pending g' = if g' = g then q else s.base.pending g' := by intro g'; rw [hb]
      by_cases hl : loud O ts δ = true
      · have h0 : s'.load O ts 0 < s.load O ts 0 := by
          simp only [PStation.load]
          rw [hsrc]
          refine sum_map_lt (fun g' _ => ?_) ⟨g, hg, ?_⟩
          · rw [hpend]
            split
            · rename_i e; subst e
              rw [hq, List.filter_cons, if_pos hl]; simp
            · exact Nat.le_refl _
          · rw [hpend, if_pos rfl, hq, List.filter_cons, if_pos hl]; simp
        refine tup_lt 2 (r := 0) (by omega) ?_ (fun q hq => by omega)
        have := hsum 0
        omega
      · have hl' : δ.type = .updated ∧ O.gvk δ.obj ∈ ts := by
          simp only [loud, decide_eq_true_eq, not_or, Decidable.not_not] at hl
          exact hl
        obtain ⟨⟨T, hc⟩, hul⟩ := h.each i _ s hp0 hs
        obtain ⟨cfg, hn, hnew, hself, hset⟩ := (hsp _ (List.getElem_mem hi)).ex
        have hgs : g ∈ ps[i].sources := hc.core.srcs ▸ hg
        have hfine := pcore_fine_next hc hF (fun g' hg' hn' => hfin i s hs g' (by rw [hc.core.srcs]; exact hg') hn') hgs hq (show ω.Valid from ha)
        have hlive : ∃ y, LiveAs O (s.base.done.map Prod.snd) (O.gvk δ.obj) (O.key δ.obj) y := by
          obtain ⟨y, hy⟩ := hul g hg _ δ q (by rw [hq]) hl'.1
          exact ⟨y, by rw [hkd]; exact (liveAs_ofKind O g _ y _).mp hy⟩
        have hws : ws = [] := by
          refine hset.blind s.base.done ω δ hfine hl'.2 hl'.1 hlive p' ws ?_
          rw [show (runs (fun p (e : EvalOrder D × Delta D) => p.evaluate O e.1 e.2) ps[i] s.base.done).1 = s.base.pipe from hc.core.pipe.symm]
          exact he
        have h0 : s'.load O ts 0 = s.load O ts 0 := by
          simp only [PStation.load]
          rw [hsrc]
          congr 1
          refine List.map_congr_left (fun g' _ => ?_)
          rw [hpend]
          split
          · rename_i e; subst e
            rw [hq, List.filter_cons, if_neg hl]
          · rfl
        have h1 : s'.load O ts 1 = s.load O ts 1 := by
          simp only [PStation.load]
          rw [hb, hws]; simp
        have h2 : s'.load O ts 2 < s.load O ts 2 := queued_work hbw
        refine tup_lt 2 (r := 2) (by omega) ?_ (fun q hq => ?_)
        · have := hsum 2
          omega
        · have : q = 0 ∨ q = 1 := by omega
          have hs0 := hsum 0
          have hs1 := hsum 1
          rcases this with rfl | rfl <;> omega
  | send i n =>
    obtain ⟨s, s', w, o, r, hs, hsd, hpw, rfl⟩ := pact_send hact
    have hlt := (List.getElem?_eq_some_iff.mp hs).1
    have hi : i < ps.length := by rw [← h.len]; exact hlt
    have hp0 : ps[i]? = some ps[i] := List.getElem?_eq_getElem hi
    obtain ⟨⟨T, hc⟩, hul⟩ := h.each i _ s hp0 hs
    rw [hc.core.tgt] at hpw
    obtain ⟨q1, q2, q3⟩ := psend_some hsd
    obtain ⟨o1, o2, o3⟩ := hc.out w q1
    obtain ⟨_, _, _, _, _, a6⟩ := patchWrite_spec (S' := r.1) (ev := r.2) hP (hts _ (List.getElem_mem hi)) h.store (h.good _) o1 o2 o3 (hc.snapGood o q2) hpw
    have htm := hts _ (List.getElem_mem hi)
    have hquiet : ∀ δ, r.2 = some δ → loud O ts δ = false := by
      intro δ hδ
      obtain ⟨b1, b2, _⟩ := a6 δ hδ
      simp [loud, b1, b2, htm]
    refine ⟨?_, ?_⟩
    · intro j t ht g hg hn
      obtain ⟨s1, hs1, rfl⟩ := pnotify_get ht
      obtain ⟨t1, t2, _, t3⟩ := told_stream O s1 r.2 g
      rw [t2]
      rw [t1] at hg
      have hpe : (s1.told O r.2).base.pending g = s1.base.pending g := by
        rcases t3 with t3 | ⟨δ, h1, h2, _⟩
        · exact t3
        · obtain ⟨_, b2, _⟩ := a6 δ h1
          exact absurd (by rw [h2, b2]; exact htm) hn
      rw [hpe]
      simp only at hs1
      by_cases e : i = j
      · subst e
        rw [List.getElem?_set_self hlt] at hs1
        cases hs1
        rw [q3] at hg ⊢
        exact hfin i s hs g hg hn
      · rw [List.getElem?_set_ne e] at hs1
        exact hfin j s1 hs1 g hg hn
    · have hsum : ∀ c, PWorld.load O ts { W with stations := W.stations.set i s' } c + s.load O ts c = W.load O ts c + s'.load O ts c := fun c => sum_set (fun t : PStation D J => t.load O ts c) (l := W.stations) s' hs
      have h0 : s'.load O ts 0 = s.load O ts 0 := by simp only [PStation.load]; rw [q3]
      have h1 : s'.load O ts 1 < s.load O ts 1 := by
        simp only [PStation.load]
        rw [q3]
        unfold PStation.send at hsd
        split at hsd
        case h_2 => cases hsd
        rename_i w' b o' hb ho'
        obtain ⟨d1, _, _⟩ := send_some hb
        have := (List.getElem?_eq_some_iff.mp d1).1
        simp only [List.length_eraseIdx, if_pos this]
        omega
      refine tup_lt 2 (r := 1) (by omega) ?_ (fun q hq => ?_)
      · rw [load_notify hquiet 1 (by omega)]
        have := hsum 1
        omega
      · have : q = 0 := by omega
        subst this
        rw [load_notify hquiet 0 (by omega)]
        have := hsum 0
        omega

omit [DecidableEq D] in
theorem polite_of_own {O : ObjOps D} {ts : List GVK} {Good : D → Prop} {fld : D → V} {blank : V} {S : GVK → Target D} {a : LoopAct D} (h : a.Own) :
    a.Polite O ts Good fld blank S := by
  cases a with
  | user => exact h.elim
  | work => exact h
  | send => exact trivial

/-- The controllers can work only finitely long. -/
theorem patch_acc {O : ObjOps D} (L : O.Lawful) {P : Patching D} {ts : List GVK} {Good Res : D → Prop} {Fine : GVK → List (Delta D) → Prop} {fld : D → V} {blank : V}
    (hP : P.Sound O ts Good Res fld blank) (hF : ∀ g h δ, Fine g (h ++ [δ]) → Fine g h) {ps : List (Pipe D J)} (hnd : (ps.map Pipe.target).Nodup)
    (hts : ∀ p ∈ ps, p.target ∈ ts) (hsp : ∀ p ∈ ps, SelfPatching O ts Good Fine Res p) {W : PWorld D J} (h : PInv O Good Res fld blank ps W) (hk : QueuesOk O W)
    (hfin : W.FineEvents O ts Fine) : Acc (PatchStep O P) W := by
  have gen : ∀ t : Tup 2, Acc (tupLt 2) t → ∀ W : PWorld D J, tup 2 (W.load O ts) = t → PInv O Good Res fld blank ps W → QueuesOk O W → W.FineEvents O ts Fine →
      Acc (PatchStep O P) W := by
    intro t ht
    induction ht with
    | intro t _ ih =>
      rintro W rfl hW hk hfin
      refine Acc.intro _ ?_
      rintro W' ⟨a, ha, hact⟩
      obtain ⟨h1, h2⟩ := own_step hP hF hts hsp hW hk hfin ha hact
      exact ih _ h2 W' rfl (pinv_act L hP hF hnd hts hsp hW hfin (polite_of_own ha) hact) (queuesOk_act hk hact) h1
  exact gen _ ((tupLt_wf 2).apply _) W rfl h hk hfin

/-- A controller with a queued event can evaluate it. -/
theorem patch_work_possible {O : ObjOps D} {P : Patching D} {ts : List GVK} {Good Res : D → Prop} {Fine : GVK → List (Delta D) → Prop} {fld : D → V} {blank : V}
    (hF : ∀ g h δ, Fine g (h ++ [δ]) → Fine g h) {ps : List (Pipe D J)} (hsp : ∀ p ∈ ps, SelfPatching O ts Good Fine Res p) {W : PWorld D J}
    (h : PInv O Good Res fld blank ps W) (hfin : W.FineEvents O ts Fine) {i : Nat} {s : PStation D J} (hs : W.stations[i]? = some s) {g : GVK}
    (hg : g ∈ s.base.pipe.sources) (hne : s.base.pending g ≠ []) {ω : EvalOrder D} (hω : ω.Valid) : ∃ W', W.act O P (.work i g ω) = some W' := by
  have hi : i < ps.length := by rw [← h.len]; exact (List.getElem?_eq_some_iff.mp hs).1
  have hp0 : ps[i]? = some ps[i] := List.getElem?_eq_getElem hi
  obtain ⟨⟨T, hc⟩, _⟩ := h.each i _ s hp0 hs
  obtain ⟨cfg, hn, hnew, hself, hset⟩ := (hsp _ (List.getElem_mem hi)).ex
  cases hq : s.base.pending g with
  | nil => exact absurd hq hne
  | cons δ q =>
    have hfine := pcore_fine_next hc hF (fun g' hg' hn' => hfin i s hs g' (by rw [hc.core.srcs]; exact hg') hn') (hc.core.srcs ▸ hg) hq hω
    obtain ⟨wss, hwss⟩ := hset.ok _ hfine
    rw [runs_snoc] at hwss
    have hev : ∃ p' ws, s.base.pipe.evaluate O ω δ = (p', .ok ws) := by
      have hpipe := hc.core.pipe
      rw [← hpipe] at hwss
      have hlast : (s.base.pipe.evaluate O ω δ).2 ∈ wss.map Except.ok := by rw [← hwss]; simp
      obtain ⟨ws, _, hws⟩ := List.mem_map.mp hlast
      exact ⟨(s.base.pipe.evaluate O ω δ).1, ws, by rw [hws]⟩
    obtain ⟨p', ws, hev⟩ := hev
    simp only [PWorld.act, hs, PStation.work, Station.work, if_pos hg, hq, hev]
    exact ⟨_, rfl⟩

theorem first_write {O : ObjOps D} {k : ObjKey} : ∀ {l : List (Delta D)} {w : Delta D}, w ∈ l → O.key w.obj = k →
    ∃ (n : Nat) (v : Delta D), l[n]? = some v ∧ O.key v.obj = k ∧ (l.take n).all (fun u => O.key u.obj ≠ O.key v.obj) = true
  | [], w, h, _ => by simp at h
  | x :: l, w, h, hk => by
    by_cases e : O.key x.obj = k
    · exact ⟨0, x, rfl, e, by simp⟩
    · rcases List.mem_cons.mp h with rfl | h
      · exact absurd hk e
      · obtain ⟨n, v, h1, h2, h3⟩ := first_write h hk
        refine ⟨n + 1, v, by simpa using h1, h2, ?_⟩
        simp only [List.take_succ_cons, List.all_cons, Bool.and_eq_true]
        exact ⟨by simpa [h2] using e, h3⟩

/-- A controller with a write of an object that exists can send one. -/
theorem patch_send_possible {O : ObjOps D} {P : Patching D} {Good Res : D → Prop} {fld : D → V} {blank : V} {ps : List (Pipe D J)} {W : PWorld D J}
    (h : PInv O Good Res fld blank ps W) {i : Nat} {s : PStation D J} (hs : W.stations[i]? = some s) {w : Delta D} (hw : w ∈ s.base.out)
    (hne : W.store s.base.pipe.target (O.key w.obj) ≠ none) : ∃ n W', W.act O P (.send i n) = some W' := by
  have hi : i < ps.length := by rw [← h.len]; exact (List.getElem?_eq_some_iff.mp hs).1
  have hp0 : ps[i]? = some ps[i] := List.getElem?_eq_getElem hi
  obtain ⟨⟨T, hc⟩, _⟩ := h.each i _ s hp0 hs
  obtain ⟨n, v, h1, h2, h3⟩ := first_write hw rfl
  have hn : n < s.snaps.length := by rw [hc.len]; exact (List.getElem?_eq_some_iff.mp h1).1
  obtain ⟨o, ho⟩ : ∃ o, s.snaps[n]? = some o := ⟨_, List.getElem?_eq_getElem hn⟩
  have hb : ∃ b, patchBase O W.store s.base.pipe.target v o = some b := by
    unfold patchBase
    split
    · exact ⟨_, rfl⟩
    · rw [h2]
      cases hS : W.store s.base.pipe.target (O.key w.obj) with
      | none => exact absurd hS hne
      | some y => exact ⟨y, rfl⟩
  obtain ⟨b, hb⟩ := hb
  have hp : ∃ r, patchWrite O P W.store s.base.pipe.target v o = some r := by
    unfold patchWrite
    rw [hb]
    cases v.type <;> exact ⟨_, rfl⟩
  obtain ⟨r, hr⟩ := hp
  refine ⟨n, PWorld.notify O { W with stations := W.stations.set i { base := { s.base with out := s.base.out.eraseIdx n }, snaps := s.snaps.eraseIdx n } } r, ?_⟩
  simp only [PWorld.act, hs, PStation.send, Station.send, h1, if_pos h3, ho, hr]

/-- When the controllers can do nothing more. -/
theorem patch_stopped {O : ObjOps D} {P : Patching D} {ts : List GVK} {Good Res : D → Prop} {Fine : GVK → List (Delta D) → Prop} {fld : D → V} {blank : V}
    (hF : ∀ g h δ, Fine g (h ++ [δ]) → Fine g h) {ps : List (Pipe D J)} (hsp : ∀ p ∈ ps, SelfPatching O ts Good Fine Res p) {W : PWorld D J}
    (h : PInv O Good Res fld blank ps W) (hfin : W.FineEvents O ts Fine) (hno : ¬ ∃ W', PatchStep O P W' W) : W.Stopped O := by
  intro i s hs
  refine ⟨fun g hg => ?_, fun w hw => ?_⟩
  · refine Classical.byContradiction (fun hne => ?_)
    obtain ⟨W', hW'⟩ := patch_work_possible (P := P) hF hsp h hfin hs hg hne ω0_valid
    exact hno ⟨W', _, show LoopAct.Own (.work i g ω0) from ω0_valid, hW'⟩
  · refine Classical.byContradiction (fun hne => ?_)
    obtain ⟨n, W', hW'⟩ := patch_send_possible (P := P) h hs hw hne
    exact hno ⟨W', _, show LoopAct.Own (.send i n) from trivial, hW'⟩

end Dctl
