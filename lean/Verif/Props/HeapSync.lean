import Verif.Pipeline.HeapSyncLemmas
import Verif.Props.HeapEmit
import Verif.Controller.SyncLemmas
/-!
# C125: `Sync` shares no memory with whoever gets its deltas
-/
set_option autoImplicit false
set_option linter.unusedSectionVars false
namespace Dctl
namespace Mem
variable {J : Type} [DecidableEq J]

theorem FullIs.agree {c : Cfg CDoc J} {h h1 : Heap} {src : HSrc} {g : HGraph CDoc} {sn : Option (HGraph CDoc)} {tgt : HStore} {p : Pipe CDoc J} (hp : FullIs c h src g sn tgt p)
    (hag : ∀ b, FullHolds h src g sn tgt b → h1[b]? = h[b]?) : FullIs c h1 src g sn tgt p ∧ ∀ b, FullHolds h1 src g sn tgt b → FullHolds h src g sn tgt b := by
  obtain ⟨w1, w2⟩ := hp.whole.agree (fun b hb => hag b (.inl hb))
  have hs := hp.snap
  refine ⟨⟨w1, ?_, hp.names⟩, ?_⟩
  · cases sn with
    | none => cases hS : p.snap with
      | none => trivial
      | some S => rw [hS] at hs; exact hs.elim
    | some sg => cases hS : p.snap with
      | none => rw [hS] at hs; exact hs.elim
      | some S =>
        rw [hS] at hs
        exact GraphIs.agree (show GraphIs c h sg S from hs) (fun b hb => hag b (.inr ⟨sg, rfl, hb⟩))
  · rintro b (hb | ⟨sg, rfl, hb⟩)
    · exact .inl (w2 b hb)
    · exact .inr ⟨sg, rfl, (held_agree (fun b hb => hag b (.inr ⟨sg, rfl, hb⟩))).mp hb⟩

/-- The snapshot graph for the next `Sync`. -/
theorem FullIs.snapshot {c : Cfg CDoc J} {h : Heap} {src : HSrc} {g : HGraph CDoc} {sn : Option (HGraph CDoc)} {tgt : HStore} {p : Pipe CDoc J} (hp : FullIs c h src g sn tgt p)
    (hi : p.graph.inputs = p.sources.map GVK.kind) :
    SameOutcome (fun s S => GraphIs c h s S ∧ S.inputs = p.sources.map GVK.kind ∧ ∀ b, s.Holds h b → SnapHolds h sn b) (snapshotM p.graph.inputs g sn) p.snapshot := by
  have hs := hp.snap
  rw [Pipe.snapshot]
  cases sn with
  | none => cases hS : p.snap with
    | none =>
      have h1 := toSnapshot_gives hp.whole.pipe.graph
      rw [snapshotM]
      dsimp only
      match g.toSnapshot p.graph.inputs, p.graph.toSnapshot, h1 with
      | .error e, .error e', h1 => exact h1
      | .ok s, .ok S, ⟨h1, h2, h3⟩ => exact ⟨h1, h2.trans hi, fun b hb => absurd hb (h3 b)⟩
    | some S => rw [hS] at hs; exact hs.elim
  | some sg => cases hS : p.snap with
    | none => rw [hS] at hs; exact hs.elim
    | some S =>
      rw [hS] at hs
      exact ⟨hs, hp.names S hS, fun b hb => ⟨sg, rfl, hb⟩⟩

theorem WholeIs.lt {c : Cfg CDoc J} {h : Heap} {src : HSrc} {g : HGraph CDoc} {tgt : HStore} {p : Pipe CDoc J} (hp : WholeIs c h src g tgt p) (b : Nat)
    (hb : AllHolds h src g tgt b) : b < h.length := by
  rcases hb with hb | ⟨q, hq, hb⟩
  · exact hp.pipe.lt b hb
  · obtain ⟨Q, -, hQ⟩ := All2.left hp.tgt hq
    exact ObjAt.lt hQ.2 hb

theorem syncAll_diffs {p : Pipe CDoc J} {S : Graph CDoc J} (hS : p.snapshot = .ok S) (ω : EvalOrder CDoc) :
    p.syncAll jsonOps ω =
      match diffs ω p S with
      | (S', .error e) => ({ p with snap := some S' }, .error e)
      | (S', .ok z) =>
        match emits ω p.target p.tgt z with
        | .error e => ({ p with snap := some S' }, .error e)
        | .ok y => ({ p with snap := some S', tgt := y.1 }, .ok y.2) := by
  rw [Pipe.syncAll, hS, diffs]
  dsimp only
  generalize S.process ω.exec (syncInputs jsonOps ω p.sources p.src) = X
  obtain ⟨S', R⟩ := X
  cases R with
  | error e => rfl
  | ok req =>
    dsimp only [emits]
    generalize convertZSet jsonOps p.target _ = Y
    cases Y with
    | error e => rfl
    | ok ds =>
      dsimp only
      generalize reconcile jsonOps ω.recon p.tgt ds = Z
      cases Z with
      | error e => rfl
      | ok y => rfl

theorem process_inputs (σ : Order CDoc) (G : Graph CDoc J) (ins : List (String × ZSet CDoc)) : (G.process σ ins).1.inputs = G.inputs := by
  unfold Graph.process
  repeat' split
  all_goals rfl

theorem diffs_inputs (ω : EvalOrder CDoc) (p : Pipe CDoc J) (S : Graph CDoc J) : (diffs ω p S).1.inputs = S.inputs := by
  have h := process_inputs ω.exec S (syncInputs jsonOps ω p.sources p.src)
  unfold diffs
  generalize S.process ω.exec (syncInputs jsonOps ω p.sources p.src) = X at h
  obtain ⟨S', R⟩ := X
  cases R with
  | error e => exact h
  | ok req => exact h

theorem syncRunM_gives {c : Cfg CDoc J} (hc : ∀ d : CDoc, c.key (.map d.1) = d) {h1 : Heap} {src : HSrc} {g sg : HGraph CDoc} {tgt : HStore} {p : Pipe CDoc J}
    (hw : WholeIs c h1 src g tgt p) (hn : (p.sources.map GVK.kind).Nodup) (ht : PlainKind p.target) {S : Graph CDoc J} (s1 : p.snapshot = .ok S) (s2 : GraphIs c h1 sg S)
    (s3 : S.inputs = p.sources.map GVK.kind) (σ : Shuffles) (hd : ∀ h2 sg' z, Gives (diffM c σ p.sources src sg tgt) h1 (h2, sg', .ok z) → Docs h2 z) :
    ∃ h2 sg' tgt' r, Gives (syncRunM c σ p.target p.sources src sg tgt) h1 (h2, sg', tgt', r) ∧ Ext nowhere h1 h2 ∧
      FullIs c h2 src g (some sg') tgt' (p.syncAll jsonOps σ.eval).1 ∧ SameOutcome (All2 (DeltaIs h2 (fun b => h1.length ≤ b))) r (p.syncAll jsonOps σ.eval).2 ∧
      (∀ b, FullHolds h2 src g (some sg') tgt' b → AllHolds h1 src g tgt b ∨ sg.Holds h1 b ∨ h1.length ≤ b) ∧
      ∀ ds, r = .ok ds → Apart (FullHolds h2 src g (some sg') tgt') (Emitted h2 ds) ∧ ds.Pairwise (fun δ ε => Apart (Emitted h2 [δ]) (Emitted h2 [ε])) := by
  obtain ⟨h2, sg', r, q1, q2, q3, q4, q5⟩ := diffM_gives hc hw hn s2 s3 σ
  have hin := diffs_inputs σ.eval p S
  have hw2 := hw.agree (h1 := h2) (fun b hb => q2.get (hw.lt b hb))
  rw [syncAll_diffs s1]
  obtain ⟨N1, H1⟩ := q1
  generalize diffs σ.eval p S = F at q3 q4 hin
  obtain ⟨S', R⟩ := F
  have hin2 : S'.inputs = p.sources.map GVK.kind := hin.trans s3
  match r, R, q4 with
  | .error e, .error e', q4 =>
    refine ⟨h2, sg', tgt, .error e, ⟨N1, fun n hn => by rw [syncRunM, H1 n hn]⟩, q2, ⟨⟨hw2.1.pipe, hw2.1.tgt, hw2.1.ok⟩, q3, fun _ hS => by cases hS; exact hin2⟩, q4, ?_, fun ds h => by cases h⟩
    rintro b (hb | ⟨_, ⟨⟩, hb⟩)
    · exact .inl (hw2.2 b hb)
    · exact .inr (q5 b hb)
  | .ok z, .ok Z, q4 =>
    have q4 : ZIs c h2 (fun _ => True) z Z := q4
    obtain ⟨h3, r3, g3, e3, s4⟩ := emitM_gives hc hw2.1.tgt hw2.1.ok σ ht q4 (hd h2 sg' z ⟨N1, H1⟩)
    have e13 := q2.trans e3 (fun _ _ h => h)
    obtain ⟨N3, H3⟩ := g3
    have hplt : ∀ b, PipeHolds h2 src g b → b < h2.length := hw2.1.pipe.lt
    obtain ⟨q3', hback3⟩ := hw2.1.pipe.agree (h1 := h3) (fun b hb => e3.get (hplt b hb))
    have hS3 : GraphIs c h3 sg' S' := q3.agree (fun b hb => e3.get (q3.lt hb))
    have hbackS : ∀ b, sg'.Holds h3 b → sg'.Holds h2 b := fun b hb => (held_agree (fun b hb => e3.get (q3.lt hb))).mp hb
    dsimp only
    match r3, emits σ.eval p.target p.tgt Z, s4 with
    | .error e, .error e', s4 =>
      refine ⟨h3, sg', tgt, .error e, ⟨max N1 N3, fun n hn => ?_⟩, e13, ⟨⟨q3', TgtIs.grow hw2.1.tgt e3, hw2.1.ok⟩, hS3, fun _ hS => by cases hS; exact hin2⟩, s4, ?_, fun ds h => by cases h⟩
      · rw [syncRunM, H1 n (Nat.le_trans (Nat.le_max_left ..) hn)]
        dsimp only
        rw [H3 n (Nat.le_trans (Nat.le_max_right ..) hn)]
      · rintro b ((hb | hb) | ⟨_, ⟨⟩, hb⟩)
        · exact .inl (hw2.2 b (.inl (hback3 b hb)))
        · exact .inl (hw2.2 b (.inr (tgtHolds_back hw2.1.tgt e3 hb)))
        · exact .inr (q5 b (hbackS b hb))
    | .ok x, .ok X, ⟨a3, d3, ap3, lone⟩ =>
      refine ⟨h3, sg', x.1, .ok x.2, ⟨max N1 N3, fun n hn => ?_⟩, e13, ⟨⟨q3', a3.is, a3.ok⟩, hS3, fun _ hS => by cases hS; exact hin2⟩, ?_, ?_, ?_⟩
      · rw [syncRunM, H1 n (Nat.le_trans (Nat.le_max_left ..) hn)]
        dsimp only
        rw [H3 n (Nat.le_trans (Nat.le_max_right ..) hn)]
      · exact All2.imp d3 (fun _ _ hd => ⟨hd.1, hd.2.1, hd.2.2.1, fun b hb => Nat.le_trans q2.1 (hd.2.2.2 b hb)⟩)
      · rintro b ((hb | hb) | ⟨_, ⟨⟩, hb⟩)
        · exact .inl (hw2.2 b (.inl (hback3 b hb)))
        · rcases a3.held b hb with h4 | h4
          · exact .inl (hw2.2 b (.inr h4))
          · exact .inr (.inr (Nat.le_trans q2.1 h4))
        · exact .inr (q5 b (hbackS b hb))
      · rintro ds hds
        cases hds
        refine ⟨?_, emitted_pairwise lone⟩
        have old : ∀ b, b < h2.length → ¬ Emitted h3 x.2 b := by
          rintro b hb ⟨δ, hδ, hr⟩
          obtain ⟨Δ, -, hΔ⟩ := All2.left d3 hδ
          exact absurd hb (Nat.not_lt.mpr (hΔ.2.2.2 b hr))
        rintro b ((hb | hb) | ⟨_, ⟨⟩, hb⟩) hb'
        · exact old b (hplt b (hback3 b hb)) hb'
        · exact ap3 b hb hb'
        · exact old b (q3.lt (hbackS b hb)) hb'

/-- C125, in part: whatever happened to memory since the last call except to what the pipeline holds, `Sync` answers or fails as on values, and writes to no existing cell. Of
the cells that were there before, the pipeline holds none that it did not hold. The objects emitted are made of new cells, of which the pipeline holds none, and share none with each other.
Missing: as in C124. -/
theorem C125_step_partial {c : Cfg CDoc J} (hc : ∀ d : CDoc, c.key (.map d.1) = d) {h h1 : Heap} {src : HSrc} {g : HGraph CDoc} {sn : Option (HGraph CDoc)} {tgt : HStore} {p : Pipe CDoc J}
    (hp : FullIs c h src g sn tgt p) (hn : (p.sources.map GVK.kind).Nodup) (hi : p.graph.inputs = p.sources.map GVK.kind) (ht : PlainKind p.target)
    (hag : ∀ b, FullHolds h src g sn tgt b → h1[b]? = h[b]?) (σ : Shuffles)
    (hd : ∀ sg, snapshotM p.graph.inputs g sn = .ok sg → ∀ h2 sg' z, Gives (diffM c σ p.sources src sg tgt) h1 (h2, sg', .ok z) → Docs h2 z) :
    ∃ h2 sn' tgt' r, Gives (syncM c σ p.target p.sources p.graph.inputs src g sn tgt) h1 (h2, sn', tgt', r) ∧ Ext nowhere h1 h2 ∧
      FullIs c h2 src g sn' tgt' (p.syncAll jsonOps σ.eval).1 ∧ SameOutcome (All2 (DeltaIs h2 (fun b => h1.length ≤ b))) r (p.syncAll jsonOps σ.eval).2 ∧
      (∀ b, FullHolds h2 src g sn' tgt' b → FullHolds h src g sn tgt b ∨ h1.length ≤ b) ∧
      ∀ ds, r = .ok ds → Apart (FullHolds h2 src g sn' tgt') (Emitted h2 ds) ∧ ds.Pairwise (fun δ ε => Apart (Emitted h2 [δ]) (Emitted h2 [ε])) := by
  obtain ⟨hp1, hback⟩ := hp.agree hag
  have hs := hp1.snapshot hi
  cases e1 : snapshotM p.graph.inputs g sn with
  | error e =>
    cases e2 : p.snapshot with
    | ok S => rw [e1, e2] at hs; exact hs.elim
    | error e' =>
      rw [e1, e2] at hs
      have hv : p.syncAll jsonOps σ.eval = (p, .error e') := by rw [Pipe.syncAll, e2]
      rw [hv]
      exact ⟨h1, sn, tgt, .error e, ⟨0, fun n _ => by rw [syncM, e1]⟩, Ext.refl _ _, hp1, hs, fun b hb => .inl (hback b hb), fun ds h => by cases h⟩
  | ok sg =>
    cases e2 : p.snapshot with
    | error e' => rw [e1, e2] at hs; exact hs.elim
    | ok S =>
      rw [e1, e2] at hs
      obtain ⟨s2, s3, s4⟩ := hs
      obtain ⟨h2, sg', tgt', r, ⟨N, H⟩, q2, q3, q4, q5, q6⟩ := syncRunM_gives hc hp1.whole hn ht e2 s2 s3 σ (hd sg e1)
      refine ⟨h2, some sg', tgt', r, ⟨N, fun n hn => ?_⟩, q2, q3, q4, fun b hb => ?_, q6⟩
      · rw [syncM, e1]
        dsimp only
        rw [H n hn]
      · rcases q5 b hb with hb | hb | hb
        · exact .inl (hback b (.inl hb))
        · exact .inl (hback b (.inr (s4 b hb)))
        · exact .inr hb

theorem evaluate_snap {p : Pipe CDoc J} (hn : (p.sources.map GVK.kind).Nodup) (hi : p.graph.inputs = p.sources.map GVK.kind) (σ : Shuffles) (δ : Delta CDoc) :
    (p.evaluate jsonOps σ.eval δ).1.snap = p.snap := by
  rw [evaluate_feed hn hi σ.eval rfl δ]
  generalize feed (p.src, p.graph) δ = y
  obtain ⟨x, r⟩ := y
  cases r with
  | error e => rfl
  | ok z => dsimp only; split <;> rfl

/-- C125, in part: `Evaluate` leaves the snapshot graph alone, and the objects it emits share no cell with it. -/
theorem C125_evaluate_partial {c : Cfg CDoc J} (hc : ∀ d : CDoc, c.key (.map d.1) = d) {h h1 : Heap} {src : HSrc} {g : HGraph CDoc} {sn : Option (HGraph CDoc)} {tgt : HStore} {p : Pipe CDoc J}
    (hp : FullIs c h src g sn tgt p) (hn : (p.sources.map GVK.kind).Nodup) (hi : p.graph.inputs = p.sources.map GVK.kind) (ht : PlainKind p.target)
    (hag : ∀ b, FullHolds h src g sn tgt b → h1[b]? = h[b]?) (σ : Shuffles) (t : DeltaType) {a : Nat} {o : CDoc} (ho : ObjAt h1 a o.1) (hk : Kinded o)
    (hd : ∀ h2 src' g' z, Gives (feedM c p.graph.inputs src g t a) h1 (h2, src', g', .ok z) → Docs h2 z) :
    ∃ h2 src' g' tgt' r, Gives (evaluateM c σ p.target p.graph.inputs src g tgt t a) h1 (h2, src', g', tgt', r) ∧ Ext nowhere h1 h2 ∧
      FullIs c h2 src' g' sn tgt' (p.evaluate jsonOps σ.eval ⟨t, o⟩).1 ∧ SameOutcome (All2 (DeltaIs h2 (fun b => h1.length ≤ b))) r (p.evaluate jsonOps σ.eval ⟨t, o⟩).2 ∧
      (∀ b, FullHolds h2 src' g' sn tgt' b → FullHolds h src g sn tgt b ∨ h1.length ≤ b) ∧
      ∀ ds, r = .ok ds → Apart (FullHolds h2 src' g' sn tgt') (Emitted h2 ds) ∧ ds.Pairwise (fun δ ε => Apart (Emitted h2 [δ]) (Emitted h2 [ε])) := by
  obtain ⟨hp1, hback⟩ := hp.agree hag
  obtain ⟨h2, src', g', tgt', r, q1, q2, q3, q4, q5, q6⟩ := C124_step_partial hc hp.whole hn hi ht (fun b hb => hag b (.inl hb)) σ t ho hk hd
  obtain ⟨k1, k2, k3⟩ := evaluate_keeps p hn hi σ ⟨t, o⟩
  have hlt : ∀ b, SnapHolds h1 sn b → b < h1.length := by
    rintro b ⟨sg, rfl, hb⟩
    have hs := hp1.snap
    cases hS : p.snap with
    | none => rw [hS] at hs; exact hs.elim
    | some S =>
      rw [hS] at hs
      exact GraphIs.lt (show GraphIs c h1 sg S from hs) hb
  have hbk : ∀ b, SnapHolds h2 sn b → SnapHolds h1 sn b := by
    rintro b ⟨sg, rfl, hb⟩
    exact ⟨sg, rfl, (held_agree (fun b hb => q2.get (hlt b ⟨sg, rfl, hb⟩))).mp hb⟩
  have hsnap : OptIs (GraphIs c h2) sn (p.evaluate jsonOps σ.eval ⟨t, o⟩).1.snap := by
    rw [evaluate_snap hn hi]
    have hs := hp1.snap
    cases sn with
    | none => cases hS : p.snap with
      | none => trivial
      | some S => rw [hS] at hs; exact hs.elim
    | some sg => cases hS : p.snap with
      | none => rw [hS] at hs; exact hs.elim
      | some S =>
        rw [hS] at hs
        exact GraphIs.agree (show GraphIs c h1 sg S from hs) (fun b hb => q2.get (hlt b ⟨sg, rfl, hb⟩))
  refine ⟨h2, src', g', tgt', r, q1, q2, ⟨q3, hsnap, fun S hS => ?_⟩, q4, ?_, ?_⟩
  · rw [k1]
    rw [evaluate_snap hn hi] at hS
    exact hp1.names S hS
  · rintro b (hb | hb)
    · exact (q5 b hb).imp .inl id
    · exact .inl (hback b (.inr (hbk b hb)))
  · rintro ds rfl
    refine ⟨?_, (q6 ds rfl).2⟩
    rintro b (hb | hb) hb'
    · exact (q6 ds rfl).1 b hb hb'
    · obtain ⟨δ, hδ, hr⟩ := hb'
      match (p.evaluate jsonOps σ.eval ⟨t, o⟩).2, q4 with
      | .ok Ds, q4 =>
        obtain ⟨Δ, -, hΔ⟩ := All2.left (show All2 _ ds Ds from q4) hδ
        exact absurd (hlt b (hbk b hb)) (Nat.not_lt.mpr (hΔ.2.2.2 b hr))

theorem outcome_unique {h : Heap} {A B : Region} {r : Except Err (List (Delta Nat))} {R R' : Except Err (List (Delta CDoc))} (h1 : SameOutcome (All2 (DeltaIs h A)) r R)
    (h2 : SameOutcome (All2 (DeltaIs h B)) r R') : R = R' := by
  match r, R, R', h1, h2 with
  | .ok z, .ok Z, .ok Z', h1, h2 => rw [deltas_unique h1 h2]
  | .error e, .error e', .error e'', h1, h2 =>
    have h1 : e = e' := h1
    have h2 : e = e'' := h2
    rw [← h1, h2]

/-- C125, in part: the deltas emitted in a sequence of calls of `Evaluate` and `Sync`, with anything happening in between to objects that were given to the pipeline and to
objects it emitted, are those on values. -/
theorem C125_history_partial {c : Cfg CDoc J} (hc : ∀ d : CDoc, c.key (.map d.1) = d) {t : GVK} {sources : List GVK} {h : Heap} {src : HSrc} {g : HGraph CDoc} {sn : Option (HGraph CDoc)} {tgt : HStore}
    {es : List (Shuffles × Option (Delta CDoc))} {Rs : List (Except Err (List (Delta CDoc)))} {p : Pipe CDoc J} (hp : FullIs c h src g sn tgt p) (hn : (p.sources.map GVK.kind).Nodup)
    (hi : p.graph.inputs = p.sources.map GVK.kind) (ht : PlainKind p.target) (hti : p.target = t ∧ p.sources = sources) (he : Steps c t sources h src g sn tgt es Rs) :
    Rs = stepAll p es := by
  induction he generalizing p with
  | nil => rfl
  | @evaluate h h1 h2 src src' g g' sn tgt tgt' σ ty a o r R es Rs hag ho hk hd hg hso _ ih =>
    obtain ⟨rfl, rfl⟩ := hti
    rw [← hi] at hd hg
    obtain ⟨h2', src'', g'', tgt'', r', q1, -, q3, q4, -⟩ := C125_evaluate_partial hc hp hn hi ht hag σ ty ho hk hd
    have heq := q1.unique hg
    simp only [Prod.mk.injEq] at heq
    obtain ⟨rfl, rfl, rfl, rfl, rfl⟩ := heq
    obtain ⟨k1, k2, k3⟩ := evaluate_keeps p hn hi σ ⟨ty, o⟩
    have hrest := ih q3 (by rw [k1]; exact hn) (by rw [k3, k1]; exact hi) (by rw [k2]; exact ht) ⟨k2, k1⟩
    rw [stepAll, outcome_unique hso q4, hrest]
    rfl
  | @sync h h1 h2 src g sn sn' tgt tgt' σ r R es Rs hag hd hg hso _ ih =>
    obtain ⟨rfl, rfl⟩ := hti
    rw [← hi] at hd hg
    obtain ⟨h2', sn'', tgt'', r', q1, -, q3, q4, -⟩ := C125_step_partial hc hp hn hi ht hag σ hd
    have heq := q1.unique hg
    simp only [Prod.mk.injEq] at heq
    obtain ⟨rfl, rfl, rfl, rfl⟩ := heq
    obtain ⟨k1, k2, k3, -⟩ := syncAll_fields jsonOps σ.eval p
    have hrest := ih q3 (by rw [k1]; exact hn) (by rw [k3, k1]; exact hi) (by rw [k2]; exact ht) ⟨k2, k1⟩
    rw [stepAll, outcome_unique hso q4, hrest]
    rfl

/-- The hypothesis on documents, from the answer of the graph on values. -/
theorem docs_feed {h : Heap} {src : HSrc} {g : HGraph CDoc} {C : SrcCache CDoc} {G : Graph CDoc Json} (hp : PipeIs cdocs h src g C G) (t : DeltaType) {a : Nat} {o : CDoc}
    (ho : ObjAt h a o.1) (hk : Kinded o) (hne : ∀ Z, (feed (C, G) ⟨t, o⟩).2 = .ok Z → ∀ q ∈ Z, q.1.1 ≠ []) {h2 : Heap} {src' : HSrc} {g' : HGraph CDoc} {z : HZ CDoc}
    (hg : Gives (feedM cdocs G.inputs src g t a) h (h2, src', g', .ok z)) : Docs h2 z := by
  obtain ⟨h3, s3, g3, r3, p1, -, -, p4, -⟩ := feedM_gives cdocs_key hp t ho hk
  have heq := p1.unique hg
  simp only [Prod.mk.injEq] at heq
  obtain ⟨rfl, rfl, rfl, rfl⟩ := heq
  match hF : (feed (C, G) ⟨t, o⟩).2, p4 with
  | .ok Z, p4 => exact docs_cdocs (show ZIs cdocs _ _ z Z from p4) (hne Z hF)
  | .error e, p4 => exact p4.elim

/-- The hypothesis on documents, from the difference on values. -/
theorem docs_diff {h : Heap} {src : HSrc} {g sg : HGraph CDoc} {tgt : HStore} {p : Pipe CDoc Json} (hp : WholeIs cdocs h src g tgt p)
    (hn : (p.sources.map GVK.kind).Nodup) {S : Graph CDoc Json} (hS : GraphIs cdocs h sg S) (hi : S.inputs = p.sources.map GVK.kind) (σ : Shuffles)
    (hne : ∀ Z, (diffs σ.eval p S).2 = .ok Z → ∀ q ∈ Z, q.1.1 ≠ []) {h2 : Heap} {sg' : HGraph CDoc} {z : HZ CDoc}
    (hg : Gives (diffM cdocs σ p.sources src sg tgt) h (h2, sg', .ok z)) : Docs h2 z := by
  obtain ⟨h3, sg3, r3, p1, -, -, p4, -⟩ := diffM_gives cdocs_key hp hn hS hi σ
  have heq := p1.unique hg
  simp only [Prod.mk.injEq] at heq
  obtain ⟨rfl, rfl, rfl⟩ := heq
  match hF : (diffs σ.eval p S).2, p4 with
  | .ok Z, p4 => exact docs_cdocs (show ZIs cdocs _ _ z Z from p4) (hne Z hF)
  | .error e, p4 => exact p4.elim

/-- C125, in part: as `C125_evaluate_partial` and `C125_step_partial`, with the hypothesis on documents replaced by one on values: for documents whose content is their key, it is enough
that the graph on values answers without empty documents (objects without a name would be refused anyway). -/
theorem C125_values_partial {h h1 : Heap} {src : HSrc} {g : HGraph CDoc} {sn : Option (HGraph CDoc)} {tgt : HStore} {p : Pipe CDoc Json}
    (hp : FullIs cdocs h src g sn tgt p) (hn : (p.sources.map GVK.kind).Nodup) (hi : p.graph.inputs = p.sources.map GVK.kind) (ht : PlainKind p.target)
    (hag : ∀ b, FullHolds h src g sn tgt b → h1[b]? = h[b]?) (σ : Shuffles) :
    (∀ (t : DeltaType) (a : Nat) (o : CDoc), ObjAt h1 a o.1 → Kinded o → (∀ Z, (feed (p.src, p.graph) ⟨t, o⟩).2 = .ok Z → ∀ q ∈ Z, q.1.1 ≠ []) →
      ∃ h2 src' g' tgt' r, Gives (evaluateM cdocs σ p.target p.graph.inputs src g tgt t a) h1 (h2, src', g', tgt', r) ∧ Ext nowhere h1 h2 ∧
        FullIs cdocs h2 src' g' sn tgt' (p.evaluate jsonOps σ.eval ⟨t, o⟩).1 ∧ SameOutcome (All2 (DeltaIs h2 (fun b => h1.length ≤ b))) r (p.evaluate jsonOps σ.eval ⟨t, o⟩).2 ∧
        (∀ b, FullHolds h2 src' g' sn tgt' b → FullHolds h src g sn tgt b ∨ h1.length ≤ b) ∧
        ∀ ds, r = .ok ds → Apart (FullHolds h2 src' g' sn tgt') (Emitted h2 ds) ∧ ds.Pairwise (fun δ ε => Apart (Emitted h2 [δ]) (Emitted h2 [ε]))) ∧
    ((∀ S Z, p.snapshot = .ok S → (diffs σ.eval p S).2 = .ok Z → ∀ q ∈ Z, q.1.1 ≠ []) →
      ∃ h2 sn' tgt' r, Gives (syncM cdocs σ p.target p.sources p.graph.inputs src g sn tgt) h1 (h2, sn', tgt', r) ∧ Ext nowhere h1 h2 ∧
        FullIs cdocs h2 src g sn' tgt' (p.syncAll jsonOps σ.eval).1 ∧ SameOutcome (All2 (DeltaIs h2 (fun b => h1.length ≤ b))) r (p.syncAll jsonOps σ.eval).2 ∧
        (∀ b, FullHolds h2 src g sn' tgt' b → FullHolds h src g sn tgt b ∨ h1.length ≤ b) ∧
        ∀ ds, r = .ok ds → Apart (FullHolds h2 src g sn' tgt') (Emitted h2 ds) ∧ ds.Pairwise (fun δ ε => Apart (Emitted h2 [δ]) (Emitted h2 [ε]))) := by
  obtain ⟨hp1, -⟩ := hp.agree hag
  constructor
  · intro t a o ho hk hne
    exact C125_evaluate_partial cdocs_key hp hn hi ht hag σ t ho hk (fun h2 src' g' z hg => docs_feed hp1.whole.pipe t ho hk hne hg)
  · intro hne
    refine C125_step_partial cdocs_key hp hn hi ht hag σ (fun sg hsg h2 sg' z hg => ?_)
    have hs := hp1.snapshot hi
    rw [hsg] at hs
    match hS : p.snapshot, hs with
    | .ok S, hs => exact docs_diff hp1.whole hn hs.1 hs.2.1 σ (fun Z hZ => hne S Z hS hZ) hg
    | .error e, hs => exact hs.elim

/-- C125, in part: as `C125_history_partial`, with a condition on values only. -/
theorem C125_history_values_partial {t : GVK} {sources : List GVK} {h : Heap} {src : HSrc} {g : HGraph CDoc} {sn : Option (HGraph CDoc)} {tgt : HStore}
    {es : List (Shuffles × Option (Delta CDoc))} {Rs : List (Except Err (List (Delta CDoc)))} {p : Pipe CDoc Json} (hp : FullIs cdocs h src g sn tgt p) (hn : (p.sources.map GVK.kind).Nodup)
    (hi : p.graph.inputs = p.sources.map GVK.kind) (ht : PlainKind p.target) (hti : p.target = t ∧ p.sources = sources) (hne : NoEmpty p es)
    (he : Calls cdocs t sources h src g sn tgt es Rs) : Rs = stepAll p es := by
  induction he generalizing p with
  | nil => rfl
  | @evaluate h h1 h2 src src' g g' sn tgt tgt' σ ty a o r R es Rs hag ho hk hg hso _ ih =>
    obtain ⟨rfl, rfl⟩ := hti
    rw [← hi] at hg
    obtain ⟨h2', src'', g'', tgt'', r', q1, -, q3, q4, -⟩ := (C125_values_partial hp hn hi ht hag σ).1 ty a o ho hk hne.1
    have heq := q1.unique hg
    simp only [Prod.mk.injEq] at heq
    obtain ⟨rfl, rfl, rfl, rfl, rfl⟩ := heq
    obtain ⟨k1, k2, k3⟩ := evaluate_keeps p hn hi σ ⟨ty, o⟩
    have hrest := ih q3 (by rw [k1]; exact hn) (by rw [k3, k1]; exact hi) (by rw [k2]; exact ht) ⟨k2, k1⟩ hne.2
    rw [stepAll, outcome_unique hso q4, hrest]
    rfl
  | @sync h h1 h2 src g sn sn' tgt tgt' σ r R es Rs hag hg hso _ ih =>
    obtain ⟨rfl, rfl⟩ := hti
    rw [← hi] at hg
    obtain ⟨h2', sn'', tgt'', r', q1, -, q3, q4, -⟩ := (C125_values_partial hp hn hi ht hag σ).2 hne.1
    have heq := q1.unique hg
    simp only [Prod.mk.injEq] at heq
    obtain ⟨rfl, rfl, rfl, rfl⟩ := heq
    obtain ⟨k1, k2, k3, -⟩ := syncAll_fields jsonOps σ.eval p
    have hrest := ih q3 (by rw [k1]; exact hn) (by rw [k3, k1]; exact hi) (by rw [k2]; exact ht) ⟨k2, k1⟩ hne.2
    rw [stepAll, outcome_unique hso q4, hrest]
    rfl

/-- A call of `Sync` answers. -/
theorem calls_step {t : GVK} {sources : List GVK} {h h1 : Heap} {src : HSrc} {g : HGraph CDoc} {sn : Option (HGraph CDoc)} {tgt : HStore} {p : Pipe CDoc Json}
    (hp : FullIs cdocs h src g sn tgt p) (hn : (p.sources.map GVK.kind).Nodup) (hi : p.graph.inputs = p.sources.map GVK.kind) (ht : PlainKind p.target)
    (hti : p.target = t ∧ p.sources = sources) (hag : ∀ b, FullHolds h src g sn tgt b → h1[b]? = h[b]?) {σ : Shuffles} (hne : NoEmpty p [(σ, none)]) :
    ∃ R, Calls cdocs t sources h src g sn tgt [(σ, none)] [R] := by
  obtain ⟨rfl, rfl⟩ := hti
  obtain ⟨h2, sn', tgt', r, q1, -, -, q4, -⟩ := (C125_values_partial hp hn hi ht hag σ).2 hne.1
  rw [hi] at q1
  exact ⟨_, .sync hag q1 (outcome_any q4) .nil⟩

/-! ### examples -/

/-- A pipeline from kind `V` to kind `W` whose source cache has an object that its target cache lacks. -/
def syncPipe : Pipe CDoc Json :=
  { sources := [⟨"op.view.dcontroller.io", "v1alpha1", "V"⟩], target := ⟨"op.view.dcontroller.io", "v1alpha1", "W"⟩, graph := ⟨["V"], none, [{ op := .distinct }]⟩,
    src := fun k => if k = ⟨"op.view.dcontroller.io", "v1alpha1", "V"⟩ then [(objKey demoDoc1.1, demoDoc1)] else [] }

/-- Its source cache in memory. -/
def syncSrc : HSrc := fun k => if k = ⟨"op.view.dcontroller.io", "v1alpha1", "V"⟩ then [(objKey demoDoc1.1, 1)] else []

theorem sync_full : FullIs cdocs demoHeap syncSrc ⟨none, [.distinct]⟩ none [] syncPipe := by
  refine ⟨⟨⟨fun k => ?_, fun k q hq => ?_, ⟨by decide, trivial, .cons .distinct .nil, ?_⟩, ?_⟩, .nil, fun q hq => by cases hq⟩, trivial, fun S h => by cases h⟩
  · simp only [syncSrc, syncPipe]
    split
    · exact .cons ⟨rfl, 3, by decide +kernel⟩ .nil
    · exact .nil
  · simp only [syncPipe] at hq
    split at hq
    · cases List.mem_singleton.mp hq
      exact ⟨rfl, by show copyObj _ = _; decide +kernel⟩
    · cases hq
  · simp only [HGraph.kept, Option.elim, List.map_cons, List.map_nil, HOp.kept, List.pairwise_cons, List.mem_singleton, forall_eq, List.not_mem_nil, false_imp_iff,
      implies_true, List.Pairwise.nil, and_true]
    rintro b ⟨z, hz, _⟩; cases hz
  · rintro b - ⟨z, hz, _⟩
    simp [HGraph.kept, HOp.kept] at hz

/-- `Sync` emits the object that is missing; the consumer empties it; the next `Sync` emits it again, complete. (Again, because the pipeline computes an object of kind `V` and the target
cache has it with kind `W`.) -/
example : ∃ Rs, Steps cdocs syncPipe.target syncPipe.sources demoHeap syncSrc ⟨none, [.distinct]⟩ none [] [(demoShuffles, none), (demoShuffles, none)] Rs ∧
    Rs.map Except.toOption = [some [⟨.upserted, ⟨demoOut 1, by decide +kernel⟩⟩], some [⟨.upserted, ⟨demoOut 1, by decide +kernel⟩⟩]] := by
  have hpk : PlainKind syncPipe.target := by show _ = _; decide +kernel
  have hnd : (syncPipe.sources.map GVK.kind).Nodup := by decide
  have hd1 : ∀ sg, snapshotM syncPipe.graph.inputs ⟨none, [.distinct]⟩ none = .ok sg → ∀ h2 sg' z,
      Gives (diffM cdocs demoShuffles syncPipe.sources syncSrc sg []) demoHeap (h2, sg', .ok z) → Docs h2 z := by
    intro sg hsg h2 sg' z hg
    have hs := sync_full.snapshot rfl
    rw [hsg] at hs
    exact docs_diff sync_full.whole hnd (S := ⟨["V"], none, [{ op := .distinct }]⟩) hs.1 rfl demoShuffles
      (fun Z hZ => by cases hZ.symm.trans (show _ = Except.ok [(demoDoc1, 1)] from rfl); simp [demoDoc1, demoObj, demoView]) hg
  obtain ⟨h2, sn', tgt', r, q1, q2, q3, q4, q5, q6⟩ := C125_step_partial cdocs_key sync_full hnd rfl hpk (h1 := demoHeap) (fun b _ => rfl) demoShuffles hd1
  have hR : (syncPipe.syncAll jsonOps demoShuffles.eval).2 = .ok [⟨.upserted, ⟨demoOut 1, by decide +kernel⟩⟩] := rfl
  match r, q4 with
  | .ok ds, q4 =>
    have q4' := q4
    rw [hR] at q4'
    match ds, show All2 _ ds _ from q4' with
    | [δ], .cons _ .nil =>
      have hown : ∀ b, FullHolds h2 syncSrc ⟨none, [.distinct]⟩ sn' tgt' b → (h2.set δ.obj (.map []))[b]? = h2[b]? := fun b hb => by
        have h4 : b ≠ δ.obj := fun e => (q6 _ rfl).1 b hb ⟨δ, List.mem_singleton.mpr rfl, e ▸ .here _⟩
        rw [set_other h4]
      generalize h2.set δ.obj (.map []) = h3 at hown
      obtain ⟨hp3, -⟩ := q3.agree hown
      have hd2 : ∀ sg, snapshotM syncPipe.graph.inputs ⟨none, [.distinct]⟩ sn' = .ok sg → ∀ h4 sg' z,
          Gives (diffM cdocs demoShuffles syncPipe.sources syncSrc sg tgt') h3 (h4, sg', .ok z) → Docs h4 z := by
        intro sg hsg h4 sg' z hg
        have hs := hp3.snapshot rfl
        rw [show snapshotM (syncPipe.syncAll jsonOps demoShuffles.eval).1.graph.inputs ⟨none, [.distinct]⟩ sn' = .ok sg from hsg] at hs
        exact docs_diff (p := (syncPipe.syncAll jsonOps demoShuffles.eval).1) hp3.whole hnd (S := ⟨["V"], none, [{ op := .distinct }]⟩) hs.1 rfl demoShuffles
          (fun Z hZ => by cases hZ.symm.trans (show _ = Except.ok [(demoDoc1, 1), (⟨demoOut 1, by decide +kernel⟩, -1)] from rfl); simp [demoDoc1, demoObj, demoView, demoOut]) hg
      obtain ⟨h4, sn2, tgt2, r2, p1, -, -, p4, -⟩ := C125_step_partial cdocs_key q3 hnd rfl hpk hown demoShuffles hd2
      exact ⟨_, .sync (fun b _ => rfl) hd1 q1 (outcome_any q4) (.sync hown hd2 p1 (outcome_any p4) .nil), rfl⟩

/-- The hypotheses on values are met: a `Sync` of this pipeline, and an `Evaluate` of the object of the caller. -/
example : (∃ x, Gives (syncM cdocs demoShuffles syncPipe.target syncPipe.sources ["V"] syncSrc ⟨none, [.distinct]⟩ none []) demoHeap x) ∧
    ∃ x, Gives (evaluateM cdocs demoShuffles syncPipe.target ["V"] syncSrc ⟨none, [.distinct]⟩ [] .added 1) demoHeap x := by
  obtain ⟨h1, h2⟩ := C125_values_partial sync_full (by decide) rfl (by show _ = _; decide +kernel) (h1 := demoHeap) (fun b _ => rfl) demoShuffles
  constructor
  · obtain ⟨_, _, _, _, q, -⟩ := h2 (fun S Z hS hZ => by
      cases hS
      cases hZ.symm.trans (show _ = Except.ok [(demoDoc1, 1)] from rfl)
      simp [demoDoc1, demoObj, demoView])
    exact ⟨_, q⟩
  · obtain ⟨_, _, _, _, _, q, -⟩ := h1 .added 1 demoDoc1 ⟨3, by decide +kernel⟩ (by show copyObj _ = _; decide +kernel) (fun Z hZ => by
      cases hZ.symm.trans (show _ = Except.ok [(demoDoc1, 1)] from rfl)
      simp [demoDoc1, demoObj, demoView])
    exact ⟨_, q⟩

/-- A history that meets the conditions: its answer is that on values. -/
example : ∃ R, Calls cdocs syncPipe.target syncPipe.sources demoHeap syncSrc ⟨none, [.distinct]⟩ none [] [(demoShuffles, none)] [R] ∧
    R.toOption = some [⟨.upserted, ⟨demoOut 1, by decide +kernel⟩⟩] := by
  have hne : NoEmpty syncPipe [(demoShuffles, none)] := ⟨fun S Z hS hZ => by
    cases hS
    cases hZ.symm.trans (show _ = Except.ok [(demoDoc1, 1)] from rfl)
    simp [demoDoc1, demoObj, demoView], trivial⟩
  have hpk : PlainKind syncPipe.target := by show _ = _; decide +kernel
  obtain ⟨R, hR⟩ := calls_step sync_full (by decide) rfl hpk ⟨rfl, rfl⟩ (h1 := demoHeap) (fun b _ => rfl) hne
  have h1 := C125_history_values_partial sync_full (by decide) rfl hpk ⟨rfl, rfl⟩ hne hR
  cases h1
  exact ⟨_, hR, rfl⟩

end Mem
end Dctl
