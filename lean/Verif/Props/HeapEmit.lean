import Verif.Pipeline.HeapEmitLemmas
import Verif.Props.HeapConvert
/-!
# C124: what a pipeline emits can be changed by whoever gets it
-/
set_option autoImplicit false
set_option linter.unusedSectionVars false
namespace Dctl
namespace Mem
variable {J : Type} [DecidableEq J]

theorem emitted_pairwise {h : Heap} {ds : List (Delta Nat)} (hl : Lone h (ds.map Delta.obj)) : ds.Pairwise (fun δ ε => Apart (Emitted h [δ]) (Emitted h [ε])) := by
  refine (List.pairwise_map.mp hl).imp (fun hab b hb hb' => ?_)
  obtain ⟨δ, hδ, hb⟩ := hb
  obtain ⟨ε, hε, hb'⟩ := hb'
  cases List.mem_singleton.mp hδ
  cases List.mem_singleton.mp hε
  exact hab b hb hb'

/-- C124: turning an answer of the executor into deltas and comparing them with the target cache ends, has the result it has on values, and writes to no existing cell. The
objects emitted are made of new cells, none of which is part of the target cache or of another object emitted; what the target cache holds afterwards it held before, or is new. -/
theorem C124_emit {c : Cfg CDoc J} (hc : ∀ d : CDoc, c.key (.map d.1) = d) {h : Heap} {tgt : HStore} {T : Store CDoc} (hT : TgtIs h tgt T) (hok : TgtOk T) (σ : Shuffles) {t : GVK}
    (ht : PlainKind t) {A : Region} {z : HZ CDoc} {Z : ZSet CDoc} (hz : ZIs c h A z Z) (hd : Docs h z) :
    ∃ h' r, Gives (emitM σ t tgt z) h (h', r) ∧ Ext nowhere h h' ∧
      SameOutcome (fun x X => TgtIs h' x.1 X.1 ∧ TgtOk X.1 ∧ All2 (DeltaIs h' (fun b => h.length ≤ b)) x.2 X.2 ∧ (∀ b, TgtHolds h' x.1 b → TgtHolds h tgt b ∨ h.length ≤ b) ∧
        Apart (TgtHolds h' x.1) (Emitted h' x.2) ∧ x.2.Pairwise (fun δ ε => Apart (Emitted h' [δ]) (Emitted h' [ε]))) r
        (emits σ.eval t T Z) := by
  obtain ⟨h', r, h1, h2, h3⟩ := emitM_gives hc hT hok σ ht hz hd
  refine ⟨h', r, h1, h2, ?_⟩
  match r, emits σ.eval t T Z, h3 with
  | .ok x, .ok X, ⟨h3, h4, h5, h6⟩ => exact ⟨h3.is, h3.ok, h4, h3.held, h5, emitted_pairwise h6⟩
  | .error e, .error e', h3 => exact h3

theorem PipeIs.lt {c : Cfg CDoc J} {h : Heap} {src : HSrc} {g : HGraph CDoc} {C : SrcCache CDoc} {G : Graph CDoc J} (hp : PipeIs c h src g C G) (b : Nat)
    (hb : PipeHolds h src g b) : b < h.length := by
  rcases hb with hb | hb
  · exact hp.stores.lt hb
  · obtain ⟨k, hk, z, hz, e, he, hb⟩ := held_flatten.mp hb
    obtain ⟨A, Z, hZ⟩ := hp.graph.fine k hk z hz
    exact (hZ.held_sub he hb).2

theorem WholeIs.agree {c : Cfg CDoc J} {h h1 : Heap} {src : HSrc} {g : HGraph CDoc} {tgt : HStore} {p : Pipe CDoc J} (hp : WholeIs c h src g tgt p)
    (hag : ∀ b, AllHolds h src g tgt b → h1[b]? = h[b]?) : WholeIs c h1 src g tgt p ∧ ∀ b, AllHolds h1 src g tgt b → AllHolds h src g tgt b := by
  obtain ⟨h2, h3⟩ := hp.pipe.agree (fun b hb => hag b (.inl hb))
  refine ⟨⟨h2, All2.imp_mem hp.tgt (fun q _ hm hq => ⟨hq.1, Reads.frame hq.2 (fun b hb => hag b (.inr ⟨q, hm, hb⟩))⟩), hp.ok⟩, ?_⟩
  rintro b (hb | ⟨q, hq, hb⟩)
  · exact .inl (h3 b hb)
  · exact .inr ⟨q, hq, reach_frame hb (fun b hb => hag b (.inr ⟨q, hq, hb⟩))⟩

/-- C124, in part: whatever happened to memory since the last call except to what the pipeline holds, `Evaluate` answers or fails as on values, and writes to no existing
cell. Of the cells that were there before, the pipeline holds none that it did not hold. The objects emitted are made of new cells, of which the pipeline holds none, and share none with each other:
whoever gets them can write to them. Missing: evaluators that write to documents other than the one they are given (as in C110), and answers whose documents have a key twice, which Go cannot
express but the memory here can (`Docs`). -/
theorem C124_step_partial {c : Cfg CDoc J} (hc : ∀ d : CDoc, c.key (.map d.1) = d) {h h1 : Heap} {src : HSrc} {g : HGraph CDoc} {tgt : HStore} {p : Pipe CDoc J}
    (hp : WholeIs c h src g tgt p) (hn : (p.sources.map GVK.kind).Nodup) (hi : p.graph.inputs = p.sources.map GVK.kind) (ht : PlainKind p.target)
    (hag : ∀ b, AllHolds h src g tgt b → h1[b]? = h[b]?) (σ : Shuffles) (t : DeltaType) {a : Nat} {o : CDoc} (ho : ObjAt h1 a o.1) (hk : Kinded o)
    (hd : ∀ h2 src' g' z, Gives (feedM c p.graph.inputs src g t a) h1 (h2, src', g', .ok z) → Docs h2 z) :
    ∃ h2 src' g' tgt' r, Gives (evaluateM c σ p.target p.graph.inputs src g tgt t a) h1 (h2, src', g', tgt', r) ∧ Ext nowhere h1 h2 ∧
      WholeIs c h2 src' g' tgt' (p.evaluate jsonOps σ.eval ⟨t, o⟩).1 ∧ SameOutcome (All2 (DeltaIs h2 (fun b => h1.length ≤ b))) r (p.evaluate jsonOps σ.eval ⟨t, o⟩).2 ∧
      (∀ b, AllHolds h2 src' g' tgt' b → AllHolds h src g tgt b ∨ h1.length ≤ b) ∧
      ∀ ds, r = .ok ds → Apart (AllHolds h2 src' g' tgt') (Emitted h2 ds) ∧ ds.Pairwise (fun δ ε => Apart (Emitted h2 [δ]) (Emitted h2 [ε])) := by
  obtain ⟨hp1, hback⟩ := hp.agree hag
  obtain ⟨h2, src', g', r, q1, q2, q3, q4, q5, -⟩ := feedM_gives hc hp1.pipe t ho hk
  have hT2 := TgtIs.grow hp1.tgt q2
  have hhold : ∀ b, AllHolds h2 src' g' tgt b → AllHolds h src g tgt b ∨ h1.length ≤ b := by
    rintro b (hb | hb)
    · exact (q5 b hb).imp (fun h3 => hback b (.inl h3)) id
    · exact .inl (hback b (.inr (tgtHolds_back hp1.tgt q2 hb)))
  rw [evaluate_feed hn hi σ.eval rfl ⟨t, o⟩]
  obtain ⟨N1, H1⟩ := q1
  generalize hF : feed (p.src, p.graph) ⟨t, o⟩ = F at q3 q4
  obtain ⟨⟨C', G'⟩, R⟩ := F
  match r, R, q4 with
  | .error e, .error e', q4 =>
    refine ⟨h2, src', g', tgt, .error e, ⟨N1, fun n hn => by rw [evaluateM, H1 n hn]⟩, q2, ⟨q3, hT2, hp1.ok⟩, q4, hhold, fun ds h => by cases h⟩
  | .ok z, .ok Z, q4 =>
    have q4 : ZIs c h2 (fun _ => True) z Z := q4
    obtain ⟨h3, r3, g3, e3, s3⟩ := emitM_gives hc hT2 hp1.ok σ ht q4 (hd h2 src' g' z ⟨N1, H1⟩)
    have e13 := q2.trans e3 (fun _ _ h => h)
    obtain ⟨N3, H3⟩ := g3
    have hplt : ∀ b, PipeHolds h2 src' g' b → b < h2.length := q3.lt
    obtain ⟨q3', hback3⟩ := q3.agree (h1 := h3) (fun b hb => e3.get (hplt b hb))
    dsimp only
    match r3, emits σ.eval p.target p.tgt Z, s3 with
    | .error e, .error e', s3 =>
      refine ⟨h3, src', g', tgt, .error e, ⟨max N1 N3, fun n hn => ?_⟩, e13, ⟨q3', TgtIs.grow hT2 e3, hp1.ok⟩, s3, ?_, fun ds h => by cases h⟩
      · rw [evaluateM, H1 n (Nat.le_trans (Nat.le_max_left ..) hn)]
        dsimp only
        rw [H3 n (Nat.le_trans (Nat.le_max_right ..) hn)]
      · rintro b (hb | hb)
        · exact hhold b (.inl (hback3 b hb))
        · exact hhold b (.inr (tgtHolds_back hT2 e3 hb))
    | .ok x, .ok X, ⟨a3, d3, ap3, lone⟩ =>
      refine ⟨h3, src', g', x.1, .ok x.2, ⟨max N1 N3, fun n hn => ?_⟩, e13, ⟨q3', a3.is, a3.ok⟩, ?_, ?_, ?_⟩
      · rw [evaluateM, H1 n (Nat.le_trans (Nat.le_max_left ..) hn)]
        dsimp only
        rw [H3 n (Nat.le_trans (Nat.le_max_right ..) hn)]
      · exact All2.imp d3 (fun _ _ hd => ⟨hd.1, hd.2.1, hd.2.2.1, fun b hb => Nat.le_trans q2.1 (hd.2.2.2 b hb)⟩)
      · rintro b (hb | hb)
        · exact hhold b (.inl (hback3 b hb))
        · rcases a3.held b hb with h4 | h4
          · exact hhold b (.inr h4)
          · exact .inr (Nat.le_trans q2.1 h4)
      · rintro ds hds
        cases hds
        refine ⟨?_, emitted_pairwise lone⟩
        rintro b (hb | hb) hb'
        · obtain ⟨δ, hδ, hr⟩ := hb'
          obtain ⟨Δ, -, hΔ⟩ := All2.left d3 hδ
          exact absurd (hplt b (hback3 b hb)) (Nat.not_lt.mpr (hΔ.2.2.2 b hr))
        · exact ap3 b hb hb'

theorem deltas_unique {h : Heap} {A B : Region} {ds : List (Delta Nat)} : ∀ {D1 D2 : List (Delta CDoc)}, All2 (DeltaIs h A) ds D1 → All2 (DeltaIs h B) ds D2 → D1 = D2 := by
  induction ds with
  | nil => intro D1 D2 h1 h2; cases h1; cases h2; rfl
  | cons δ ds ih =>
    intro D1 D2 h1 h2
    cases h1 with
    | cons r1 t1 =>
      cases h2 with
      | cons r2 t2 =>
        rename_i Δ1 _ Δ2 _
        rw [ih t1 t2]
        congr 1
        obtain ⟨ty1, o1⟩ := Δ1
        obtain ⟨ty2, o2⟩ := Δ2
        have e1 : ty1 = ty2 := r1.1.symm.trans r2.1
        have e2 := Reads.unique r1.2.1 r2.2.1
        simp only [Json.map.injEq] at e2
        rw [e1, Subtype.ext e2]

theorem evaluate_keeps (p : Pipe CDoc J) (hn : (p.sources.map GVK.kind).Nodup) (hi : p.graph.inputs = p.sources.map GVK.kind) (σ : Shuffles) (δ : Delta CDoc) :
    (p.evaluate jsonOps σ.eval δ).1.sources = p.sources ∧ (p.evaluate jsonOps σ.eval δ).1.target = p.target ∧ (p.evaluate jsonOps σ.eval δ).1.graph.inputs = p.graph.inputs := by
  have h1 := feed_inputs (p.src, p.graph) δ
  rw [evaluate_feed hn hi σ.eval rfl δ]
  generalize feed (p.src, p.graph) δ = y at h1
  obtain ⟨x, r⟩ := y
  cases r with
  | error e => exact ⟨rfl, rfl, h1⟩
  | ok z =>
    dsimp only
    split
    · exact ⟨rfl, rfl, h1⟩
    · exact ⟨rfl, rfl, h1⟩

/-- C124, in part: the deltas emitted for a sequence of deltas, with anything happening in between to objects that were given to the pipeline and to objects it emitted, are
those on values. -/
theorem C124_history_partial {c : Cfg CDoc J} (hc : ∀ d : CDoc, c.key (.map d.1) = d) {t : GVK} {inputs : List String} {h : Heap} {src : HSrc} {g : HGraph CDoc} {tgt : HStore}
    {δs : List (Shuffles × Delta CDoc)} {Rs : List (Except Err (List (Delta CDoc)))} {p : Pipe CDoc J} (hp : WholeIs c h src g tgt p) (hn : (p.sources.map GVK.kind).Nodup)
    (hi : p.graph.inputs = p.sources.map GVK.kind) (ht : PlainKind p.target) (hti : p.target = t ∧ p.graph.inputs = inputs) (he : Evals c t inputs h src g tgt δs Rs) :
    Rs = evalAll p δs := by
  induction he generalizing p with
  | nil => rfl
  | @cons h h1 h2 src src' g g' tgt tgt' σ ty a o r R δs Rs hag ho hk hd hg hso _ ih =>
    obtain ⟨rfl, rfl⟩ := hti
    obtain ⟨h2', src'', g'', tgt'', r', q1, -, q3, q4, -⟩ := C124_step_partial hc hp hn hi ht hag σ ty ho hk hd
    have heq := q1.unique hg
    simp only [Prod.mk.injEq] at heq
    obtain ⟨rfl, rfl, rfl, rfl, rfl⟩ := heq
    obtain ⟨k1, k2, k3⟩ := evaluate_keeps p hn hi σ ⟨ty, o⟩
    have hrest := ih q3 (by rw [k1]; exact hn) (by rw [k3, k1]; exact hi) (by rw [k2]; exact ht) ⟨k2, k3⟩
    have hR : R = (p.evaluate jsonOps σ.eval ⟨ty, o⟩).2 := by
      match r', R, (p.evaluate jsonOps σ.eval ⟨ty, o⟩).2, hso, q4 with
      | .ok z, .ok Z, .ok Z', hso, h6 => rw [deltas_unique hso h6]
      | .error e, .error e', .error e'', hso, h6 =>
        have hso : e = e' := hso
        have h6 : e = e'' := h6
        rw [← hso, h6]
    rw [evalAll, hR, hrest]

/-! ### examples -/

/-- Documents with their content as key: answers without empty documents meet the hypothesis. -/
theorem docs_cdocs {h : Heap} {A : Region} {z : HZ CDoc} {Z : ZSet CDoc} (hz : ZIs cdocs h A z Z) (hZ : ∀ p ∈ Z, p.1.1 ≠ []) : Docs h z := by
  intro e he
  obtain ⟨p, hp, hm, -, j, hj, hk, -⟩ := All2.left hz he
  have hne := hZ p hp
  refine ⟨p.1, ?_⟩
  simp only [cdocs] at hk
  split at hk
  · rename_i m
    split at hk
    · rw [← hk]; exact hj
    · rw [← hk] at hne; exact absurd rfl hne
  · rw [← hk] at hne; exact absurd rfl hne

/-- A map of two entries or more is visited backwards. -/
def revShuffle : Shuffle := ⟨List.reverse, fun f l => by rw [List.map_reverse], fun l => List.reverse_perm l⟩

/-- Orders. -/
def demoShuffles : Shuffles := ⟨revShuffle, revShuffle, revShuffle, revShuffle, revShuffle⟩

/-- A new pipeline from kind `V` to kind `W`. -/
def demoPipe : Pipe CDoc Json :=
  { sources := [⟨"op.view.dcontroller.io", "v1alpha1", "V"⟩], target := ⟨"op.view.dcontroller.io", "v1alpha1", "W"⟩, graph := ⟨["V"], none, [{ op := .integ [] }]⟩ }

/-- What it emits for the two versions. -/
def demoOut (n : Int) : SMap Json :=
  [("apiVersion", .str "op.view.dcontroller.io/v1alpha1"), ("d", .int n), ("kind", .str "W"), ("metadata", .map [("name", .str "b"), ("namespace", .str "a")])]

theorem demo_whole (h : Heap) : WholeIs cdocs h (fun _ => []) ⟨none, [.integ []]⟩ [] demoPipe := ⟨new_pipe h, .nil, fun q hq => by cases hq⟩

theorem demo_holds (h : Heap) (b : Nat) : ¬ AllHolds h (fun _ => []) (⟨none, [.integ []]⟩ : HGraph CDoc) [] b := by
  rintro (hb | ⟨p, hp, _⟩)
  · exact new_pipe_holds h b hb
  · cases hp

theorem outcome_any {h : Heap} {A : Region} {r : Except Err (List (Delta Nat))} {R : Except Err (List (Delta CDoc))} (hs : SameOutcome (All2 (DeltaIs h A)) r R) :
    SameOutcome (All2 (DeltaIs h (fun _ => True))) r R := by
  match r, R, hs with
  | .ok _, .ok _, hs => exact All2.imp hs (fun _ _ hd => ⟨hd.1, hd.2.1, hd.2.2.1, fun _ _ => trivial⟩)
  | .error _, .error _, hs => exact hs

/-- The first call. -/
theorem demo_first : ∃ h2 src' g' tgt' ds, Gives (evaluateM cdocs demoShuffles demoPipe.target ["V"] (fun _ => []) ⟨none, [.integ []]⟩ [] .added 1) demoHeap (h2, src', g', tgt', .ok ds) ∧
    Ext nowhere demoHeap h2 ∧ WholeIs cdocs h2 src' g' tgt' (demoPipe.evaluate jsonOps demoShuffles.eval ⟨.added, demoDoc1⟩).1 ∧
    SameOutcome (All2 (DeltaIs h2 (fun b => 2 ≤ b))) (.ok ds) (demoPipe.evaluate jsonOps demoShuffles.eval ⟨.added, demoDoc1⟩).2 ∧
    (∀ b, AllHolds h2 src' g' tgt' b → 2 ≤ b) ∧ Apart (AllHolds h2 src' g' tgt') (Emitted h2 ds) ∧ ds.length = 1 := by
  have hobj : ObjAt demoHeap 1 demoDoc1.1 := ⟨3, by decide +kernel⟩
  have hkd : Kinded demoDoc1 := by show copyObj _ = _; decide +kernel
  obtain ⟨h2, src', g', tgt', r, q1, q2, q3, q4, q5, q6⟩ := C124_step_partial cdocs_key (demo_whole []) (by decide) rfl (by show _ = _; decide +kernel)
    (h1 := demoHeap) (fun b hb => absurd hb (demo_holds _ b)) demoShuffles .added hobj hkd (fun h2 src' g' z hg => by
      obtain ⟨h3, s3, g3, r3, p1, -, -, p4, -⟩ := feedM_gives cdocs_key (new_pipe demoHeap) .added hobj hkd
      have heq := p1.unique hg
      simp only [Prod.mk.injEq] at heq
      obtain ⟨rfl, rfl, rfl, rfl⟩ := heq
      have hf : (feed ((fun _ => []), (⟨["V"], none, [{ op := .integ [] }]⟩ : Graph CDoc Json)) ⟨.added, demoDoc1⟩).2 = .ok [(demoDoc1, 1)] := rfl
      rw [hf] at p4
      exact docs_cdocs p4 (by simp [demoDoc1, demoObj, demoView]))
  match r, q4 with
  | .ok ds, q4 =>
    refine ⟨h2, src', g', tgt', ds, q1, q2, q3, q4, fun b hb => (q5 b hb).resolve_left (demo_holds _ b), (q6 ds rfl).1, ?_⟩
    have hR : (demoPipe.evaluate jsonOps demoShuffles.eval ⟨.added, demoDoc1⟩).2 = .ok [⟨.upserted, ⟨demoOut 1, by decide +kernel⟩⟩] := rfl
    rw [hR] at q4
    exact All2.len q4

/-- The graph after the first call. -/
theorem demo_feed : (feed ((demoPipe.evaluate jsonOps demoShuffles.eval ⟨.added, demoDoc1⟩).1.src, (demoPipe.evaluate jsonOps demoShuffles.eval ⟨.added, demoDoc1⟩).1.graph)
    ⟨.updated, demoDoc7⟩).2 = .ok [(demoDoc7, 1)] := rfl

/-- A caller feeds an object; the consumer empties the object emitted; the caller changes its object in place and feeds it again. The object emitted then is the new version. -/
example : ∃ Rs, Evals cdocs demoPipe.target ["V"] [] (fun _ => []) ⟨none, [.integ []]⟩ [] [(demoShuffles, ⟨.added, demoDoc1⟩), (demoShuffles, ⟨.updated, demoDoc7⟩)] Rs ∧
    Rs.map Except.toOption = [some [⟨.upserted, ⟨demoOut 1, by decide +kernel⟩⟩], some [⟨.upserted, ⟨demoOut 7, by decide +kernel⟩⟩]] := by
  obtain ⟨h2, src', g', tgt', ds, q1, q2, q3, q4, q5, q6, q7⟩ := demo_first
  match ds, q7 with
  | [δ], _ =>
    have hlen : 2 ≤ h2.length := q2.1
    have hx : 2 ≤ δ.obj := by
      have hR : (demoPipe.evaluate jsonOps demoShuffles.eval ⟨.added, demoDoc1⟩).2 = .ok [⟨.upserted, ⟨demoOut 1, by decide +kernel⟩⟩] := rfl
      rw [hR] at q4
      cases (show All2 _ _ _ from q4) with
      | cons hd _ => exact hd.2.2.2 _ (.here _)
    have hown : ∀ b, AllHolds h2 src' g' tgt' b → ((h2.set δ.obj (.map [])).set 1 (demoCell 7 0))[b]? = h2[b]? := fun b hb => by
      have h3 := q5 b hb
      have h4 : b ≠ δ.obj := fun e => q6 b hb ⟨δ, List.mem_singleton.mpr rfl, e ▸ .here _⟩
      rw [set_other (by omega), set_other h4]
    have h0 : ((h2.set δ.obj (.map [])).set 1 (demoCell 7 0))[0]? = some (.map [("name", .str "b"), ("namespace", .str "a")]) := by
      rw [set_other (by decide), set_other (by omega), q2.get (by decide)]; rfl
    have h1 : ((h2.set δ.obj (.map [])).set 1 (demoCell 7 0))[1]? = some (demoCell 7 0) := List.getElem?_set_self (by rw [List.length_set]; omega)
    generalize (h2.set δ.obj (.map [])).set 1 (demoCell 7 0) = h3 at hown h0 h1
    have hobj : ObjAt h3 1 demoDoc7.1 := by
      refine ⟨3, ?_⟩
      have hmeta : Mem.read 2 h3 (.ref 0) = some (.map [("name", .str "b"), ("namespace", .str "a")]) := by rw [read_map h0]; rfl
      rw [demoCell] at h1
      rw [read_map h1]
      simp only [readFields, hmeta]
      rfl
    have hkd : Kinded demoDoc7 := by show copyObj _ = _; decide +kernel
    obtain ⟨k1, k2, k3⟩ := evaluate_keeps demoPipe (by decide) rfl demoShuffles ⟨.added, demoDoc1⟩
    have hdoc : ∀ h4 src'' g'' z, Gives (feedM cdocs ["V"] src' g' .updated 1) h3 (h4, src'', g'', .ok z) → Docs h4 z := fun h4 src'' g'' z hg => by
      obtain ⟨h5, s5, g5, r5, p1, -, -, p4, -⟩ := feedM_gives cdocs_key (q3.agree hown).1.pipe .updated hobj hkd
      rw [k3] at p1
      have heq := p1.unique hg
      simp only [Prod.mk.injEq] at heq
      obtain ⟨rfl, rfl, rfl, rfl⟩ := heq
      rw [demo_feed] at p4
      exact docs_cdocs p4 (by simp [demoDoc7, demoObj, demoView])
    obtain ⟨h4, src2, g2, tgt2, r2, p1, -, -, p4, -⟩ := C124_step_partial cdocs_key q3 (by rw [k1]; decide) (by rw [k3, k1]; rfl) (by rw [k2]; show _ = _; decide +kernel) hown demoShuffles .updated
      hobj hkd (by rw [k3]; exact hdoc)
    rw [k2, k3] at p1
    have hE : Evals cdocs demoPipe.target ["V"] [] (fun _ => []) ⟨none, [.integ []]⟩ [] [(demoShuffles, ⟨.added, demoDoc1⟩), (demoShuffles, ⟨.updated, demoDoc7⟩)] [_, _] :=
      .cons (fun b hb => absurd hb (demo_holds _ b)) ⟨3, by decide +kernel⟩ (by show copyObj _ = _; decide +kernel) (fun h2 src' g' z hg => by
        obtain ⟨h3, s3, g3, r3, p1, -, -, p4, -⟩ := feedM_gives cdocs_key (new_pipe demoHeap) .added (show ObjAt demoHeap 1 demoDoc1.1 from ⟨3, by decide +kernel⟩) (show Kinded demoDoc1 by show copyObj _ = _; decide +kernel)
        have heq := p1.unique hg
        simp only [Prod.mk.injEq] at heq
        obtain ⟨rfl, rfl, rfl, rfl⟩ := heq
        have hf : (feed ((fun _ => []), (⟨["V"], none, [{ op := .integ [] }]⟩ : Graph CDoc Json)) ⟨.added, demoDoc1⟩).2 = .ok [(demoDoc1, 1)] := rfl
        rw [hf] at p4
        exact docs_cdocs p4 (by simp [demoDoc1, demoObj, demoView])) q1 (outcome_any q4)
        (.cons hown hobj hkd hdoc p1 (outcome_any p4) .nil)
    exact ⟨_, hE, rfl⟩

end Mem
end Dctl
