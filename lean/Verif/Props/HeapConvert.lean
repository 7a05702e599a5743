import Verif.Pipeline.HeapConvertLemmas
import Verif.Props.HeapCache
import Verif.Pipeline.RunLemmas
import Verif.Dbsp.NodeIdExec
/-!
# C123: what is fed to a pipeline can be reused
-/
set_option autoImplicit false
set_option linter.unusedSectionVars false
namespace Dctl
namespace Mem
variable {J : Type} [DecidableEq J]

/-- C123: converting a delta ends, has the result it has on values, and writes to no existing cell: neither the object it was given nor the stored
objects change. The Z-set is made of new cells that are not part of the source cache; what the source cache holds afterwards it held before, or
is new. (Objects have a kind and an API version: `Kinded`.) -/
theorem C123_convert {c : Cfg CDoc J} (hc : ∀ d : CDoc, c.key (.map d.1) = d) {h : Heap} {src : HSrc} {C : SrcCache CDoc} (hs : SrcIs h src C) (hC : SrcOk C) (t : DeltaType)
    {a : Nat} {o : CDoc} (ho : ObjAt h a o.1) (hk : Kinded o) :
    ∃ h' r, Gives (convertM c src t a) h (h', r) ∧ Ext nowhere h h' ∧
      SameOutcome (fun x X => SrcIs h' x.1 X.1 ∧ SrcOk X.1 ∧ ZIs c h' (fun b => h.length ≤ b) x.2 X.2 ∧ (∀ b, SrcHolds h' x.1 b → SrcHolds h src b ∨ h.length ≤ b) ∧
        Apart (SrcHolds h' x.1) (Held h' [x.2])) r (convertDelta jsonOps C ⟨t, o⟩) := by
  obtain ⟨h', r, h1, h2, h3⟩ := convertM_gives hc hs hC t ho hk
  refine ⟨h', r, h1, h2, ?_⟩
  match r, convertDelta jsonOps C ⟨t, o⟩, h3 with
  | .ok x, .ok X, h3 =>
    have h3 : Converted c h h' src x X := h3
    exact ⟨h3.stores, h3.ok, h3.zset, h3.held, h3.apart⟩
  | .error e, .error e', h3 => exact h3

theorem PipeIs.agree {c : Cfg CDoc J} {h h1 : Heap} {src : HSrc} {g : HGraph CDoc} {C : SrcCache CDoc} {G : Graph CDoc J} (hp : PipeIs c h src g C G)
    (hag : ∀ b, PipeHolds h src g b → h1[b]? = h[b]?) : PipeIs c h1 src g C G ∧ ∀ b, PipeHolds h1 src g b → PipeHolds h src g b := by
  have h1' : ∀ b, g.Holds h1 b → g.Holds h b := fun b hb => (held_agree (fun b hb => hag b (.inr hb))).mp hb
  have h2' : ∀ b, SrcHolds h1 src b → SrcHolds h src b := fun b hb => srcHolds_agree (fun b hb => hag b (.inl hb)) hb
  refine ⟨⟨hp.stores.agree (fun b hb => hag b (.inl hb)), hp.ok, hp.graph.agree (fun b hb => hag b (.inr hb)), fun b hb hb' => hp.apart b (h2' b hb) (h1' b hb')⟩, ?_⟩
  rintro b (hb | hb)
  · exact .inl (h2' b hb)
  · exact .inr (h1' b hb)

/-- C123, in part: whatever happened to memory since the last call except to what the pipeline holds, feeding an object to the pipeline answers or
fails as on values, and writes to no existing cell. Of the cells that were there before, the pipeline holds none that it did not hold; so it holds
nothing of the object it was given, and the caller can do with the object what it likes. Nor can writing to the answer change what the pipeline
holds. (The second half of `Evaluate` is C124.) Missing: evaluators that write to documents other than the one they are given (as in C110). -/
theorem C123_step_partial {c : Cfg CDoc J} (hc : ∀ d : CDoc, c.key (.map d.1) = d) {h h1 : Heap} {src : HSrc} {g : HGraph CDoc} {C : SrcCache CDoc} {G : Graph CDoc J}
    (hp : PipeIs c h src g C G) (hag : ∀ b, PipeHolds h src g b → h1[b]? = h[b]?) (t : DeltaType) {a : Nat} {o : CDoc} (ho : ObjAt h1 a o.1) (hk : Kinded o) :
    ∃ h2 src' g' r, Gives (feedM c G.inputs src g t a) h1 (h2, src', g', r) ∧ Ext nowhere h1 h2 ∧
      PipeIs c h2 src' g' (feed (C, G) ⟨t, o⟩).1.1 (feed (C, G) ⟨t, o⟩).1.2 ∧ SameOutcome (ZIs c h2 (fun _ => True)) r (feed (C, G) ⟨t, o⟩).2 ∧
      (∀ b, PipeHolds h2 src' g' b → PipeHolds h src g b ∨ h1.length ≤ b) ∧
      ∀ z, r = .ok z → (∀ b, Held h2 [z] b → g.Holds h b ∨ h1.length ≤ b) ∧ Apart (PipeHolds h2 src' g') (Held h2 [z]) := by
  obtain ⟨hp1, hback⟩ := hp.agree hag
  obtain ⟨h2, src', g', r, q1, q2, q3, q4, q5, q6⟩ := feedM_gives hc hp1 t ho hk
  refine ⟨h2, src', g', r, q1, q2, q3, q4, fun b hb => (q5 b hb).imp (hback b) id, fun z hz => ⟨fun b hb => ((q6 z hz).1 b hb).imp (fun h3 => ?_) id, (q6 z hz).2⟩⟩
  exact (held_agree (fun b hb => hag b (.inr hb))).mp h3

theorem feed_inputs (p : SrcCache CDoc × Graph CDoc J) (δ : Delta CDoc) : (feed p δ).1.2.inputs = p.2.inputs := by
  rw [feed]
  split
  · rfl
  · split
    · exact callGraph_inputs _ _
    · rfl

/-- C123, in part: the answers to a sequence of deltas, with anything happening in between to objects that were given to the pipeline and to answers it
gave, are those on values. -/
theorem C123_history_partial {c : Cfg CDoc J} (hc : ∀ d : CDoc, c.key (.map d.1) = d) {h : Heap} {src : HSrc} {g : HGraph CDoc} {C : SrcCache CDoc} {G : Graph CDoc J}
    {δs : List (Delta CDoc)} {Rs : List (Except Err (ZSet CDoc))} (hp : PipeIs c h src g C G) (hf : Feeds c G.inputs h src g δs Rs) : Rs = (runs feed (C, G) δs).2 := by
  generalize hi : G.inputs = inputs at hf
  induction hf generalizing C G with
  | nil => rfl
  | @cons h h1 h2 src src' g g' t a o r R δs Rs hag ho hk hg hso _ ih =>
    subst hi
    obtain ⟨h2', src'', g'', r', q1, -, q3, q4, -⟩ := C123_step_partial hc hp hag t ho hk
    have heq := q1.unique hg
    simp only [Prod.mk.injEq] at heq
    obtain ⟨rfl, rfl, rfl, rfl⟩ := heq
    have hrest := ih q3 (feed_inputs (C, G) ⟨t, o⟩)
    have hR : R = (feed (C, G) ⟨t, o⟩).2 := by
      match r', R, (feed (C, G) ⟨t, o⟩).2, hso, q4 with
      | .ok z, .ok Z, .ok Z', hso, h6 => rw [ZIs.unique hso h6]
      | .error e, .error e', .error e'', hso, h6 =>
        have hso : e = e' := hso
        have h6 : e = e'' := h6
        rw [← hso, h6]
    simp only [runs]
    rw [hR, hrest]

theorem set_length_new {K V : Type} [DecidableEq K] {m : AMap K V} {k : K} (v : V) (h : k ∉ m.map Prod.fst) : (AMap.set m k v).length = m.length + 1 := by
  induction m with
  | nil => rfl
  | cons p t ih =>
    simp only [List.map_cons, List.mem_cons, not_or] at h
    simp [AMap.set, Ne.symm h.1, ih h.2]

/-- `Evaluate` on values: feed the delta, convert the answer, compare it with the target cache. -/
theorem evaluate_feed {p : Pipe CDoc J} (hn : (p.sources.map GVK.kind).Nodup) (hg : p.graph.inputs = p.sources.map GVK.kind) (ω : EvalOrder CDoc) (hω : ω.exec = fun _ z => z) (δ : Delta CDoc) :
    p.evaluate jsonOps ω δ =
      match feed (p.src, p.graph) δ with
      | (x, .error e) => ({ p with src := x.1, graph := x.2 }, .error e)
      | (x, .ok z) =>
        match emits ω p.target p.tgt z with
        | .error e => ({ p with src := x.1, graph := x.2 }, .error e)
        | .ok y => ({ p with src := x.1, graph := x.2, tgt := y.1 }, .ok y.2) := by
  have key : ∀ z, (objGVK δ.obj.1).kind ∈ p.graph.inputs → p.graph.process ω.exec (evalInputs p.sources (objGVK δ.obj.1).kind z) =
      callGraph p.graph (placed [] p.graph.inputs (objGVK δ.obj.1).kind z) := by
    intro z hk
    obtain ⟨hl, hall⟩ := evalInputs_exact hn (hg ▸ hk) z
    obtain ⟨zs, hzs⟩ := collectInputs_total hl hall
    obtain ⟨rfl, -⟩ := collectInputs_ok hzs
    have h2 : collectInputs p.graph.inputs (p.graph.inputs.zip (placed [] p.graph.inputs (objGVK δ.obj.1).kind z)) = .ok (placed [] p.graph.inputs (objGVK δ.obj.1).kind z) :=
      IdGraph.collectInputs_zip (hg ▸ hn) (by simp [placed])
    have h3 : inputRow (p.sources.map GVK.kind) (evalInputs p.sources (objGVK δ.obj.1).kind z) = placed [] p.graph.inputs (objGVK δ.obj.1).kind z := by
      rw [evalInputs_row hn, hg, placed, List.map_map]
      exact List.map_congr_left (fun s _ => by simp only [Function.comp, eq_comm])
    rw [callGraph, hω]
    unfold Graph.process
    rw [h2, hg, hzs, h3, hg]
  have err : ∀ z, (objGVK δ.obj.1).kind ∉ p.graph.inputs → p.graph.process ω.exec (evalInputs p.sources (objGVK δ.obj.1).kind z) = (p.graph, .error "wrong number of inputs") := by
    intro z hk
    have hl : (evalInputs p.sources (objGVK δ.obj.1).kind z).length = p.graph.inputs.length + 1 := by
      rw [evalInputs, foldl_set_fresh _ _ _ _ (by simpa using hn), List.nil_append, set_length_new, hg]
      · simp
      · rw [List.map_map]; exact hg ▸ hk
    unfold Graph.process
    rw [collectInputs, if_pos (by omega)]
  rw [feed, Pipe.evaluate]
  have hO : (jsonOps.gvk δ.obj).kind = (objGVK δ.obj.1).kind := rfl
  rw [hO]
  cases convertDelta jsonOps p.src δ with
  | error e => rfl
  | ok x =>
    obtain ⟨C, Z⟩ := x
    dsimp only
    by_cases hk : (objGVK δ.obj.1).kind ∈ p.graph.inputs
    · rw [if_pos hk, key Z hk]
      rcases callGraph p.graph (placed [] p.graph.inputs (objGVK δ.obj.1).kind Z) with ⟨g', r⟩
      cases r with
      | error e => rfl
      | ok z =>
        dsimp only
        rw [emits]
        cases convertZSet jsonOps p.target (ω.list z) with
        | error e => rfl
        | ok ds =>
          dsimp only
          cases reconcile jsonOps ω.recon p.tgt ds with
          | error e => rfl
          | ok y => rfl
    · rw [if_neg hk, err Z hk]

/-- C123: the sequences above are those of `Evaluate` on values (`Verif/Pipeline/Eval.lean`), in a pipeline made by `New` from sources of different kinds: after a call its source
cache and its graph are what feeding it the delta makes of them, and it fails if feeding it the delta fails. (`New` sets `sources` and the inputs of the graph.) -/
theorem C123_evaluate {p : Pipe CDoc J} (hn : (p.sources.map GVK.kind).Nodup) (hg : p.graph.inputs = p.sources.map GVK.kind) (ω : EvalOrder CDoc) (hω : ω.exec = fun _ z => z) (δ : Delta CDoc) :
    ((p.evaluate jsonOps ω δ).1.src, (p.evaluate jsonOps ω δ).1.graph) = (feed (p.src, p.graph) δ).1 ∧
      ∀ ws, (p.evaluate jsonOps ω δ).2 = .ok ws → ∃ z, (feed (p.src, p.graph) δ).2 = .ok z ∧ emits ω p.target p.tgt z = .ok ((p.evaluate jsonOps ω δ).1.tgt, ws) := by
  rw [evaluate_feed hn hg ω hω δ]
  rcases feed (p.src, p.graph) δ with ⟨x, r⟩
  cases r with
  | error e => exact ⟨rfl, fun ws h => by cases h⟩
  | ok z =>
    dsimp only
    cases hz : emits ω p.target p.tgt z with
    | error e => exact ⟨rfl, fun ws h => by cases h⟩
    | ok y => exact ⟨rfl, fun ws h => by cases h; exact ⟨z, rfl, hz⟩⟩

/-- The hypotheses hold for what `New` returns. -/
example {target : GVK} {sources : List GVK} {cfg : List (PipeOp CDoc J)} {p : Pipe CDoc J} (hp : Pipe.new target sources cfg = .ok p) (hn : (sources.map GVK.kind).Nodup) :
    (p.sources.map GVK.kind).Nodup ∧ p.graph.inputs = p.sources.map GVK.kind := by
  rw [Pipe.new] at hp
  split at hp
  · cases hp
  · rename_i g hg
    cases hp
    exact ⟨hn, (newPipeline_inputs hg).2 hn⟩

/-! ### examples -/

/-- Documents with their content as key. -/
def cdocs : Cfg CDoc Json := ⟨fun j => match j with | .map m => if h : (Json.map m).Canon then ⟨m, h⟩ else ⟨[], by decide⟩ | _ => ⟨[], by decide⟩, id, fun i j => .list [.int i, j]⟩

theorem cdocs_key (d : CDoc) : cdocs.key (.map d.1) = d := by
  simp only [cdocs, dif_pos d.2]

/-- The hypotheses on the pipeline: a new pipeline with one source, in any memory. Its graph keeps what it is given. -/
theorem new_pipe (h : Heap) : PipeIs cdocs h (fun _ => []) ⟨none, [.integ []]⟩ (fun _ => []) ⟨["V"], none, [{ op := .integ [] }]⟩ := by
  refine ⟨fun _ => .nil, fun g q hq => absurd hq (by simp), ⟨by decide, trivial, .cons (.integ .nil) .nil, ?_⟩, ?_⟩
  · simp only [HGraph.kept, Option.elim, List.map_cons, List.map_nil, HOp.kept, List.pairwise_cons, List.mem_singleton, forall_eq, List.not_mem_nil, false_imp_iff,
      implies_true, List.Pairwise.nil, and_true]
    rintro b ⟨z, hz, _⟩; cases hz
  · rintro b ⟨g, p, hp, _⟩; cases hp

/-- Nothing is held by it. -/
theorem new_pipe_holds (h : Heap) (b : Nat) : ¬ PipeHolds h (fun _ => []) (⟨none, [.integ []]⟩ : HGraph CDoc) b := by
  rintro (⟨g, p, hp, _⟩ | ⟨z, hz, e, he, _⟩)
  · cases hp
  · have : z = [] := by simpa [HGraph.kept, HOp.kept] using hz
    subst this; cases he

/-- Two versions of an object. -/
def demoDoc1 : CDoc := ⟨demoObj 1, by decide +kernel⟩

/-- The second version. -/
def demoDoc7 : CDoc := ⟨demoObj 7, by decide +kernel⟩

/-- The memory of the caller: the object and its metadata. -/
def demoHeap : Heap := [.map [("name", .str "b"), ("namespace", .str "a")], demoCell 1 0]

/-- A caller feeds an object, then changes the same object in place and feeds it again: the second time the first version is retracted, although the
object given first does not exist any more. -/
example : ∃ Rs, Feeds cdocs ["V"] [] (fun _ => []) ⟨none, [.integ []]⟩ [⟨.added, demoDoc1⟩, ⟨.updated, demoDoc7⟩] Rs ∧
    Rs.map Except.toOption = [some [(demoDoc1, 1)], some [(demoDoc7, 1)]] := by
  have hp := new_pipe []
  obtain ⟨h2, src', g', r, q1, q2, q3, q4, q5, -⟩ := C123_step_partial cdocs_key (h1 := demoHeap) hp (fun b hb => absurd hb (new_pipe_holds _ b)) .added (a := 1)
    (o := demoDoc1) ⟨3, by decide +kernel⟩ (by show copyObj _ = _; decide +kernel)
  have hlen : 2 ≤ h2.length := q2.1
  have hown : ∀ b, PipeHolds h2 src' g' b → (h2.set 1 (demoCell 7 0))[b]? = h2[b]? := fun b hb => by
    rcases q5 b hb with h3 | h3
    · exact absurd h3 (new_pipe_holds _ b)
    · have h3 : 2 ≤ b := h3
      exact set_other (by omega)
  have h0 : (h2.set 1 (demoCell 7 0))[0]? = some (.map [("name", .str "b"), ("namespace", .str "a")]) := by
    rw [set_other (by decide), q2.get (by decide)]; rfl
  have h1 : (h2.set 1 (demoCell 7 0))[1]? = some (demoCell 7 0) := List.getElem?_set_self (by omega)
  have hobj : ObjAt (h2.set 1 (demoCell 7 0)) 1 demoDoc7.1 := by
    refine ⟨3, ?_⟩
    have hmeta : Mem.read 2 (h2.set 1 (demoCell 7 0)) (.ref 0) = some (.map [("name", .str "b"), ("namespace", .str "a")]) := by rw [read_map h0]; rfl
    generalize h2.set 1 (demoCell 7 0) = h3 at h0 h1 hmeta ⊢
    rw [demoCell] at h1
    rw [read_map h1]
    simp only [readFields, hmeta]
    rfl
  obtain ⟨h4, src2, g2, r2, p1, -, -, p4, -⟩ := C123_step_partial cdocs_key q3 hown .updated hobj (by show copyObj _ = _; decide +kernel)
  have hi : (feed ((fun _ => []), (⟨["V"], none, [{ op := .integ [] }]⟩ : Graph CDoc Json)) ⟨.added, demoDoc1⟩).1.2.inputs = ["V"] := feed_inputs _ _
  rw [hi] at p1
  have hF : Feeds cdocs ["V"] [] (fun _ => []) ⟨none, [.integ []]⟩ [⟨.added, demoDoc1⟩, ⟨.updated, demoDoc7⟩] [_, _] :=
    .cons (fun b hb => absurd hb (new_pipe_holds _ b)) ⟨3, by decide +kernel⟩ (by show copyObj _ = _; decide +kernel) q1 q4
      (.cons hown hobj (by show copyObj _ = _; decide +kernel) p1 p4 .nil)
  exact ⟨_, hF, rfl⟩

end Mem
end Dctl
