import Verif.Pipeline.AdaptorLemmas
import Verif.Pipeline.ReconLemmas
import Verif.Dbsp.SnapLemmas
/-! Helper lemmas about runs of a pipeline: the invariant connecting events, executor and target. -/
set_option autoImplicit false
set_option linter.unusedSectionVars false
namespace Dctl
variable {D J : Type} [DecidableEq D] [DecidableEq J]
open ZSet

theorem lookup_eq_get {V : Type} (m : List (String × V)) (n : String) : m.lookup n = AMap.get m n := by
  induction m with
  | nil => rfl
  | cons p t ih =>
    obtain ⟨k, v⟩ := p
    by_cases h : k = n
    · subst h; simp [List.lookup_cons, AMap.get]
    · have : ¬ n = k := fun e => h e.symm
      have hb : (n == k) = false := by simp [this]
      simp [List.lookup_cons, AMap.get, h, hb, ih]

theorem set_fresh {K V : Type} [DecidableEq K] {m : AMap K V} {k : K} (v : V) (h : k ∉ m.map Prod.fst) :
    AMap.set m k v = m ++ [(k, v)] := by
  induction m with
  | nil => rfl
  | cons p t ih =>
    obtain ⟨k', v'⟩ := p
    simp only [List.map_cons, List.mem_cons, not_or] at h
    have : ¬ k' = k := fun e => h.1 e.symm
    simp [AMap.set, this, ih h.2]

theorem foldl_set_fresh {A K V : Type} [DecidableEq K] (f : A → K) (v : A → V) (l : List A) (m : AMap K V)
    (h : (m.map Prod.fst ++ l.map f).Nodup) :
    l.foldl (fun m s => AMap.set m (f s) (v s)) m = m ++ l.map (fun s => (f s, v s)) := by
  induction l generalizing m with
  | nil => simp
  | cons a t ih =>
    have h1 : f a ∉ m.map Prod.fst := by
      intro hm
      rw [List.map_cons, List.nodup_append] at h
      exact h.2.2 _ hm _ (by simp) rfl
    rw [List.foldl_cons, set_fresh _ h1, ih]
    · simp
    · simpa using h

theorem get_map_pair {A V : Type} (f : A → String) (v : A → V) {l : List A} (h : (l.map f).Nodup) {a : A} (ha : a ∈ l) :
    AMap.get (l.map (fun s => (f s, v s))) (f a) = some (v a) := by
  refine AMap.get_of_mem ?_ (List.mem_map.mpr ⟨a, ha, rfl⟩)
  unfold AMap.WF
  rw [List.map_map]
  exact h

theorem nodup_map_inj {A B : Type} {f : A → B} {l : List A} (h : (l.map f).Nodup) {a b : A} (ha : a ∈ l) (hb : b ∈ l)
    (e : f a = f b) : a = b := by
  induction l with
  | nil => simp at ha
  | cons x t ih =>
    simp only [List.map_cons, List.nodup_cons] at h
    rcases List.mem_cons.mp ha with ha | ha <;> rcases List.mem_cons.mp hb with hb | hb
    · rw [ha, hb]
    · exact absurd (List.mem_map.mpr ⟨b, hb, by rw [← e, ha]⟩) h.1
    · exact absurd (List.mem_map.mpr ⟨a, ha, by rw [e, hb]⟩) h.1
    · exact ih h.2 ha hb

theorem set_length {K V : Type} [DecidableEq K] {m : AMap K V} {k : K} (v : V) (h : k ∈ m.map Prod.fst) :
    (AMap.set m k v).length = m.length := by
  induction m with
  | nil => simp at h
  | cons p t ih =>
    obtain ⟨k', v'⟩ := p
    by_cases hk : k' = k
    · simp [AMap.set, hk]
    · have : k ∈ t.map Prod.fst := by
        rcases List.mem_cons.mp h with e | h
        · exact absurd e.symm hk
        · exact h
      simp [AMap.set, hk, ih this]

/-- The inputs of one evaluation, by source. -/
theorem evalInputs_row {sources : List GVK} (hn : (sources.map GVK.kind).Nodup) (kind : String) (z : ZSet D) :
    inputRow (sources.map GVK.kind) (evalInputs sources kind z) = sources.map (fun s => if kind = s.kind then z else []) := by
  unfold inputRow
  rw [List.map_map]
  refine List.map_congr_left ?_
  intro s hs
  simp only [Function.comp, lookup_eq_get, evalInputs]
  rw [AMap.get_set]
  by_cases hk : kind = s.kind
  · simp [hk]
  · rw [if_neg hk, if_neg hk, foldl_set_fresh _ _ _ _ (by simpa using hn)]
    rw [List.nil_append, get_map_pair GVK.kind (fun _ => ([] : ZSet D)) hn hs]; rfl

theorem evalInputs_exact {sources : List GVK} (hn : (sources.map GVK.kind).Nodup) {kind : String}
    (hk : kind ∈ sources.map GVK.kind) (z : ZSet D) : ExactInputs (sources.map GVK.kind) (evalInputs sources kind z) := by
  unfold ExactInputs evalInputs
  rw [foldl_set_fresh _ _ _ _ (by simpa using hn), List.nil_append]
  refine ⟨?_, ?_⟩
  · rw [set_length]
    · simp
    · rw [List.map_map]; exact hk
  · intro n hnm
    rw [lookup_eq_get, AMap.get_set]
    by_cases h : kind = n
    · exact ⟨z, by simp [h]⟩
    · rw [if_neg h]
      obtain ⟨s, hs, rfl⟩ := List.mem_map.mp hnm
      exact ⟨_, get_map_pair GVK.kind (fun _ => ([] : ZSet D)) hn hs⟩

theorem set_mem {K V : Type} [DecidableEq K] {m : AMap K V} {k : K} {v : V} {p : K × V} (h : p ∈ AMap.set m k v) :
    p = (k, v) ∨ p ∈ m := by
  induction m with
  | nil => simp [AMap.set] at h; exact Or.inl h
  | cons q t ih =>
    obtain ⟨k', v'⟩ := q
    by_cases hk : k' = k
    · simp only [AMap.set, hk, if_true] at h
      rcases List.mem_cons.mp h with h | h
      · exact Or.inl h
      · exact Or.inr (List.mem_cons_of_mem _ h)
    · simp only [AMap.set, hk, if_false] at h
      rcases List.mem_cons.mp h with h | h
      · exact Or.inr (by rw [h]; simp)
      · rcases ih h with h | h
        · exact Or.inl h
        · exact Or.inr (List.mem_cons_of_mem _ h)

theorem foldl_set_mem {A K V : Type} [DecidableEq K] {f : A → K} {v : A → V} {l : List A} {m : AMap K V} {p : K × V}
    (h : p ∈ l.foldl (fun m s => AMap.set m (f s) (v s)) m) : p ∈ m ∨ ∃ a ∈ l, p = (f a, v a) := by
  induction l generalizing m with
  | nil => exact Or.inl h
  | cons a t ih =>
    rcases ih h with h | ⟨b, hb, e⟩
    · rcases set_mem h with h | h
      · exact Or.inr ⟨a, by simp, h⟩
      · exact Or.inl h
    · exact Or.inr ⟨b, List.mem_cons_of_mem _ hb, e⟩

theorem evalInputs_wf {sources : List GVK} {kind : String} {z : ZSet D} (hz : WF z) :
    ∀ p ∈ evalInputs sources kind z, WF p.2 := by
  intro p hp
  rcases set_mem hp with rfl | hp
  · exact hz
  · rcases foldl_set_mem hp with h | ⟨a, _, rfl⟩
    · simp at h
    · exact WF.nil

/-! ### stores as Z-sets -/

/-- Entries are stored under their own key. -/
def Keyed (O : ObjOps D) (s : Store D) : Prop := AMap.WF s ∧ ∀ k d, s.get k = some d → O.key d = k

theorem Keyed.perm {O : ObjOps D} {s s' : Store D} (h : Keyed O s) (hp : s'.Perm s) : Keyed O s' :=
  ⟨h.1.perm hp.symm, fun k d hd => h.2 k d (by rw [AMap.get_perm h.1 hp.symm]; exact hd)⟩

/-- Multiplicity of a document in a store. -/
def storeInd (O : ObjOps D) (s : Store D) (d : D) : Int :=
  match s.get (O.key d) with
  | some y => if O.removeUID y = d then 1 else 0
  | none => 0

theorem storeZSet_wf (O : ObjOps D) (s : Store D) : WF (storeZSet O s) := by
  unfold storeZSet
  have : ∀ (s : Store D) (z : ZSet D), WF z → WF (s.foldl (fun z e => ZSet.addDoc z (O.removeUID e.2) 1) z) := by
    intro s
    induction s with
    | nil => intro z h; exact h
    | cons e t ih => intro z h; exact ih _ (h.addDoc _ _)
  exact this s [] WF.nil

theorem storeZSet_get {O : ObjOps D} (L : O.Lawful) {s : Store D} (h : Keyed O s) (d : D) :
    get (storeZSet O s) d = storeInd O s d := by
  have gen : ∀ (s : Store D) (z : ZSet D), WF z → Keyed O s →
      get (s.foldl (fun z e => ZSet.addDoc z (O.removeUID e.2) 1) z) d = get z d + storeInd O s d := by
    intro s
    induction s with
    | nil => intro z _ _; simp [storeInd, AMap.get]
    | cons e t ih =>
      intro z hz hk
      obtain ⟨k, y⟩ := e
      have hwf := hk.1
      simp only [AMap.WF, List.map_cons, List.nodup_cons] at hwf
      have hky : O.key y = k := hk.2 k y (by simp [AMap.get])
      have hkt : Keyed O t := by
        refine ⟨hwf.2, fun k' d' hd' => hk.2 k' d' ?_⟩
        have hne : ¬ k = k' := by
          rintro rfl
          exact hwf.1 (List.mem_map.mpr ⟨_, AMap.mem_of_get hd', rfl⟩)
        simp [AMap.get, hne, hd']
      rw [List.foldl_cons, ih _ (hz.addDoc _ _) hkt, get_addDoc hz]
      unfold storeInd
      by_cases hkd : k = O.key d
      · have hn : AMap.get t (O.key d) = none := by
          rw [AMap.get_none_iff, ← hkd]; exact hwf.1
        simp only [AMap.get, hkd, if_true, hn]
        omega
      · have hne : ¬ O.removeUID y = d := by
          rintro rfl
          rw [L.key_uid, hky] at hkd; exact hkd rfl
        simp only [AMap.get, hkd, if_false, hne]
        omega
  have := gen s [] WF.nil h
  simpa [storeZSet] using this

theorem SrcInv.keyed {O : ObjOps D} {c : SrcCache D} (h : SrcInv O c) (g : GVK) : Keyed O (c g) :=
  ⟨(h g).1, fun k d hd => ((h g).2 k d hd).1⟩

theorem storeInd_src {O : ObjOps D} {c : SrcCache D} (h : SrcInv O c) (g : GVK) (d : D) :
    storeInd O (c g) d = if O.gvk d = g then liveInd O c d else 0 := by
  unfold storeInd liveInd
  cases hg : (c g).get (O.key d) with
  | none =>
    by_cases hd : O.gvk d = g
    · simp [hd, hg]
    · simp [hd]
  | some y =>
    obtain ⟨h1, h2, h3⟩ := (h g).2 _ _ hg
    by_cases hd : O.gvk d = g
    · simp only [h3, hd, if_true, hg, Option.some.injEq]
    · have : ¬ y = d := by rintro rfl; exact hd h2
      simp [h3, hd, this]

theorem liveSet_store {O : ObjOps D} (L : O.Lawful) {c : SrcCache D} (h : SrcInv O c) {hist : List (Delta D)}
    (ht : Tracks O c hist) (g : GVK) : LiveSet O hist g (storeZSet O (c g)) := by
  refine ⟨storeZSet_wf O _, fun d => ?_⟩
  rw [storeZSet_get L (h.keyed g), storeInd_src h]
  unfold liveInd
  refine ⟨fun hd => ?_, fun hd => ?_⟩
  · rw [if_pos hd.1, if_pos]
    rw [ht]; rw [hd.1]; exact hd.2
  · by_cases hg : O.gvk d = g
    · rw [if_pos hg, if_neg]
      intro hc
      exact hd ⟨hg, by rw [ht] at hc; rw [hg] at hc; exact hc⟩
    · rw [if_neg hg]

theorem liveSet_eqv {O : ObjOps D} {hist hist' : List (Delta D)} {g : GVK} {z w : ZSet D}
    (hsame : ∀ k d, LiveAs O hist g k d ↔ LiveAs O hist' g k d) (hz : LiveSet O hist g z) (hw : LiveSet O hist' g w) : Eqv z w := by
  intro d
  by_cases h : O.gvk d = g ∧ LiveAs O hist g (O.key d) d
  · rw [(hz.2 d).1 h, (hw.2 d).1 ⟨h.1, (hsame _ _).mp h.2⟩]
  · rw [(hz.2 d).2 h, (hw.2 d).2 (fun h' => h ⟨h'.1, (hsame _ _).mpr h'.2⟩)]

theorem eqvL_of_getElem {zs ws : List (ZSet D)} (hl : zs.length = ws.length)
    (h : ∀ (i : Nat) z w, zs[i]? = some z → ws[i]? = some w → WF z ∧ WF w ∧ Eqv z w) : EqvL zs ws := by
  induction zs generalizing ws with
  | nil =>
    cases ws with
    | nil => exact .nil
    | cons _ _ => simp at hl
  | cons z t ih =>
    cases ws with
    | nil => simp at hl
    | cons w ws =>
      obtain ⟨a, b, c⟩ := h 0 z w rfl rfl
      exact .cons a b c (ih (by simpa using hl) (fun i z w h1 h2 => h (i + 1) z w (by simpa using h1) (by simpa using h2)))

theorem liveInputs_eqvL {O : ObjOps D} {hist hist' : List (Delta D)} {sources : List GVK} {ins ins' : List (ZSet D)}
    (hsame : ∀ g ∈ sources, ∀ k d, LiveAs O hist g k d ↔ LiveAs O hist' g k d)
    (h : LiveInputs O hist sources ins) (h' : LiveInputs O hist' sources ins') : EqvL ins ins' := by
  refine eqvL_of_getElem (h.1.trans h'.1.symm) ?_
  intro i z w hz hw
  have hi : i < sources.length := by rw [← h.1]; exact (List.getElem?_eq_some_iff.mp hz).1
  obtain ⟨z1, e1, l1⟩ := h.2 i sources[i] (List.getElem?_eq_getElem hi)
  obtain ⟨w1, e2, l2⟩ := h'.2 i sources[i] (List.getElem?_eq_getElem hi)
  rw [hz] at e1; rw [hw] at e2
  simp only [Option.some.injEq] at e1 e2
  subst e1 e2
  exact ⟨l1.1, l2.1, liveSet_eqv (hsame _ (List.getElem_mem hi)) l1 l2⟩

theorem liveInputs_stores {O : ObjOps D} (L : O.Lawful) {c : SrcCache D} (h : SrcInv O c) {hist : List (Delta D)}
    (ht : Tracks O c hist) (sources : List GVK) : LiveInputs O hist sources (sources.map (fun s => storeZSet O (c s))) := by
  refine ⟨by simp, fun i s hs => ⟨storeZSet O (c s), by simp [hs], liveSet_store L h ht s⟩⟩

theorem liveInputs_nonneg {O : ObjOps D} {hist : List (Delta D)} {sources : List GVK} {ins : List (ZSet D)}
    (h : LiveInputs O hist sources ins) : ∀ z ∈ ins, NonNeg z := by
  intro z hz d
  obtain ⟨i, hi, rfl⟩ := List.mem_iff_getElem.mp hz
  have hi' : i < sources.length := by rw [← h.1]; exact hi
  obtain ⟨z1, e1, l1⟩ := h.2 i sources[i] (List.getElem?_eq_getElem hi')
  rw [List.getElem?_eq_getElem hi] at e1
  simp only [Option.some.injEq] at e1
  rw [e1]
  by_cases hd : O.gvk d = sources[i] ∧ LiveAs O hist sources[i] (O.key d) d
  · rw [(l1.2 d).1 hd]; decide
  · rw [(l1.2 d).2 hd]; decide

theorem liveInputs_wf {O : ObjOps D} {hist : List (Delta D)} {sources : List GVK} {ins : List (ZSet D)}
    (h : LiveInputs O hist sources ins) : ∀ z ∈ ins, WF z := by
  intro z hz
  obtain ⟨i, hi, rfl⟩ := List.mem_iff_getElem.mp hz
  have hi' : i < sources.length := by rw [← h.1]; exact hi
  obtain ⟨z1, e1, l1⟩ := h.2 i sources[i] (List.getElem?_eq_getElem hi')
  rw [List.getElem?_eq_getElem hi] at e1
  simp only [Option.some.injEq] at e1
  rw [e1]; exact l1.1

/-! ### the invariant -/

/-- Executor part of the invariant: `ins` are the accumulated inputs, `o` the accumulated output, sources are tracked. -/
structure RunInv (O : ObjOps D) (sources : List GVK) (target : GVK) (cfg : List (PipeOp D J)) (hist : List (Delta D))
    (p : Pipe D J) (o : ZSet D) : Prop where
  srcs : p.sources = sources
  tgtk : p.target = target
  inputs : p.graph.inputs = sources.map GVK.kind
  inv : SrcInv O p.src
  tracks : Tracks O p.src hist
  graph : ∃ ins, GraphInv cfg p.graph ins o ∧ EqvL ins (sources.map (fun s => storeZSet O (p.src s)))
  twf : AMap.WF p.tgt

theorem pipe_new_ok {target : GVK} {sources : List GVK} {cfg : List (PipeOp D J)} {p : Pipe D J}
    (h : Pipe.new target sources cfg = .ok p) :
    ∃ g, newPipeline (sources.map GVK.kind) cfg = .ok g ∧ p = { sources := sources, target := target, graph := g } := by
  unfold Pipe.new at h
  split at h
  · simp at h
  · rename_i g hg
    simp only [Except.ok.injEq] at h
    exact ⟨g, hg, h.symm⟩

theorem runInv_new {O : ObjOps D} {target : GVK} {sources : List GVK} {cfg : List (PipeOp D J)} {p : Pipe D J}
    (hn : (sources.map GVK.kind).Nodup) (h : Pipe.new target sources cfg = .ok p) : RunInv O sources target cfg [] p [] := by
  obtain ⟨g, hg, rfl⟩ := pipe_new_ok h
  have hin := (newPipeline_inputs hg).2 hn
  refine ⟨rfl, rfl, hin, srcInv_empty O, tracks_empty O, ⟨_, newPipeline_inv hg, ?_⟩, by simp [AMap.WF]⟩
  rw [hin]
  have : sources.map (fun s => storeZSet O ((fun _ => []) s)) = List.replicate sources.length [] := by
    simp only [storeZSet, List.foldl_nil]
    rw [List.map_const']
  simp only [List.length_map]
  rw [this]
  exact EqvL.refl (by intro z hz; rw [List.mem_replicate] at hz; rw [hz.2]; exact WF.nil)

theorem zipAdd_map {A : Type} {F G H : A → ZSet D} {l : List A}
    (h : ∀ a ∈ l, WF (F a) ∧ WF (G a) ∧ WF (H a) ∧ ∀ d, get (F a) d + get (G a) d = get (H a) d) :
    EqvL (List.zipWith ZSet.add (l.map F) (l.map G)) (l.map H) := by
  induction l with
  | nil => exact .nil
  | cons a t ih =>
    obtain ⟨h1, h2, h3, h4⟩ := h a (by simp)
    refine .cons (h1.add _) h3 ?_ (ih (fun b hb => h b (List.mem_cons_of_mem _ hb)))
    intro d
    rw [get_add h1 h2]; exact h4 d

/-- What an evaluation that returns successfully did. -/
theorem evaluate_ok {O : ObjOps D} {ω : EvalOrder D} {p p' : Pipe D J} {δ : Delta D} {ws : List (Delta D)}
    (h : p.evaluate O ω δ = (p', .ok ws)) :
    ∃ src' z g' r ds tgt', convertDelta O p.src δ = .ok (src', z) ∧
      p.graph.process ω.exec (evalInputs p.sources (O.gvk δ.obj).kind z) = (g', .ok r) ∧
      convertZSet O p.target (ω.list r) = .ok ds ∧ reconcile O ω.recon p.tgt ds = .ok (tgt', ws) ∧
      p' = { p with src := src', graph := g', tgt := tgt' } := by
  unfold Pipe.evaluate at h
  split at h
  · simp at h
  · rename_i src' z hc
    split at h
    · simp at h
    · rename_i g' r hp
      split at h
      · simp at h
      · rename_i ds hd
        split at h
        · simp at h
        · rename_i tgt' ws' hr
          simp only [Prod.mk.injEq, Except.ok.injEq] at h
          obtain ⟨h1, h2⟩ := h
          subst h2
          exact ⟨src', z, g', r, ds, tgt', hc, hp, hd, hr, h1.symm⟩

theorem RunInv.step_core {O : ObjOps D} (L : O.Lawful) {sources : List GVK} {target : GVK} {cfg : List (PipeOp D J)}
    {hist : List (Delta D)} {p : Pipe D J} {o r z : ZSet D} {src' : SrcCache D} {g' : Graph D J} (hn : (sources.map GVK.kind).Nodup)
    (h : RunInv O sources target cfg hist p o) {ω : EvalOrder D} (hω : ω.Valid) {δ : Delta D} (hs : O.gvk δ.obj ∈ sources)
    (he : EventOk O p.src δ) (h1 : convertDelta O p.src δ = .ok (src', z))
    (h2 : p.graph.process ω.exec (evalInputs p.sources (O.gvk δ.obj).kind z) = (g', .ok r)) :
    RunInv O sources target cfg (hist ++ [δ]) ({ p with src := src', graph := g' } : Pipe D J) (o.add r) ∧ WF r := by
  have hsrc : src' = srcAfter O p.src δ := by unfold srcAfter; rw [h1]
  have hzw := convertDelta_wf h.inv h1
  obtain ⟨ins, hg, hins⟩ := h.graph
  rw [h.srcs] at h2
  obtain ⟨k1, k2, k3⟩ := hg.step hω.exec (evalInputs_wf hzw) h2
  have hi' : SrcInv O src' := by rw [hsrc]; exact srcAfter_inv L h.inv δ
  refine ⟨⟨h.srcs, h.tgtk, k2.trans h.inputs, hi', ?_, ⟨_, k3, ?_⟩, h.twf⟩, k1⟩
  · show Tracks O src' _
    rw [hsrc]; exact srcAfter_tracks h.inv h.tracks δ
  · rw [h.inputs, evalInputs_row hn]
    refine EqvL.trans (hins.zipAdd (EqvL.refl ?_)) (zipAdd_map ?_)
    · intro w hw
      obtain ⟨s, _, rfl⟩ := List.mem_map.mp hw
      split
      · exact hzw
      · exact WF.nil
    · intro s hs'
      have hkey : (O.gvk δ.obj).kind = s.kind ↔ O.gvk δ.obj = s := by
        constructor
        · intro e; exact nodup_map_inj hn hs hs' e
        · intro e; rw [e]
      refine ⟨storeZSet_wf O _, by split; exact hzw; exact WF.nil, storeZSet_wf O _, fun d => ?_⟩
      show _ = get (storeZSet O (src' s)) d
      rw [storeZSet_get L (h.inv.keyed s), storeZSet_get L (hi'.keyed s), storeInd_src h.inv, storeInd_src hi']
      have hind := convertDelta_ind L h.inv he h1 d
      have hgv := convertDelta_gvk L h.inv h1 d
      by_cases hd : O.gvk d = s
      · rw [if_pos hd, if_pos hd]
        by_cases hk : O.gvk δ.obj = s
        · rw [if_pos (hkey.mpr hk)]; omega
        · rw [if_neg (fun e => hk (hkey.mp e))]
          have : get z d = 0 := by
            by_cases h0 : get z d = 0
            · exact h0
            · exact absurd (hgv h0) (fun e => hk (by rw [← e, hd]))
          simp; omega
      · rw [if_neg hd, if_neg hd]
        by_cases hk : O.gvk δ.obj = s
        · rw [if_pos (hkey.mpr hk)]
          by_cases h0 : get z d = 0
          · omega
          · exact absurd (hgv h0) (fun e => hd (by rw [e, hk]))
        · rw [if_neg (fun e => hk (hkey.mp e))]; simp

theorem RunInv.step {O : ObjOps D} (L : O.Lawful) {sources : List GVK} {target : GVK} {cfg : List (PipeOp D J)}
    {hist : List (Delta D)} {p p' : Pipe D J} {o : ZSet D} (hn : (sources.map GVK.kind).Nodup)
    (h : RunInv O sources target cfg hist p o) {ω : EvalOrder D} (hω : ω.Valid) {δ : Delta D} (hs : O.gvk δ.obj ∈ sources)
    (he : EventOk O p.src δ) {ws : List (Delta D)} (hev : p.evaluate O ω δ = (p', .ok ws)) :
    ∃ r ds, WF r ∧ RunInv O sources target cfg (hist ++ [δ]) p' (o.add r) ∧
      convertZSet O target (ω.list r) = .ok ds ∧ reconcile O ω.recon p.tgt ds = .ok (p'.tgt, ws) := by
  obtain ⟨src', z, g', r, ds, tgt', h1, h2, h3, h4, rfl⟩ := evaluate_ok hev
  obtain ⟨k, kw⟩ := h.step_core L hn hω hs he h1 h2
  exact ⟨r, ds, kw, ⟨k.srcs, k.tgtk, k.inputs, k.inv, k.tracks, k.graph, ((reconcile_spec hω.recon h4).2.2.2.1 h.twf).1⟩,
    by rw [← h.tgtk]; exact h3, h4⟩

theorem RunInv.spec {O : ObjOps D} (L : O.Lawful) {sources : List GVK} {target : GVK} {cfg : List (PipeOp D J)}
    {hist : List (Delta D)} {p : Pipe D J} {o : ZSet D} (h : RunInv O sources target cfg hist p o) {ins : List (ZSet D)}
    (hi : LiveInputs O hist sources ins) : PipelineSpec cfg ins o := by
  obtain ⟨ins', hg, hins⟩ := h.graph
  have he := hins.trans (liveInputs_eqvL (fun g _ k d => Iff.rfl) (liveInputs_stores L h.inv h.tracks sources) hi)
  exact (hg.means he (Eqv.refl o)).spec (liveInputs_wf hi) hg.wf_out (Or.inl (liveInputs_nonneg hi))

theorem RunInv.wf_out {O : ObjOps D} {sources : List GVK} {target : GVK} {cfg : List (PipeOp D J)}
    {hist : List (Delta D)} {p : Pipe D J} {o : ZSet D} (h : RunInv O sources target cfg hist p o) : WF o := by
  obtain ⟨ins', hg, hins⟩ := h.graph
  exact hg.wf_out

theorem watchOk_snoc {O : ObjOps D} {hist : List (Delta D)} {δ : Delta D} (h : WatchOk O (hist ++ [δ])) :
    WatchOk O hist ∧ ∀ c, Tracks O c hist → EventOk O c δ := by
  refine ⟨?_, ?_⟩
  · intro pre ε post e
    exact h pre ε (post ++ [δ]) (by rw [e]; simp)
  · intro c hc
    obtain ⟨h1, h2, h3⟩ := h hist δ [] rfl
    refine ⟨fun ht => ?_, fun ht => ?_, h3⟩
    · cases hg : (c (O.gvk δ.obj)).get (O.key δ.obj) with
      | none => rfl
      | some d => exact absurd ((hc _ _ _).mp hg) (h1 ht d)
    · exact (hc _ _ _).mpr (h2 ht)

end Dctl
