import Verif.Spec.Live
import Verif.Dbsp.ZSetLemmas
import Verif.Pipeline.Eval
/-! Helper lemmas about the source side of the adaptor. -/
set_option autoImplicit false
set_option linter.unusedSectionVars false
namespace Dctl
variable {D J : Type} [DecidableEq D] [DecidableEq J]
open ZSet

theorem runs_snoc {S I R : Type} (f : S → I → S × R) (s : S) (h : List I) (e : I) :
    runs f s (h ++ [e]) = ((f (runs f s h).1 e).1, (runs f s h).2 ++ [(f (runs f s h).1 e).2]) := by
  induction h generalizing s with
  | nil => simp [runs]
  | cons a t ih => simp only [List.cons_append, runs, ih]

theorem liveAs_nil {O : ObjOps D} {g : GVK} {k : ObjKey} {d : D} : ¬ LiveAs O [] g k d := by
  rintro ⟨pre, δ, post, h, _⟩; simp at h

theorem snoc_split {α : Type} {h pre post : List α} {a b : α} (e : h ++ [a] = pre ++ b :: post) :
    (post = [] ∧ h = pre ∧ a = b) ∨ ∃ post', post = post' ++ [a] ∧ h = pre ++ b :: post' := by
  rcases List.eq_nil_or_concat post with rfl | ⟨p', x, rfl⟩
  · left
    have := List.append_inj' e (by simp)
    simp at this; exact ⟨rfl, this.1, this.2⟩
  · right
    rw [List.concat_eq_append] at e ⊢
    rw [show pre ++ b :: (p' ++ [x]) = (pre ++ b :: p') ++ [x] by simp] at e
    have := List.append_inj' e (by simp)
    simp at this
    exact ⟨p', by rw [this.2], this.1⟩

theorem liveAs_snoc_of {O : ObjOps D} {h : List (Delta D)} {δ : Delta D} {g : GVK} {k : ObjKey} {d : D}
    (hc : Concerns O g k δ) : LiveAs O (h ++ [δ]) g k d ↔ δ.type ≠ .deleted ∧ O.removeUID δ.obj = d := by
  constructor
  · rintro ⟨pre, ε, post, e, h1, h2, h3, h4⟩
    rcases snoc_split e with ⟨_, _, rfl⟩ | ⟨post', rfl, _⟩
    · exact ⟨h2, h3⟩
    · exact absurd hc (h4 δ (by simp))
  · rintro ⟨h1, h2⟩
    exact ⟨h, δ, [], rfl, hc, h1, h2, by simp⟩

theorem liveAs_snoc_not {O : ObjOps D} {h : List (Delta D)} {δ : Delta D} {g : GVK} {k : ObjKey} {d : D}
    (hc : ¬ Concerns O g k δ) : LiveAs O (h ++ [δ]) g k d ↔ LiveAs O h g k d := by
  constructor
  · rintro ⟨pre, ε, post, e, h1, h2, h3, h4⟩
    rcases snoc_split e with ⟨_, _, rfl⟩ | ⟨post', rfl, rfl⟩
    · exact absurd h1 hc
    · exact ⟨pre, ε, post', rfl, h1, h2, h3, fun x hx => h4 x (by simp [hx])⟩
  · rintro ⟨pre, ε, post, rfl, h1, h2, h3, h4⟩
    refine ⟨pre, ε, post ++ [δ], by simp, h1, h2, h3, ?_⟩
    intro x hx
    rcases List.mem_append.mp hx with hx | hx
    · exact h4 x hx
    · simp at hx; subst hx; exact hc

/-- Every cached object is filed under its own kind and key, without view UID. -/
def SrcInv (O : ObjOps D) (c : SrcCache D) : Prop :=
  ∀ g, AMap.WF (c g) ∧ ∀ k d, (c g).get k = some d → O.key d = k ∧ O.gvk d = g ∧ O.removeUID d = d

/-- The cache holds exactly the live objects. -/
def Tracks (O : ObjOps D) (c : SrcCache D) (hist : List (Delta D)) : Prop :=
  ∀ g k d, (c g).get k = some d ↔ LiveAs O hist g k d

theorem srcInv_empty (O : ObjOps D) : SrcInv O (fun _ => []) := by
  intro g; exact ⟨by simp [AMap.WF], by simp [AMap.get]⟩

theorem tracks_empty (O : ObjOps D) : Tracks O (fun _ => []) [] := by
  intro g k d
  simp only [AMap.get, reduceCtorEq, false_iff]
  exact liveAs_nil

theorem SrcInv.put_set {O : ObjOps D} {c : SrcCache D} (h : SrcInv O c) (L : O.Lawful) (x : D) :
    SrcInv O (c.put (O.gvk x) ((c (O.gvk x)).set (O.key x) (O.removeUID x))) := by
  intro g
  unfold SrcCache.put
  split
  · rename_i hg
    subst hg
    refine ⟨(h _).1.set _ _, fun k d hd => ?_⟩
    rw [AMap.get_set] at hd
    split at hd
    · rename_i hk
      simp only [Option.some.injEq] at hd
      subst hd hk
      exact ⟨L.key_uid x, L.gvk_uid x, L.uid_idem x⟩
    · exact (h _).2 k d hd
  · exact h g

theorem SrcInv.put_erase {O : ObjOps D} {c : SrcCache D} (h : SrcInv O c) (g : GVK) (k : ObjKey) :
    SrcInv O (c.put g ((c g).erase k)) := by
  intro g'
  unfold SrcCache.put
  split
  · rename_i hg
    subst hg
    refine ⟨(h _).1.erase _, fun k' d hd => ?_⟩
    rw [AMap.get_erase (h _).1] at hd
    split at hd
    · simp at hd
    · exact (h _).2 k' d hd
  · exact h g'

theorem get_put_set (c : SrcCache D) (g : GVK) (k : ObjKey) (d : D) (g' : GVK) (k' : ObjKey) :
    ((c.put g ((c g).set k d)) g').get k' = if g = g' ∧ k = k' then some d else (c g').get k' := by
  unfold SrcCache.put
  by_cases hg : g' = g
  · subst hg; simp [AMap.get_set]
  · have : ¬ g = g' := fun e => hg e.symm
    simp [hg, this]

theorem get_put_erase {O : ObjOps D} {c : SrcCache D} (h : SrcInv O c) (g : GVK) (k : ObjKey) (g' : GVK) (k' : ObjKey) :
    ((c.put g ((c g).erase k)) g').get k' = if g = g' ∧ k = k' then none else (c g').get k' := by
  unfold SrcCache.put
  by_cases hg : g' = g
  · subst hg; simp [AMap.get_erase (h _).1]
  · have : ¬ g = g' := fun e => hg e.symm
    simp [hg, this]

/-- The cache after one event, whatever the outcome. -/
def srcAfter (O : ObjOps D) (c : SrcCache D) (δ : Delta D) : SrcCache D :=
  match convertDelta O c δ with
  | .ok (c', _) => c'
  | .error _ => c

/-- What `convertDelta` does, by cases. -/
theorem convertDelta_cases {O : ObjOps D} (c : SrcCache D) (δ : Delta D) (hi : SrcInv O c) :
    let g := O.gvk δ.obj
    let k := O.key δ.obj
    let d := O.removeUID δ.obj
    (δ.type.isUpsert = true ∧ (c g).get k = some d ∧ convertDelta O c δ = .ok (c, [])) ∨
    (δ.type.isUpsert = true ∧ (c g).get k ≠ some d ∧
      convertDelta O c δ = .ok (c.put g ((c g).set k d), updateZSet ((c g).get k) d)) ∨
    (δ.type = .added ∧ convertDelta O c δ = .ok (c.put g ((c g).set k d), ZSet.addDoc [] d 1)) ∨
    (δ.type = .deleted ∧ (c g).get k = none ∧ ∃ e, convertDelta O c δ = .error e) ∨
    (δ.type = .deleted ∧ (∃ o, (c g).get k = some o) ∧
      convertDelta O c δ = .ok (c.put g ((c g).erase k), ZSet.addDoc [] d (-1))) ∨
    (δ.type = .sync ∧ ∃ e, convertDelta O c δ = .error e) := by
  intro g k d
  have hold : ((c g).get k).map O.removeUID = some d ↔ (c g).get k = some d := by
    cases ho : (c g).get k with
    | none => simp
    | some o =>
      have := ((hi g).2 k o ho).2.2
      simp [this]
  cases ht : δ.type with
  | added => right; right; left; simp [convertDelta, ht, DeltaType.isUpsert, g, k, d]
  | sync => right; right; right; right; right; simp [convertDelta, ht, DeltaType.isUpsert]
  | deleted =>
    cases ho : (c g).get k with
    | none =>
      right; right; right; left
      refine ⟨rfl, rfl, "delete for a nonexistent object", ?_⟩
      simp [convertDelta, ht, DeltaType.isUpsert]
      rw [show (c (O.gvk δ.obj)).get (O.key δ.obj) = none from ho]
    | some o =>
      right; right; right; right; left
      refine ⟨rfl, ⟨o, rfl⟩, ?_⟩
      simp [convertDelta, ht, DeltaType.isUpsert]
      rw [show (c (O.gvk δ.obj)).get (O.key δ.obj) = some o from ho]
  | updated =>
    by_cases hs : (c g).get k = some d
    · left; exact ⟨rfl, hs, by simp only [convertDelta, ht, DeltaType.isUpsert]; rw [if_pos ⟨trivial, hold.mpr hs⟩]⟩
    · right; left
      refine ⟨rfl, hs, ?_⟩
      simp only [convertDelta, ht, DeltaType.isUpsert]
      rw [if_neg (fun h => hs (hold.mp h.2))]
  | replaced =>
    by_cases hs : (c g).get k = some d
    · left; exact ⟨rfl, hs, by simp only [convertDelta, ht, DeltaType.isUpsert]; rw [if_pos ⟨trivial, hold.mpr hs⟩]⟩
    · right; left
      refine ⟨rfl, hs, ?_⟩
      simp only [convertDelta, ht, DeltaType.isUpsert]
      rw [if_neg (fun h => hs (hold.mp h.2))]
  | upserted =>
    by_cases hs : (c g).get k = some d
    · left; exact ⟨rfl, hs, by simp only [convertDelta, ht, DeltaType.isUpsert]; rw [if_pos ⟨trivial, hold.mpr hs⟩]⟩
    · right; left
      refine ⟨rfl, hs, ?_⟩
      simp only [convertDelta, ht, DeltaType.isUpsert]
      rw [if_neg (fun h => hs (hold.mp h.2))]

theorem srcAfter_inv {O : ObjOps D} (L : O.Lawful) {c : SrcCache D} (hi : SrcInv O c) (δ : Delta D) :
    SrcInv O (srcAfter O c δ) := by
  unfold srcAfter
  rcases convertDelta_cases c δ hi with ⟨_, _, h⟩ | ⟨_, _, h⟩ | ⟨_, h⟩ | ⟨_, _, e, h⟩ | ⟨_, _, h⟩ | ⟨_, e, h⟩ <;> rw [h]
  · exact hi
  · exact hi.put_set L δ.obj
  · exact hi.put_set L δ.obj
  · exact hi
  · exact hi.put_erase _ _
  · exact hi

theorem srcAfter_tracks {O : ObjOps D} {c : SrcCache D} (hi : SrcInv O c)
    {hist : List (Delta D)} (ht : Tracks O c hist) (δ : Delta D) : Tracks O (srcAfter O c δ) (hist ++ [δ]) := by
  intro g k d
  unfold srcAfter
  by_cases hc : Concerns O g k δ
  · rw [liveAs_snoc_of hc]
    obtain ⟨rfl, rfl, hsy⟩ := hc
    rcases convertDelta_cases c δ hi with ⟨hu, hs, h⟩ | ⟨hu, _, h⟩ | ⟨ha, h⟩ | ⟨hd, hn, e, h⟩ | ⟨hd, _, h⟩ | ⟨h', e, h⟩ <;> rw [h] <;> simp only
    · rw [hs]
      have : δ.type ≠ .deleted := by intro e; rw [e] at hu; simp [DeltaType.isUpsert] at hu
      simp [this]
    · rw [get_put_set]
      have : δ.type ≠ .deleted := by intro e; rw [e] at hu; simp [DeltaType.isUpsert] at hu
      simp [this]
    · rw [get_put_set]; simp [ha]
    · rw [hn]; simp [hd]
    · rw [get_put_erase hi]; simp [hd]
    · exact absurd h' hsy
  · rw [liveAs_snoc_not hc, ← ht g k d]
    have hne : δ.type ≠ .sync → ¬ (O.gvk δ.obj = g ∧ O.key δ.obj = k) := fun h1 h2 => hc ⟨h2.1, h2.2, h1⟩
    rcases convertDelta_cases c δ hi with ⟨hu, hs, h⟩ | ⟨hu, _, h⟩ | ⟨ha, h⟩ | ⟨hd, hn, e, h⟩ | ⟨hd, _, h⟩ | ⟨h', e, h⟩ <;> rw [h] <;> simp only
    · rw [get_put_set, if_neg (hne (by intro e; rw [e] at hu; simp [DeltaType.isUpsert] at hu))]
    · rw [get_put_set, if_neg (hne (by simp [ha]))]
    · rw [get_put_erase hi, if_neg (hne (by simp [hd]))]

theorem evaluate_src (O : ObjOps D) (ω : EvalOrder D) (p : Pipe D J) (δ : Delta D) :
    (p.evaluate O ω δ).1.src = srcAfter O p.src δ := by
  unfold Pipe.evaluate srcAfter
  split
  · rename_i h; rw [h]
  · rename_i h; rw [h]
    split
    · rfl
    · split
      · rfl
      · split <;> rfl

theorem evaluate_sources (O : ObjOps D) (ω : EvalOrder D) (p : Pipe D J) (δ : Delta D) :
    (p.evaluate O ω δ).1.sources = p.sources ∧ (p.evaluate O ω δ).1.target = p.target ∧ (p.evaluate O ω δ).1.snap = p.snap := by
  unfold Pipe.evaluate
  split
  · exact ⟨rfl, rfl, rfl⟩
  · split
    · exact ⟨rfl, rfl, rfl⟩
    · split
      · exact ⟨rfl, rfl, rfl⟩
      · split <;> exact ⟨rfl, rfl, rfl⟩

theorem syncAll_src (O : ObjOps D) (ω : EvalOrder D) (p : Pipe D J) : (p.syncAll O ω).1.src = p.src := by
  unfold Pipe.syncAll
  split
  · rfl
  · split
    · rfl
    · split
      · rfl
      · split <;> rfl

/-- Is `d` the cached version of its object? -/
def liveInd (O : ObjOps D) (c : SrcCache D) (d : D) : Int :=
  if (c (O.gvk d)).get (O.key d) = some d then 1 else 0

theorem updateZSet_get (old : Option D) (new x : D) :
    get (updateZSet old new) x = (if new = x then 1 else 0) - (match old with | some o => if o = x then 1 else 0 | none => 0) := by
  unfold updateZSet
  cases old with
  | none => simp only; rw [get_addDoc WF.nil]; by_cases h : new = x <;> simp [h]
  | some o =>
    simp only
    rw [get_addDoc (WF.nil.addDoc _ _), get_addDoc WF.nil]
    by_cases h : new = x <;> by_cases h' : o = x <;> simp [h, h']

theorem updateZSet_wf (old : Option D) (new : D) : WF (updateZSet old new) := by
  unfold updateZSet
  cases old with
  | none => exact WF.nil.addDoc _ _
  | some o => exact (WF.nil.addDoc _ _).addDoc _ _

theorem convertDelta_wf {O : ObjOps D} {c c' : SrcCache D} {δ : Delta D} {z : ZSet D} (hi : SrcInv O c)
    (h : convertDelta O c δ = .ok (c', z)) : WF z := by
  rcases convertDelta_cases c δ hi with ⟨_, _, h'⟩ | ⟨_, _, h'⟩ | ⟨_, h'⟩ | ⟨_, _, e, h'⟩ | ⟨_, _, h'⟩ | ⟨_, e, h'⟩ <;>
    rw [h] at h' <;> simp only [Except.ok.injEq, Prod.mk.injEq, reduceCtorEq] at h'
  · rw [h'.2]; exact WF.nil
  · rw [h'.2]; exact updateZSet_wf _ _
  · rw [h'.2]; exact WF.nil.addDoc _ _
  · rw [h'.2]; exact WF.nil.addDoc _ _

/-- A consistent event: objects are added only when absent, a delete carries the cached version. -/
def EventOk (O : ObjOps D) (c : SrcCache D) (δ : Delta D) : Prop :=
  (δ.type = .added → (c (O.gvk δ.obj)).get (O.key δ.obj) = none) ∧
  (δ.type = .deleted → (c (O.gvk δ.obj)).get (O.key δ.obj) = some (O.removeUID δ.obj)) ∧ δ.type ≠ .sync

theorem eventOk_ok {O : ObjOps D} {c : SrcCache D} {δ : Delta D} (hi : SrcInv O c) (he : EventOk O c δ) :
    ∃ c' z, convertDelta O c δ = .ok (c', z) := by
  rcases convertDelta_cases c δ hi with ⟨_, _, h'⟩ | ⟨_, _, h'⟩ | ⟨_, h'⟩ | ⟨hd, hn, e, h'⟩ | ⟨_, _, h'⟩ | ⟨hs, e, h'⟩
  · exact ⟨_, _, h'⟩
  · exact ⟨_, _, h'⟩
  · exact ⟨_, _, h'⟩
  · rw [he.2.1 hd] at hn; simp at hn
  · exact ⟨_, _, h'⟩
  · exact absurd hs he.2.2

theorem ind_put_set {O : ObjOps D} (L : O.Lawful) {c : SrcCache D} (hi : SrcInv O c) (x d : D) :
    liveInd O (c.put (O.gvk x) ((c (O.gvk x)).set (O.key x) (O.removeUID x))) d - liveInd O c d =
    (if O.removeUID x = d then 1 else 0) -
      (match (c (O.gvk x)).get (O.key x) with | some o => if o = d then 1 else 0 | none => 0) := by
  have key : ∀ y, O.removeUID x = y → O.gvk x = O.gvk y ∧ O.key x = O.key y := by
    rintro y rfl; exact ⟨(L.gvk_uid x).symm, (L.key_uid x).symm⟩
  unfold liveInd
  rw [get_put_set]
  by_cases hc : O.gvk x = O.gvk d ∧ O.key x = O.key d
  · rw [if_pos hc, hc.1, hc.2]
    by_cases hd : O.removeUID x = d
    · cases ho : (c (O.gvk d)).get (O.key d) with
      | none => simp [hd]
      | some o => by_cases h : o = d <;> simp [hd, h]
    · cases ho : (c (O.gvk d)).get (O.key d) with
      | none => simp [hd]
      | some o => by_cases h : o = d <;> simp [hd, h]
  · rw [if_neg hc]
    have h1 : ¬ O.removeUID x = d := fun e => hc (key d e)
    cases ho : (c (O.gvk x)).get (O.key x) with
    | none => simp [h1]
    | some o =>
      have := (hi _).2 _ _ ho
      have h2 : ¬ o = d := by
        rintro rfl; exact hc ⟨this.2.1.symm, this.1.symm⟩
      simp [h1, h2]

/-- C16, one step: the change set is the change of the set of live objects. -/
theorem convertDelta_ind {O : ObjOps D} (L : O.Lawful) {c c' : SrcCache D} {δ : Delta D} {z : ZSet D} (hi : SrcInv O c)
    (he : EventOk O c δ) (h : convertDelta O c δ = .ok (c', z)) (d : D) :
    get z d = liveInd O c' d - liveInd O c d := by
  rcases convertDelta_cases c δ hi with ⟨_, _, h'⟩ | ⟨_, _, h'⟩ | ⟨ha, h'⟩ | ⟨_, _, e, h'⟩ | ⟨hd, _, h'⟩ | ⟨_, e, h'⟩ <;>
    rw [h] at h' <;> simp only [Except.ok.injEq, Prod.mk.injEq, reduceCtorEq] at h' <;> obtain ⟨rfl, rfl⟩ := h'
  · simp
  · rw [updateZSet_get, ind_put_set L hi]
  · rw [ind_put_set L hi, he.1 ha, get_addDoc WF.nil]
    by_cases h : O.removeUID δ.obj = d <;> simp [h]
  · have hold := he.2.1 hd
    rw [get_addDoc WF.nil]
    unfold liveInd
    rw [get_put_erase hi]
    by_cases hc : O.gvk δ.obj = O.gvk d ∧ O.key δ.obj = O.key d
    · rw [if_pos hc, ← hc.1, ← hc.2, hold]
      by_cases h : O.removeUID δ.obj = d <;> simp [h]
    · rw [if_neg hc]
      have : ¬ O.removeUID δ.obj = d := by
        rintro rfl; exact hc ⟨(L.gvk_uid _).symm, (L.key_uid _).symm⟩
      simp [this]

/-- The documents of a change set are of the kind of the event. -/
theorem convertDelta_gvk {O : ObjOps D} (L : O.Lawful) {c c' : SrcCache D} {δ : Delta D} {z : ZSet D} (hi : SrcInv O c)
    (h : convertDelta O c δ = .ok (c', z)) (d : D) (hd : get z d ≠ 0) : O.gvk d = O.gvk δ.obj := by
  have key : O.gvk (O.removeUID δ.obj) = O.gvk δ.obj := L.gvk_uid _
  rcases convertDelta_cases c δ hi with ⟨_, _, h'⟩ | ⟨_, _, h'⟩ | ⟨ha, h'⟩ | ⟨_, _, e, h'⟩ | ⟨_, _, h'⟩ | ⟨_, e, h'⟩ <;>
    rw [h] at h' <;> simp only [Except.ok.injEq, Prod.mk.injEq, reduceCtorEq] at h' <;> obtain ⟨rfl, rfl⟩ := h'
  · simp at hd
  · rw [updateZSet_get] at hd
    by_cases h1 : O.removeUID δ.obj = d
    · rw [← h1]; exact key
    · cases ho : (c (O.gvk δ.obj)).get (O.key δ.obj) with
      | none => simp [ho, h1] at hd
      | some o =>
        by_cases h2 : o = d
        · rw [← h2]; exact ((hi _).2 _ _ ho).2.1
        · simp [ho, h1, h2] at hd
  · rw [get_addDoc WF.nil] at hd
    by_cases h1 : O.removeUID δ.obj = d
    · rw [← h1]; exact key
    · simp [h1] at hd
  · rw [get_addDoc WF.nil] at hd
    by_cases h1 : O.removeUID δ.obj = d
    · rw [← h1]; exact key
    · simp [h1] at hd

end Dctl
