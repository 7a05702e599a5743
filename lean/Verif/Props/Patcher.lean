import Verif.Props.EndToEnd
import Verif.Props.Quiet
import Verif.Props.Patch
import Verif.Spec.Patcher
/-!
# C88: a Patcher keeps the fields of the live results in the objects of the cluster
-/
set_option autoImplicit false
set_option linter.unusedSectionVars false
namespace Dctl
variable {D J : Type} [DecidableEq D] [DecidableEq J]
open ZSet

/-! ### Deletes carry what was recorded -/

theorem writes_apart {O : ObjOps D} (T : Target D) (k : ObjKey) : ∀ ws : List (Delta D), (∀ w ∈ ws, O.key w.obj ≠ k) → Target.writes O T ws k = T k
  | [], _ => rfl
  | w :: ws, h => by
    rw [show Target.writes O T (w :: ws) = Target.writes O (Target.write O T w) ws from rfl, writes_apart _ _ ws (fun x hx => h x (by simp [hx])),
      Target.write, if_neg (h w (by simp))]

/-- Every delete is of the object that the earlier writes put in place. -/
def Recorded (O : ObjOps D) (ws : List (Delta D)) : Prop :=
  ∀ pre w post, ws = pre ++ w :: post → w.type = .deleted → Target.writes O (fun _ => none) pre (O.key w.obj) = some w.obj

theorem recorded_append {O : ObjOps D} {a b : List (Delta D)} (ha : Recorded O a) (hnd : (b.map (fun w => O.key w.obj)).Nodup)
    (hb : ∀ w ∈ b, w.type = .deleted → Target.writes O (fun _ => none) a (O.key w.obj) = some w.obj) : Recorded O (a ++ b) := by
  intro pre w post e ht
  rcases List.append_eq_append_iff.mp e with ⟨u, rfl, hu⟩ | ⟨u, hu, hu'⟩
  · rw [Target.writes_append, writes_apart]
    · exact hb w (by rw [hu]; simp) ht
    · intro x hx hk
      rw [hu, List.map_append, List.nodup_append] at hnd
      exact hnd.2.2 _ (List.mem_map.mpr ⟨x, hx, rfl⟩) _ (by simp) hk
  · cases u with
    | nil =>
      rw [List.append_nil] at hu; subst hu
      exact hb w (by rw [List.nil_append] at hu'; rw [← hu']; simp) ht
    | cons x u =>
      simp only [List.cons_append, List.cons.injEq] at hu'
      obtain ⟨rfl, _⟩ := hu'
      exact ha pre w u hu ht

theorem runs_split {S A B : Type} (f : S → A → S × B) (s : S) (l : List A) (x : A) :
    runs f s (l ++ [x]) = ((f (runs f s l).1 x).1, (runs f s l).2 ++ [(f (runs f s l).1 x).2]) := by
  induction l generalizing s with
  | nil => rfl
  | cons a l ih => simp only [List.cons_append, runs, ih]

theorem recorded_of_runs {O : ObjOps D} (L : O.Lawful) {sources : List GVK} {target : GVK} {cfg : List (PipeOp D J)} {p0 : Pipe D J}
    (hn : (sources.map GVK.kind).Nodup) (hnew : Pipe.new target sources cfg = .ok p0) :
    ∀ (n : Nat) (hist : List (EvalOrder D × Delta D)), hist.length = n → (∀ e ∈ hist, e.1.Valid) → (∀ e ∈ hist, O.gvk e.2.obj ∈ sources) →
    WatchOk O (hist.map Prod.snd) →
    (∀ pre, pre <+: hist.map Prod.snd → ∀ ins o, LiveInputs O pre sources ins → PipelineSpec cfg ins o → OnePerName O target o) →
    ∀ wss : List (List (Delta D)), (runs (fun p (e : EvalOrder D × Delta D) => p.evaluate O e.1 e.2) p0 hist).2 = wss.map Except.ok → Recorded O wss.flatten
  | 0, hist, hl, _, _, _, _, wss, hr => by
    have := List.eq_nil_of_length_eq_zero hl
    subst this
    cases wss with
    | nil => intro pre w post e; simp at e
    | cons _ _ => simp [runs] at hr
  | n + 1, hist, hl, hω, hs, hw, hone, wss, hr => by
    have hne : hist ≠ [] := by rintro rfl; simp at hl
    obtain ⟨h1, ⟨ω, δ⟩, rfl⟩ : ∃ a b, hist = a ++ [b] := ⟨_, _, (List.dropLast_concat_getLast hne).symm⟩
    rw [runs_split] at hr
    have hwne : wss ≠ [] := by rintro rfl; simp at hr
    obtain ⟨wss, ws, rfl⟩ : ∃ a b, wss = a ++ [b] := ⟨_, _, (List.dropLast_concat_getLast hwne).symm⟩
    simp only [List.map_append, List.map_cons, List.map_nil] at hr
    obtain ⟨hr1, hr2⟩ := List.append_inj' hr rfl
    simp only [List.cons.injEq, and_true] at hr2
    simp only [List.map_append, List.map_cons, List.map_nil] at hw hone
    obtain ⟨hw1, hw2⟩ := watchOk_snoc hw
    have hω1 : ∀ e ∈ h1, e.1.Valid := fun e he => hω e (by simp [he])
    have hs1 : ∀ e ∈ h1, O.gvk e.2.obj ∈ sources := fun e he => hs e (by simp [he])
    have ih := recorded_of_runs L hn hnew n h1 (by simpa using hl) hω1 hs1 hw1 (fun pre hp => hone pre (hp.trans (List.prefix_append _ _))) wss hr1
    obtain ⟨o, i1, i2, i3⟩ := runs_inv L hn (runInv_new (O := O) hn hnew) hω1 hs1 (by simpa using hw1) hr1
    have htgt : (fun k => p0.tgt.get k) = fun _ => none := by
      obtain ⟨g, _, rfl⟩ := pipe_new_ok hnew
      rfl
    obtain ⟨hE, hO, hH⟩ := i2 (by rw [htgt]; exact holds_empty O target) (enforced_empty O target).1 (enforced_empty O target).2
      (fun h' _ hp => by simpa using hone h' (hp.trans (List.prefix_append _ _)))
    rw [List.nil_append] at i1
    have hev : (runs (fun p (e : EvalOrder D × Delta D) => p.evaluate O e.1 e.2) p0 h1).1.evaluate O ω δ =
      (((runs (fun p (e : EvalOrder D × Delta D) => p.evaluate O e.1 e.2) p0 h1).1.evaluate O ω δ).1, .ok ws) := by rw [← hr2]
    have hω' := hω (ω, δ) (by simp)
    obtain ⟨r, ds, k1, k2, k3, k4⟩ := i1.step L hn hω' (hs (ω, δ) (by simp)) (hw2 _ i1.tracks) hev
    have l2 := liveInputs_stores L k2.inv k2.tracks sources
    have hex := reconcile_exact hω'.recon k1 (hω'.list r) (fun d => by rw [get_add i1.wf_out k1]) hO (hone _ (List.prefix_refl _) _ _ l2 (k2.spec L l2)) hH k3 k4
    rw [List.flatten_append, List.flatten_cons, List.flatten_nil, List.append_nil]
    refine recorded_append ih (reconcile_spec hω'.recon k4).1 ?_
    intro w hw ht
    rcases (hex w).mp hw with ⟨h, _⟩ | ⟨_, ⟨d, hd, _, he⟩, _⟩
    · rw [h] at ht; cases ht
    · rw [← htgt, ← i3]
      exact (hH _ _).mpr ⟨d, hd, he, rfl⟩

/-! ### One write of a Patcher -/

theorem useOriginal_ok {t : GVK} {c : Cluster} {new : SMap Json} {orig : Option (SMap Json)} (h : SnapshotOk t c new orig) :
    (useOriginal orig new).or (c.get (t, objKey new)) = c.get (t, objKey new) := by
  cases orig with
  | none => rfl
  | some o =>
    rw [useOriginal]
    split
    · next hh => rw [h o rfl hh.1 hh.2]; rfl
    · rfl

theorem patcherUpsert_key {cur new om wm : SMap Json} (hn : (Json.map new).Canon) (hc : (Json.map cur).Canon) (hwm : SMap.get new "metadata" = some (.map wm))
    (hom : SMap.get cur "metadata" = some (.map om)) : objKey (patcherUpsert cur new) = objKey new := by
  have h2 := patch_at_both hc hn (p := ["metadata"]) (by rw [at_cons]; simp [Json.field, hwm, Json.at]; rfl) (by simp)
  have h3 : (Json.map cur).at ["metadata"] = some (.map om) := by rw [at_cons]; simp [Json.field, hom, Json.at]
  rw [h3] at h2
  simp only [patchObj_eq] at h2
  exact restore_key (patchObj_canon hc hn) (by rw [← nested_one]; exact h2)

/-- What a write does to the objects of the target's kind. -/
theorem patcher_step {t : GVK} {c c' : Cluster} (hc : ClusterOk t c) {ty : DeltaType} (hty : ty = .upserted ∨ ty = .deleted) {new : SMap Json}
    (hn : (Json.map new).Canon) (hname : (objKey new).2 ≠ "") {orig : Option (SMap Json)} (hsnap : SnapshotOk t c new orig)
    (h : patcherWrite t c c ty new orig = some c') :
    ClusterOk t c' ∧ (∀ k, k ≠ objKey new → c'.get (t, k) = c.get (t, k)) ∧
      c'.get (t, objKey new) = (c.get (t, objKey new)).map (fun cur => if ty = .deleted then patcherDelete cur new else patcherUpsert cur new) := by
  have hread := useOriginal_ok hsnap
  obtain ⟨wm, hwm⟩ := metadata_of_name hname
  cases hcur : c.get (t, objKey new) with
  | none =>
    replace hread := hread.trans hcur
    rcases hty with rfl | rfl
    · simp [patcherWrite, hread] at h
    · simp only [patcherWrite, hread, Option.some.injEq] at h
      subst h
      exact ⟨hc, fun _ _ => rfl, hcur⟩
  | some cur =>
    replace hread := hread.trans hcur
    obtain ⟨hcc, om, hom⟩ := hc _ _ hcur
    have hgen : ∀ r, objKey r = objKey new → (Json.map r).Canon → (clientUpdate c t r).getD c = c' →
        ClusterOk t c' ∧ (∀ k, k ≠ objKey new → c'.get (t, k) = c.get (t, k)) ∧ c'.get (t, objKey new) = some r := by
      intro r hr hrc he
      simp only [clientUpdate, hr, hcur, Option.getD_some] at he
      subst he
      refine ⟨?_, ?_, ?_⟩
      · intro k y hy
        rw [AMap.get_set] at hy
        split at hy
        · cases hy
          exact ⟨hrc, metadata_of_name (by rw [hr]; exact hname)⟩
        · exact hc k y hy
      · intro k hk
        rw [AMap.get_set, if_neg]
        intro e
        exact hk (congrArg Prod.snd e).symm
      · rw [AMap.get_set, if_pos rfl]
    rcases hty with rfl | rfl
    · simp only [patcherWrite, hread, Option.some.injEq] at h
      simpa using hgen _ (patcherUpsert_key hn hcc hwm hom) (restore_canon (patchObj_canon hcc hn)) h
    · simp only [patcherWrite, hread, Option.some.injEq] at h
      simpa using hgen _ (C26_identity cur new om hcc hn ⟨wm, hwm⟩ hom).1 (restore_canon (patchObj_canon hcc (deletePatch_canon hn))) h

/-! ### Many writes -/

/-- The object of the last upsert of a key. -/
def lastUpsert (k : ObjKey) (ws : List (Delta CDoc)) : Option CDoc :=
  ws.foldl (fun o w => if objKey w.obj.1 = k ∧ w.type = .upserted then some w.obj else o) none

theorem lastUpsert_snoc (k : ObjKey) (ws : List (Delta CDoc)) (w : Delta CDoc) :
    lastUpsert k (ws ++ [w]) = if objKey w.obj.1 = k ∧ w.type = .upserted then some w.obj else lastUpsert k ws := by
  simp [lastUpsert]

theorem list_snoc {A : Type} {P : List A → Prop} (h0 : P []) (h1 : ∀ l a, P l → P (l ++ [a])) (l : List A) : P l := by
  have : ∀ n (l : List A), l.length = n → P l := by
    intro n
    induction n with
    | zero => intro l hl; rw [List.eq_nil_of_length_eq_zero hl]; exact h0
    | succ n ih =>
      intro l hl
      have hne : l ≠ [] := by rintro rfl; simp at hl
      rw [← List.dropLast_concat_getLast hne]
      exact h1 _ _ (ih _ (by simp [hl]))
  exact this _ l rfl

theorem writes_snoc {O : ObjOps D} (T : Target D) (ws : List (Delta D)) (w : Delta D) : Target.writes O T (ws ++ [w]) = Target.write O (Target.writes O T ws) w := by
  rw [Target.writes_append]; rfl

theorem lastUpsert_of_target {k : ObjKey} {ws : List (Delta CDoc)} (hty : ∀ w ∈ ws, w.type = .upserted ∨ w.type = .deleted) {x : CDoc}
    (h : Target.writes jsonOps (fun _ => none) ws k = some x) : lastUpsert k ws = some x := by
  revert hty h
  induction ws using list_snoc with
  | h0 => intro _ h; simp [Target.writes] at h
  | h1 ws w ih =>
    intro hty h
    rw [writes_snoc, Target.write] at h
    rw [lastUpsert_snoc]
    have hk : jsonOps.key w.obj = objKey w.obj.1 := rfl
    rw [hk] at h
    split at h
    · next e =>
      split at h
      · simp at h
      · next hd => rw [if_pos ⟨e, (hty w (by simp)).resolve_right hd⟩]; exact h
    · next e => rw [if_neg (fun a => e a.1)]; exact ih (fun x hx => hty x (by simp [hx])) h

theorem recorded_prefix {O : ObjOps D} {a b : List (Delta D)} (h : Recorded O (a ++ b)) : Recorded O a :=
  fun pre w post e => h pre w (post ++ b) (by rw [e]; simp)

theorem nested_parent {y : SMap Json} {q : List String} {a : String} {v : Json} (h : nested y (q ++ [a]) = some v) : ∃ mo, nested y q = some (.map mo) := by
  have : ∀ (q : List String) (j : Json), j.at (q ++ [a]) = some v → ∃ x, j.at q = some (.map x) := by
    intro q
    induction q with
    | nil =>
      intro j hv
      obtain ⟨m, u, rfl, _, _⟩ := at_cons_some hv
      exact ⟨m, rfl⟩
    | cons b q ih =>
      intro j hv
      obtain ⟨m, u, rfl, hg, hu⟩ := at_cons_some hv
      obtain ⟨x, hx⟩ := ih u hu
      exact ⟨x, by rw [at_cons]; simp [Json.field, hg, hx]⟩
  exact this q _ h

/-- What a sequence of writes of a Patcher keeps in an object. -/
theorem patched_inv {t : GVK} {k : ObjKey} {p : List String} (hp : FreePath p) {c0 : Cluster} (hc0 : ClusterOk t c0) {y0 : SMap Json} (hy0 : c0.get (t, k) = some y0)
    {ws : List (Delta CDoc)} {c : Cluster} (h : Patched t k p c0 ws c) :
    (∀ w ∈ ws, w.type = .upserted ∨ w.type = .deleted) → (∀ w ∈ ws, jsonOps.enforce t w.obj = .ok w.obj) → Recorded jsonOps ws →
    ClusterOk t c ∧ ∃ y, c.get (t, k) = some y ∧
      ((∀ w ∈ ws, objKey w.obj.1 = k → ¬ (Json.map w.obj.1).Mentions p) → nested y p = nested y0 p) ∧
      (∀ x v, Target.writes jsonOps (fun _ => none) ws k = some x → nested x.1 p = some v → v.Scalar → nested y p = some v) ∧
      (∀ x v, Target.writes jsonOps (fun _ => none) ws k = none → lastUpsert k ws = some x → nested x.1 p = some v → v.Scalar → nested y p = none) := by
  induction h with
  | start =>
    intro _ _ _
    exact ⟨hc0, y0, hy0, fun _ => rfl, fun x v hx => by simp [Target.writes] at hx, fun x v _ hx => by simp [lastUpsert] at hx⟩
  | others _ ho ih =>
    intro hty he hrec
    obtain ⟨_, y, hy, i1, i2, i3⟩ := ih hty he hrec
    obtain ⟨hok, h1, _⟩ := ho
    obtain ⟨y', hy', hyp⟩ := h1 y hy
    exact ⟨hok, y', hy', fun a => hyp.trans (i1 a), fun x v a b c => hyp.trans (i2 x v a b c), fun x v a b c d => hyp.trans (i3 x v a b c d)⟩
  | @write ws c c' w orig _ hsnap hwr ih =>
    intro hty he hrec
    obtain ⟨hok, y, hy, i1, i2, i3⟩ := ih (fun x hx => hty x (by simp [hx])) (fun x hx => he x (by simp [hx])) (recorded_prefix hrec)
    have hen := jsonOps_enforce.mp (he w (by simp))
    obtain ⟨e1, e2, e3, _⟩ := C74_object t w.obj.1 w.obj.1 w.obj.2 hen
    rw [targetWrite, if_pos rfl, setGVK_fixed w.obj.2 e1 e2] at hwr
    have hname := e3
    obtain ⟨s1, s2, s3⟩ := patcher_step hok (hty w (by simp)) w.obj.2 hname hsnap hwr
    obtain ⟨wm, hwm⟩ := metadata_of_name hname
    refine ⟨s1, ?_⟩
    have hkk : jsonOps.key w.obj = objKey w.obj.1 := rfl
    rw [writes_snoc, lastUpsert_snoc]
    simp only [Target.write, hkk]
    by_cases hk : objKey w.obj.1 = k
    · rw [hk, hy] at s3
      obtain ⟨hyc, om, hom⟩ := hok _ _ hy
      rcases hty w (by simp) with hu | hd
      · have hnd : w.type ≠ .deleted := by rw [hu]; decide
        rw [Option.map_some, if_neg hnd] at s3
        refine ⟨_, s3, ?_, ?_, ?_⟩
        · intro hm
          rw [nested_patcherUpsert y w.obj.1 hyc w.obj.2 hp, C25_untouched _ _ hyc w.obj.2 p (hm w (by simp) hk)]
          exact i1 (fun x hx => hm x (by simp [hx]))
        · intro x v hx hv hs
          rw [if_pos hk, if_neg hnd] at hx
          cases hx
          rw [nested_patcherUpsert y w.obj.1 hyc w.obj.2 hp]
          exact C25_scalar _ _ hyc w.obj.2 _ v hv hs
        · intro x v hx
          rw [if_pos hk, if_neg hnd] at hx
          simp at hx
      · rw [Option.map_some, if_pos hd] at s3
        refine ⟨_, s3, ?_, ?_, ?_⟩
        · intro hm
          rw [C26_untouched y w.obj.1 wm hyc w.obj.2 hwm p hp (hm w (by simp) hk)]
          exact i1 (fun x hx => hm x (by simp [hx]))
        · intro x v hx
          rw [if_pos hk, if_pos hd] at hx
          simp at hx
        · intro x v _ hl hv hs
          have hr := hrec ws w [] rfl hd
          rw [hkk, hk] at hr
          have hl' := lastUpsert_of_target (fun x hx => hty x (by simp [hx])) hr
          rw [if_neg (by rw [hd]; simp), hl'] at hl
          cases hl
          have hyv := i2 _ v hr hv hs
          obtain ⟨q, a, rfl⟩ : ∃ q a, p = q ++ [a] := ⟨p.dropLast, p.getLast hp.1, (List.dropLast_concat_getLast hp.1).symm⟩
          obtain ⟨mo, hmo⟩ := nested_parent hyv
          refine C26_removed_partial y w.obj.1 hyc w.obj.2 q a v hp hv hs mo hmo ?_
          have h2 : nested y (q ++ [a]) = SMap.get mo a := at_snoc q _ hmo
          rw [← h2, hyv]
          intro e
          cases e
          exact hs
    · refine ⟨y, by rw [s2 k (Ne.symm hk), hy], ?_, ?_, ?_⟩
      · intro hm
        exact i1 (fun x hx => hm x (by simp [hx]))
      · intro x v hx
        rw [if_neg hk] at hx
        exact i2 x v hx
      · intro x v hx hl
        rw [if_neg hk] at hx
        rw [if_neg (fun a => hk a.1)] at hl
        exact i3 x v hx hl
/-! ### From the histories -/

theorem runs_at {S A B : Type} (f : S → A → S × Except Err B) {s : S} {h1 h2 : List A} {e : A} {wss : List B}
    (hr : (runs f s (h1 ++ e :: h2)).2 = wss.map Except.ok) :
    ∃ a w b, wss = a ++ w :: b ∧ (runs f s h1).2 = a.map Except.ok ∧ (f (runs f s h1).1 e).2 = .ok w ∧
      (runs f (f (runs f s h1).1 e).1 h2).2 = b.map Except.ok := by
  induction h1 generalizing s wss with
  | nil =>
    cases wss with
    | nil => simp [runs] at hr
    | cons w b =>
      simp only [List.nil_append, runs, List.map_cons, List.cons.injEq] at hr
      exact ⟨[], w, b, rfl, rfl, hr.1, hr.2⟩
  | cons x h1 ih =>
    cases wss with
    | nil => simp [runs] at hr
    | cons w b =>
      simp only [List.cons_append, runs, List.map_cons, List.cons.injEq] at hr
      obtain ⟨a, w', b', rfl, i1, i2, i3⟩ := ih hr.2
      exact ⟨w :: a, w', b', rfl, by simp only [runs, List.map_cons, List.cons.injEq]; exact ⟨hr.1, i1⟩, i2, i3⟩

theorem runs_length {S A B : Type} (f : S → A → S × B) (s : S) (l : List A) : (runs f s l).2.length = l.length := by
  induction l generalizing s with
  | nil => rfl
  | cons a l ih => simp [runs, ih]

/-- Every write after the first part `h1` of a history is of a document that was there after `h1` or later; an upsert, of one that was there later. -/
theorem writes_from_docs {O : ObjOps D} (L : O.Lawful) {sources : List GVK} {target : GVK} {cfg : List (PipeOp D J)} {p0 : Pipe D J}
    (hn : (sources.map GVK.kind).Nodup) (hnew : Pipe.new target sources cfg = .ok p0)
    {h1 h2 : List (EvalOrder D × Delta D)} (hω : ∀ e ∈ h1 ++ h2, e.1.Valid) (hs : ∀ e ∈ h1 ++ h2, O.gvk e.2.obj ∈ sources)
    (hw : WatchOk O ((h1 ++ h2).map Prod.snd))
    (hone : ∀ pre, pre <+: (h1 ++ h2).map Prod.snd → ∀ ins o, LiveInputs O pre sources ins → PipelineSpec cfg ins o → OnePerName O target o)
    {a b : List (List (Delta D))} (hl : a.length = h1.length)
    (hr : (runs (fun p (e : EvalOrder D × Delta D) => p.evaluate O e.1 e.2) p0 (h1 ++ h2)).2 = (a ++ b).map Except.ok) :
    ∀ w ∈ b.flatten, ∃ h', h' <+: h2 ∧ (w.type = .upserted → h' ≠ []) ∧ ∃ ins o d, LiveInputs O ((h1 ++ h').map Prod.snd) sources ins ∧ PipelineSpec cfg ins o ∧
      0 < ZSet.get o d ∧ O.enforce target d = .ok w.obj := by
  intro w hwb
  obtain ⟨ws, hws, hww⟩ := List.mem_flatten.mp hwb
  obtain ⟨b1, b2, rfl⟩ := List.append_of_mem hws
  have hlen : h2.length = b1.length + b2.length + 1 := by
    have := congrArg List.length hr
    rw [runs_length] at this
    simp at this
    omega
  obtain ⟨u, e, v, rfl, hu⟩ : ∃ u e v, h2 = u ++ e :: v ∧ u.length = b1.length := by
    have hd : h2.drop b1.length ≠ [] := by
      intro hh
      have := congrArg List.length hh
      simp at this
      omega
    obtain ⟨e, v, hev⟩ := List.exists_cons_of_ne_nil hd
    exact ⟨h2.take b1.length, e, v, by rw [← hev, List.take_append_drop], by simp; omega⟩
  have hr' := hr
  rw [← List.append_assoc] at hr
  obtain ⟨a', w', b', i0, i1, i2, i3⟩ := runs_at _ hr
  have hl2 : a'.length = (a ++ b1).length := by
    have := congrArg List.length i1
    rw [runs_length] at this
    simp at this ⊢
    omega
  rw [← List.append_assoc] at i0
  obtain ⟨rfl, i0'⟩ := List.append_inj i0 hl2.symm
  obtain ⟨rfl, rfl⟩ := List.cons.inj i0'
  have hpre : (h1 ++ u).map Prod.snd ++ [e.2] <+: (h1 ++ (u ++ e :: v)).map Prod.snd := ⟨v.map Prod.snd, by simp⟩
  obtain ⟨ins, o, ins', o', j1, j2, j3, j4, j5⟩ := C85_writes_exact_partial L hn hnew (hist := h1 ++ u) (fun x hx => hω x (by grind)) (fun x hx => hs x (by grind))
    (ω := e.1) (hω e (by simp)) (δ := e.2) (hs e (by simp)) (watchOk_prefix (b := v.map Prod.snd) (by simpa using hw))
    (fun pre hp => hone pre (hp.trans hpre)) i1 (Prod.ext rfl i2)
  rcases (j5 w).mp hww with ⟨ht, d, hd, _, he⟩ | ⟨ht, ⟨d, hd, _, he⟩, _⟩
  · exact ⟨u ++ [e], ⟨v, by simp⟩, by simp, ins', o', d, by simpa using j3, j4, hd, he⟩
  · exact ⟨u, ⟨e :: v, rfl⟩, (fun h => by rw [h] at ht; cases ht), ins, o, d, j1, j2, hd, he⟩

theorem lastUpsert_append_none {k : ObjKey} (a : List (Delta CDoc)) : ∀ b : List (Delta CDoc), (∀ w ∈ b, w.type = .upserted → objKey w.obj.1 ≠ k) →
    lastUpsert k (a ++ b) = lastUpsert k a := by
  intro b
  induction b using list_snoc with
  | h0 => intro _; rw [List.append_nil]
  | h1 b w ih =>
    intro h
    rw [← List.append_assoc, lastUpsert_snoc, if_neg (fun x => h w (by simp) x.2 x.1)]
    exact ih (fun x hx => h x (by simp [hx]))

theorem runs_step_some {O : ObjOps D} (p : Pipe D J) (hist : List (EvalOrder D × Delta D)) :
    runs (fun p (e : EvalOrder D × Delta D) => p.evaluate O e.1 e.2) p hist = runs (Pipe.step O) p (hist.map (fun e => (e.1, some e.2))) := by
  induction hist generalizing p with
  | nil => rfl
  | cons e t ih => simp only [List.map_cons, runs, Pipe.step, ih]

/-- The pipeline computes an object of name `k` from the live sources. -/
def ResultAt (sources : List GVK) (target : GVK) (cfg : List (PipeOp CDoc J)) (events : List (Delta CDoc)) (k : ObjKey) (x : CDoc) : Prop :=
  ∃ ins o d, LiveInputs jsonOps events sources ins ∧ PipelineSpec cfg ins o ∧ 0 < ZSet.get o d ∧ jsonOps.enforce target d = .ok x ∧ objKey x.1 = k

/-- The results are what the writes left in place. -/
theorem resultAt_iff {sources : List GVK} {target : GVK} {cfg : List (PipeOp CDoc J)} {p0 : Pipe CDoc J}
    (hn : (sources.map GVK.kind).Nodup) (hnew : Pipe.new target sources cfg = .ok p0) (hdet : GatherDet cfg)
    {hist : List (EvalOrder CDoc × Delta CDoc)} (hω : ∀ e ∈ hist, e.1.Valid) (hs : ∀ e ∈ hist, jsonOps.gvk e.2.obj ∈ sources)
    (hw : WatchOk jsonOps (hist.map Prod.snd))
    (hone : ∀ pre, pre <+: hist.map Prod.snd → ∀ ins o, LiveInputs jsonOps pre sources ins → PipelineSpec cfg ins o → OnePerName jsonOps target o)
    {k : ObjKey} {h1 : List (EvalOrder CDoc × Delta CDoc)} {a : List (List (Delta CDoc))} (hpre : h1 <+: hist)
    (hra : (runs (fun p (e : EvalOrder CDoc × Delta CDoc) => p.evaluate jsonOps e.1 e.2) p0 h1).2 = a.map Except.ok) (x : CDoc) :
    ResultAt sources target cfg (h1.map Prod.snd) k x ↔ Target.writes jsonOps (fun _ => none) a.flatten k = some x := by
  have L := jsonOps_lawful
  have hsub := hpre.sublist.subset
  obtain ⟨u, hu⟩ := hpre
  obtain ⟨ins, o, j1, j2, j3⟩ := C19_view_maintenance_partial L hn hnew (hist := h1) (fun e he => hω e (hsub he)) (fun e he => hs e (hsub he))
    (watchOk_prefix (b := u.map Prod.snd) (by rw [← List.map_append, hu]; exact hw))
    (fun pre hp => hone pre (hp.trans ⟨u.map Prod.snd, by rw [← List.map_append, hu]⟩)) hra
  rw [j3 k x]
  constructor
  · rintro ⟨ins', o', d, q1, q2, q3, q4, q5⟩
    have he := pipelineSpec_unique hdet (liveInputs_eqvL (fun _ _ _ _ => Iff.rfl) q1 j1) q2 j2
    exact ⟨d, by rw [← he d]; exact q3, q4, q5⟩
  · rintro ⟨d, q1, q2, q3⟩
    exact ⟨ins, o, d, j1, j2, q1, q2, q3⟩

/-- **C88** (partial): a controller with a Patcher target whose object `k` exists keeps in it, whatever others do to other fields in between: every scalar field of
the result of that name; the initial value of every field that no result of that name ever mentioned; and no field of the last result of that name, once there is no
such result any more. Missing: fields of earlier versions of a result, which stay for ever (`C88_stale_field`); results sharing a name (C19); changes by others between
the reading of the object and the write, which are lost (C61); fields that are maps, lists or null (C26). -/
theorem C88_patcher_partial {sources : List GVK} {target : GVK} {cfg : List (PipeOp CDoc J)} {p0 : Pipe CDoc J}
    (hn : (sources.map GVK.kind).Nodup) (hnew : Pipe.new target sources cfg = .ok p0) (hdet : GatherDet cfg)
    {hist : List (EvalOrder CDoc × Delta CDoc)} (hω : ∀ e ∈ hist, e.1.Valid) (hs : ∀ e ∈ hist, jsonOps.gvk e.2.obj ∈ sources)
    (hw : WatchOk jsonOps (hist.map Prod.snd))
    (hone : ∀ pre, pre <+: hist.map Prod.snd → ∀ ins o, LiveInputs jsonOps pre sources ins → PipelineSpec cfg ins o → OnePerName jsonOps target o)
    {wss : List (List (Delta CDoc))}
    (hr : (runs (fun p (e : EvalOrder CDoc × Delta CDoc) => p.evaluate jsonOps e.1 e.2) p0 hist).2 = wss.map Except.ok)
    {k : ObjKey} {p : List String} (hp : FreePath p) {c0 c : Cluster} (hc0 : ClusterOk target c0) {y0 : SMap Json} (hy0 : c0.get (target, k) = some y0)
    (hP : Patched target k p c0 wss.flatten c) :
    ∃ y, c.get (target, k) = some y ∧
      (∀ x v, ResultAt sources target cfg (hist.map Prod.snd) k x → nested x.1 p = some v → v.Scalar → nested y p = some v) ∧
      ((∀ pre, pre <+: hist.map Prod.snd → ∀ x, ResultAt sources target cfg pre k x → ¬ (Json.map x.1).Mentions p) → nested y p = nested y0 p) ∧
      (∀ h1 h2 x v, hist = h1 ++ h2 → h2 ≠ [] → ResultAt sources target cfg (h1.map Prod.snd) k x → nested x.1 p = some v → v.Scalar →
        (∀ h', h' <+: h2 → h' ≠ [] → ∀ x', ¬ ResultAt sources target cfg ((h1 ++ h').map Prod.snd) k x') → nested y p = none) := by
  have L := jsonOps_lawful
  have hrec := recorded_of_runs L hn hnew _ hist rfl hω hs hw hone wss hr
  have htg : p0.target = target := by obtain ⟨g, _, rfl⟩ := pipe_new_ok hnew; rfl
  have henf := runs_enforced L p0 (hist.map (fun e => (e.1, some e.2))) (by
    intro e he
    obtain ⟨e', he', rfl⟩ := List.mem_map.mp he
    exact hω e' he')
  rw [← runs_step_some, hr, emitted_ok, htg] at henf
  obtain ⟨_, y, hy, i1, i2, i3⟩ := patched_inv hp hc0 hy0 hP (fun w h => (henf w h).1) (fun w h => (henf w h).2) hrec
  have hT := fun h1 a hpre hra => resultAt_iff (k := k) hn hnew hdet hω hs hw hone (h1 := h1) (a := a) hpre hra
  refine ⟨y, hy, ?_, ?_, ?_⟩
  · intro x v hx
    exact i2 x v ((hT hist wss (List.prefix_refl _) hr x).mp hx)
  · intro hno
    refine i1 (fun w hww hk => ?_)
    obtain ⟨h', hh', _, ins, o, d, q1, q2, q3, q4⟩ := writes_from_docs L hn hnew (h1 := []) (h2 := hist) hω hs hw hone (a := []) (b := wss) rfl hr w hww
    obtain ⟨u, rfl⟩ := hh'
    exact hno _ ⟨u.map Prod.snd, by simp⟩ w.obj ⟨ins, o, d, q1, q2, q3, q4, hk⟩
  · rintro h1 h2 x v rfl hne hx hv hsc hno
    obtain ⟨e, h2', rfl⟩ := List.exists_cons_of_ne_nil hne
    obtain ⟨a, w, b, rfl, r1, _, _⟩ := runs_at _ hr
    have ha : a.length = h1.length := by
      have := congrArg List.length r1
      rw [runs_length] at this
      simpa using this.symm
    have hTa := (hT h1 a (List.prefix_append _ _) r1 x).mp hx
    have hla : lastUpsert k a.flatten = some x := lastUpsert_of_target (fun w hw => (henf w (by simp [hw])).1) hTa
    refine i3 x v ?_ ?_ hv hsc
    · cases hf : Target.writes jsonOps (fun _ => none) (a ++ w :: b).flatten k with
      | none => rfl
      | some x' =>
        have := (hT _ _ (List.prefix_refl _) hr x').mpr hf
        exact absurd this (hno _ (List.prefix_refl _) hne x')
    · rw [List.flatten_append, lastUpsert_append_none _ _ ?_, hla]
      intro u hu hty hk
      obtain ⟨h', hh', hnn, ins, o, d, q1, q2, q3, q4⟩ := writes_from_docs L hn hnew (h1 := h1) (h2 := e :: h2') hω hs hw hone (a := a) (b := w :: b) ha hr u hu
      exact hno h' hh' (hnn hty) u.obj ⟨ins, o, d, q1, q2, q3, q4, hk⟩
/-! ### Example and counterexample -/

/-- A pod with one label. -/
def labPod (n l : String) : CDoc :=
  ⟨[("apiVersion", .str "v1"), ("kind", .str "Pod"), ("metadata", .map [("labels", .map [(l, .str "1")]), ("name", .str n)])], by
    simp [SMap.Sorted, Json.Canon, Json.CanonM]⟩

/-- A View object with one label. -/
def labView (n l : String) : CDoc :=
  ⟨[("apiVersion", .str "v1"), ("kind", .str "View"), ("metadata", .map [("labels", .map [(l, .str "1")]), ("name", .str n)])], by
    simp [SMap.Sorted, Json.Canon, Json.CanonM]⟩

/-- The label of the pod changes, then the pod is deleted. -/
def labHist : List (EvalOrder CDoc × Delta CDoc) :=
  [(ω0, ⟨.added, labPod "a" "x"⟩), (ω1, ⟨.updated, labPod "a" "y"⟩), (ω0, ⟨.deleted, labPod "a" "y"⟩)]

/-- The writes for it. -/
def labWrites : List (List (Delta CDoc)) := [[⟨.upserted, labView "a" "x"⟩], [⟨.upserted, labView "a" "y"⟩], [⟨.deleted, labView "a" "y"⟩]]

/-- Labels of the View in the cluster. -/
def labCluster (u : Bool) (l : SMap Json) : Cluster :=
  [((viewK, ("", "a")), [("apiVersion", .str "v1"), ("kind", .str "View"), ("metadata", .map [("labels", .map l), ("name", .str "a")]), ("spec", .bool u)])]

theorem labCluster_ok (u : Bool) {l : SMap Json} (h : (Json.map l).Canon) : ClusterOk viewK (labCluster u l) := by
  intro k y hy
  simp only [labCluster, AMap.get] at hy
  split at hy
  · cases hy
    exact ⟨by simp only [Json.Canon, SMap.Sorted] at h; simp [SMap.Sorted, Json.Canon, Json.CanonM, h], _, rfl⟩
  · cases hy

theorem labHist_valid : ∀ e ∈ labHist, e.1.Valid := by
  intro e he
  simp only [labHist, List.mem_cons, List.not_mem_nil, or_false] at he
  rcases he with rfl | rfl | rfl <;> first | exact ω0_valid | exact ω1_valid

theorem labHist_names : ∀ pre, pre <+: labHist.map Prod.snd → ∀ ins o, LiveInputs jsonOps pre [podK] ins → PipelineSpec exSelJson ins o →
    OnePerName jsonOps viewK o := by
  intro pre hp ins o hl hs
  obtain ⟨n, hn, rfl⟩ : ∃ n, n < 4 ∧ pre = (labHist.map Prod.snd).take n :=
    ⟨pre.length, Nat.lt_succ_of_le hp.length_le, List.prefix_iff_eq_take.mp hp⟩
  refine (oneName_of_snapshot jsonOps_lawful (by decide) (g := exJsonPipe.graph) (s := exJsonSnap) rfl rfl rfl _ ?_ hl hs).1
  have : ∀ n < 4, oneNameB jsonOps viewK [podK] exJsonSnap ((labHist.map Prod.snd).take n) = true := by decide +kernel
  exact this n hn

/-- A run: the first label is set, somebody changes the spec, then the second label is set and removed. -/
theorem labPatched (p : List String) (hp : p.head? ≠ some "spec") (hp' : p ≠ []) :
    Patched viewK ("", "a") p (labCluster false [("u", .str "1")]) labWrites.flatten (labCluster true [("u", .str "1"), ("x", .str "1")]) := by
  have s0 : Patched viewK ("", "a") p (labCluster false [("u", .str "1")]) [] _ := .start
  have s1 := Patched.write (c' := labCluster false [("u", .str "1"), ("x", .str "1")]) ⟨.upserted, labView "a" "x"⟩ none s0 (by intro o ho; cases ho) (by decide +kernel)
  have s2 := Patched.others (c' := labCluster true [("u", .str "1"), ("x", .str "1")]) s1 ⟨labCluster_ok _ (by decide), by
    intro y hy
    cases p with
    | nil => exact absurd rfl hp'
    | cons a q =>
      refine ⟨_, rfl, ?_⟩
      cases hy
      have ha : a ≠ "spec" := fun h => hp (by rw [h]; rfl)
      simp only [nested_cons]
      congr 1
      simp only [SMap.get]
      grind, by intro h; cases h⟩
  have s3 := Patched.write (c' := labCluster true [("u", .str "1"), ("x", .str "1"), ("y", .str "1")]) ⟨.upserted, labView "a" "y"⟩ none s2 (by intro o ho; cases ho) (by decide +kernel)
  exact Patched.write (c' := labCluster true [("u", .str "1"), ("x", .str "1")]) ⟨.deleted, labView "a" "y"⟩ none s3 (by intro o ho; cases ho) (by decide +kernel)

-- all hypotheses of C88 hold for the example
example (p : List String) (hp : FreePath p) (h : p.head? ≠ some "spec") :=
  C88_patcher_partial (p0 := exJsonPipe) (sources := [podK]) (target := viewK) (cfg := exSelJson) (by decide) rfl (gatherDet_of_none (by decide)) (hist := labHist)
  labHist_valid
  (by decide) (watchOk_of_check jsonOps_lawful (by decide +kernel)) labHist_names (wss := labWrites) (by rfl) hp (labCluster_ok _ (by decide)) rfl
  (labPatched p h hp.1)

/-- Not **C88**: the label of the first version of a result stays in the patched object after the result lost the label and after the result is gone. -/
theorem C88_stale_field :
    (runs (fun p (e : EvalOrder CDoc × Delta CDoc) => p.evaluate jsonOps e.1 e.2) exJsonPipe labHist).2 = labWrites.map Except.ok ∧
    Patched viewK ("", "a") ["metadata", "labels", "x"] (labCluster false [("u", .str "1")]) labWrites.flatten (labCluster true [("u", .str "1"), ("x", .str "1")]) ∧
    ((labCluster false [("u", .str "1")]).get (viewK, ("", "a"))).bind (nested · ["metadata", "labels", "x"]) = none ∧
    ((labCluster true [("u", .str "1"), ("x", .str "1")]).get (viewK, ("", "a"))).bind (nested · ["metadata", "labels", "x"]) = some (.str "1") ∧
    (∀ x, ¬ ResultAt [podK] viewK exSelJson (labHist.map Prod.snd) ("", "a") x) ∧
    (∀ x, ResultAt [podK] viewK exSelJson ((labHist.take 2).map Prod.snd) ("", "a") x → nested x.1 ["metadata", "labels", "x"] = none) := by
  have hT := fun h1 a => resultAt_iff (k := ("", "a")) (p0 := exJsonPipe) (sources := [podK]) (target := viewK) (cfg := exSelJson) (by decide) rfl
    (gatherDet_of_none (by decide)) (hist := labHist) labHist_valid (by decide) (watchOk_of_check jsonOps_lawful (by decide +kernel)) labHist_names (h1 := h1) (a := a)
  refine ⟨rfl, labPatched _ (by decide) (by decide), by decide, by decide, ?_, ?_⟩
  · intro x hx
    rw [hT _ labWrites (List.prefix_refl _) rfl] at hx
    have : Target.writes jsonOps (fun _ => none) labWrites.flatten ("", "a") = none := by decide +kernel
    rw [this] at hx
    cases hx
  · intro x hx
    rw [hT _ (labWrites.take 2) (List.take_prefix _ _) rfl] at hx
    have : Target.writes jsonOps (fun _ => none) (labWrites.take 2).flatten ("", "a") = some (labView "a" "y") := by decide +kernel
    rw [this] at hx
    cases hx
    decide
end Dctl
