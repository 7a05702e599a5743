import Verif.Dbsp.Op
import Verif.Dbsp.ZSetLemmas
/-! Helper lemmas about the operators. -/
set_option autoImplicit false
set_option linter.unusedSectionVars false
namespace Dctl
variable {D J : Type} [DecidableEq D] [DecidableEq J]
open ZSet

/-- Sum of `g` over a list of documents. -/
def dsum (g : D → Int) : List D → Int
  | [] => 0
  | d :: ds => g d + dsum g ds

theorem dsum_append (g : D → Int) (a b : List D) : dsum g (a ++ b) = dsum g a + dsum g b := by
  induction a with
  | nil => simp [dsum]
  | cons x t ih => simp only [List.cons_append, dsum, ih]; omega

theorem dsum_ind (d : D) (l : List D) : dsum (fun x => if x = d then 1 else 0) l = (l.count d : Int) := by
  induction l with
  | nil => rfl
  | cons x t ih =>
    simp only [dsum, ih, List.count_cons, beq_iff_eq]
    by_cases h : x = d <;> simp [h]; omega

/-- Sum of `g` over what `f` produces for `x` (0 on error). -/
def evSum (f : Ev D) (g : D → Int) (x : D) : Int :=
  match f x with
  | .ok ds => dsum g ds
  | .error _ => 0

theorem wsum_emit (g : D → Int) (acc : ZSet D) (ds : List D) (m : Int) :
    wsum g (acc.emit ds m) = wsum g acc + m * dsum g ds := by
  unfold emit
  induction ds generalizing acc with
  | nil => simp [dsum]
  | cons d t ih => rw [List.foldl_cons, ih, wsum_addDoc]; simp only [dsum, Int.mul_add]; omega

theorem ZSet.WF.emit {acc : ZSet D} (h : WF acc) (ds : List D) (m : Int) : WF (acc.emit ds m) := by
  unfold ZSet.emit
  induction ds generalizing acc with
  | nil => exact h
  | cons d t ih => exact ih (h.addDoc _ _)

theorem mem_fst_emit {acc : ZSet D} {ds : List D} {m : Int} {x : D}
    (h : x ∈ (acc.emit ds m).map Prod.fst) : x ∈ ds ∨ x ∈ acc.map Prod.fst := by
  unfold ZSet.emit at h
  induction ds generalizing acc with
  | nil => exact Or.inr h
  | cons d t ih =>
    rcases ih h with h | h
    · exact Or.inl (List.mem_cons_of_mem _ h)
    · rcases mem_fst_addDoc h with h | h
      · exact Or.inl (by simp [h])
      · exact Or.inr h

theorem linGo_spec {f : Ev D} {acc z r : ZSet D} (h : linGo f acc z = .ok r) :
    (∀ x ∈ z.map Prod.fst, ∃ ds, f x = .ok ds) ∧
    (∀ g, wsum g r = wsum g acc + wsum (evSum f g) z) ∧ (WF acc → WF r) ∧
    (∀ y ∈ r.map Prod.fst, y ∈ acc.map Prod.fst ∨ ∃ x ∈ z.map Prod.fst, ∃ ds, f x = .ok ds ∧ y ∈ ds) := by
  induction z generalizing acc with
  | nil => simp only [linGo, Except.ok.injEq] at h; subst h; simp [wsum]
  | cons p t ih =>
    obtain ⟨x, m⟩ := p
    unfold linGo at h
    split at h
    · exact absurd h (by simp)
    · rename_i ds hx
      obtain ⟨h1, h2, h3, h4⟩ := ih h
      refine ⟨?_, ?_, ?_, ?_⟩
      · intro y hy
        simp only [List.map_cons, List.mem_cons] at hy
        rcases hy with rfl | hy
        · exact ⟨ds, hx⟩
        · exact h1 y hy
      · intro g
        rw [h2, wsum_emit]
        simp only [wsum, evSum, hx]; omega
      · intro hw; exact h3 (hw.emit _ _)
      · intro y hy
        rcases h4 y hy with h | ⟨x', hx', ds', h5, h6⟩
        · rcases mem_fst_emit h with h | h
          · exact Or.inr ⟨x, by simp, ds, hx, h⟩
          · exact Or.inl h
        · exact Or.inr ⟨x', by rw [List.map_cons]; exact List.mem_cons_of_mem _ hx', ds', h5, h6⟩

theorem linGo_ok {f : Ev D} (acc z : ZSet D) (h : ∀ x ∈ z.map Prod.fst, ∃ ds, f x = .ok ds) :
    ∃ r, linGo f acc z = .ok r := by
  induction z generalizing acc with
  | nil => exact ⟨acc, rfl⟩
  | cons p t ih =>
    obtain ⟨x, m⟩ := p
    obtain ⟨ds, hx⟩ := h x (by simp)
    unfold linGo
    rw [hx]
    exact ih _ (fun y hy => h y (by rw [List.map_cons]; exact List.mem_cons_of_mem _ hy))

theorem linProc_ok_iff {f : Ev D} {z : ZSet D} :
    (∃ r, linProc f z = .ok r) ↔ ∀ x ∈ z.map Prod.fst, ∃ ds, f x = .ok ds :=
  ⟨fun ⟨_, h⟩ => (linGo_spec h).1, fun h => linGo_ok [] z h⟩

theorem linProc_wf {f : Ev D} {z r : ZSet D} (h : linProc f z = .ok r) : WF r :=
  (linGo_spec h).2.2.1 WF.nil

theorem linProc_wsum {f : Ev D} {z r : ZSet D} (h : linProc f z = .ok r) (g : D → Int) :
    wsum g r = wsum (evSum f g) z := by
  have := (linGo_spec h).2.1 g; simpa [wsum] using this

theorem linProc_mem {f : Ev D} {z r : ZSet D} (h : linProc f z = .ok r) {y : D}
    (hy : y ∈ r.map Prod.fst) : ∃ x ∈ z.map Prod.fst, ∃ ds, f x = .ok ds ∧ y ∈ ds := by
  rcases (linGo_spec h).2.2.2 y hy with h | h
  · simp at h
  · exact h

theorem linProc_get {f : Ev D} {z r : ZSet D} (h : linProc f z = .ok r) (d : D) :
    get r d = wsum (evSum f (fun x => if x = d then 1 else 0)) z := by
  rw [← wsum_ind (linProc_wf h), linProc_wsum h]

/-- Same multiplicities in, same multiplicities out. -/
theorem linProc_eqv {f : Ev D} {z z' r : ZSet D} (hz : WF z) (hz' : WF z') (he : Eqv z z')
    (h : linProc f z = .ok r) : ∃ r', linProc f z' = .ok r' ∧ Eqv r' r := by
  have hp := perm_of_eqv hz hz' he
  have : ∃ r', linProc f z' = .ok r' := by
    rw [linProc_ok_iff]
    intro x hx
    exact linProc_ok_iff.mp ⟨r, h⟩ x ((hp.map Prod.fst).mem_iff.mpr hx)
  obtain ⟨r', h'⟩ := this
  refine ⟨r', h', fun d => ?_⟩
  rw [linProc_get h', linProc_get h]
  exact (wsum_perm _ hp).symm

/-- If the stage succeeds on `z` and on `w` it succeeds on `z + w` and the results add up. -/
theorem linProc_add {f : Ev D} {z w r s : ZSet D} (h : linProc f z = .ok r) (h' : linProc f w = .ok s) :
    ∃ t, linProc f (z.add w) = .ok t ∧ ∀ d, get t d = get r d + get s d := by
  have : ∃ t, linProc f (z.add w) = .ok t := by
    rw [linProc_ok_iff]
    intro x hx
    rcases mem_fst_add hx with hx | hx
    · exact linProc_ok_iff.mp ⟨r, h⟩ x hx
    · exact linProc_ok_iff.mp ⟨s, h'⟩ x hx
  obtain ⟨t, ht⟩ := this
  refine ⟨t, ht, fun d => ?_⟩
  rw [linProc_get ht, linProc_get h, linProc_get h', wsum_add]

/-! ### unwind as a linear operator -/

/-- The documents an unwind stage produces for one document. -/
def unwindEv (ex : D → Except Err (Option (List J))) (tr : D → J → Except Err D) : Ev D := fun x =>
  match ex x with
  | .error e => .error e
  | .ok none => .ok []
  | .ok (some es) => bindDocs (fun e => match tr x e with
      | .error e => .error e
      | .ok d => .ok [d]) es

theorem unwindElems_eq (tr : D → J → Except Err D) (x : D) (m : Int) (acc : ZSet D) (es : List J) :
    unwindElems tr x m acc es =
      match bindDocs (fun e => match tr x e with
        | .error e => .error e
        | .ok d => .ok [d]) es with
      | .error e => .error e
      | .ok ds => .ok (acc.emit ds m) := by
  induction es generalizing acc with
  | nil => simp [unwindElems, bindDocs, emit]
  | cons e t ih =>
    unfold unwindElems bindDocs
    cases htr : tr x e with
    | error err => simp
    | ok d =>
      simp only [ih]
      cases bindDocs (fun e => match tr x e with
        | .error e => .error e
        | .ok d => .ok [d]) t with
      | error err => rfl
      | ok ds => simp [emit]

theorem unwindProc_eq (ex : D → Except Err (Option (List J))) (tr : D → J → Except Err D) (z : ZSet D) :
    unwindProc ex tr z = linProc (unwindEv ex tr) z := by
  unfold unwindProc linProc
  generalize ([] : ZSet D) = acc
  induction z generalizing acc with
  | nil => simp [unwindGo, linGo]
  | cons p t ih =>
    obtain ⟨x, m⟩ := p
    unfold unwindGo linGo
    have hu : unwindEv ex tr x = match ex x with
      | .error e => .error e
      | .ok none => .ok []
      | .ok (some es) => bindDocs (fun e => match tr x e with
          | .error e => .error e
          | .ok d => .ok [d]) es := rfl
    rw [hu]
    cases hex : ex x with
    | error err => simp
    | ok o =>
      cases o with
      | none => simp [ih, emit]
      | some es =>
        simp only [unwindElems_eq]
        cases bindDocs (fun e => match tr x e with
          | .error e => .error e
          | .ok d => .ok [d]) es with
        | error err => rfl
        | ok ds => simp [ih]

/-! ### linear view of an operator -/

/-- The per-document function of a linear operator. -/
def Op.linEv : Op D J → Option (Ev D)
  | .project ev => some ev
  | .select ev => some ev
  | .unwind ex tr => some (unwindEv ex tr)
  | .projSel p s => some (projSelEv p s)
  | .selProjs s ps => some (selProjsEv s ps)
  | _ => none

theorem Op.proc_linEv {o : Op D J} {f : Ev D} (h : o.linEv = some f) (z : ZSet D) :
    o.proc z = (o, linProc f z) := by
  cases o <;> simp_all [Op.linEv, Op.proc, unwindProc_eq]

/-! ### gather -/

theorem gatherAgg_wf {g : Gather D J} {acc r : ZSet D} {gs : List (Group D J)} (hw : WF acc)
    (h : gatherAgg g acc gs = .ok r) : WF r := by
  induction gs generalizing acc with
  | nil => simp only [gatherAgg, Except.ok.injEq] at h; exact h ▸ hw
  | cons x t ih =>
    unfold gatherAgg at h
    split at h
    · exact absurd h (by simp)
    · exact ih (hw.addDoc _ _) h

theorem gatherProc_wf {g : Gather D J} {z r : ZSet D} (h : gatherProc g z = .ok r) : WF r := by
  unfold gatherProc at h
  split at h
  · exact absurd h (by simp)
  · exact gatherAgg_wf WF.nil h

theorem gatherProc_nil (g : Gather D J) : gatherProc g [] = .ok [] := rfl

/-! ### Kleisli composition of evaluators (fusion) -/

theorem bindDocs_ok_iff {A B : Type} {f : A → Except Err (List B)} {xs : List A} :
    (∃ ys, bindDocs f xs = .ok ys) ↔ ∀ x ∈ xs, ∃ ys, f x = .ok ys := by
  induction xs with
  | nil => simp [bindDocs]
  | cons x t ih =>
    unfold bindDocs
    cases hx : f x with
    | error e => simp [hx]
    | ok ys =>
      simp only [List.mem_cons, forall_eq_or_imp, hx, Except.ok.injEq, exists_eq', true_and, ← ih]
      cases hb : bindDocs f t with
      | error e => simp
      | ok zs => simp

theorem bindDocs_dsum {f : Ev D} {xs ys : List D} (h : bindDocs f xs = .ok ys) (g : D → Int) :
    dsum g ys = dsum (evSum f g) xs := by
  induction xs generalizing ys with
  | nil => simp only [bindDocs, Except.ok.injEq] at h; subst h; rfl
  | cons x t ih =>
    unfold bindDocs at h
    split at h
    · exact absurd h (by simp)
    · rename_i a hx
      split at h
      · exact absurd h (by simp)
      · rename_i b hb
        simp only [Except.ok.injEq] at h
        subst h
        rw [dsum_append, ih hb]
        simp only [dsum]
        congr 1
        simp [evSum, hx]

/-- Kleisli composition. -/
def kl (f f' : Ev D) : Ev D := fun x =>
  match f x with
  | .error e => .error e
  | .ok ds => bindDocs f' ds

theorem projSelEv_eq_kl (p s : Ev D) : projSelEv p s = kl p s := rfl

/-- Running two linear stages after each other agrees with the composed stage whenever the composed stage
succeeds on every document. -/
theorem linProc_kl {f f' : Ev D} {z r : ZSet D} (h : linProc (kl f f') z = .ok r) :
    ∃ m r', linProc f z = .ok m ∧ linProc f' m = .ok r' ∧ Eqv r' r := by
  have hok := linProc_ok_iff.mp ⟨r, h⟩
  have h1 : ∃ m, linProc f z = .ok m := by
    rw [linProc_ok_iff]
    intro x hx
    obtain ⟨ds, hds⟩ := hok x hx
    unfold kl at hds
    cases hf : f x with
    | error e => rw [hf] at hds; simp at hds
    | ok ys => exact ⟨ys, rfl⟩
  obtain ⟨m, hm⟩ := h1
  have h2 : ∃ r', linProc f' m = .ok r' := by
    rw [linProc_ok_iff]
    intro y hy
    obtain ⟨x, hx, ds, hds, hyds⟩ := linProc_mem hm hy
    obtain ⟨es, hes⟩ := hok x hx
    unfold kl at hes
    rw [hds] at hes
    exact bindDocs_ok_iff.mp ⟨es, hes⟩ y hyds
  obtain ⟨r', hr'⟩ := h2
  refine ⟨m, r', hm, hr', fun d => ?_⟩
  rw [linProc_get hr', linProc_wsum hm, linProc_get h]
  apply wsum_congr
  intro x hx
  obtain ⟨es, hes⟩ := hok x hx
  unfold evSum
  rw [hes]
  unfold kl at hes
  cases hf : f x with
  | error e => rw [hf] at hes; simp at hes
  | ok ys =>
    rw [hf] at hes
    exact (bindDocs_dsum hes _).symm

/-- Composition of a list of evaluators. -/
def klList : List (Ev D) → Ev D
  | [] => fun x => .ok [x]
  | f :: fs => kl f (klList fs)

theorem projChain_klList {ps : List (Ev D)} {x y : D} (h : projChain ps x = .ok y) :
    klList ps x = .ok [y] := by
  induction ps generalizing x with
  | nil => simp only [projChain, Except.ok.injEq] at h; simp [klList, h]
  | cons p t ih =>
    unfold projChain at h
    split at h
    · exact absurd h (by simp)
    · rename_i a hp
      simp [klList, kl, hp, bindDocs, ih h]
    · exact absurd h (by simp)

theorem bindDocs_mono {A B : Type} {f f' : A → Except Err (List B)}
    (hff : ∀ x ys, f x = .ok ys → f' x = .ok ys) {xs : List A} {ys : List B}
    (h : bindDocs f xs = .ok ys) : bindDocs f' xs = .ok ys := by
  induction xs generalizing ys with
  | nil => exact h
  | cons x t ih =>
    unfold bindDocs at h ⊢
    split at h
    · exact absurd h (by simp)
    · rename_i a hx
      split at h
      · exact absurd h (by simp)
      · rename_i b hb
        rw [hff _ _ hx, ih hb]; exact h

theorem selProjsEv_kl {s : Option (Ev D)} {ps : List (Ev D)} {x : D} {ds : List D}
    (h : selProjsEv s ps x = .ok ds) :
    klList ((match s with
      | some s => [s]
      | none => []) ++ ps) x = .ok ds := by
  have hmono : ∀ (y : D) (ys : List D), (match projChain ps y with
      | .error e => Except.error e
      | .ok z => .ok [z]) = .ok ys → klList ps y = .ok ys := by
    intro y ys hy
    split at hy
    · exact absurd hy (by simp)
    · rename_i z hz
      simp only [Except.ok.injEq] at hy; subst hy
      exact projChain_klList hz
  unfold selProjsEv at h
  cases s with
  | none =>
    simp only [List.nil_append] at h ⊢
    have := bindDocs_mono hmono h
    unfold bindDocs at this
    split at this
    · exact absurd this (by simp)
    · rename_i ys hys
      simp only [bindDocs, List.append_nil] at this
      rw [hys, ← this]
  | some s =>
    simp only [List.singleton_append, klList, kl] at h ⊢
    split at h
    · exact absurd h (by simp)
    · rename_i ys hys
      rw [hys]
      exact bindDocs_mono hmono h

end Dctl
