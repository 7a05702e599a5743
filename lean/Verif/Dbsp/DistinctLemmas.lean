import Verif.Dbsp.MoreLemmas
/-!
# Lemmas about repeated distinct operators
-/
set_option autoImplicit false
set_option linter.unusedSectionVars false
namespace Dctl
variable {D J : Type} [DecidableEq D] [DecidableEq J]
open ZSet Rewrite

theorem Op.proc_distinct (o : Op D J) (z : ZSet D) : (o.proc z).1 = .distinct ↔ o = .distinct := by
  cases o <;> simp [Op.proc]

theorem upd_fresh {z : ZSet D} {d : D} (h : d ∉ z.map Prod.fst) (c : Int) : ZSet.upd z d c = z ++ [(d, c)] := by
  induction z with
  | nil => rfl
  | cons p t ih =>
    simp only [List.map_cons, List.mem_cons, not_or] at h
    rw [ZSet.upd, if_neg (fun e => h.1 e.symm), ih h.2]; rfl

theorem foldl_distinct {z acc : ZSet D} (hz : WF z) (hd : ∀ x ∈ z.map Prod.fst, x ∉ acc.map Prod.fst) :
    z.foldl (fun acc p => if p.2 > 0 then addDoc acc p.1 1 else acc) acc = acc ++ (z.filter (fun p => decide (p.2 > 0))).map (fun p => (p.1, 1)) := by
  induction z generalizing acc with
  | nil => simp
  | cons p t ih =>
    obtain ⟨x, m⟩ := p
    rw [List.foldl_cons]
    by_cases h : m > 0
    · rw [if_pos h, show addDoc acc x 1 = acc ++ [(x, 1)] from upd_fresh (hd x (by simp)) 1, ih hz.tail]
      · simp [h]
      · intro y hy
        simp only [List.map_append, List.mem_append, not_or, List.map_cons, List.map_nil, List.mem_singleton]
        exact ⟨hd y (by simp [hy]), fun e => hz.not_mem (e ▸ hy)⟩
    · rw [if_neg h, ih hz.tail (fun y hy => hd y (by simp at hy ⊢; exact .inr hy))]
      simp [h]

theorem distinct_wf' (z : ZSet D) : WF z.distinct := by
  suffices h : ∀ acc : ZSet D, WF acc → WF (z.foldl (fun acc p => if p.2 > 0 then addDoc acc p.1 1 else acc) acc) from h [] WF.nil
  induction z with
  | nil => exact fun _ h => h
  | cons p t ih => intro acc h; rw [List.foldl_cons]; refine ih _ ?_; split <;> first | exact h.addDoc _ _ | exact h

theorem distinct_distinct {z : ZSet D} (hz : WF z) : z.distinct.distinct = z.distinct := by
  have h1 : z.distinct = (z.filter (fun p => decide (p.2 > 0))).map (fun p => (p.1, 1)) := by
    exact foldl_distinct (acc := []) hz (by simp)
  have hw : WF z.distinct := distinct_wf' z
  have h2 : z.distinct.distinct = (z.distinct.filter (fun p => decide (p.2 > 0))).map (fun p => (p.1, 1)) := by
    exact foldl_distinct (acc := []) hw (by simp)
  rw [h2, h1]
  simp [List.filter_map, Function.comp_def]

/-- The Z-sets held by an operator are well formed. -/
def Op.StateWF : Op D J → Prop
  | .integ s => WF s
  | .delay s => WF s
  | _ => True

theorem Op.proc_wf {o : Op D J} (ho : o.StateWF) {z : ZSet D} (hz : WF z) :
    (o.proc z).1.StateWF ∧ ∀ r, (o.proc z).2 = .ok r → WF r := by
  cases o <;> simp only [Op.proc, Op.StateWF, true_and] at *
  · exact fun r h => linProc_wf h
  · exact fun r h => linProc_wf h
  · intro r h; rw [unwindProc_eq] at h; exact linProc_wf h
  · exact fun r h => gatherProc_wf h
  · intro r h; cases h; exact distinct_wf' z
  · exact ⟨ho.add z, fun r h => by cases h; exact ho.add z⟩
  · exact fun r h => by cases h; exact hz.sub _
  · exact ⟨hz, fun r h => by cases h; exact ho⟩
  · exact fun r h => by cases h; exact WF.nil.sub z
  · exact fun r h => linProc_wf h
  · exact fun r h => linProc_wf h

theorem elimDD_cons {nd : Node D J} {c : List (Node D J)} (h : nd.op ≠ .distinct ∨ (c.head?.map Node.op ≠ some .distinct)) :
    elimDD (nd :: c) = nd :: elimDD c := by
  obtain ⟨o, l⟩ := nd
  cases c with
  | nil => cases o <;> rfl
  | cons b t =>
    obtain ⟨o', l'⟩ := b
    cases o <;> first | rfl | (cases o' <;> first | rfl | (simp at h))

theorem runChain_cons (σ : Order D) (i : Nat) (nd : Node D J) (c : List (Node D J)) (z : ZSet D) :
    runChain σ i (nd :: c) z = (match nd.op.proc (σ i z) with
    | (o', .error e) => ({ nd with op := o' } :: c, .error e)
    | (o', .ok r) => ({ nd with op := o' } :: (runChain σ (i + 1) c r).1, (runChain σ (i + 1) c r).2)) := rfl

theorem runChain_head (σ : Order D) (i : Nat) (c : List (Node D J)) (z : ZSet D) :
    (runChain σ i c z).1.head?.map Node.op = some .distinct ↔ c.head?.map Node.op = some .distinct := by
  cases c with
  | nil => rfl
  | cons nd t =>
    rw [runChain_cons]
    have := Op.proc_distinct nd.op (σ i z)
    split <;> rename_i h <;> rw [h] at this <;> simpa using this

theorem runChain_wf {i : Nat} {c : List (Node D J)} {z : ZSet D} (hc : ∀ nd ∈ c, nd.op.StateWF) (hz : WF z) :
    ∀ nd ∈ (runChain (fun _ z => z) i c z).1, nd.op.StateWF := by
  induction c generalizing i z with
  | nil => simp [runChain]
  | cons nd t ih =>
    rw [runChain_cons]
    have h := Op.proc_wf (hc nd (by simp)) hz
    have ht : ∀ nd ∈ t, nd.op.StateWF := fun x hx => hc x (List.mem_cons_of_mem _ hx)
    cases hp : nd.op.proc z with
    | mk o' r =>
      rw [hp] at h
      cases r with
      | error e =>
        simp only [List.mem_cons]
        rintro x (rfl | hx)
        · exact h.1
        · exact ht x hx
      | ok r =>
        simp only [List.mem_cons]
        rintro x (rfl | hx)
        · exact h.1
        · exact ih ht (h.2 r rfl) x hx

end Dctl
