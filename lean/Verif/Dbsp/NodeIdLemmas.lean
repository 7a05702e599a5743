import Verif.Spec.NodeIds
import Verif.Dbsp.ChainLemmas
import Verif.Dbsp.MoreLemmas
import Std.Data.String.ToInt
/-!
# Lemmas on graphs with node identifiers
-/
set_option autoImplicit false
set_option linter.unusedSectionVars false
namespace Dctl
variable {D J : Type} [DecidableEq D] [DecidableEq J]
open Rewrite

/-! ## Identifiers -/

theorem nodeId_inj {p q : String} (hp : p ∈ ["input", "join", "op"]) (hq : q ∈ ["input", "join", "op"]) {m n : Nat} (h : nodeId p m = nodeId q n) : p = q ∧ m = n := by
  have hl := congrArg String.toList h
  simp only [nodeId, String.toList_append] at hl
  have e1 : "input".toList = ['i', 'n', 'p', 'u', 't'] := by decide
  have e2 : "join".toList = ['j', 'o', 'i', 'n'] := by decide
  have e3 : "op".toList = ['o', 'p'] := by decide
  have key : p = q := by
    simp only [List.mem_cons, List.not_mem_nil, or_false] at hp hq
    rcases hp with rfl | rfl | rfl <;> rcases hq with rfl | rfl | rfl <;> first | rfl | (rw [e1, e2] at hl; simp at hl) | (rw [e1, e3] at hl; simp at hl) | (rw [e2, e3] at hl; simp at hl)
  subst key
  refine ⟨rfl, ?_⟩
  have h2 := List.append_cancel_left hl
  exact Nat.repr_inj.mp (String.ext h2)

theorem nodeId_ne (p : String) (n : Nat) : nodeId p n ≠ "" := by
  intro h
  have hl := congrArg String.toList h
  simp [nodeId, String.toList_append] at hl

/-! ## The nodes of a part of a chain -/

/-- A node of the chain, with identifiers. -/
def encNode (nd : Node D J) : IdNode D J := ⟨.chain nd.op, nd.lifted⟩

/-- The nodes of `ids` are `c`. -/
def Enc (nodes : AMap String (IdNode D J)) (ids : List String) (c : List (Node D J)) : Prop := ids.map nodes.get = c.map (fun nd => some (encNode nd))

theorem Enc.nil {nodes : AMap String (IdNode D J)} : Enc nodes [] ([] : List (Node D J)) := rfl

theorem enc_cons {nodes : AMap String (IdNode D J)} {id : String} {ids : List String} {c : List (Node D J)} :
    Enc nodes (id :: ids) c ↔ ∃ nd c', c = nd :: c' ∧ nodes.get id = some (encNode nd) ∧ Enc nodes ids c' := by
  cases c with
  | nil => simp [Enc]
  | cons nd c' =>
    simp only [Enc, List.map_cons, List.cons.injEq]
    exact ⟨fun h => ⟨nd, c', ⟨rfl, rfl⟩, h⟩, fun ⟨_, _, ⟨rfl, rfl⟩, h⟩ => h⟩

theorem enc_nil {nodes : AMap String (IdNode D J)} {c : List (Node D J)} : Enc nodes [] c ↔ c = [] := by
  cases c <;> simp [Enc]

theorem Enc.length {nodes : AMap String (IdNode D J)} {ids : List String} {c : List (Node D J)} (h : Enc nodes ids c) : ids.length = c.length := by
  have := congrArg List.length h
  simpa using this

theorem enc_append {nodes : AMap String (IdNode D J)} {ids ids' : List String} {c c' : List (Node D J)} (h : Enc nodes ids c) (h' : Enc nodes ids' c') :
    Enc nodes (ids ++ ids') (c ++ c') := by
  simp only [Enc, List.map_append] at *
  rw [h, h']

theorem Enc.congr {nodes nodes' : AMap String (IdNode D J)} {ids : List String} {c : List (Node D J)} (h : Enc nodes ids c)
    (hf : ∀ id ∈ ids, nodes'.get id = nodes.get id) : Enc nodes' ids c := by
  simp only [Enc] at *
  rw [← h]
  exact List.map_congr_left hf

theorem Enc.take {nodes : AMap String (IdNode D J)} {ids : List String} {c : List (Node D J)} (h : Enc nodes ids c) (i : Nat) : Enc nodes (ids.take i) (c.take i) := by
  simp only [Enc, List.map_take] at *
  rw [h]

theorem Enc.drop {nodes : AMap String (IdNode D J)} {ids : List String} {c : List (Node D J)} (h : Enc nodes ids c) (i : Nat) : Enc nodes (ids.drop i) (c.drop i) := by
  simp only [Enc, List.map_drop] at *
  rw [h]

theorem Enc.get {nodes : AMap String (IdNode D J)} {ids : List String} {c : List (Node D J)} (h : Enc nodes ids c) {i : Nat} {nd : Node D J} (hi : c[i]? = some nd) :
    ∃ id, ids[i]? = some id ∧ nodes.get id = some (encNode nd) := by
  have := congrArg (fun l => l[i]?) h
  simp only [List.getElem?_map, hi, Option.map_some] at this
  cases hx : ids[i]? with
  | none => simp [hx] at this
  | some id => simp only [hx, Option.map_some, Option.some.injEq] at this; exact ⟨id, rfl, this⟩

/-- What a walk over the identifiers `ids` that rewrites `c` does: `ids'` are the ones that are left, with the nodes `out`; the others are gone and nothing else has
changed. -/
structure Pass (nodes : AMap String (IdNode D J)) (ids : List String) (nodes' : AMap String (IdNode D J)) (ids' : List String) (out : List (Node D J)) : Prop where
  wf : AMap.WF nodes'
  sub : ids'.Sublist ids
  enc : Enc nodes' ids' out
  frame : ∀ id, id ∉ ids → nodes'.get id = nodes.get id
  gone : ∀ id, id ∈ ids → id ∉ ids' → nodes'.get id = none

theorem Pass.done {nodes : AMap String (IdNode D J)} (h : AMap.WF nodes) : Pass nodes [] nodes [] ([] : List (Node D J)) :=
  ⟨h, List.Sublist.slnil, Enc.nil, fun _ _ => rfl, fun _ h => by simp at h⟩

theorem Pass.keep {nodes nodes' : AMap String (IdNode D J)} {ids ids' : List String} {out : List (Node D J)} (h : Pass nodes ids nodes' ids' out) {a : String} (ha : a ∉ ids)
    {nd : Node D J} (hg : nodes.get a = some (encNode nd)) : Pass nodes (a :: ids) nodes' (a :: ids') (nd :: out) := by
  refine ⟨h.wf, h.sub.cons_cons a, enc_cons.mpr ⟨nd, out, rfl, by rw [h.frame a ha, hg], h.enc⟩, ?_, ?_⟩
  · intro id hid
    exact h.frame id (fun hm => hid (List.mem_cons_of_mem _ hm))
  · intro id hid hid'
    rcases List.mem_cons.mp hid with rfl | hid
    · simp at hid'
    · exact h.gone id hid (fun hm => hid' (List.mem_cons_of_mem _ hm))

theorem Pass.skip {nodes nodes' : AMap String (IdNode D J)} {ids ids' : List String} {out : List (Node D J)} (h : Pass nodes ids nodes' ids' out) {a : String} (ha : a ∉ ids)
    (hg : nodes.get a = none) : Pass nodes (a :: ids) nodes' ids' out := by
  refine ⟨h.wf, h.sub.cons a, h.enc, ?_, ?_⟩
  · intro id hid
    exact h.frame id (fun hm => hid (List.mem_cons_of_mem _ hm))
  · intro id hid hid'
    rcases List.mem_cons.mp hid with rfl | hid
    · rw [h.frame id ha, hg]
    · exact h.gone id hid hid'

theorem Pass.base {nodes nodes1 nodes' : AMap String (IdNode D J)} {ids ids' : List String} {out : List (Node D J)} (h : Pass nodes1 ids nodes' ids' out)
    (hb : ∀ id, id ∉ ids → nodes1.get id = nodes.get id) : Pass nodes ids nodes' ids' out :=
  ⟨h.wf, h.sub, h.enc, fun id hid => by rw [h.frame id hid, hb id hid], h.gone⟩

theorem Pass.skips {nodes nodes' : AMap String (IdNode D J)} {ids ids' : List String} {out : List (Node D J)} (h : Pass nodes ids nodes' ids' out) {as : List String}
    (ha : (as ++ ids).Nodup) (hg : ∀ a ∈ as, nodes.get a = none) : Pass nodes (as ++ ids) nodes' ids' out := by
  induction as with
  | nil => exact h
  | cons a as ih =>
    rw [List.cons_append, List.nodup_cons] at ha
    exact (ih ha.2 (fun b hb => hg b (List.mem_cons_of_mem _ hb))).skip ha.1 (hg a List.mem_cons_self)

theorem wf_eraseAll {nodes : AMap String (IdNode D J)} (h : AMap.WF nodes) (as : List String) : AMap.WF (as.foldl AMap.erase nodes) := by
  induction as generalizing nodes with
  | nil => exact h
  | cons a as ih => exact ih (h.erase a)

theorem get_eraseAll {nodes : AMap String (IdNode D J)} (h : AMap.WF nodes) (as : List String) (id : String) :
    (as.foldl AMap.erase nodes).get id = if id ∈ as then none else nodes.get id := by
  induction as generalizing nodes with
  | nil => simp
  | cons a as ih =>
    rw [List.foldl_cons, ih (h.erase a), AMap.get_erase h]
    by_cases h1 : id ∈ as
    · simp [h1]
    · by_cases h2 : a = id
      · simp [h2]
      · have h3 : id ≠ a := fun e => h2 e.symm
        simp [h1, h2, h3]

/-! ## Tests -/

namespace IdGraph

theorem anyNode_enc {p : IdNode D J → Bool} {nodes : AMap String (IdNode D J)} {ids : List String} {c : List (Node D J)} (h : Enc nodes ids c) :
    anyNode p nodes ids = some (c.any (fun nd => p (encNode nd))) := by
  induction ids generalizing c with
  | nil => rw [enc_nil.mp h]; rfl
  | cons id ids ih =>
    obtain ⟨nd, c', rfl, h1, h2⟩ := enc_cons.mp h
    simp only [anyNode, h1, List.any_cons]
    cases hp : p (encNode nd) with
    | true => simp
    | false => simp [ih h2]

/-- Is there a pair of neighbours with the property? -/
def pairs (p : AnyOp D J → AnyOp D J → Bool) : List (Node D J) → Bool
  | a :: b :: t => p (.chain a.op) (.chain b.op) || pairs p (b :: t)
  | _ => false

theorem anyPair_enc {p : AnyOp D J → AnyOp D J → Bool} {nodes : AMap String (IdNode D J)} {ids : List String} {c : List (Node D J)} (h : Enc nodes ids c) :
    anyPair p nodes ids = some (pairs p c) := by
  induction ids generalizing c with
  | nil => rw [enc_nil.mp h]; rfl
  | cons a ids ih =>
    obtain ⟨x, c', rfl, h1, h2⟩ := enc_cons.mp h
    cases ids with
    | nil => rw [enc_nil.mp h2]; rfl
    | cons b t =>
      have ih' := ih h2
      obtain ⟨y, c'', rfl, h3, h4⟩ := enc_cons.mp h2
      simp only [anyPair, h1, h3, pairs]
      show (if p (.chain x.op) (.chain y.op) then some true else anyPair p nodes (b :: t)) = _
      cases hp : p (.chain x.op) (.chain y.op) with
      | true => simp
      | false => simp [ih']

theorem hasID_pairs (c : List (Node D J)) : hasID c = pairs (fun a b => a.isInteg && b.isDiff) c := by
  induction c with
  | nil => rfl
  | cons a t ih =>
    obtain ⟨o, l⟩ := a
    cases t with
    | nil => cases o <;> rfl
    | cons b t =>
      obtain ⟨o', l'⟩ := b
      rw [pairs, ← ih]
      cases o <;> first | (cases o' <;> rfl) | rfl

theorem hasDD_pairs (c : List (Node D J)) : hasDD c = pairs (fun a b => a.isDistinct && b.isDistinct) c := by
  induction c with
  | nil => rfl
  | cons a t ih =>
    obtain ⟨o, l⟩ := a
    cases t with
    | nil => cases o <;> rfl
    | cons b t =>
      obtain ⟨o', l'⟩ := b
      rw [pairs, ← ih]
      cases o <;> first | (cases o' <;> rfl) | rfl

theorem hasPS_pairs (c : List (Node D J)) : Rewrite.hasPS c = pairs (fun a b => a.asProject.isSome && b.asSelect.isSome) c := by
  induction c with
  | nil => rfl
  | cons a t ih =>
    obtain ⟨o, l⟩ := a
    cases t with
    | nil => cases o <;> rfl
    | cons b t =>
      obtain ⟨o', l'⟩ := b
      rw [pairs, ← ih]
      cases o <;> first | (cases o' <;> rfl) | rfl

theorem spanProj_enc {nodes : AMap String (IdNode D J)} {ids : List String} {c : List (Node D J)} (h : Enc nodes ids c) :
    spanProj nodes ids = some ((Rewrite.spanProj c).1, ids.drop (Rewrite.spanProj c).1.length) ∧ (Rewrite.spanProj c).2 = c.drop (Rewrite.spanProj c).1.length := by
  induction ids generalizing c with
  | nil => rw [enc_nil.mp h]; exact ⟨rfl, rfl⟩
  | cons id ids ih =>
    obtain ⟨nd, c', rfl, h1, h2⟩ := enc_cons.mp h
    obtain ⟨i1, i2⟩ := ih h2
    obtain ⟨o, l⟩ := nd
    simp only [spanProj, h1, encNode]
    cases o <;> simp [Rewrite.spanProj, AnyOp.asProject, i1, i2]

theorem hasSP_enc {nodes : AMap String (IdNode D J)} {ids : List String} {c : List (Node D J)} (h : Enc nodes ids c) : hasSP nodes ids = some (Rewrite.hasSP c) := by
  induction ids generalizing c with
  | nil => rw [enc_nil.mp h]; rfl
  | cons a ids ih =>
    obtain ⟨x, c', rfl, h1, h2⟩ := enc_cons.mp h
    cases ids with
    | nil =>
      rw [enc_nil.mp h2]
      obtain ⟨o, l⟩ := x
      cases o <;> rfl
    | cons b t =>
      have ih' := ih h2
      obtain ⟨s1, s2⟩ := spanProj_enc h2
      obtain ⟨y, c'', rfl, h3, h4⟩ := enc_cons.mp h2
      obtain ⟨o, l⟩ := x
      obtain ⟨o', l'⟩ := y
      simp only [hasSP, h1, encNode]
      cases o <;> simp only [AnyOp.asSelect, ih', Rewrite.hasSP]
      rw [s1]
      cases o' <;> simp [Rewrite.spanProj, Rewrite.hasSP]

/-- Does the chain start with a projection? -/
def startsProj : List (Node D J) → Bool
  | ⟨.project _, _⟩ :: _ => true
  | _ => false

theorem hasPP_enc {nodes : AMap String (IdNode D J)} {ids : List String} {c : List (Node D J)} (h : Enc nodes ids c) :
    hasPP nodes 0 ids = some (Rewrite.hasPP c) ∧ hasPP nodes 1 ids = some (Rewrite.hasPP c || startsProj c) := by
  induction ids generalizing c with
  | nil => rw [enc_nil.mp h]; exact ⟨rfl, rfl⟩
  | cons a ids ih =>
    obtain ⟨x, c', rfl, h1, h2⟩ := enc_cons.mp h
    obtain ⟨i1, i2⟩ := ih h2
    obtain ⟨o, l⟩ := x
    simp only [hasPP, h1, encNode]
    cases o with
    | project p =>
      simp only [AnyOp.asProject]
      refine ⟨?_, by simp [startsProj]⟩
      simp only [i2]
      cases c' with
      | nil => simp [Rewrite.hasPP, startsProj]
      | cons y t =>
        obtain ⟨o', l'⟩ := y
        cases o' <;> simp [Rewrite.hasPP, startsProj]
    | _ => simp [AnyOp.asProject, i1, Rewrite.hasPP, startsProj]

/-! ## The walks of the rules -/

theorem nodup_tail {a : String} {l : List String} (h : (a :: l).Nodup) : a ∉ l ∧ l.Nodup := List.nodup_cons.mp h

theorem idLoop_enc {nodes : AMap String (IdNode D J)} {ids : List String} {c : List (Node D J)} (hw : AMap.WF nodes) (hn : ids.Nodup) (h : Enc nodes ids c) (acc : List String) :
    ∃ nodes' ids', idLoop ids nodes acc = some (nodes', acc ++ ids') ∧ Pass nodes ids nodes' ids' (elimID c) := by
  fun_induction idLoop ids nodes acc generalizing c with
  | case1 a b t nodes acc x y hy hx hp ih =>
    obtain ⟨x', c', rfl, h1, h2⟩ := enc_cons.mp h
    obtain ⟨y', c'', rfl, h3, h4⟩ := enc_cons.mp h2
    obtain ⟨na, hn'⟩ := nodup_tail hn
    obtain ⟨nb, hn''⟩ := nodup_tail hn'
    simp only [List.mem_cons, not_or] at na
    have hab : a ≠ b := na.1
    have g : ∀ id, ((nodes.erase a).erase b).get id = if b = id then none else if a = id then none else nodes.get id := by
      intro id; rw [AMap.get_erase (hw.erase a), AMap.get_erase hw]
    have hE : Enc ((nodes.erase a).erase b) t c'' := h4.congr (fun id hid => by
      rw [g, if_neg (fun e : b = id => nb (e ▸ hid)), if_neg (fun e : a = id => na.2 (e ▸ hid))])
    obtain ⟨n', i', e1, e2⟩ := ih ((hw.erase a).erase b) hn'' hE
    refine ⟨n', i', e1, ?_⟩
    have hx' : x = encNode x' := by rw [h1] at hx; exact (Option.some.inj hx).symm
    have hy' : y = encNode y' := by rw [h3] at hy; exact (Option.some.inj hy).symm
    subst hx'; subst hy'
    have : elimID (x' :: y' :: c'') = elimID c'' := by
      obtain ⟨o, l⟩ := x'
      obtain ⟨o', l'⟩ := y'
      cases o <;> cases o' <;> simp_all [encNode, AnyOp.isInteg, AnyOp.isDiff, elimID]
    rw [this]
    refine Pass.base ((e2.skip nb ?_).skip (a := a) ?_ ?_) ?_
    · rw [g]; simp
    · simpa using na
    · rw [g]; simp
    · intro id hid
      simp only [List.mem_cons, not_or] at hid
      rw [g, if_neg (fun e => hid.2.1 e.symm), if_neg (fun e => hid.1 e.symm)]
  | case2 a b t nodes acc x y hy hx hp ih =>
    obtain ⟨x', c', rfl, h1, h2⟩ := enc_cons.mp h
    obtain ⟨na, hn'⟩ := nodup_tail hn
    obtain ⟨n', i', e1, e2⟩ := ih hw hn' h2
    refine ⟨n', a :: i', by rw [e1]; simp, ?_⟩
    obtain ⟨y', c'', rfl, h3, h4⟩ := enc_cons.mp h2
    have hx' : x = encNode x' := by rw [h1] at hx; exact (Option.some.inj hx).symm
    have hy' : y = encNode y' := by rw [h3] at hy; exact (Option.some.inj hy).symm
    subst hx'; subst hy'
    have : elimID (x' :: y' :: c'') = x' :: elimID (y' :: c'') := by
      obtain ⟨o, l⟩ := x'
      obtain ⟨o', l'⟩ := y'
      cases o <;> first | (cases o' <;> simp_all [encNode, AnyOp.isInteg, AnyOp.isDiff, elimID]) | simp [elimID]
    rw [this]
    exact e2.keep na h1
  | case3 a b t nodes acc hne =>
    obtain ⟨x', c', rfl, h1, h2⟩ := enc_cons.mp h
    obtain ⟨y', c'', rfl, h3, h4⟩ := enc_cons.mp h2
    exact absurd h3 (hne _ _ h1)
  | case4 a nodes acc =>
    obtain ⟨x', c', rfl, h1, h2⟩ := enc_cons.mp h
    rw [enc_nil.mp h2]
    refine ⟨nodes, [a], rfl, ?_⟩
    have : elimID [x'] = [x'] := by obtain ⟨o, l⟩ := x'; cases o <;> rfl
    rw [this]
    exact (Pass.done hw).keep (by simp) h1
  | case5 nodes acc => rw [enc_nil.mp h]; exact ⟨nodes, [], by simp, Pass.done hw⟩

theorem ddLoop_enc {nodes : AMap String (IdNode D J)} {ids : List String} {c : List (Node D J)} (hw : AMap.WF nodes) (hn : ids.Nodup) (h : Enc nodes ids c) (acc : List String) :
    ∃ nodes' ids', ddLoop ids nodes acc = some (nodes', acc ++ ids') ∧ Pass nodes ids nodes' ids' (elimDD c) := by
  fun_induction ddLoop ids nodes acc generalizing c with
  | case1 a b t nodes acc x y hy hx hp ih =>
    obtain ⟨x', c', rfl, h1, h2⟩ := enc_cons.mp h
    obtain ⟨y', c'', rfl, h3, h4⟩ := enc_cons.mp h2
    obtain ⟨na, hn'⟩ := nodup_tail hn
    obtain ⟨nb, hn''⟩ := nodup_tail hn'
    simp only [List.mem_cons, not_or] at na
    have hab : a ≠ b := na.1
    have g : ∀ id, (nodes.erase a).get id = if a = id then none else nodes.get id := fun id => AMap.get_erase hw a id
    have hE : Enc (nodes.erase a) t c'' := h4.congr (fun id hid => by rw [g, if_neg (fun e : a = id => na.2 (e ▸ hid))])
    obtain ⟨n', i', e1, e2⟩ := ih (hw.erase a) hn'' hE
    refine ⟨n', b :: i', by rw [e1]; simp, ?_⟩
    have hx' : x = encNode x' := by rw [h1] at hx; exact (Option.some.inj hx).symm
    have hy' : y = encNode y' := by rw [h3] at hy; exact (Option.some.inj hy).symm
    subst hx'; subst hy'
    have : elimDD (x' :: y' :: c'') = y' :: elimDD c'' := by
      obtain ⟨o, l⟩ := x'
      obtain ⟨o', l'⟩ := y'
      cases o <;> cases o' <;> simp_all [encNode, AnyOp.isDistinct, elimDD]
    rw [this]
    refine Pass.base ((e2.keep nb (nd := y') ?_).skip (a := a) ?_ ?_) ?_
    · rw [g, if_neg hab, h3]
    · simpa using na
    · rw [g]; simp
    · intro id hid
      simp only [List.mem_cons, not_or] at hid
      rw [g, if_neg (fun e => hid.1 e.symm)]
  | case2 a b t nodes acc x y hy hx hp ih =>
    obtain ⟨x', c', rfl, h1, h2⟩ := enc_cons.mp h
    obtain ⟨na, hn'⟩ := nodup_tail hn
    obtain ⟨n', i', e1, e2⟩ := ih hw hn' h2
    refine ⟨n', a :: i', by rw [e1]; simp, ?_⟩
    obtain ⟨y', c'', rfl, h3, h4⟩ := enc_cons.mp h2
    have hx' : x = encNode x' := by rw [h1] at hx; exact (Option.some.inj hx).symm
    have hy' : y = encNode y' := by rw [h3] at hy; exact (Option.some.inj hy).symm
    subst hx'; subst hy'
    have : elimDD (x' :: y' :: c'') = x' :: elimDD (y' :: c'') := by
      obtain ⟨o, l⟩ := x'
      obtain ⟨o', l'⟩ := y'
      cases o <;> first | (cases o' <;> simp_all [encNode, AnyOp.isDistinct, elimDD]) | simp [elimDD]
    rw [this]
    exact e2.keep na h1
  | case3 a b t nodes acc hne =>
    obtain ⟨x', c', rfl, h1, h2⟩ := enc_cons.mp h
    obtain ⟨y', c'', rfl, h3, h4⟩ := enc_cons.mp h2
    exact absurd h3 (hne _ _ h1)
  | case4 a nodes acc =>
    obtain ⟨x', c', rfl, h1, h2⟩ := enc_cons.mp h
    rw [enc_nil.mp h2]
    refine ⟨nodes, [a], rfl, ?_⟩
    have : elimDD [x'] = [x'] := by obtain ⟨o, l⟩ := x'; cases o <;> rfl
    rw [this]
    exact (Pass.done hw).keep (by simp) h1
  | case5 nodes acc => rw [enc_nil.mp h]; exact ⟨nodes, [], by simp, Pass.done hw⟩

theorem fusePSLoop_enc {nodes : AMap String (IdNode D J)} {ids : List String} {c : List (Node D J)} (hw : AMap.WF nodes) (hn : ids.Nodup) (h : Enc nodes ids c)
    (acc : List String) : ∃ nodes' ids', fusePSLoop ids nodes acc = some (nodes', acc ++ ids') ∧ Pass nodes ids nodes' ids' (fusePS c) := by
  fun_induction fusePSLoop ids nodes acc generalizing c with
  | case1 a b t nodes acc x y hy hx p s hs hp ih =>
    obtain ⟨x', c', rfl, h1, h2⟩ := enc_cons.mp h
    obtain ⟨y', c'', rfl, h3, h4⟩ := enc_cons.mp h2
    obtain ⟨na, hn'⟩ := nodup_tail hn
    obtain ⟨nb, hn''⟩ := nodup_tail hn'
    simp only [List.mem_cons, not_or] at na
    have hab : a ≠ b := na.1
    have g : ∀ id, ((nodes.set b { y with op := .chain (.projSel p s) }).erase a).get id
        = if a = id then none else if b = id then some { y with op := .chain (.projSel p s) } else nodes.get id := by
      intro id; rw [AMap.get_erase (hw.set b _), AMap.get_set]
    have hE : Enc ((nodes.set b { y with op := .chain (.projSel p s) }).erase a) t c'' := h4.congr (fun id hid => by
      rw [g, if_neg (fun e : a = id => na.2 (e ▸ hid)), if_neg (fun e : b = id => nb (e ▸ hid))])
    obtain ⟨n', i', e1, e2⟩ := ih ((hw.set b _).erase a) hn'' hE
    refine ⟨n', b :: i', by rw [e1]; simp, ?_⟩
    have hx' : x = encNode x' := by rw [h1] at hx; exact (Option.some.inj hx).symm
    have hy' : y = encNode y' := by rw [h3] at hy; exact (Option.some.inj hy).symm
    subst hx'; subst hy'
    have : fusePS (x' :: y' :: c'') = ⟨.projSel p s, y'.lifted⟩ :: fusePS c'' := by
      obtain ⟨o, l⟩ := x'
      obtain ⟨o', l'⟩ := y'
      cases o <;> cases o' <;> simp_all [encNode, AnyOp.asProject, AnyOp.asSelect, fusePS]
    rw [this]
    refine Pass.base ((e2.keep nb (nd := ⟨.projSel p s, y'.lifted⟩) ?_).skip (a := a) ?_ ?_) ?_
    · rw [g, if_neg hab]; simp [encNode]
    · simpa using na
    · rw [g]; simp
    · intro id hid
      simp only [List.mem_cons, not_or] at hid
      rw [g, if_neg (fun e => hid.1 e.symm), if_neg (fun e => hid.2.1 e.symm)]
  | case2 a b t nodes acc x y hy hx hp ih =>
    obtain ⟨x', c', rfl, h1, h2⟩ := enc_cons.mp h
    obtain ⟨na, hn'⟩ := nodup_tail hn
    obtain ⟨n', i', e1, e2⟩ := ih hw hn' h2
    refine ⟨n', a :: i', by rw [e1]; simp, ?_⟩
    obtain ⟨y', c'', rfl, h3, h4⟩ := enc_cons.mp h2
    have hx' : x = encNode x' := by rw [h1] at hx; exact (Option.some.inj hx).symm
    have hy' : y = encNode y' := by rw [h3] at hy; exact (Option.some.inj hy).symm
    subst hx'; subst hy'
    have : fusePS (x' :: y' :: c'') = x' :: fusePS (y' :: c'') := by
      obtain ⟨o, l⟩ := x'
      obtain ⟨o', l'⟩ := y'
      cases o <;> first | (cases o' <;> simp_all [encNode, AnyOp.asProject, AnyOp.asSelect, fusePS]) | simp [fusePS]
    rw [this]
    exact e2.keep na h1
  | case3 a b t nodes acc hne =>
    obtain ⟨x', c', rfl, h1, h2⟩ := enc_cons.mp h
    obtain ⟨y', c'', rfl, h3, h4⟩ := enc_cons.mp h2
    exact absurd h3 (hne _ _ h1)
  | case4 a nodes acc =>
    obtain ⟨x', c', rfl, h1, h2⟩ := enc_cons.mp h
    rw [enc_nil.mp h2]
    refine ⟨nodes, [a], rfl, ?_⟩
    have : fusePS [x'] = [x'] := by obtain ⟨o, l⟩ := x'; cases o <;> rfl
    rw [this]
    exact (Pass.done hw).keep (by simp) h1
  | case5 nodes acc => rw [enc_nil.mp h]; exact ⟨nodes, [], by simp, Pass.done hw⟩

/-- One fusion of a node with the projections that follow it, then the rest. -/
theorem fuse_step {nodes nodes' : AMap String (IdNode D J)} {a : String} {t ids' : List String} {k : Nat} {x : Node D J} {out : List (Node D J)} (hw : AMap.WF nodes)
    (hn : (a :: t).Nodup) (n : IdNode D J) (hx : n = encNode x)
    (h : Pass ((t.take k).foldl AMap.erase (nodes.set a n)) (t.drop k) nodes' ids' out) : Pass nodes (a :: t) nodes' (a :: ids') (x :: out) := by
  obtain ⟨na, hn'⟩ := nodup_tail hn
  have hw1 : AMap.WF (nodes.set a n) := hw.set a n
  have hat : a ∉ t.take k := fun hm => na (List.mem_of_mem_take hm)
  have g : ∀ id, ((t.take k).foldl AMap.erase (nodes.set a n)).get id = if id ∈ t.take k then none else if a = id then some n else nodes.get id := by
    intro id; rw [get_eraseAll hw1, AMap.get_set]
  have h1 := h.skips (as := t.take k) (by rw [List.take_append_drop]; exact hn') (fun b hb => by rw [g, if_pos hb])
  rw [List.take_append_drop] at h1
  refine Pass.base (h1.keep na (nd := x) ?_) ?_
  · rw [g, if_neg hat, if_pos rfl, hx]
  · intro id hid
    simp only [List.mem_cons, not_or] at hid
    rw [g, if_neg (fun hm => hid.2 (List.mem_of_mem_take hm)), if_neg (fun e => hid.1 e.symm)]

theorem fuseSPLoop_enc (m : Nat) {nodes : AMap String (IdNode D J)} {ids : List String} {c : List (Node D J)} (hm : ids.length ≤ m) (hw : AMap.WF nodes) (hn : ids.Nodup)
    (h : Enc nodes ids c) (acc : List String) : ∃ nodes' ids', fuseSPLoop m ids nodes acc = some (nodes', acc ++ ids') ∧ Pass nodes ids nodes' ids' (fuseSPn m c) := by
  induction m generalizing nodes ids c acc with
  | zero =>
    have : ids = [] := List.eq_nil_of_length_eq_zero (by omega)
    subst this
    rw [enc_nil.mp h]
    exact ⟨nodes, [], by simp [fuseSPLoop], Pass.done hw⟩
  | succ m ih =>
    cases ids with
    | nil => rw [enc_nil.mp h]; exact ⟨nodes, [], by simp [fuseSPLoop], Pass.done hw⟩
    | cons a t =>
      obtain ⟨x, c', rfl, h1, h2⟩ := enc_cons.mp h
      obtain ⟨na, hn'⟩ := nodup_tail hn
      simp only [List.length_cons] at hm
      obtain ⟨s1, s2⟩ := spanProj_enc h2
      have keep : ∃ nodes' ids', fuseSPLoop m t nodes (acc ++ [a]) = some (nodes', acc ++ ids') ∧ Pass nodes (a :: t) nodes' ids' (x :: fuseSPn m c') := by
        obtain ⟨n', i', e1, e2⟩ := ih (by omega) hw hn' h2 (acc ++ [a])
        exact ⟨n', a :: i', by rw [e1]; simp, e2.keep na h1⟩
      have fuse : ∀ (k : Nat) (y : Node D J), ∃ nodes' ids',
          fuseSPLoop m (t.drop k) ((t.take k).foldl AMap.erase (nodes.set a (encNode y))) (acc ++ [a]) = some (nodes', acc ++ ids') ∧
          Pass nodes (a :: t) nodes' ids' (y :: fuseSPn m (c'.drop k)) := by
        intro k y
        have hE : Enc ((t.take k).foldl AMap.erase (nodes.set a (encNode y))) (t.drop k) (c'.drop k) := (h2.drop k).congr (fun id hid => by
          have hnk : id ∉ t.take k := by
            intro hmk
            rw [← List.take_append_drop k t] at hn'
            exact (List.nodup_append.mp hn').2.2 _ hmk _ hid rfl
          rw [get_eraseAll (hw.set a _), if_neg hnk, AMap.get_set, if_neg (fun e : a = id => na (e ▸ List.mem_of_mem_drop hid))])
        obtain ⟨n', i', e1, e2⟩ := ih (ids := t.drop k) (by rw [List.length_drop]; omega) (wf_eraseAll (hw.set a _) _) (hn'.sublist (List.drop_sublist k t)) hE (acc ++ [a])
        exact ⟨n', a :: i', by rw [e1]; simp, fuse_step hw hn _ rfl e2⟩
      obtain ⟨o, l⟩ := x
      simp only [fuseSPLoop, h1, encNode]
      cases o with
      | select s =>
        simp only [AnyOp.asSelect, s1, fuseSPn]
        generalize hsp : Rewrite.spanProj c' = sp at *
        obtain ⟨ps, r⟩ := sp
        cases ps with
        | nil => exact keep
        | cons p ps =>
          simp only at s2
          subst s2
          exact fuse (p :: ps).length ⟨.selProjs (some s) (p :: ps), l⟩
      | project p =>
        simp only [AnyOp.asSelect, AnyOp.asProject, s1, fuseSPn]
        generalize hsp : Rewrite.spanProj c' = sp at *
        obtain ⟨ps, r⟩ := sp
        cases ps with
        | nil => exact keep
        | cons q ps =>
          simp only at s2
          subst s2
          exact fuse (q :: ps).length ⟨.selProjs none (p :: q :: ps), l⟩
      | _ => simpa [AnyOp.asSelect, AnyOp.asProject, fuseSPn] using keep

end IdGraph
end Dctl
