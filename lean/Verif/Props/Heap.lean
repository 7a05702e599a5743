import Verif.Dbsp.HeapGraphLemmas
import Verif.Spec.Sum
/-!
# C110: sharing of documents in memory never shows
-/
set_option autoImplicit false
set_option linter.unusedSectionVars false
namespace Dctl
namespace Mem
variable {K J : Type} [DecidableEq K] [DecidableEq J]

/-! ### copies -/

/-- C110: a deep copy of a value ends for values without cycles, stands for the same JSON value, consists of new cells only, and leaves
all existing cells alone; so later writes to existing cells do not show in the copy, and later writes to the copy do not
show in the original. -/
theorem C110_copy {h : Heap} {v : Val} {j : Json} (hv : Reads h v j) : ∃ h' v', Gives (fun n h => copy n h v) h (h', v') ∧
    Ext nowhere h h' ∧ Reads h' v' j ∧ (∀ b, Reach h' v' b → h.length ≤ b) ∧
    (∀ h'', Ext (fun b => b < h.length) h' h'' → Reads h'' v' j) ∧ (∀ h'', Ext (fun b => h.length ≤ b) h' h'' → Reads h'' v j) := by
  obtain ⟨n, hn⟩ := hv
  obtain ⟨h', v', hc, he, hr, hnew⟩ := copy_spec n hn
  refine ⟨h', v', ⟨n, fun m hm => copy_mono hc hm⟩, he, ⟨n, hr⟩, hnew, fun h'' he' => ?_, fun h'' he' => ?_⟩
  · exact (frame_ext ⟨n, hr⟩ hnew he' (fun b _ hb hb' => Nat.not_lt.mpr hb hb')).1
  · have hv' := frame_ext (A := fun b => b < h.length) ⟨n, hn⟩ (fun b hb => hb.lt hn) he (fun _ _ _ h => h)
    exact (frame_ext (A := fun b => b < h.length) hv'.1 (fun b hb => (hv'.2 b hb).lt hn) he' (fun b _ hb hb' => Nat.not_lt.mpr hb' hb)).1

/-- A document with a list that it holds twice: the copy has two lists. -/
example : copy 3 [.list [.int 1], .map [("a", .ref 0), ("b", .ref 0)]] (.ref 1) =
    some ([.list [.int 1], .map [("a", .ref 0), ("b", .ref 0)], .list [.int 1], .list [.int 1], .map [("a", .ref 2), ("b", .ref 3)]], .ref 4) := by
  rfl

/-- A map that holds itself is never copied, whatever the stack: the Go function would not return. -/
theorem C110_copy_cycle (n : Nat) : copy n [.map [("a", .ref 0)]] (.ref 0) = none := by
  induction n with
  | zero => rfl
  | succ n ih => rw [copy_ref]; simp only [List.getElem?_cons_zero, mapFields, ih]

/-! ### runs -/

theorem ZIs.unique {c c' : Cfg K J} {h h' : Heap} {A A' : Region} {z : HZ K} : ∀ {Z Z' : ZSet K}, ZIs c h A z Z → ZIs c' h' A' z Z' → Z = Z' := by
  induction z with
  | nil => intro Z Z' h1 h2; cases h1; cases h2; rfl
  | cons e z ih =>
    intro Z Z' h1 h2
    cases h1 with
    | @cons _ p _ Z h1 h1' =>
    cases h2 with
    | @cons _ p' _ Z' h2 h2' =>
    have : p = p' := Prod.ext (h1.1.symm.trans h2.1) (h1.2.1.symm.trans h2.2.1)
    rw [this, ih h1' h2']

theorem Gives.unique {X : Type} {m : Nat → Heap → Option X} {h : Heap} {x y : X} (h1 : Gives m h x) (h2 : Gives m h y) : x = y := by
  obtain ⟨N, h1⟩ := h1
  obtain ⟨N', h2⟩ := h2
  have a := h1 (max N N') (by omega)
  rw [h2 (max N N') (by omega)] at a
  exact (Option.some.inj a).symm

theorem GraphIs.agree {c : Cfg K J} {h h' : Heap} {g : HGraph K} {G : Graph K J} (hg : GraphIs c h g G) (hk : ∀ b, g.Holds h b → h'[b]? = h[b]?) :
    GraphIs c h' g G := by
  have hk' : ∀ k ∈ g.kept, ∀ b, Held h k b → h'[b]? = h[b]? := fun k hm b hb => hk b (held_flatten.mpr ⟨k, hm, hb⟩)
  have hh : ∀ k ∈ g.kept, ∀ b, Held h' k b ↔ Held h k b := fun k hm b => held_agree (hk' k hm)
  refine ⟨hg.names, ?_, ?_, ?_⟩
  · have hj := hg.join
    obtain ⟨gj, gc⟩ := g
    obtain ⟨Gi, GJ, Gc⟩ := G
    match gj, GJ, hj with
    | none, none, _ => trivial
    | some j, some J', hj =>
      have hj : JoinIs c h (Held h j.kept) j J' := hj
      exact (hj.agree (fun b hb => hk' _ List.mem_cons_self b hb)).held.1
  · exact All2.imp_mem hg.chain (fun o nd hm ho =>
      (ho.agree (fun b hb => hk' _ (List.mem_cons_of_mem _ (List.mem_map_of_mem hm)) b hb)).held.1)
  · exact hg.apart.imp_of_mem (fun hx hy ha b hb hb' => ha b ((hh _ hx b).mp hb) ((hh _ hy b).mp hb'))

/-- C110: whatever the environment did to memory since the last call except to what the graph holds, and for inputs that share nothing
with it, the executor on memory does what the executor on values does: it ends, answers or fails alike, writes to no existing
cell, and afterwards holds what the executor on values holds. The answer shares no cell with what the
graph holds then, so the caller can do with it what it likes. -/
theorem C110_step_partial {c : Cfg K J} {h h1 : Heap} {g : HGraph K} {G : Graph K J} {ins : List (HZ K)} {Ins : List (ZSet K)} (hg : GraphIs c h g G)
    (hc : Call c h h1 g ins Ins) (hl : Ins.length = G.inputs.length) :
    ∃ h2 g' r, Gives (g.process c ins) h1 (h2, g', r) ∧ Ext nowhere h1 h2 ∧ GraphIs c h2 g' (callGraph G Ins).1 ∧
      SameOutcome (ZIs c h2 (fun _ => True)) r (callGraph G Ins).2 ∧ ∀ z, r = .ok z → Apart (g'.Holds h2) (Held h2 [z]) := by
  have hg1 := hg.agree hc.keeps
  obtain ⟨h2, g', r, h3, h4, h5, h6, h7⟩ := process_does hg1 hc.inputs
    (fun k hk b hb hb' => hc.apart b hb' (held_flatten.mpr ⟨k, hk, hb⟩)) hl
  refine ⟨h2, g', r, h3, h4, h5, ?_, fun z hz b hb => ?_⟩
  · match r, (callGraph G Ins).2, h6 with
    | .ok z, .ok Z, ⟨R, h⟩ => exact h.mono (fun _ _ _ => trivial)
    | .error e, .error e', h => exact h
  · obtain ⟨k, hk, hb⟩ := held_flatten.mp hb
    exact (h7.2.2 z hz).2 k hk b hb

/-- C110: the results of a sequence of calls, with anything done to memory in between except to what the graph holds, are those of the
executor on values. -/
theorem C110_history_partial {c : Cfg K J} {h : Heap} {g : HGraph K} {G : Graph K J} {Is : List (List (ZSet K))} {Rs : List (Except Err (ZSet K))}
    (hg : GraphIs c h g G) (hs : Session c h g Is Rs) (hl : ∀ Ins ∈ Is, Ins.length = G.inputs.length) : Rs = (runs callGraph G Is).2 := by
  induction hs generalizing G with
  | nil => rfl
  | @call h h1 h2 g g' ins Ins r R Is Rs hc hgiv hso _ ih =>
    obtain ⟨h2', g'', r', h3, _, h5, h6, _⟩ := C110_step_partial hg hc (hl Ins List.mem_cons_self)
    have heq := h3.unique hgiv
    simp only [Prod.mk.injEq] at heq
    obtain ⟨rfl, rfl, rfl⟩ := heq
    have hrest := ih h5 (fun I hI => by rw [callGraph_inputs]; exact hl I (List.mem_cons_of_mem _ hI))
    have hR : R = (callGraph G Ins).2 := by
      match r', R, (callGraph G Ins).2, hso, h6 with
      | .ok z, .ok Z, .ok Z', hso, h6 => rw [ZIs.unique hso h6]
      | .error e, .error e', .error e'', hso, h6 =>
        have hso : e = e' := hso
        have h6 : e = e'' := h6
        rw [← hso, h6]
    simp only [runs]
    rw [hR, hrest]

/-! ### evaluators that meet the contracts -/

/-- Documents with their JSON value as key. -/
def plain : Cfg Json Json := ⟨id, id, fun i j => .list [.int i, j]⟩

/-- A selection by a predicate: it returns the document it was given. -/
def keepIf (p : Json → Bool) : HEv := fun a n h =>
  match read n h (.ref a) with
  | none => none
  | some j => some (h, .ok (if p j then [a] else []))

/-- A projection that overwrites the document it was given. -/
def overwrite (i : Int) : HEv := fun a _ h => some (h.set a (.map [("x", .int i)]), .ok [a])

theorem keepIf_reads (p : Json → Bool) : EvReads plain (keepIf p) (fun j => .ok (if p j then [j] else [])) := by
  intro h A a k ⟨j, h1, h2, h3⟩
  have h2 : j = k := h2
  subst h2
  obtain ⟨N, hN⟩ := h1.gives
  refine ⟨h, .ok (if p j then [a] else []), ⟨N, fun n hn => by simp [keepIf, show read n h (.ref a) = some j from hN n hn]⟩, Ext.refl _ _, ?_⟩
  show All2 _ _ _
  by_cases hp : p j
  · rw [if_pos hp, if_pos hp]
    exact .cons ⟨j, h1, rfl, fun b hb => .inl (h3 b hb)⟩ .nil
  · rw [if_neg hp, if_neg hp]; exact .nil

theorem overwrite_writes (i : Int) : EvWrites plain (overwrite i) (fun _ => .ok [.map [("x", .int i)]]) := by
  intro h A a k ⟨j, h1, h2, h3⟩
  have ha : a < h.length := (Reach.here a).lt h1.choose_spec
  have hget : (h.set a (.map [("x", .int i)]))[a]? = some (.map [("x", .int i)]) := by simp [ha]
  refine ⟨h.set a (.map [("x", .int i)]), .ok [a], ⟨0, fun n hn => rfl⟩, ⟨by simp, fun b hb hn => ?_⟩, ?_⟩
  · rw [List.getElem?_set_ne]; rintro rfl; exact hn (h3 _ (.here _))
  · show All2 _ _ _
    refine .cons ⟨.map [("x", .int i)], ⟨1, by rw [read_map hget]; rfl⟩, rfl, fun b hb => ?_⟩ .nil
    cases hb with
    | here => exact .inl (h3 _ (.here _))
    | field hm hv hr =>
      rw [hget] at hm; cases hm
      simp only [List.mem_singleton, Prod.mk.injEq] at hv
      rw [hv.2] at hr; cases hr
    | elem hm => rw [hget] at hm; cases hm

/-- The graph of the examples, on values: integrate, select the documents that are not `{"x": 5}`, overwrite, differentiate. -/
def exG : Graph Json Json := ⟨["in"], none, [{ op := .integ [] }, { op := .select (fun j => .ok (if j != .map [("x", .int 5)] then [j] else [])) },
  { op := .project (fun _ => .ok [.map [("x", .int 7)]]) }, { op := .diff [] }]⟩

/-- The graph of the examples, in memory. -/
def exH : HGraph Json := ⟨none, [.integ [], .select (keepIf (· != .map [("x", .int 5)])), .project (overwrite 7), .diff []]⟩

/-- The hypothesis of `C110_step_partial` and `C110_history_partial` on the graph: a new graph, in any memory. -/
example (h : Heap) : GraphIs plain h exH exG := by
  refine ⟨by decide, trivial, ?_, ?_⟩
  · exact .cons (.integ .nil) (.cons (.select (keepIf_reads _)) (.cons (.project (overwrite_writes 7)) (.cons (.diff .nil) .nil)))
  · have hn : ∀ b, ¬ Held h ([[]] : List (HZ Json)) b := by
      rintro b ⟨z, hz, e, he, _⟩
      rw [List.mem_singleton] at hz; subst hz; cases he
    have hn' : ∀ b, ¬ Held h ([] : List (HZ Json)) b := by rintro b ⟨z, hz, _⟩; cases hz
    simp only [HGraph.kept, exH, Option.elim, List.map_cons, List.map_nil, HOp.kept, List.pairwise_cons, List.not_mem_nil, false_imp_iff,
      implies_true, List.Pairwise.nil, and_true, List.mem_cons, or_false, forall_eq_or_imp, forall_eq]
    refine ⟨⟨?_, ?_, ?_, ?_⟩, ⟨?_, ?_, ?_⟩, ⟨?_, ?_⟩, ?_⟩ <;> exact fun b hb => absurd hb (by first | exact hn b | exact hn' b)

/-- The hypothesis on the call: the first call, with two documents one of which holds the other's list. -/
example : Call plain [] [.map [("x", .int 5)], .list [.int 1], .map [("y", .ref 1)]] exH
    [[(.map [("x", .int 5)], 0, 1), (.map [("y", .list [.int 1])], 2, 3)]] [[(.map [("x", .int 5)], 1), (.map [("y", .list [.int 1])], 3)]] := by
  have hnone : ∀ (h : Heap) b, ¬ HGraph.Holds h exH b := by
    rintro h b ⟨z, hz, e, he, _⟩
    have : z = [] := by simpa [HGraph.kept, exH, HOp.kept] using hz
    subst this; cases he
  refine ⟨fun b hb => absurd hb (hnone _ b), ?_, fun b _ hb => hnone _ b hb⟩
  refine .cons (.cons ⟨rfl, rfl, .map [("x", .int 5)], ⟨1, rfl⟩, rfl, fun b hb => ?_⟩ (.cons ⟨rfl, rfl, .map [("y", .list [.int 1])], ⟨2, rfl⟩, rfl, fun b hb => ?_⟩ .nil)) .nil
  · exact ⟨_, List.mem_cons_self, _, List.mem_cons_self, hb⟩
  · exact ⟨_, List.mem_cons_self, _, List.mem_cons_of_mem _ List.mem_cons_self, hb⟩

/-- That call: the result is `{"x": 7}` three times, in a new cell. -/
example : (exH.process plain [[(.map [("x", .int 5)], 0, 1), (.map [("y", .list [.int 1])], 2, 3)]] 3 [.map [("x", .int 5)], .list [.int 1], .map [("y", .ref 1)]]).map
      (fun r => (r.2.2.toOption, r.1.take 3)) =
    some (some [(.map [("x", .int 7)], 8, 3)], [.map [("x", .int 5)], .list [.int 1], .map [("y", .ref 1)]]) := by
  rfl

/-! ### what is shared -/

/-- C110: the environment must leave the *inputs* of earlier calls alone: the integrator holds the documents it was given, not copies. A
document overwritten after the call comes back in the next result, under the key it had. (So do those of joins,
`op_bilinear.go:91-97`, whose states are added up in the same way.) -/
theorem C110_input_is_held : ∃ (h1 h2 : Heap) (g1 g2 : HGraph Json) (r1 r2 : HZ Json) (a : Nat),
    (HGraph.mk none [HOp.integ []]).process plain [[(.map [("x", .int 5)], 0, 1)]] 2 [.map [("x", .int 5)]] = some (h1, g1, .ok r1) ∧
    g1.Holds h1 0 ∧
    g1.process plain [[]] 2 (h1.set 0 (.map [("x", .int 6)])) = some (h2, g2, .ok r2) ∧
    r2 = [(.map [("x", .int 5)], a, 1)] ∧ read 1 h2 (.ref a) = some (.map [("x", .int 6)]) ∧ ∀ Z A, ¬ ZIs plain h2 A r2 Z := by
  have hr : read 1 ([.map [("x", .int 6)], .map [("x", .int 5)], .map [("x", .int 6)], .map [("x", .int 6)]] : Heap) (.ref 3) = some (.map [("x", .int 6)]) := rfl
  refine ⟨[.map [("x", .int 5)], .map [("x", .int 5)]], [.map [("x", .int 6)], .map [("x", .int 5)], .map [("x", .int 6)], .map [("x", .int 6)]],
    ⟨none, [.integ [(.map [("x", .int 5)], 0, 1)]]⟩, ⟨none, [.integ [(.map [("x", .int 5)], 2, 1)]]⟩, [(.map [("x", .int 5)], 1, 1)],
    [(.map [("x", .int 5)], 3, 1)], 3, rfl, ?_, rfl, rfl, hr, ?_⟩
  · exact ⟨_, List.mem_cons_self, _, List.mem_cons_self, .here 0⟩
  · intro Z A hz
    cases hz with
    | cons hd _ =>
    obtain ⟨h1, _, j, hj, hk, _⟩ := hd
    have : j = .map [("x", .int 6)] := hj.unique ⟨1, hr⟩
    subst this
    rw [← h1] at hk
    exact absurd hk (by decide)

/-- C110: a fused operator gives its evaluators the document itself (`fused_op.go:31`, `108`, `127`), a projection a copy (`op_linear.go:35`): with an
evaluator that writes, both compute the same result, and the projection leaves its input alone, but the fused operator
changes it: the key of the input no longer is the key of its document. Which is why the contracts of fused operators
do not allow writes. -/
theorem C110_fused_writes (i k : Int) (hik : i ≠ k) :
    (∃ h' o, (HOp.project (overwrite i)).proc plain [(.map [("x", .int k)], 0, 1)] 1 [.map [("x", .int k)]] = some (h', .ok (o, [(.map [("x", .int i)], 1, 1)])) ∧
      read 1 h' (.ref 0) = some (.map [("x", .int k)])) ∧
    (∃ h' o, (HOp.selProjs none [overwrite i]).proc plain [(.map [("x", .int k)], 0, 1)] 1 [.map [("x", .int k)]] = some (h', .ok (o, [(.map [("x", .int i)], 0, 1)])) ∧
      read 1 h' (.ref 0) = some (.map [("x", .int i)]) ∧ ∀ Z A, ¬ ZIs plain h' A [(.map [("x", .int k)], 0, 1)] Z) := by
  refine ⟨⟨[.map [("x", .int k)], .map [("x", .int i)]], _, rfl, rfl⟩, ⟨[.map [("x", .int i)]], _, rfl, rfl, ?_⟩⟩
  intro Z A hz
  cases hz with
  | cons hd _ =>
  obtain ⟨h1, _, j, hj, hk, _⟩ := hd
  have hj' : j = .map [("x", .int i)] := hj.unique ⟨1, rfl⟩
  subst hj'
  rw [← h1] at hk
  simp only [plain, id_eq, Json.map.injEq, List.cons.injEq, Prod.mk.injEq, Json.int.injEq, and_true, true_and] at hk
  exact hik hk

/-- An unwinding that puts the element in a field of the document. -/
def unwindX (a : Nat) : M (Option (List (Nat × Val))) := fun _ h =>
  match h[a]? with
  | some (.map [("x", .ref l)]) =>
    match h[l]? with
    | some (.list vs) => some (h, .ok (some ((List.range vs.length).zip vs)))
    | _ => some (h, .ok none)
  | _ => some (h, .ok none)

/-- C110: unwound documents share the elements with the input: `DeepCopyAny` of an element (`op_linear.go:147`) copies nothing, because
the element is a struct (`pkg/pipeline/op.go:109-112`), which `DeepCopyAny` returns as it is (`document.go:103-105`). -/
theorem C110_unwind_shares : ∃ (h' : Heap) (o : HOp Json) (k : Json) (a : Nat),
    (HOp.unwind ⟨unwindX, fun a x _ h => some (h.set a (.map [("x", x.2)]), .ok a)⟩).proc plain [(.map [("x", .list [.map []])], 2, 1)] 4
      [.map [], .list [.ref 0], .map [("x", .ref 1)]] = some (h', .ok (o, [(k, a, 1)])) ∧
    Reach h' (.ref a) 0 ∧ Reach h' (.ref 2) 0 := by
  refine ⟨_, _, _, _, rfl, ?_, ?_⟩
  · exact .field (k := "x") (v := .ref 0) (m := [("x", .ref 0)]) rfl (by simp) (.here 0)
  · exact .field (k := "x") (v := .ref 1) (m := [("x", .ref 1)]) rfl (by simp) (.elem (l := [.ref 0]) (v := .ref 0) rfl (by simp) (.here 0))

end Mem
end Dctl
