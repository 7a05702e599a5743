import Verif.Expr.Lemmas
import Verif.Spec.Expr
/-!
# Operators of expressions (C30–C34)
-/
set_option autoImplicit false
namespace Dctl

/-! ## C30 -/

/-- **C30** (`@and`): true exactly if all operands are true; false exactly if some operand is false and all before it are true, whatever comes after;
in all other cases no value, and never a value that is not boolean. -/
theorem C30_and (env : Env) (es : List Expr) (ctx : Ctx) :
    (eval env (opList "@and" es) ctx = .ok (.bool true) ↔ ∀ e ∈ es, eval env e ctx = .ok (.bool true)) ∧
    (eval env (opList "@and" es) ctx = .ok (.bool false) ↔
      ∃ pre e post, es = pre ++ e :: post ∧ (∀ x ∈ pre, eval env x ctx = .ok (.bool true)) ∧ eval env e ctx = .ok (.bool false)) ∧
    (∀ v, eval env (opList "@and" es) ctx = .ok v → v = .bool true ∨ v = .bool false) := by
  refine ⟨?_, ?_, ?_⟩
  · rw [eval_and, map_bool_iff, andLoop_true]
  · rw [eval_and, map_bool_iff, andLoop_false]
  · intro v h
    rw [eval_and, map_bool_ok] at h
    obtain ⟨b, -, rfl⟩ := h
    cases b <;> simp

/-- **C30** (`@or`): false exactly if all operands are false; true exactly if some operand is true and all before it are false, whatever comes after. -/
theorem C30_or (env : Env) (es : List Expr) (ctx : Ctx) :
    (eval env (opList "@or" es) ctx = .ok (.bool false) ↔ ∀ e ∈ es, eval env e ctx = .ok (.bool false)) ∧
    (eval env (opList "@or" es) ctx = .ok (.bool true) ↔
      ∃ pre e post, es = pre ++ e :: post ∧ (∀ x ∈ pre, eval env x ctx = .ok (.bool false)) ∧ eval env e ctx = .ok (.bool true)) ∧
    (∀ v, eval env (opList "@or" es) ctx = .ok v → v = .bool true ∨ v = .bool false) := by
  refine ⟨?_, ?_, ?_⟩
  · rw [eval_or, map_bool_iff, orLoop_false]
  · rw [eval_or, map_bool_iff, orLoop_true]
  · intro v h
    rw [eval_or, map_bool_ok] at h
    obtain ⟨b, -, rfl⟩ := h
    cases b <;> simp

/-- **C30** (`@not`): exactly the negation of a boolean. -/
theorem C30_not (env : Env) (e : Expr) (ctx : Ctx) (b : Bool) : eval env (.app "@not" e) ctx = .ok (.bool b) ↔ eval env e ctx = .ok (.bool (!b)) := by
  rw [eval_not]
  cases h : eval env e ctx with
  | error e => simp
  | ok v =>
    cases v with
    | bool b' => cases b <;> cases b' <;> simp [asBool, Except.map]
    | _ => simp [asBool, Except.map]

/-- **C30** (De Morgan): for all operands, erroneous or not. -/
theorem C30_de_morgan (env : Env) (es : List Expr) (ctx : Ctx) :
    eval env (.app "@not" (opList "@and" es)) ctx = eval env (opList "@or" (es.map (Expr.app "@not"))) ctx ∧
    eval env (.app "@not" (opList "@or" es)) ctx = eval env (opList "@and" (es.map (Expr.app "@not"))) ctx := by
  constructor
  · rw [eval_not, eval_and, eval_or, andLoop_not]
    cases andLoop ctx (es.map (Expr.den env)) <;> rfl
  · rw [eval_not, eval_and, eval_or, orLoop_not]
    cases orLoop ctx (es.map (Expr.den env)) <;> rfl

/-- **C30** (a single operand): an argument that is no list counts as one operand. -/
theorem C30_single (env : Env) (op : String) (ho : op = "@and" ∨ op = "@or") (a : Expr) (ha : ∀ es, a ≠ .exprs "@list" es) (ctx : Ctx) (b : Bool) :
    eval env (.app op a) ctx = .ok (.bool b) → eval env a ctx = .ok (.bool b) := by
  have key : ∀ r : Option (List Den), orElems (a.den env) (a.denElems env) = r → r = none ∨ r = some [a.den env] := by
    intro r hr
    subst hr
    cases a with
    | lit op v => simp only [Expr.denElems]; split <;> simp [orElems]
    | dict op m => simp only [Expr.denElems]; split <;> simp [orElems]
    | app op m => simp only [Expr.denElems]; split <;> simp [orElems]
    | exprs op es =>
      simp only [Expr.denElems]
      split
      · rename_i h; exact absurd (by rw [h]) (ha es)
      · simp [orElems]
  rcases ho with rfl | rfl <;>
  · intro h
    rw [eval, Expr.den, evalApp] at h
    rcases key _ rfl with e | e
    · rw [e] at h; simp [isConvert, isSpecial, specialOp] at h
    · rw [e] at h
      simp only [isConvert, isSpecial, specialOp, andLoop, orLoop] at h
      simp only [String.reduceEq, decide_false, Bool.or_self, Bool.false_eq_true, if_false, decide_true, Bool.or_true, Bool.true_or, if_true] at h
      rw [map_bool_iff] at h
      cases hb : evalBool (a.den env) ctx with
      | error e => rw [hb] at h; cases h
      | ok b' =>
        rw [hb] at h
        rw [← evalBool_ok, hb]
        cases b' <;> simp_all

-- `@and: [true, false, {"@foo": 1}]`: the erroneous third operand is never reached
example : eval plainEnv (opList "@and" [boolE true, boolE false, .app "@foo" (intE 1)]) ⟨.null, .null⟩ = .ok (.bool false) := by
  simpa using (C30_and plainEnv [boolE true, boolE false, .app "@foo" (intE 1)] ⟨.null, .null⟩).2.1.mpr ⟨[boolE true], boolE false, _, rfl, by simp; rfl, rfl⟩
example : eval plainEnv (opList "@or" [boolE false, intE 1]) ⟨.null, .null⟩ = .error .err := rfl
example : eval plainEnv (opList "@or" [boolE false, boolE true, intE 1]) ⟨.null, .null⟩ = .ok (.bool true) := rfl

/-! ## C31 -/

/-- **C31** (`@any`, `@all`, `@filter`): for a predicate that is boolean on all elements. -/
theorem C31_quantifiers (env : Env) (p d : Expr) (ctx : Ctx) (l : List Json) (f : Json → Bool) (hd : eval env d ctx = .ok (.list l))
    (hp : ∀ x ∈ l, eval env p ⟨ctx.object, x⟩ = .ok (.bool (f x))) :
    (eval env (opList "@any" [p, d]) ctx = .ok (.bool (l.any f))) ∧ (eval env (opList "@all" [p, d]) ctx = .ok (.bool (l.all f))) ∧
    (eval env (opList "@filter" [p, d]) ctx = .ok (.list (l.filter f))) := by
  refine ⟨?_, ?_, ?_⟩
  · rw [eval_listOp hd (by simp)]; simp [anyLoop_total l hp, Except.map]
  · rw [eval_listOp hd (by simp)]; simp [allLoop_total l hp, Except.map]
  · rw [eval_listOp hd (by simp)]; simp [filterLoop_total l hp, Except.map]

/-- **C31** (`@map`). -/
theorem C31_map (env : Env) (p d : Expr) (ctx : Ctx) (l : List Json) (g : Json → Json) (hd : eval env d ctx = .ok (.list l))
    (hp : ∀ x ∈ l, eval env p ⟨ctx.object, x⟩ = .ok (g x)) : eval env (opList "@map" [p, d]) ctx = .ok (.list (l.map g)) := by
  rw [eval_mapOp hd, mapLoop_total l hp]; rfl

/-- **C31** (early exit): `@any` and `@all` do not look at the elements after the deciding one. -/
theorem C31_early (env : Env) (p d : Expr) (ctx : Ctx) (pre : List Json) (x : Json) (post : List Json) (hd : eval env d ctx = .ok (.list (pre ++ x :: post))) :
    ((∀ y ∈ pre, eval env p ⟨ctx.object, y⟩ = .ok (.bool false)) → eval env p ⟨ctx.object, x⟩ = .ok (.bool true) →
      eval env (opList "@any" [p, d]) ctx = .ok (.bool true)) ∧
    ((∀ y ∈ pre, eval env p ⟨ctx.object, y⟩ = .ok (.bool true)) → eval env p ⟨ctx.object, x⟩ = .ok (.bool false) →
      eval env (opList "@all" [p, d]) ctx = .ok (.bool false)) := by
  constructor
  · intro h1 h2
    rw [eval_listOp hd (by simp)]; simp [anyLoop_early pre x post h1 h2, Except.map]
  · intro h1 h2
    rw [eval_listOp hd (by simp)]; simp [allLoop_early pre x post h1 h2, Except.map]

/-- **C31** (`@none`, the part that holds): if some element satisfies the predicate, `@none` is false. What is missing is the other direction, which
fails: see `C31_none_never`. -/
theorem C31_none_partial (env : Env) (p d : Expr) (ctx : Ctx) (l : List Json) (f : Json → Bool) (hd : eval env d ctx = .ok (.list l))
    (hp : ∀ x ∈ l, eval env p ⟨ctx.object, x⟩ = .ok (.bool (f x))) (hs : ∃ x ∈ l, f x = true) :
    eval env (opList "@none" [p, d]) ctx = .ok (.bool (!l.any f)) := by
  have : l.any f = true := by obtain ⟨x, hx, h⟩ := hs; exact List.any_eq_true.mpr ⟨x, hx, h⟩
  rw [eval_listOp hd (by simp), this]; simp [noneLoop_total l hp, Except.map]

/-- **C31** (negation for `@none`): `@none` is never true, not even for the empty list. -/
theorem C31_none_never (env : Env) (p d : Expr) (ctx : Ctx) : eval env (opList "@none" [p, d]) ctx ≠ .ok (.bool true) := by
  rw [eval_special (by decide)]
  simp only [specialOp, List.map_cons, List.map_nil, listOp]
  intro h
  simp only [String.reduceEq, if_false, if_true] at h
  split at h
  · cases h
  · rw [map_bool_iff] at h
    exact noneLoop_never _ _ h

/-- **C31** (negation): a predicate no element satisfies, and `@none` says false. -/
theorem C31_none_wrong : ∃ (env : Env) (p d : Expr) (ctx : Ctx) (l : List Json), eval env d ctx = .ok (.list l) ∧ l ≠ [] ∧
    (∀ x ∈ l, eval env p ⟨ctx.object, x⟩ = .ok (.bool false)) ∧ eval env (opList "@none" [p, d]) ctx = .ok (.bool false) :=
  ⟨plainEnv, boolE false, .exprs "@list" [intE 1], ⟨.null, .null⟩, [.int 1], rfl, by simp, by intro x _; rfl, rfl⟩

/-- **C31** (negation): `@map` with a single argument panics. -/
theorem C31_map_panics (env : Env) (p : Expr) (ctx : Ctx) : eval env (opList "@map" [p]) ctx = .error .panic := by
  rw [eval_special (by decide)]; simp [specialOp, mapOp]

-- the elements greater than one of the list 1, 2, 3
example : eval plainEnv (opList "@filter" [opList "@gt" [strE "$$", intE 1], strE "$.l"]) ⟨.map [("l", .list [.int 1, .int 2, .int 3])], .null⟩ =
    .ok (.list [.int 2, .int 3]) :=
  (C31_quantifiers plainEnv (opList "@gt" [strE "$$", intE 1]) (strE "$.l") ⟨.map [("l", .list [.int 1, .int 2, .int 3])], .null⟩ [.int 1, .int 2, .int 3]
    (fun x => match x with | .int i => decide (i > 1) | _ => false) rfl (by simp; refine ⟨?_, ?_, ?_⟩ <;> rfl)).2.2
example : eval plainEnv (opList "@map" [opList "@add" [strE "$$", intE 10], strE "$.l"]) ⟨.map [("l", .list [.int 1, .int 2])], .null⟩ =
    .ok (.list [.int 11, .int 12]) := rfl

/-! ## C32 -/

/-- The four comparisons as relations on a linear order. -/
def cmpSpec {α : Type} [LT α] [LE α] [DecidableRel (fun a b : α => a < b)] [DecidableRel (fun a b : α => a ≤ b)] (a b : α) : List (String × Bool) :=
  [("@lt", decide (a < b)), ("@lte", decide (a ≤ b)), ("@gt", decide (b < a)), ("@gte", decide (b ≤ a))]

/-- **C32** (integers): the comparisons are those of the integers and `@eq` is equality; in particular they form a total order consistent with `@eq`. -/
theorem C32_ints (env : Env) (a b : Expr) (ctx : Ctx) (x y : Int) (ha : eval env a ctx = .ok (.int x)) (hb : eval env b ctx = .ok (.int y)) :
    (∀ c ∈ cmpSpec x y, eval env (opList c.1 [a, b]) ctx = .ok (.bool c.2)) ∧ eval env (opList "@eq" [a, b]) ctx = .ok (.bool (decide (x = y))) := by
  have hp := eval_pair ha hb (by simp)
  constructor
  · intro c hc
    simp only [cmpSpec, List.mem_cons, List.not_mem_nil, or_false] at hc
    rcases hc with rfl | rfl | rfl | rfl <;> dsimp only <;> rw [eval_strict hp (by decide) (by decide) (by decide) (by decide) (by decide) (by decide)] <;>
      simp [strictOp, cmpOp, asNum2_ints]
  · rw [eval_strict hp (by decide) (by decide) (by decide) (by decide) (by decide) (by decide)]; simp [strictOp]

/-- **C32** (floats): likewise for two floats. -/
theorem C32_floats (env : Env) (a b : Expr) (ctx : Ctx) (x y : Rat) (ha : eval env a ctx = .ok (.float x)) (hb : eval env b ctx = .ok (.float y)) :
    (∀ c ∈ cmpSpec x y, eval env (opList c.1 [a, b]) ctx = .ok (.bool c.2)) ∧ eval env (opList "@eq" [a, b]) ctx = .ok (.bool (decide (x = y))) := by
  have hp := eval_pair ha hb (by simp)
  constructor
  · intro c hc
    simp only [cmpSpec, List.mem_cons, List.not_mem_nil, or_false] at hc
    rcases hc with rfl | rfl | rfl | rfl <;> dsimp only <;> rw [eval_strict hp (by decide) (by decide) (by decide) (by decide) (by decide) (by decide)] <;>
      simp [strictOp, cmpOp, asNum2_floats]
  · rw [eval_strict hp (by decide) (by decide) (by decide) (by decide) (by decide) (by decide)]; simp [strictOp]

/-- **C32** (`@eq`, first operand no list): equality of values other than null. -/
theorem C32_eq (env : Env) (a b : Expr) (ctx : Ctx) (x y : Json) (ha : eval env a ctx = .ok x) (hb : eval env b ctx = .ok y) (hx : x.NotList) :
    eval env (opList "@eq" [a, b]) ctx = .ok (.bool (decide (x ≠ .null ∧ x = y))) := by
  rw [eval_strict (eval_pair ha hb hx) (by decide) (by decide) (by decide) (by decide) (by decide) (by decide)]
  simp only [strictOp, String.reduceEq, if_false, if_true, false_or]
  congr 2
  by_cases e : x = y
  · subst e; simp
  · simp [e]

/-- **C32** (symmetry, the part that holds): `@eq` is symmetric on operands that are no lists. -/
theorem C32_eq_symm_partial (env : Env) (a b : Expr) (ctx : Ctx) (x y : Json) (ha : eval env a ctx = .ok x) (hb : eval env b ctx = .ok y)
    (hx : x.NotList) (hy : y.NotList) : eval env (opList "@eq" [a, b]) ctx = eval env (opList "@eq" [b, a]) ctx := by
  rw [C32_eq env a b ctx x y ha hb hx, C32_eq env b a ctx y x hb ha hy]
  congr 2
  by_cases e : x = y
  · subst e; rfl
  · have : y ≠ x := fun h => e h.symm
    simp [e, this]

/-- **C32** (`@in`, the part that holds): for an element that is neither null nor a list, `@in` holds exactly if `@eq` holds with some member. -/
theorem C32_in_partial (env : Env) (a d : Expr) (ctx : Ctx) (x : Json) (l : List Json) (ha : eval env a ctx = .ok x) (hd : eval env d ctx = .ok (.list l))
    (hx : x.NotList) (hn : x ≠ .null) : ∃ b, eval env (opList "@in" [a, d]) ctx = .ok (.bool b) ∧ (b = true ↔ x ∈ l) ∧
      (∀ e y, eval env e ctx = .ok y → (eval env (opList "@eq" [a, e]) ctx = .ok (.bool true) ↔ x = y)) := by
  refine ⟨l.any (· = x), ?_, ?_, ?_⟩
  · rw [eval_strict (eval_pair ha hd hx) (by decide) (by decide) (by decide) (by decide) (by decide) (by decide)]; simp [strictOp]
  · simp
  · intro e y he
    rw [C32_eq env a e ctx x y ha he hx]
    simp [hn]

/-- **C32** (negation): an integer and a float with the same value are below and above each other, but not equal for `@eq`. -/
theorem C32_mixed_wrong : ∃ (env : Env) (a b : Expr) (ctx : Ctx), eval env (opList "@lte" [a, b]) ctx = .ok (.bool true) ∧
    eval env (opList "@gte" [a, b]) ctx = .ok (.bool true) ∧ eval env (opList "@eq" [a, b]) ctx = .ok (.bool false) :=
  ⟨plainEnv, intE 1, .lit "@float" (.float 1), ⟨.null, .null⟩, rfl, rfl, rfl⟩

/-- **C32** (negation): the string "1" compares like the integer 1, but is not equal to it. -/
theorem C32_string_wrong : ∃ (env : Env) (a b : Expr) (ctx : Ctx), eval env (opList "@lte" [a, b]) ctx = .ok (.bool true) ∧
    eval env (opList "@gte" [a, b]) ctx = .ok (.bool true) ∧ eval env (opList "@eq" [a, b]) ctx = .ok (.bool false) :=
  ⟨plainEnv, intE 1, strE "1", ⟨.null, .null⟩, rfl, rfl, rfl⟩

/-- **C32** (negation): `@eq` is not symmetric: a list as first operand is taken for the list of operands. -/
theorem C32_eq_lists : ∃ (env : Env) (a b : Expr) (ctx : Ctx), eval env (opList "@eq" [a, b]) ctx = .ok (.bool true) ∧
    eval env (opList "@eq" [b, a]) ctx = .ok (.bool false) :=
  ⟨plainEnv, strE "$.l", intE 5, ⟨.map [("l", .list [.int 1, .int 1])], .null⟩, rfl, rfl⟩

/-- **C32** (negation): two equal lists are not equal for `@eq`. -/
theorem C32_eq_same_list : ∃ (env : Env) (a : Expr) (ctx : Ctx) (l : List Json), eval env a ctx = .ok (.list l) ∧
    eval env (opList "@eq" [a, a]) ctx = .ok (.bool false) :=
  ⟨plainEnv, strE "$.l", ⟨.map [("l", .list [.int 1, .int 2])], .null⟩, _, rfl, rfl⟩

/-- **C32** (negation): null is in a list with a null, although `@eq` does not hold for null. -/
theorem C32_in_null : ∃ (env : Env) (a d : Expr) (ctx : Ctx), eval env (opList "@in" [a, d]) ctx = .ok (.bool true) ∧
    eval env (opList "@eq" [a, a]) ctx = .ok (.bool false) :=
  ⟨plainEnv, strE "$.a", strE "$.l", ⟨.map [("l", .list [.null])], .null⟩, rfl, rfl⟩

example : eval plainEnv (opList "@lt" [strE "$.a", intE 4]) ⟨.map [("a", .int 3)], .null⟩ = .ok (.bool true) :=
  (C32_ints plainEnv (strE "$.a") (intE 4) ⟨.map [("a", .int 3)], .null⟩ 3 4 rfl rfl).1 ("@lt", true) (by simp [cmpSpec])
example : eval plainEnv (opList "@in" [intE 2, strE "$.l"]) ⟨.map [("l", .list [.int 1, .int 2])], .null⟩ = .ok (.bool true) := rfl

/-! ## C33 -/

/-- **C33** (`@cond`): the value of the branch the guard selects; the other branch is not evaluated, and a missing one gives null. -/
theorem C33_cond (env : Env) (c t f : Expr) (ctx : Ctx) :
    (eval env c ctx = .ok (.bool true) → eval env (opList "@cond" [c, t]) ctx = eval env t ctx ∧ eval env (opList "@cond" [c, t, f]) ctx = eval env t ctx) ∧
    (eval env c ctx = .ok (.bool false) → eval env (opList "@cond" [c, t]) ctx = .ok .null ∧ eval env (opList "@cond" [c, t, f]) ctx = eval env f ctx) ∧
    ((∀ b, eval env c ctx ≠ .ok (.bool b)) → ∃ e, eval env (opList "@cond" [c, t, f]) ctx = .error e) := by
  refine ⟨?_, ?_, ?_⟩
  · intro h
    rw [eval_special (by decide), eval_special (by decide)]
    simp only [specialOp, List.map_cons, List.map_nil, condOp, if_true, evalBool_ok.mpr h]
    exact ⟨rfl, rfl⟩
  · intro h
    rw [eval_special (by decide), eval_special (by decide)]
    simp only [specialOp, List.map_cons, List.map_nil, condOp, if_true, evalBool_ok.mpr h]
    exact ⟨trivial, rfl⟩
  · intro h
    rw [eval_special (by decide)]
    simp only [specialOp, List.map_cons, List.map_nil, condOp, if_true]
    cases hb : evalBool (c.den env) ctx with
    | error e => exact ⟨e, rfl⟩
    | ok b => exact absurd (evalBool_ok.mp hb) (h b)

/-- **C33** (`@definedOr`): the first value unless it is null; then the second. An error in the first operand is not a default. -/
theorem C33_definedOr (env : Env) (a b : Expr) (ctx : Ctx) :
    (∀ v, eval env a ctx = .ok v → v ≠ .null → eval env (opList "@definedOr" [a, b]) ctx = .ok v) ∧
    (eval env a ctx = .ok .null → eval env (opList "@definedOr" [a, b]) ctx = eval env b ctx) ∧
    (∀ e, eval env a ctx = .error e → eval env (opList "@definedOr" [a, b]) ctx = .error e) := by
  rw [eval_special (by decide)]
  simp only [specialOp, List.map_cons, List.map_nil, definedOrOp, String.reduceEq, if_false, if_true]
  refine ⟨?_, ?_, ?_⟩
  · intro v h hv
    rw [show a.den env ctx = .ok v from h]
    cases v <;> first | rfl | exact absurd rfl hv
  · intro h
    rw [show a.den env ctx = .ok .null from h]
    rfl
  · intro e h
    rw [show a.den env ctx = .error e from h]

/-- **C33** (`@switch`): the action of the first true guard, whatever pairs follow, well-formed or not; null if no guard is true. -/
theorem C33_switch (env : Env) (cs : List (Expr × Expr)) (ctx : Ctx) (h : ∀ c ∈ cs, eval env c.1 ctx = .ok (.bool false)) :
    (∀ c a rest, eval env c ctx = .ok (.bool true) →
      eval env (opList "@switch" (cs.map (fun c => .exprs "@list" [c.1, c.2]) ++ .exprs "@list" [c, a] :: rest)) ctx = eval env a ctx) ∧
    (cs ≠ [] → eval env (opList "@switch" (cs.map (fun c => .exprs "@list" [c.1, c.2]))) ctx = .ok .null) ∧
    (∀ c a rest e, eval env c ctx = .error e →
      eval env (opList "@switch" (cs.map (fun c => .exprs "@list" [c.1, c.2]) ++ .exprs "@list" [c, a] :: rest)) ctx = .error e) := by
  refine ⟨?_, ?_, ?_⟩
  · intro c a rest hc
    rw [eval_special (by decide)]
    simp only [specialOp, String.reduceEq, if_false, if_true]
    rw [if_neg (by simp), switch_skip cs _ h]
    simp only [Expr.denPairL, orElems_pair, switchLoop, evalBool_ok.mpr hc]
    rfl
  · intro hne
    rw [eval_special (by decide)]
    simp only [specialOp, String.reduceEq, if_false, if_true]
    rw [if_neg (by simpa using hne)]
    have := switch_skip cs [] h
    rw [List.append_nil] at this
    rw [this]
    rfl
  · intro c a rest e hc
    rw [eval_special (by decide)]
    simp only [specialOp, String.reduceEq, if_false, if_true]
    rw [if_neg (by simp), switch_skip cs _ h]
    have : evalBool (c.den env) ctx = .error e := by rw [evalBool_eval, hc]
    simp only [Expr.denPairL, orElems_pair, switchLoop, this]

-- a switch whose second guard is true; the third pair is malformed and never looked at
example : eval plainEnv (opList "@switch" [.exprs "@list" [opList "@eq" [strE "$.a", intE 1], strE "one"],
    .exprs "@list" [opList "@eq" [strE "$.a", intE 2], strE "two"], intE 7]) ⟨.map [("a", .int 2)], .null⟩ = .ok (.str "two") :=
  (C33_switch plainEnv [(opList "@eq" [strE "$.a", intE 1], strE "one")] ⟨.map [("a", .int 2)], .null⟩ (by simp; rfl)).1
    (opList "@eq" [strE "$.a", intE 2]) (strE "two") [intE 7] rfl
example : eval plainEnv (opList "@definedOr" [strE "$.b", intE 5]) ⟨.map [("a", .int 2)], .null⟩ = .ok (.int 5) := rfl
example : eval plainEnv (opList "@cond" [boolE false, .app "@foo" (intE 1), intE 3]) ⟨.null, .null⟩ = .ok (.int 3) := rfl

/-! ## C34 -/

/-- **C34** (`@add`, `@sub`, `@mul`, the part that holds): on integers, the mathematical result if it fits into 64 bits. What is missing is the case of
an overflow, see `C34_overflow`. -/
theorem C34_arith_partial (env : Env) (a b : Expr) (ctx : Ctx) (x y : Int) (ha : eval env a ctx = .ok (.int x)) (hb : eval env b ctx = .ok (.int y)) :
    (inInt64 (x + y) = true → eval env (opList "@add" [a, b]) ctx = .ok (.int (x + y))) ∧
    (inInt64 (x - y) = true → eval env (opList "@sub" [a, b]) ctx = .ok (.int (x - y))) ∧
    (inInt64 (x * y) = true → eval env (opList "@mul" [a, b]) ctx = .ok (.int (x * y))) := by
  have hp := eval_pair ha hb (by simp)
  refine ⟨?_, ?_, ?_⟩ <;> intro h <;> rw [eval_strict hp (by decide) (by decide) (by decide) (by decide) (by decide) (by decide)] <;>
    simp [strictOp, arithOp, asNum2_ints, wrap64_of_in h]

/-- **C34** (`@sum`, the part that holds): the sum if it fits into 64 bits, even if partial sums do not. -/
theorem C34_sum_partial (env : Env) (d : Expr) (ctx : Ctx) (is : List Int) (hd : eval env d ctx = .ok (.list (is.map .int))) (h : inInt64 is.sum = true) :
    eval env (.app "@sum" d) ctx = .ok (.int is.sum) := by
  rw [eval_strict hd (by decide) (by decide) (by decide) (by decide) (by decide) (by decide)]
  have := sumLoop_eq is 0
  rw [wrap64_of_in (by decide), Int.zero_add, wrap64_of_in h] at this
  simp [strictOp, asNums_ints, this]

/-- **C34** (negation): the sum of two positive integers may be negative. -/
theorem C34_overflow : ∃ (env : Env) (x y : Int) (ctx : Ctx), 0 < x ∧ 0 < y ∧ inInt64 x = true ∧ inInt64 y = true ∧
    eval env (opList "@add" [intE x, intE y]) ctx = .ok (.int (-9223372036854775808)) :=
  ⟨plainEnv, 9223372036854775807, 1, ⟨.null, .null⟩, by decide, by decide, by decide, by decide, rfl⟩

/-- **C34** (`@len`): the number of elements. -/
theorem C34_len (env : Env) (d : Expr) (ctx : Ctx) (l : List Json) (hd : eval env d ctx = .ok (.list l)) :
    eval env (.app "@len" d) ctx = .ok (.int l.length) := by
  rw [eval_strict hd (by decide) (by decide) (by decide) (by decide) (by decide) (by decide)]; simp [strictOp, asList, Except.map]

/-- **C34** (`@min`, `@max`): nothing has no smallest and no largest element. -/
theorem C34_minmax_empty (env : Env) (d : Expr) (ctx : Ctx) (hd : eval env d ctx = .ok (.list [])) :
    eval env (.app "@min" d) ctx = .ok .null ∧ eval env (.app "@max" d) ctx = .ok .null := by
  constructor <;> rw [eval_strict hd (by decide) (by decide) (by decide) (by decide) (by decide) (by decide)] <;> rfl

example : eval plainEnv (.app "@max" (strE "$.l")) ⟨.map [("l", .list [])], .null⟩ = .ok .null := (C34_minmax_empty plainEnv (strE "$.l") ⟨.map [("l", .list [])], .null⟩ rfl).2

/-- **C34** (`@min`, `@max`): an element of the list that is a lower (upper) bound. -/
theorem C34_minmax (env : Env) (d : Expr) (ctx : Ctx) (is : List Int) (hd : eval env d ctx = .ok (.list (is.map .int))) (hne : is ≠ []) :
    (∃ m ∈ is, eval env (.app "@min" d) ctx = .ok (.int m) ∧ ∀ x ∈ is, m ≤ x) ∧ (∃ m ∈ is, eval env (.app "@max" d) ctx = .ok (.int m) ∧ ∀ x ∈ is, x ≤ m) := by
  cases is with
  | nil => exact absurd rfl hne
  | cons i is =>
    constructor
    · refine ⟨extremum (fun x acc => decide (x < acc)) i is, ?_, ?_, extremum_le is i⟩
      · rcases extremum_mem (fun x acc => decide (x < acc)) is i with h | h
        · rw [h]; simp
        · simp [h]
      · rw [eval_strict hd (by decide) (by decide) (by decide) (by decide) (by decide) (by decide)]
        simp [strictOp, minmaxOp, -List.map_cons, asNums_ints]
    · refine ⟨extremum (fun x acc => decide (x > acc)) i is, ?_, ?_, extremum_ge is i⟩
      · rcases extremum_mem (fun x acc => decide (x > acc)) is i with h | h
        · rw [h]; simp
        · simp [h]
      · rw [eval_strict hd (by decide) (by decide) (by decide) (by decide) (by decide) (by decide)]
        simp [strictOp, minmaxOp, -List.map_cons, asNums_ints]

/-- **C34** (`@range`): the integers from the first argument up to, and not including, the second. -/
theorem C34_range (env : Env) (a b : Expr) (ctx : Ctx) (x y : Int) (ha : eval env a ctx = .ok (.int x)) (hb : eval env b ctx = .ok (.int y)) :
    ∃ l, eval env (opList "@range" [a, b]) ctx = .ok (.list l) ∧ (l.length : Int) = max 0 (y - x) ∧ ∀ (i : Nat), i < l.length → l[i]? = some (.int (x + i)) := by
  refine ⟨countUp x (y - x).toNat, ?_, ?_, ?_⟩
  · rw [eval_strict (eval_pair ha hb (by simp)) (by decide) (by decide) (by decide) (by decide) (by decide) (by decide)]
    have := listOf_ints [x, y]
    simp only [List.map_cons, List.map_nil] at this
    simp [strictOp, this]
  · rw [countUp_length]; omega
  · intro i hi
    rw [countUp_length] at hi
    rw [countUp_get, if_pos hi]

/-- **C34** (`@concat`): the characters of the strings in order. -/
theorem C34_concat (env : Env) (d : Expr) (ctx : Ctx) (ss : List String) (hd : eval env d ctx = .ok (.list (ss.map .str))) :
    eval env (.app "@concat" d) ctx = .ok (.str (String.ofList (ss.map String.toList).flatten)) := by
  rw [eval_strict hd (by decide) (by decide) (by decide) (by decide) (by decide) (by decide)]
  have : ss.foldl (· ++ ·) "" = String.ofList (ss.map String.toList).flatten := by
    apply String.toList_injective
    rw [foldl_append_toList]
    simp
  simp [strictOp, listOf, asList, mapAll_strs, Except.map, this]

/-- **C34** (negation): a list whose first element is a list is replaced by that element, so that the length of a literal list of lists is wrong. -/
theorem C34_len_nested : ∃ (env : Env) (es : List Expr) (ctx : Ctx), es.length = 2 ∧ (∀ e ∈ es, ∃ v, eval env e ctx = .ok v) ∧
    eval env (.app "@len" (.exprs "@list" es)) ctx = .ok (.int 3) :=
  ⟨plainEnv, [.exprs "@list" [intE 1, intE 2, intE 3], .exprs "@list" [intE 4]], ⟨.null, .null⟩, rfl, by simp; exact ⟨⟨_, rfl⟩, ⟨_, rfl⟩⟩, rfl⟩

example : eval plainEnv (.app "@sum" (strE "$.l")) ⟨.map [("l", .list [.int 9223372036854775807, .int 5, .int (-7)])], .null⟩ =
    .ok (.int 9223372036854775805) :=
  C34_sum_partial plainEnv (strE "$.l") ⟨.map [("l", .list [.int 9223372036854775807, .int 5, .int (-7)])], .null⟩ [9223372036854775807, 5, -7] rfl (by decide)
example : eval plainEnv (opList "@range" [intE 1, intE 4]) ⟨.null, .null⟩ = .ok (.list [.int 1, .int 2, .int 3]) := rfl
example : eval plainEnv (.app "@max" (strE "$.l")) ⟨.map [("l", .list [.int 3, .int 8, .int 5])], .null⟩ = .ok (.int 8) := rfl
example : eval plainEnv (opList "@concat" [strE "a-", strE "$.n"]) ⟨.map [("n", .str "b")], .null⟩ = .ok (.str "a-b") := rfl

end Dctl
