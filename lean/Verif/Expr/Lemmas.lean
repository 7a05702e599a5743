import Verif.Expr.Eval
/-!
# Lemmas on the evaluation of expressions
-/
set_option autoImplicit false
set_option linter.unusedSectionVars false
namespace Dctl

variable {env : Env} {ctx : Ctx}

theorem denL_eq (es : List Expr) : Expr.denL env es = es.map (Expr.den env) := by
  induction es with
  | nil => rfl
  | cons e es ih => simp [Expr.denL, ih]

theorem denM_eq (m : List (String × Expr)) : Expr.denM env m = m.map (fun p => (p.1, p.2.den env)) := by
  induction m with
  | nil => rfl
  | cons p m ih => obtain ⟨k, e⟩ := p; simp [Expr.denM, ih]

theorem eval_list (es : List Expr) : eval env (.exprs "@list" es) ctx =
    (match seqAll ctx (es.map (Expr.den env)) with | .error e => .error e | .ok vs => .ok (.list (unpackList vs))) := by
  simp only [eval, Expr.den, evalExprs, denL_eq, if_true]
  rfl

theorem eval_list_ok {es : List Expr} {vs : List Json} (h : seqAll ctx (es.map (Expr.den env)) = .ok vs) :
    eval env (.exprs "@list" es) ctx = .ok (.list (unpackList vs)) := by
  rw [eval_list, h]

theorem seqAll_two {a b : Expr} {va vb : Json} (ha : eval env a ctx = .ok va) (hb : eval env b ctx = .ok vb) :
    seqAll ctx ([a, b].map (Expr.den env)) = .ok [va, vb] := by
  simp only [eval] at ha hb
  simp [seqAll, ha, hb]

theorem eval_pair {a b : Expr} {va vb : Json} (ha : eval env a ctx = .ok va) (hb : eval env b ctx = .ok vb) (hl : ∀ l, va ≠ .list l) :
    eval env (.exprs "@list" [a, b]) ctx = .ok (.list [va, vb]) := by
  rw [eval_list_ok (seqAll_two ha hb)]
  cases va <;> first | rfl | exact absurd rfl (hl _)

theorem eval_pair_list {a b : Expr} {l : List Json} {vb : Json} (ha : eval env a ctx = .ok (.list l)) (hb : eval env b ctx = .ok vb) :
    eval env (.exprs "@list" [a, b]) ctx = .ok (.list l) := by
  rw [eval_list_ok (seqAll_two ha hb)]
  rfl

/-- A strict operator applied to an argument with a value. -/
theorem eval_strict {op : String} {a : Expr} {v : Json} (h : eval env a ctx = .ok v) (h0 : op.toList.head? = some '@') (h1 : isConvert op = false)
    (h2 : isSpecial op = false) (h3 : op ≠ "@list") (h4 : op ≠ "@dict") (h5 : op ≠ "@noop") : eval env (.app op a) ctx = strictOp env op v := by
  have h6 : op ≠ "" := by rintro rfl; exact absurd h0 (by decide)
  simp only [eval] at h ⊢
  simp only [Expr.den, evalApp, h, h1, h2, if_neg h3, if_neg h4, if_neg h5, if_neg h6, if_pos h0, Bool.false_eq_true, if_false]

theorem eval_strict_err {op : String} {a : Expr} {e : EvalErr} (h : eval env a ctx = .error e) (h0 : op.toList.head? = some '@') (h1 : isConvert op = false)
    (h2 : isSpecial op = false) (h3 : op ≠ "@list") (h4 : op ≠ "@dict") (h5 : op ≠ "@noop") : eval env (.app op a) ctx = .error e := by
  have h6 : op ≠ "" := by rintro rfl; exact absurd h0 (by decide)
  simp only [eval] at h ⊢
  simp only [Expr.den, evalApp, h, h1, h2, if_neg h3, if_neg h4, if_neg h5, if_neg h6, Bool.false_eq_true, if_false]

/-- An operator that evaluates its arguments itself, applied to a list of arguments. -/
theorem eval_special {op : String} {es : List Expr} (h2 : isSpecial op = true) : eval env (.app op (.exprs "@list" es)) ctx =
    specialOp op (some (es.map (Expr.den env))) (Expr.denPairL env es) ctx := by
  have h1 : isConvert op = false ∧ op ≠ "" ∧ op ≠ "@list" ∧ op ≠ "@dict" ∧ op ≠ "@noop" := by
    simp only [isSpecial, Bool.or_eq_true, decide_eq_true_eq] at h2
    rcases h2 with ((((((((h|h)|h)|h)|h)|h)|h)|h)|h)|h <;> subst h <;> decide
  obtain ⟨h1, h6, h3, h4, h5⟩ := h1
  simp only [eval, Expr.den, evalApp, h1, h2, if_neg h3, if_neg h4, if_neg h5, if_neg h6, Bool.false_eq_true, if_false, if_true, Expr.denElems, denL_eq,
    orElems, Expr.denPairs]

theorem eval_not (a : Expr) : eval env (.app "@not" a) ctx = (match eval env a ctx with | .error e => .error e | .ok v => (asBool v).map (fun b => .bool (!b))) := by
  cases h : eval env a ctx with
  | error e => exact eval_strict_err h (by decide) (by decide) (by decide) (by decide) (by decide) (by decide)
  | ok v => rw [eval_strict h (by decide) (by decide) (by decide) (by decide) (by decide) (by decide)]; simp [strictOp]

theorem evalBool_eval (e : Expr) : evalBool (e.den env) ctx = (match eval env e ctx with | .error e => .error e | .ok v => asBool v) := rfl

theorem evalBool_ok {e : Expr} {b : Bool} : evalBool (e.den env) ctx = .ok b ↔ eval env e ctx = .ok (.bool b) := by
  rw [evalBool_eval]
  constructor
  · intro h
    cases h' : eval env e ctx with
    | error e => rw [h'] at h; cases h
    | ok v => rw [h'] at h; cases v <;> simp_all [asBool]
  · intro h; rw [h]; rfl

theorem evalBool_not (e : Expr) : evalBool ((Expr.app "@not" e).den env) ctx = (evalBool (e.den env) ctx).map (!·) := by
  rw [evalBool_eval, evalBool_eval, eval_not]
  cases h : eval env e ctx with
  | error e => rfl
  | ok v => cases v <;> rfl

theorem andLoop_not (es : List Expr) : orLoop ctx ((es.map (Expr.app "@not")).map (Expr.den env)) = (andLoop ctx (es.map (Expr.den env))).map (!·) := by
  induction es with
  | nil => rfl
  | cons e es ih =>
    simp only [List.map_cons, orLoop, andLoop, evalBool_not]
    cases h : evalBool (e.den env) ctx with
    | error e => rfl
    | ok b => cases b <;> first | rfl | exact ih

theorem orLoop_not (es : List Expr) : andLoop ctx ((es.map (Expr.app "@not")).map (Expr.den env)) = (orLoop ctx (es.map (Expr.den env))).map (!·) := by
  induction es with
  | nil => rfl
  | cons e es ih =>
    simp only [List.map_cons, orLoop, andLoop, evalBool_not]
    cases h : evalBool (e.den env) ctx with
    | error e => rfl
    | ok b => cases b <;> first | rfl | exact ih

theorem eval_and (es : List Expr) : eval env (.app "@and" (.exprs "@list" es)) ctx = (andLoop ctx (es.map (Expr.den env))).map .bool := by
  rw [eval_special (by decide)]; simp [specialOp]

theorem eval_or (es : List Expr) : eval env (.app "@or" (.exprs "@list" es)) ctx = (orLoop ctx (es.map (Expr.den env))).map .bool := by
  rw [eval_special (by decide)]; simp [specialOp]

theorem andLoop_true (es : List Expr) : andLoop ctx (es.map (Expr.den env)) = .ok true ↔ ∀ e ∈ es, eval env e ctx = .ok (.bool true) := by
  induction es with
  | nil => simp [andLoop]
  | cons e es ih =>
    simp only [List.map_cons, andLoop, List.forall_mem_cons, ← evalBool_ok (e := e)]
    cases h : evalBool (e.den env) ctx with
    | error e => simp
    | ok b => cases b <;> simp [ih]

theorem andLoop_false (es : List Expr) : andLoop ctx (es.map (Expr.den env)) = .ok false ↔ ∃ pre e post, es = pre ++ e :: post ∧
    (∀ x ∈ pre, eval env x ctx = .ok (.bool true)) ∧ eval env e ctx = .ok (.bool false) := by
  induction es with
  | nil => simp [andLoop]
  | cons e es ih =>
    simp only [List.map_cons, andLoop]
    constructor
    · intro h'
      cases h : evalBool (e.den env) ctx with
      | error e => rw [h] at h'; cases h'
      | ok b =>
        rw [h] at h'
        cases b with
        | false => exact ⟨[], e, es, rfl, by simp, evalBool_ok.mp h⟩
        | true =>
          obtain ⟨pre, x, post, rfl, h1, h2⟩ := ih.mp h'
          exact ⟨e :: pre, x, post, rfl, by simpa [evalBool_ok.mp h] using h1, h2⟩
    · rintro ⟨pre, x, post, he, h1, h2⟩
      cases pre with
      | nil => simp only [List.nil_append, List.cons.injEq] at he; obtain ⟨rfl, rfl⟩ := he; rw [evalBool_ok.mpr h2]
      | cons y pre =>
        simp only [List.cons_append, List.cons.injEq] at he
        obtain ⟨rfl, rfl⟩ := he
        rw [evalBool_ok.mpr (h1 e (by simp))]
        exact ih.mpr ⟨pre, x, post, rfl, fun z hz => h1 z (by simp [hz]), h2⟩

theorem orLoop_false (es : List Expr) : orLoop ctx (es.map (Expr.den env)) = .ok false ↔ ∀ e ∈ es, eval env e ctx = .ok (.bool false) := by
  induction es with
  | nil => simp [orLoop]
  | cons e es ih =>
    simp only [List.map_cons, orLoop, List.forall_mem_cons, ← evalBool_ok (e := e)]
    cases h : evalBool (e.den env) ctx with
    | error e => simp
    | ok b => cases b <;> simp [ih]

theorem orLoop_true (es : List Expr) : orLoop ctx (es.map (Expr.den env)) = .ok true ↔ ∃ pre e post, es = pre ++ e :: post ∧
    (∀ x ∈ pre, eval env x ctx = .ok (.bool false)) ∧ eval env e ctx = .ok (.bool true) := by
  induction es with
  | nil => simp [orLoop]
  | cons e es ih =>
    simp only [List.map_cons, orLoop]
    constructor
    · intro h'
      cases h : evalBool (e.den env) ctx with
      | error e => rw [h] at h'; cases h'
      | ok b =>
        rw [h] at h'
        cases b with
        | true => exact ⟨[], e, es, rfl, by simp, evalBool_ok.mp h⟩
        | false =>
          obtain ⟨pre, x, post, rfl, h1, h2⟩ := ih.mp h'
          exact ⟨e :: pre, x, post, rfl, by simpa [evalBool_ok.mp h] using h1, h2⟩
    · rintro ⟨pre, x, post, he, h1, h2⟩
      cases pre with
      | nil => simp only [List.nil_append, List.cons.injEq] at he; obtain ⟨rfl, rfl⟩ := he; rw [evalBool_ok.mpr h2]
      | cons y pre =>
        simp only [List.cons_append, List.cons.injEq] at he
        obtain ⟨rfl, rfl⟩ := he
        rw [evalBool_ok.mpr (h1 e (by simp))]
        exact ih.mpr ⟨pre, x, post, rfl, fun z hz => h1 z (by simp [hz]), h2⟩

theorem map_bool_ok {r : Res Bool} {v : Json} : r.map Json.bool = .ok v ↔ ∃ b, r = .ok b ∧ v = .bool b := by
  cases r with
  | error e => simp [Except.map]
  | ok b => simp [Except.map, eq_comm]

theorem map_bool_iff {r : Res Bool} {b : Bool} : r.map Json.bool = .ok (.bool b) ↔ r = .ok b := by
  cases r <;> simp [Except.map]

/-! ## List operators -/

theorem listArg_ok {d : Expr} {l : List Json} (h : eval env d ctx = .ok (.list l)) : listArg (d.den env) ctx = .ok l := by
  simp only [eval] at h
  simp [listArg, h, asList]

theorem eval_listOp {op : String} {p d : Expr} {l : List Json} (h : eval env d ctx = .ok (.list l)) (ho : op = "@filter" ∨ op = "@any" ∨ op = "@none" ∨ op = "@all") :
    eval env (.app op (.exprs "@list" [p, d])) ctx =
      if op = "@filter" then (filterLoop (p.den env) ctx l).map .list
      else if op = "@any" then (anyLoop (p.den env) ctx l).map .bool
      else if op = "@none" then (noneLoop (p.den env) ctx l).map .bool
      else (allLoop (p.den env) ctx l).map .bool := by
  rw [eval_special (by rcases ho with h|h|h|h <;> subst h <;> decide)]
  have := listArg_ok h
  rcases ho with h|h|h|h <;> subst h <;> simp [specialOp, listOp, this]

theorem eval_mapOp {p d : Expr} {l : List Json} (h : eval env d ctx = .ok (.list l)) :
    eval env (.app "@map" (.exprs "@list" [p, d])) ctx = (mapLoop (p.den env) ctx l).map .list := by
  rw [eval_special (by decide)]
  simp [specialOp, mapOp, listArg_ok h]

variable {p : Expr} {f : Json → Bool}

theorem filterLoop_total : ∀ (l : List Json), (∀ x ∈ l, eval env p ⟨ctx.object, x⟩ = .ok (.bool (f x))) → filterLoop (p.den env) ctx l = .ok (l.filter f)
  | [], _ => rfl
  | x :: l, h => by
    rw [filterLoop, evalBool_ok.mpr (h x (by simp)), filterLoop_total l (fun y hy => h y (by simp [hy]))]
    cases hx : f x <;> simp [hx]

theorem anyLoop_total : ∀ (l : List Json), (∀ x ∈ l, eval env p ⟨ctx.object, x⟩ = .ok (.bool (f x))) → anyLoop (p.den env) ctx l = .ok (l.any f)
  | [], _ => rfl
  | x :: l, h => by
    rw [anyLoop, evalBool_ok.mpr (h x (by simp))]
    cases hx : f x
    · simp [hx, anyLoop_total l (fun y hy => h y (by simp [hy]))]
    · simp [hx]

theorem allLoop_total : ∀ (l : List Json), (∀ x ∈ l, eval env p ⟨ctx.object, x⟩ = .ok (.bool (f x))) → allLoop (p.den env) ctx l = .ok (l.all f)
  | [], _ => rfl
  | x :: l, h => by
    rw [allLoop, evalBool_ok.mpr (h x (by simp))]
    cases hx : f x
    · simp [hx]
    · simp [hx, allLoop_total l (fun y hy => h y (by simp [hy]))]

theorem anyLoop_early : ∀ (pre : List Json) (x : Json) (post : List Json), (∀ y ∈ pre, eval env p ⟨ctx.object, y⟩ = .ok (.bool false)) →
    eval env p ⟨ctx.object, x⟩ = .ok (.bool true) → anyLoop (p.den env) ctx (pre ++ x :: post) = .ok true
  | [], x, post, _, h => by simp [anyLoop, evalBool_ok.mpr h]
  | y :: pre, x, post, h1, h => by
    rw [List.cons_append, anyLoop, evalBool_ok.mpr (h1 y (by simp))]
    exact anyLoop_early pre x post (fun z hz => h1 z (by simp [hz])) h

theorem allLoop_early : ∀ (pre : List Json) (x : Json) (post : List Json), (∀ y ∈ pre, eval env p ⟨ctx.object, y⟩ = .ok (.bool true)) →
    eval env p ⟨ctx.object, x⟩ = .ok (.bool false) → allLoop (p.den env) ctx (pre ++ x :: post) = .ok false
  | [], x, post, _, h => by simp [allLoop, evalBool_ok.mpr h]
  | y :: pre, x, post, h1, h => by
    rw [List.cons_append, allLoop, evalBool_ok.mpr (h1 y (by simp))]
    exact allLoop_early pre x post (fun z hz => h1 z (by simp [hz])) h

theorem noneLoop_never (d : Den) : ∀ (l : List Json), noneLoop d ctx l ≠ .ok true
  | [] => by simp [noneLoop]
  | x :: l => by
    rw [noneLoop]
    split
    · simp
    · simp
    · exact noneLoop_never d l

theorem noneLoop_total : ∀ (l : List Json), (∀ x ∈ l, eval env p ⟨ctx.object, x⟩ = .ok (.bool (f x))) → noneLoop (p.den env) ctx l = .ok false
  | [], _ => rfl
  | x :: l, h => by
    rw [noneLoop, evalBool_ok.mpr (h x (by simp))]
    cases hx : f x
    · simp [noneLoop_total l (fun y hy => h y (by simp [hy]))]
    · simp

theorem mapLoop_total {g : Json → Json} : ∀ (l : List Json), (∀ x ∈ l, eval env p ⟨ctx.object, x⟩ = .ok (g x)) → mapLoop (p.den env) ctx l = .ok (l.map g)
  | [], _ => rfl
  | x :: l, h => by
    have hx : Expr.den env p ⟨ctx.object, x⟩ = .ok (g x) := h x (by simp)
    rw [mapLoop, hx, mapLoop_total l (fun y hy => h y (by simp [hy]))]
    rfl

/-! ## Numbers -/

theorem wrap64_of_in {i : Int} (h : inInt64 i = true) : wrap64 i = i := by
  simp only [inInt64, decide_eq_true_eq] at h
  simp only [wrap64]
  omega

theorem wrap64_in (i : Int) : inInt64 (wrap64 i) = true := by
  refine decide_eq_true ?_
  simp only [wrap64]
  omega

theorem wrap64_add (i j : Int) : wrap64 (wrap64 i + j) = wrap64 (i + j) := by
  simp only [wrap64]
  omega

theorem mapAll_ints (is : List Int) : mapAll asInt (is.map Json.int) = .ok is := by
  induction is with
  | nil => rfl
  | cons i is ih => simp [mapAll, asInt, ih]

theorem mapAll_strs (ss : List String) : mapAll (asString env) (ss.map Json.str) = .ok ss := by
  induction ss with
  | nil => rfl
  | cons i is ih => simp [mapAll, asString, ih]

theorem mapAll_floats (fs : List Rat) : mapAll (asFloat env) (fs.map Json.float) = .ok fs := by
  induction fs with
  | nil => rfl
  | cons i is ih => simp [mapAll, asFloat, ih]

theorem listOf_ints (is : List Int) : listOf asInt (.list (is.map Json.int)) = .ok is := by simp [listOf, asList, mapAll_ints]

theorem asNums_ints (is : List Int) : asNums env (.list (is.map Json.int)) = .ok (.ints is) := by simp [asNums, listOf_ints]

theorem asNum2_ints (a b : Int) : asNum2 env (.list [.int a, .int b]) = .ok (.ints a b) := by
  have := asNums_ints (env := env) [a, b]
  simp only [List.map_cons, List.map_nil] at this
  simp [asNum2, this]

theorem asNum2_floats (a b : Rat) : asNum2 env (.list [.float a, .float b]) = .ok (.floats a b) := by
  simp [asNum2, asNums, listOf, asList, mapAll, asInt, asFloat]

theorem sumLoop_eq : ∀ (is : List Int) (acc : Int), sumLoop (wrap64 acc) is = wrap64 (acc + is.sum)
  | [], acc => by simp [sumLoop]
  | i :: is, acc => by
    rw [sumLoop, wrap64_add, sumLoop_eq is, List.sum_cons, Int.add_assoc]

theorem extremum_mem {α : Type} (better : α → α → Bool) : ∀ (l : List α) (a : α), extremum better a l = a ∨ extremum better a l ∈ l
  | [], a => .inl rfl
  | x :: l, a => by
    rw [extremum]
    rcases extremum_mem better l (if better x a then x else a) with h | h
    · rw [h]; split <;> simp
    · exact .inr (by simp [h])

theorem extremum_le : ∀ (l : List Int) (a : Int), (∀ x ∈ a :: l, extremum (fun x acc => decide (x < acc)) a l ≤ x)
  | [], a => by simp [extremum]
  | y :: l, a => by
    intro x hx
    rw [extremum]
    have h := extremum_le l (if decide (y < a) then y else a)
    by_cases hya : y < a
    · simp only [hya, decide_true, if_true] at h ⊢
      have h0 := h y (by simp)
      simp only [List.mem_cons] at hx
      rcases hx with rfl | rfl | hx
      · omega
      · exact h0
      · exact h x (by simp [hx])
    · simp only [hya, decide_false, Bool.false_eq_true, if_false] at h ⊢
      have h0 := h a (by simp)
      simp only [List.mem_cons] at hx
      rcases hx with rfl | rfl | hx
      · exact h0
      · omega
      · exact h x (by simp [hx])

theorem extremum_ge : ∀ (l : List Int) (a : Int), (∀ x ∈ a :: l, x ≤ extremum (fun x acc => decide (x > acc)) a l)
  | [], a => by simp [extremum]
  | y :: l, a => by
    intro x hx
    rw [extremum]
    have h := extremum_ge l (if decide (y > a) then y else a)
    by_cases hya : y > a
    · simp only [hya, decide_true, if_true] at h ⊢
      have h0 := h y (by simp)
      simp only [List.mem_cons] at hx
      rcases hx with rfl | rfl | hx
      · omega
      · exact h0
      · exact h x (by simp [hx])
    · simp only [hya, decide_false, Bool.false_eq_true, if_false] at h ⊢
      have h0 := h a (by simp)
      simp only [List.mem_cons] at hx
      rcases hx with rfl | rfl | hx
      · exact h0
      · omega
      · exact h x (by simp [hx])

theorem countUp_get : ∀ (n : Nat) (a : Int) (i : Nat), (countUp a n)[i]? = if i < n then some (.int (a + i)) else none
  | 0, a, i => by simp [countUp]
  | n + 1, a, 0 => by simp [countUp]
  | n + 1, a, i + 1 => by
    rw [countUp, List.getElem?_cons_succ, countUp_get n]
    by_cases h : i < n
    · rw [if_pos h, if_pos (by omega)]
      simp only [Option.some.injEq, Json.int.injEq]
      omega
    · rw [if_neg h, if_neg (by omega)]

theorem countUp_length : ∀ (n : Nat) (a : Int), (countUp a n).length = n
  | 0, _ => rfl
  | n + 1, a => by rw [countUp, List.length_cons, countUp_length n]

theorem foldl_append_toList : ∀ (ss : List String) (s : String), (ss.foldl (· ++ ·) s).toList = s.toList ++ (ss.map String.toList).flatten
  | [], s => by simp
  | t :: ss, s => by simp [foldl_append_toList ss, String.toList_append]

/-! ## Switch -/

/-- A list literal of two expressions. -/
theorem orElems_pair (a b : Expr) : orElems ((Expr.exprs "@list" [a, b]).den env) ((Expr.exprs "@list" [a, b]).denElems env) = some [a.den env, b.den env] := by
  simp [Expr.denElems, orElems, Expr.denL]

theorem denPairL_append (xs ys : List Expr) : Expr.denPairL env (xs ++ ys) = Expr.denPairL env xs ++ Expr.denPairL env ys := by
  induction xs with
  | nil => rfl
  | cons x xs ih => simp [Expr.denPairL, ih]

theorem switch_skip (cs : List (Expr × Expr)) (rest : List Expr) (h : ∀ c ∈ cs, eval env c.1 ctx = .ok (.bool false)) :
    switchLoop ctx (Expr.denPairL env (cs.map (fun c => .exprs "@list" [c.1, c.2]) ++ rest)) = switchLoop ctx (Expr.denPairL env rest) := by
  induction cs with
  | nil => rfl
  | cons c cs ih =>
    simp only [List.map_cons, List.cons_append, Expr.denPairL, orElems_pair, switchLoop]
    rw [evalBool_ok.mpr (h c (by simp))]
    exact ih (fun c' hc => h c' (by simp [hc]))

end Dctl
