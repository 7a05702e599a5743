import Verif.Spec.ExprLit
import Verif.Props.SvcHealth
/-!
# Lemmas on literals and conversions
-/
set_option autoImplicit false
set_option linter.unusedSectionVars false
namespace Dctl

variable {env : Env}

theorem Json.Literal.ordinary {j : Json} (h : j.Literal) : j.Ordinary := by
  rintro s rfl
  exact ⟨h.2.1, h.2.2⟩

theorem Json.Literal.inInt64 {i : Int} (h : (Json.int i).Literal) : inInt64 i = true := by
  have : -9223372036854775808 ≤ i ∧ i ≤ 9223372036854775807 := h
  simp [Dctl.inInt64, this]

theorem SMap.set_last {V : Type} {k : String} {v : V} : ∀ {data : SMap V}, (∀ p ∈ data, p.1 < k) → SMap.set data k v = data ++ [(k, v)]
  | [], _ => rfl
  | (k', v') :: t, h => by
    have h1 : k' < k := h (k', v') (by simp)
    have h2 : ¬ k < k' := by grind
    have h3 : k' ≠ k := by grind
    simp only [SMap.set, h2, h3, if_false, List.cons_append]
    rw [SMap.set_last (fun p hp => h p (by simp [hp]))]

theorem unpackList_id {l : List Json} (h : ∀ l', l.head? ≠ some (.list l')) : unpackList l = l := by
  cases l with
  | nil => rfl
  | cons x l =>
    cases x with
    | list l' => exact absurd rfl (h l')
    | _ => rfl

mutual
theorem literal_ok : ∀ (j : Json), j.Canon → j.Literal → ∃ e, unmarshalExpr env j = .ok e ∧ ∀ ctx, eval env e ctx = .ok j
  | .null, _, h => by cases h
  | .bool b, _, _ => ⟨_, rfl, fun _ => rfl⟩
  | .int i, _, h => by
    refine ⟨intE i, ?_, fun _ => rfl⟩
    rw [unmarshalExpr, if_pos h.inInt64]
  | .float f, _, _ => ⟨_, rfl, fun _ => rfl⟩
  | .str s, _, h => by
    refine ⟨strE s, ?_, fun ctx => eval_text (Json.Literal.ordinary h)⟩
    rw [unmarshalExpr, if_neg (show s ≠ "" from h.1)]
  | .list l, hc, h => by
    obtain ⟨es, h1, h2⟩ := literalL_ok l hc h.2
    refine ⟨.exprs "@list" es, by simp only [unmarshalExpr, h1], fun ctx => ?_⟩
    rw [eval_list, h2]
    simp only [unpackList_id h.1]
  | .map m, hc, h => by
    obtain ⟨es, h1, h2, h3⟩ := literalM_ok m hc.2 h.2
    refine ⟨.dict "@dict" es, ?_, fun ctx => ?_⟩
    · simp only [unmarshalExpr, h1]
      match es, m, h2, h with
      | [], _, _, _ => rfl
      | [(k, e)], [(k', v)], h2, h =>
        simp only [List.map_cons, List.map_nil, List.cons.injEq, and_true] at h2
        subst h2
        have hk := h.1 k v rfl
        have hk' : k ≠ "" := h.2.1.1
        simp only [mkMap]
        split
        · rename_i he; exact absurd (String.toList_eq_nil_iff.mp he) hk'
        · rename_i c cs he
          rw [he] at hk
          have : c ≠ '@' := fun e => hk (by rw [e]; rfl)
          rw [if_neg this]
      | _ :: _ :: _, _, _, _ => rfl
    · have := h3 ctx [] hc.1
      simp only [eval, Expr.den, evalDict, if_true, this, List.nil_append]
termination_by structural j => j
theorem literalL_ok : ∀ (l : List Json), Json.CanonL l → Json.LiteralL l → ∃ es, unmarshalL env l = .ok es ∧ ∀ ctx, seqAll ctx (es.map (Expr.den env)) = .ok l
  | [], _, _ => ⟨[], rfl, fun _ => rfl⟩
  | j :: l, hc, h => by
    obtain ⟨e, h1, h2⟩ := literal_ok j hc.1 h.1
    obtain ⟨es, h3, h4⟩ := literalL_ok l hc.2 h.2
    refine ⟨e :: es, by simp only [unmarshalL, h1, h3], fun ctx => ?_⟩
    have : e.den env ctx = .ok j := h2 ctx
    simp only [List.map_cons, seqAll, this, h4]
theorem literalM_ok : ∀ (m : List (String × Json)), Json.CanonM m → Json.LiteralM m →
    ∃ es, unmarshalM env m = .ok es ∧ es.map Prod.fst = m.map Prod.fst ∧
      ∀ ctx data, SMap.Sorted (data ++ m) → setFields env ctx data (Expr.denM env es) = .ok (data ++ m)
  | [], _, _ => ⟨[], rfl, rfl, fun _ data _ => by simp [Expr.denM, setFields]⟩
  | (k, j) :: m, hc, h => by
    obtain ⟨e, h1, h2⟩ := literal_ok j hc.1 h.2.1
    obtain ⟨es, h3, h4, h5⟩ := literalM_ok m hc.2 h.2.2
    refine ⟨(k, e) :: es, by simp only [unmarshalM, h1, h3], by simp [h4], fun ctx data hs => ?_⟩
    have hd : e.den env ctx = .ok j := h2 ctx
    have hl : ∀ p ∈ data, p.1 < k := by
      intro p hp
      exact (List.pairwise_append.mp hs).2.2 p hp (k, j) (by simp)
    simp only [Expr.denM, setFields, hd, setJSON_ordinary (show PlainKey k from h.1) h.2.1.ordinary, SMap.set_last hl]
    rw [h5 ctx (data ++ [(k, j)]) (by simpa using hs)]
    simp
end

theorem unmarshalM_keys : ∀ (m : List (String × Json)) (es : List (String × Expr)), unmarshalM env m = .ok es → es.map Prod.fst = m.map Prod.fst
  | [], es, h => by cases h; rfl
  | (k, j) :: m, es, h => by
    rw [unmarshalM] at h
    cases h1 : unmarshalExpr env j with
    | error e => rw [h1] at h; cases h
    | ok x =>
      cases h2 : unmarshalM env m with
      | error e => rw [h1, h2] at h; cases h
      | ok xs =>
        rw [h1, h2] at h
        cases h
        simp [unmarshalM_keys m xs h2]

mutual
theorem readable_iff : ∀ (j : Json), (∃ e, unmarshalExpr env j = .ok e) ↔ j.NoEmpty
  | .null => ⟨fun _ => trivial, fun _ => ⟨_, rfl⟩⟩
  | .bool b => ⟨fun _ => trivial, fun _ => ⟨_, rfl⟩⟩
  | .int i => ⟨fun _ => trivial, fun _ => by rw [unmarshalExpr]; split <;> exact ⟨_, rfl⟩⟩
  | .float f => ⟨fun _ => trivial, fun _ => ⟨_, rfl⟩⟩
  | .str s => by
    rw [unmarshalExpr, Json.NoEmpty]
    split <;> simp_all
  | .list l => by
    rw [unmarshalExpr, Json.NoEmpty, ← readableL_iff l]
    cases unmarshalL env l <;> simp
  | .map m => by
    rw [unmarshalExpr, Json.NoEmpty, ← readableM_iff m]
    cases h : unmarshalM env m with
    | error e => simp
    | ok es =>
      have hk := unmarshalM_keys m es h
      simp only
      match es, m, hk with
      | [], [], _ => simp [mkMap]
      | [(k, e)], [(k', v)], hk =>
        simp only [List.map_cons, List.map_nil, List.cons.injEq, and_true] at hk
        subst hk
        simp only [mkMap]
        split
        · rename_i he
          have := String.toList_eq_nil_iff.mp he
          subst this
          simp
        · rename_i c cs he
          have : k ≠ "" := by rintro rfl; simp at he
          split <;> simp [this]
      | _ :: _ :: _, _ :: _ :: _, _ => simp [mkMap]
      | _ :: _ :: _, [_], hk => simp at hk
      | [_], _ :: _ :: _, hk => simp at hk
      | [], _ :: _, hk => simp at hk
      | _ :: _, [], hk => simp at hk
termination_by structural j => j
theorem readableL_iff : ∀ (l : List Json), (∃ es, unmarshalL env l = .ok es) ↔ Json.NoEmptyL l
  | [] => ⟨fun _ => trivial, fun _ => ⟨_, rfl⟩⟩
  | j :: l => by
    rw [unmarshalL, Json.NoEmptyL, ← readable_iff j, ← readableL_iff l]
    cases unmarshalExpr env j <;> cases unmarshalL env l <;> simp
theorem readableM_iff : ∀ (m : List (String × Json)), (∃ es, unmarshalM env m = .ok es) ↔ Json.NoEmptyM m
  | [] => ⟨fun _ => trivial, fun _ => ⟨_, rfl⟩⟩
  | (k, j) :: m => by
    rw [unmarshalM, Json.NoEmptyM, ← readable_iff j, ← readableM_iff m]
    cases unmarshalExpr env j <;> cases unmarshalM env m <;> simp
end

/-! ## Decimal texts -/

theorem digit?_some {c : Char} {n : Nat} : digit? c = some n ↔ ('0' ≤ c ∧ c ≤ '9') ∧ n = c.toNat - 48 := by
  unfold digit?
  split
  · rename_i h; simp [h, eq_comm]
  · rename_i h; simp [h]

theorem parseDigits_some : ∀ (ds : List Char) (a n : Nat), parseDigits ds a = some n ↔
    (∀ c ∈ ds, '0' ≤ c ∧ c ≤ '9') ∧ n = ds.foldl (fun n c => 10 * n + (c.toNat - 48)) a
  | [], a, n => by simp [parseDigits, eq_comm]
  | c :: ds, a, n => by
    rw [parseDigits]
    cases h : digit? c with
    | none =>
      have : ¬ ('0' ≤ c ∧ c ≤ '9') := fun hc => by
        have := digit?_some.mpr ⟨hc, rfl⟩
        rw [h] at this; cases this
      simp only [List.forall_mem_cons, this, false_and]
      simp
    | some d =>
      obtain ⟨h1, rfl⟩ := digit?_some.mp h
      simp only [List.forall_mem_cons, h1, and_true, true_and, List.foldl_cons]
      rw [parseDigits_some ds]

theorem bind_in (r : Option Int) (i : Int) : r.bind (fun i => if inInt64 i then some i else none) = some i ↔ r = some i ∧ inInt64 i = true := by
  cases r with
  | none => simp
  | some x =>
    simp only [Option.bind_some, Option.some.injEq]
    by_cases h : inInt64 x = true
    · rw [if_pos h]
      simp only [Option.some.injEq]
      exact ⟨fun e => ⟨e, e ▸ h⟩, fun e => e.1⟩
    · rw [if_neg h]
      exact ⟨(fun e => by cases e), fun e => absurd e.2 (e.1 ▸ h)⟩

theorem parseInt_iff (s : String) (i : Int) : parseInt s = some i ↔ Numeral s i ∧ inInt64 i = true := by
  unfold parseInt
  rw [bind_in]
  refine and_congr ?_ Iff.rfl
  have sign : ∀ c ∈ ['-', '+'], ¬ ('0' ≤ c ∧ c ≤ '9') := by decide
  have num : ∀ (ds : List Char) (n : Nat), parseDigits ds 0 = some n ↔ (∀ c ∈ ds, '0' ≤ c ∧ c ≤ '9') ∧ n = decimal ds := fun ds n => parseDigits_some ds 0 n
  unfold Numeral
  split
  · rename_i h
    simp only [h, reduceCtorEq, false_iff, List.nil_eq, false_and, or_false, false_or]
    rintro ⟨ds, h1, _, ⟨rfl, _⟩⟩
    exact h1 rfl
  · rename_i c cs h
    rw [Option.map_eq_some_iff]
    constructor
    · rintro ⟨n, h1, rfl⟩
      obtain ⟨h2, rfl⟩ := (num _ _).mp h1
      exact ⟨c :: cs, by simp, h2, .inl ⟨h, rfl⟩⟩
    · rintro ⟨ds, h1, h2, ⟨h3, rfl⟩ | ⟨h3 | h3, rfl⟩⟩
      · rw [h] at h3
        obtain ⟨_, rfl⟩ := List.cons.inj h3
        exact ⟨_, (num _ _).mpr ⟨h2, rfl⟩, rfl⟩
      · exact absurd (h2 '-' (by rw [← h3, h]; simp)) (sign '-' (by simp))
      · rw [h] at h3
        exact absurd (List.cons.inj h3).1 (by decide)
  · rename_i c cs h
    rw [Option.map_eq_some_iff]
    constructor
    · rintro ⟨n, h1, rfl⟩
      obtain ⟨h2, rfl⟩ := (num _ _).mp h1
      exact ⟨c :: cs, by simp, h2, .inr ⟨.inr h, rfl⟩⟩
    · rintro ⟨ds, h1, h2, ⟨h3, rfl⟩ | ⟨h3 | h3, rfl⟩⟩
      · rw [h] at h3
        exact absurd (List.cons.inj h3).1 (by decide)
      · exact absurd (h2 '+' (by rw [← h3, h]; simp)) (sign '+' (by simp))
      · rw [h] at h3
        obtain ⟨_, rfl⟩ := List.cons.inj h3
        exact ⟨_, (num _ _).mpr ⟨h2, rfl⟩, rfl⟩
  · rename_i c cs hm hp h
    rw [Option.map_eq_some_iff]
    constructor
    · rintro ⟨n, h1, rfl⟩
      obtain ⟨h2, rfl⟩ := (num _ _).mp h1
      exact ⟨c :: cs, by simp, h2, .inr ⟨.inl h, rfl⟩⟩
    · rintro ⟨ds, h1, h2, ⟨h3, rfl⟩ | ⟨h3 | h3, rfl⟩⟩
      · obtain ⟨d, ds, rfl⟩ := List.exists_cons_of_ne_nil h1
        rw [h] at h3
        obtain ⟨rfl, rfl⟩ := List.cons.inj h3
        exact absurd rfl (hm d ds rfl)
      · rw [h] at h3
        subst h3
        exact ⟨_, (num _ _).mpr ⟨h2, rfl⟩, rfl⟩
      · obtain ⟨d, ds, rfl⟩ := List.exists_cons_of_ne_nil h1
        rw [h] at h3
        obtain ⟨rfl, rfl⟩ := List.cons.inj h3
        exact absurd rfl (hp d ds rfl)

theorem digit_range {c : Char} (h : c.isDigit = true) : '0' ≤ c ∧ c ≤ '9' := by
  rw [Char.isDigit_iff_toNat] at h
  refine ⟨Char.le_def.mpr (UInt32.le_iff_toNat_le.mpr ?_), Char.le_def.mpr (UInt32.le_iff_toNat_le.mpr ?_)⟩
  · exact h.1
  · exact h.2

theorem decimal_toDigits (n : Nat) : decimal (Nat.toDigits 10 n) = n := by
  have := Nat.ofDigitChars_ten_toDigits (n := n)
  rw [Nat.ofDigitChars_eq_foldl] at this
  exact this

theorem digits_ok (n : Nat) : ∀ c ∈ Nat.toDigits 10 n, '0' ≤ c ∧ c ≤ '9' :=
  fun _ hc => digit_range (Nat.isDigit_of_mem_toDigits (by decide) (by decide) hc)

/-- The text of an integer starts with a digit or a minus sign. -/
theorem intText_toList (i : Int) : (0 ≤ i ∧ (toString i).toList = Nat.toDigits 10 i.toNat) ∨ (i < 0 ∧ (toString i).toList = '-' :: Nat.toDigits 10 (-i).toNat) := by
  cases i with
  | ofNat n => exact .inl ⟨Int.natCast_nonneg n, Nat.toList_repr⟩
  | negSucc n =>
    refine .inr ⟨Int.negSucc_lt_zero n, ?_⟩
    show ("-" ++ (n + 1).repr).toList = _
    rw [String.toList_append, Nat.toList_repr]
    rfl

theorem intText_numeral (i : Int) : Numeral (toString i) i := by
  rcases intText_toList i with ⟨h, e⟩ | ⟨h, e⟩
  · exact ⟨_, Nat.toDigits_ne_nil, digits_ok _, .inr ⟨.inl e, by rw [decimal_toDigits]; omega⟩⟩
  · exact ⟨_, Nat.toDigits_ne_nil, digits_ok _, .inl ⟨e, by rw [decimal_toDigits]; omega⟩⟩

theorem intText_ordinary (i : Int) : (Json.str (toString i)).Ordinary := by
  rintro s hs
  cases hs
  have hd : ∃ c, (toString i).toList.head? = some c ∧ (c = '-' ∨ ('0' ≤ c ∧ c ≤ '9')) := by
    rcases intText_toList i with ⟨_, e⟩ | ⟨_, e⟩
    · obtain ⟨c, cs, h⟩ := List.exists_cons_of_ne_nil (Nat.toDigits_ne_nil (n := i.toNat) (b := 10))
      exact ⟨c, by rw [e, h]; rfl, .inr (digits_ok i.toNat c (by rw [h]; simp))⟩
    · exact ⟨'-', by rw [e]; rfl, .inl rfl⟩
  obtain ⟨c, h1, h2⟩ := hd
  constructor <;>
  · intro e
    rw [e] at h1
    cases h1
    exact absurd h2 (by decide)

theorem eval_convert {op : String} (ho : isConvert op = true) {e : Expr} {ctx : Ctx} {v : Json} (h : eval env e ctx = .ok v) : eval env (.app op e) ctx = convert env ctx op v := by
  have h0 : op ≠ "" := by rintro rfl; exact absurd ho (by decide)
  have h : e.den env ctx = .ok v := h
  simp only [eval, Expr.den, evalApp, ho, if_neg h0, if_true, h]

theorem eval_convert_err {op : String} (ho : isConvert op = true) {e : Expr} {ctx : Ctx} {x : EvalErr} (h : eval env e ctx = .error x) : eval env (.app op e) ctx = .error x := by
  have h0 : op ≠ "" := by rintro rfl; exact absurd ho (by decide)
  have h : e.den env ctx = .error x := h
  simp only [eval, Expr.den, evalApp, ho, if_neg h0, if_true, h]

theorem convert_string {ctx : Ctx} {v : Json} {s : String} (hv : asString env v = .ok s) (ho : (Json.str s).Ordinary) : convert env ctx "@string" v = .ok (.str s) := by
  have : getJSONPath env ctx s = .ok (.str s) := deref_ordinary (env := env) (ctx := ctx) ho
  unfold convert
  simp only [String.reduceEq, if_false, hv, this, (ho s rfl).1]

theorem sixChars_length (s : String) : (sixChars s).length = 6 := by
  unfold sixChars
  split
  · rename_i h
    rw [String.length_append, String.length_ofList, List.length_replicate]
    omega
  · rename_i h
    rw [String.length_ofList, List.length_take, String.length_toList]
    omega

end Dctl
