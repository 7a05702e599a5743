import Verif.Dbsp.Graph
/-!
# The rewrite engine (`rewrite_engine.go`)
-/
set_option autoImplicit false
namespace Dctl
variable {D J : Type} [DecidableEq D] [DecidableEq J]

/-- A rewrite rule: `CanApply` and `Apply` (`rewrite_engine.go:40-44`); no rule's `Apply` returns an
error. -/
structure Rule (D J : Type) where
  canApply : Graph D J → Bool
  apply : Graph D J → Graph D J

namespace Rewrite

/-- `rewrite_engine.go:94-107` `NonLinearLiftingRule.CanApply`. -/
def liftCan (c : List (Node D J)) : Bool := c.any (fun nd => nd.op.isNonLinear && !nd.lifted)

/-- `rewrite_engine.go:114-133` `NonLinearLiftingRule.Apply` with `chain.go:178-207` `ReplaceInChain`:
every unlifted non-linear node becomes `[I, Op, D]` with `Op` marked as lifted. (The code
walks from the end so that indices stay valid; the result is this map.) -/
def lift (c : List (Node D J)) : List (Node D J) :=
  c.flatMap (fun nd =>
    if nd.op.isNonLinear && !nd.lifted then
      [⟨Op.newIntegrator, false⟩, ⟨nd.op, true⟩, ⟨Op.newDifferentiator, false⟩]
    else [nd])

/-- `rewrite_engine.go:202-215`: is there an adjacent I→D pair? -/
def hasID : List (Node D J) → Bool
  | ⟨.integ _, _⟩ :: ⟨.diff p, l⟩ :: t => true || hasID (⟨.diff p, l⟩ :: t)
  | _ :: t => hasID t
  | [] => false

/-- `rewrite_engine.go:217-244`: drop adjacent I→D pairs, left to right, one pass. -/
def elimID : List (Node D J) → List (Node D J)
  | ⟨.integ _, _⟩ :: ⟨.diff _, _⟩ :: t => elimID t
  | nd :: t => nd :: elimID t
  | [] => []

/-- `rewrite_engine.go:267-281`: is there an adjacent distinct→distinct pair? -/
def hasDD : List (Node D J) → Bool
  | ⟨.distinct, _⟩ :: ⟨.distinct, l⟩ :: t => true || hasDD (⟨.distinct, l⟩ :: t)
  | _ :: t => hasDD t
  | [] => false

/-- `rewrite_engine.go:283-309`: keep only the second node of a distinct→distinct pair, one pass (the
kept node is skipped). -/
def elimDD : List (Node D J) → List (Node D J)
  | ⟨.distinct, _⟩ :: ⟨.distinct, l⟩ :: t => ⟨.distinct, l⟩ :: elimDD t
  | nd :: t => nd :: elimDD t
  | [] => []

/-- `rewrite_engine.go:345-365` `hasSelectionThenProjections`: some selection directly followed by a
projection. -/
def hasSP : List (Node D J) → Bool
  | ⟨.select _, _⟩ :: ⟨.project p, l⟩ :: t => true || hasSP (⟨.project p, l⟩ :: t)
  | _ :: t => hasSP t
  | [] => false

/-- `rewrite_engine.go:367-380` `hasConsecutiveProjections`. -/
def hasPP : List (Node D J) → Bool
  | ⟨.project _, _⟩ :: ⟨.project p, l⟩ :: t => true || hasPP (⟨.project p, l⟩ :: t)
  | _ :: t => hasPP t
  | [] => false

/-- `rewrite_engine.go:382-394` `hasProjectThenSelect`. -/
def hasPS : List (Node D J) → Bool
  | ⟨.project _, _⟩ :: ⟨.select s, l⟩ :: t => true || hasPS (⟨.select s, l⟩ :: t)
  | _ :: t => hasPS t
  | [] => false

/-- `rewrite_engine.go:410-417` / `443-450`: the evaluators of the longest prefix of projections and
the rest of the chain. -/
def spanProj : List (Node D J) → List (Ev D) × List (Node D J)
  | ⟨.project p, _⟩ :: t => let (ps, r) := spanProj t; (p :: ps, r)
  | c => ([], c)

omit [DecidableEq D] [DecidableEq J] in
theorem spanProj_length (c : List (Node D J)) : (spanProj c).2.length ≤ c.length := by
  fun_induction spanProj c <;> simp_all; omega

/-- `rewrite_engine.go:397-477` `fuseSelectionThenProjections`. The fused node reuses the node of the
selection (first projection), so keeps its `Lifted` mark. The first argument
bounds the recursion; `fuseSP` passes the length of the chain, which always suffices. -/
def fuseSPn : Nat → List (Node D J) → List (Node D J)
  | 0, c => c
  | _, [] => []
  | n + 1, ⟨.select s, l⟩ :: t =>
    match spanProj t with
    | ([], _) => ⟨.select s, l⟩ :: fuseSPn n t
    | (p :: ps, r) => ⟨.selProjs (some s) (p :: ps), l⟩ :: fuseSPn n r
  | n + 1, ⟨.project p, l⟩ :: t =>
    match spanProj t with
    | ([], _) => ⟨.project p, l⟩ :: fuseSPn n t
    | (q :: ps, r) => ⟨.selProjs none (p :: q :: ps), l⟩ :: fuseSPn n r
  | n + 1, nd :: t => nd :: fuseSPn n t

/-- The rule of `fuseSPn` applied to the whole chain (`rewrite_engine.go:397-477`). -/
def fuseSP (c : List (Node D J)) : List (Node D J) := fuseSPn c.length c

/-- `rewrite_engine.go:479-510` `fuseProjectThenSelect`. The fused node reuses the node of the selection. -/
def fusePS : List (Node D J) → List (Node D J)
  | ⟨.project p, _⟩ :: ⟨.select s, l⟩ :: t => ⟨.projSel p s, l⟩ :: fusePS t
  | nd :: t => nd :: fusePS t
  | [] => []

/-- Rule 1, `rewrite_engine.go:142-160`. -/
def joinRule : Rule D J where
  canApply g := match g.join with
    | some j => j.incrementalize.isSome
    | none => false
  apply g := match g.join with
    | some j => match j.incrementalize with
      | some j' => { g with join := some j' }
      | none => g
    | none => g

/-- Rule 0, `rewrite_engine.go:88-133`. -/
def liftRule : Rule D J where
  canApply g := liftCan g.chain
  apply g := { g with chain := lift g.chain }

/-- Rule 2, `rewrite_engine.go:169-193`: `IncrementalizeOp` (`op.go:80-93`) only converts joins, which are
never chain operators, so the rule never applies. -/
def chainIncRule : Rule D J where
  canApply _ := false
  apply g := g

/-- Rule 3, `rewrite_engine.go:196-258`. -/
def idRule : Rule D J where
  canApply g := hasID g.chain
  apply g := { g with chain := elimID g.chain }

/-- Rule 4, `rewrite_engine.go:261-317`. -/
def ddRule : Rule D J where
  canApply g := hasDD g.chain
  apply g := { g with chain := elimDD g.chain }

/-- Rule 5, `rewrite_engine.go:320-342`. -/
def fuseRule : Rule D J where
  canApply g := hasSP g.chain || hasPP g.chain || hasPS g.chain
  apply g :=
    if hasSP g.chain || hasPP g.chain then { g with chain := fuseSP g.chain }
    else if hasPS g.chain then { g with chain := fusePS g.chain }
    else g

/-- `rewrite_engine.go:23-37`: the rules in priority order. -/
def rules : List (Rule D J) := [joinRule, liftRule, chainIncRule, idRule, ddRule, fuseRule]

/-- `rewrite_engine.go:65-74`: apply the first applicable rule; `none` if no rule applies. -/
def step (rs : List (Rule D J)) (g : Graph D J) : Option (Graph D J) :=
  match rs with
  | [] => none
  | r :: rs => if r.canApply g then some (r.apply g) else step rs g

/-- `rewrite_engine.go:57-79`: the fixpoint loop; `fuel` is `maxIterations - iterations`. The loop ends
without error iff a round without change happens strictly before the counter reaches the limit:
`iterations` counts the final unchanged round too. -/
def loop (rs : List (Rule D J)) : Nat → Graph D J → Except Err (Graph D J)
  | 0, _ => .error "rewrite engine did not converge"
  | fuel + 1, g =>
    match step rs g with
    | some g' => loop rs fuel g'
    | none => if fuel = 0 then .error "rewrite engine did not converge" else .ok g

/-- `rewrite_engine.go:52-83` `Optimize` (maxIterations = 20). -/
def optimize (g : Graph D J) : Except Err (Graph D J) :=
  match g.validate with
  | .error e => .error e
  | .ok () => loop rules 20 g

end Rewrite
end Dctl
