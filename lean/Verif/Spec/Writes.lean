import Verif.Pipeline.Adaptor
/-!
# Specification: effect of writes on a target

Small definitions used in theorem statements only.
-/
set_option autoImplicit false
namespace Dctl
variable {D : Type} [DecidableEq D]

/-- The objects in a target, by key. -/
abbrev Target (D : Type) := ObjKey → Option D

/-- The effect of one write: a delete removes the object, any other write puts it in place. -/
def Target.write (O : ObjOps D) (T : Target D) (w : Delta D) : Target D := fun k =>
  if O.key w.obj = k then (if w.type = .deleted then none else some w.obj) else T k

/-- The effect of a list of writes in order. -/
def Target.writes (O : ObjOps D) (T : Target D) (ws : List (Delta D)) : Target D := ws.foldl (Target.write O) T

/-- `T` holds exactly the objects made from the documents of `o`. -/
def Holds (O : ObjOps D) (t : GVK) (o : ZSet D) (T : Target D) : Prop :=
  ∀ k obj, T k = some obj ↔ ∃ d, 0 < ZSet.get o d ∧ O.enforce t d = .ok obj ∧ O.key obj = k

/-- At most one document per target object, counting multiplicities. -/
def OnePerName (O : ObjOps D) (t : GVK) (o : ZSet D) : Prop :=
  (∀ d, 0 ≤ ZSet.get o d ∧ ZSet.get o d ≤ 1) ∧
  ∀ d d' a b, 0 < ZSet.get o d → 0 < ZSet.get o d' → O.enforce t d = .ok a → O.enforce t d' = .ok b → O.key a = O.key b → d = d'

/-- Every document can be made an object. -/
def AllEnforced (O : ObjOps D) (t : GVK) (o : ZSet D) : Prop := ∀ d, 0 < ZSet.get o d → ∃ a, O.enforce t d = .ok a

/-- All writes of a list of results, in order. -/
def emitted (rs : List (Except Err (List (Delta D)))) : List (Delta D) :=
  rs.flatMap (fun r => match r with | .ok ws => ws | .error _ => [])

/-- `T` holds exactly the objects made from the documents of `o`, where an object may differ in what `f` hides. -/
def HoldsUpTo (f : D → D) (O : ObjOps D) (t : GVK) (o : ZSet D) (T : Target D) : Prop :=
  ∀ k, (∀ obj, T k = some obj → ∃ d x, 0 < ZSet.get o d ∧ O.enforce t d = .ok x ∧ O.key x = k ∧ f obj = f x) ∧
    ∀ d x, 0 < ZSet.get o d → O.enforce t d = .ok x → O.key x = k → ∃ obj, T k = some obj ∧ f obj = f x

/-- A well-formed record of target objects of kind `t`: each under its own key and of the target kind. -/
def GoodRecord (O : ObjOps D) (t : GVK) (s : Store D) : Prop :=
  AMap.WF s ∧ ∀ k y, s.get k = some y → O.key y = k ∧ O.enforce t y = .ok y

end Dctl
