import Verif.Apiserver.OpenApi
/-!
# What definitions and types the API server should have
-/
set_option autoImplicit false
namespace Dctl
namespace OpenApi

/-- The kinds registered for each group, and all kinds registered so far. -/
structure Regs where
  now : String → List GVK
  ever : List GVK

/-- Nothing is registered. -/
def Regs.none : Regs := ⟨fun _ => [], []⟩

/-- What a step registers: the kinds of a view group in place of those it had, or none. -/
def Ev.apply (r : Regs) : Ev → Regs
  | .register g gvks _ => if isViewGroup g then ⟨fun x => if x = g then gvks else r.now x, r.ever ++ gvks⟩ else r
  | .unregister g => ⟨fun x => if x = g then [] else r.now x, r.ever⟩
  | _ => r

/-- The steps that change what is registered. -/
def Ev.changes (r : Regs) : Ev → Prop
  | .register g _ _ => isViewGroup g = true
  | .unregister g => r.now g ≠ []
  | _ => False

/-- Groups are registered with kinds of the group, at least one; definitions are generated in an order of traversal with all registered kinds. -/
def Ev.Valid (r : Regs) : Ev → Prop
  | .register g gvks _ => gvks ≠ [] ∧ ∀ t ∈ gvks, t.group = g
  | .generate _ order => ∀ g, ∀ t ∈ r.now g, t ∈ order
  | _ => True

/-- The view kind is registered. -/
def Regs.Has (r : Regs) (t : GVK) : Prop := (∃ g, t ∈ r.now g) ∧ isViewKind t = true

/-- The definitions describe the registered view kinds: one for each kind and one for lists of it, linked to the kind and to each other, and besides these those of the
library. -/
structure Describes (base : Defs) (r : Regs) (defs : Defs) : Prop where
  kinds : ∀ t, r.Has t → ∃ d, defs.get (t.group ++ "." ++ t.version ++ "." ++ t.kind) = some d ∧ d.kind = some t
  lists : ∀ t, r.Has t → ∃ d, defs.get (t.group ++ "/" ++ t.version ++ "." ++ (t.kind ++ "List")) = some d ∧ d.kind = some ⟨t.group, t.version, t.kind ++ "List"⟩ ∧
    d.items = some (t.group ++ "." ++ t.version ++ "." ++ t.kind)
  others : ∀ name d, defs.get name = some d →
    (∃ t, r.Has t ∧ (name = t.group ++ "." ++ t.version ++ "." ++ t.kind ∨ name = t.group ++ "/" ++ t.version ++ "." ++ (t.kind ++ "List"))) ∨
    name ∈ ["k8s.io/apimachinery/pkg/apis/meta/v1/unstructured.Unstructured", "k8s.io/apimachinery/pkg/apis/meta/v1/unstructured.UnstructuredList"] ∨
    base.get name = some d
  library : ∀ name, base.get name ≠ Option.none → defs.get name ≠ Option.none

/-- No kind registered so far has a dot in its name. -/
def Regs.NoDots (r : Regs) : Prop := ∀ t ∈ r.ever, '.' ∉ t.kind.toList

/-- An answer: what was registered when it was given, its version, the definitions. -/
abbrev Ans := Regs × Ver × Defs

/-- A sequence of possible steps, each with `ok`, with the answers given. -/
inductive Path (base : Defs) (libs : List String) (ok : Regs → Sv → Ev → Prop) : Regs → Sv → List Ev → Regs → Sv → List Ans → Prop
  | nil {r : Regs} {s : Sv} : Path base libs ok r s [] r s []
  | cons {r r' : Regs} {s s1 s' : Sv} {e : Ev} {es : List Ev} {a : Option (Ver × Defs)} {ans : List Ans} :
      e.Valid r → ok r s e → s.step base libs e = .ok s1 a → Path base libs ok (e.apply r) s1 es r' s' ans →
      Path base libs ok r s (e :: es) r' s' (a.toList.map (fun x => (e.apply r, x)) ++ ans)

/-- All steps. -/
def anyStep : Regs → Sv → Ev → Prop := fun _ _ _ => True

/-- No request holds definitions it has not stored while what is registered changes. -/
def undisturbed : Regs → Sv → Ev → Prop := fun r s e => e.changes r → ∀ n v d, s.calls n ≠ .made v d

/-- What is registered does not change. -/
def noChange : Regs → Sv → Ev → Prop := fun r _ e => ¬ e.changes r

/-- A kind cannot be registered beside the kinds `ever`: it has no version, it or its list is a kind of the library, or it is the list of another or the other way
round. -/
def Clash (libs : List String) (ever : List GVK) (t : GVK) : Prop :=
  t.version = "" ∨ t.kind ∈ libs ∨ t.kind ++ "List" ∈ libs ∨ ∃ t' ∈ ever, t'.group = t.group ∧ t'.version = t.version ∧ (t'.kind = t.kind ++ "List" ∨ t.kind = t'.kind ++ "List")

end OpenApi
end Dctl
