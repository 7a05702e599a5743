import Verif.Visualize.Graph
/-!
# Specification: what the drawing of an operator should show
-/
set_option autoImplicit false
namespace Dctl

/-- The edge is one from a source of a controller to the controller, labelled by the type of the source. -/
def IsRead (ctls : List VCtl) (e : VEdge) : Prop := ∃ c ∈ ctls, ∃ s ∈ c.sources, e = (s.key, c.name, if s.type = "" then "Watcher" else s.type)

/-- The edge is one from a controller to its target, labelled by the type of the target. -/
def IsWrite (ctls : List VCtl) (e : VEdge) : Prop := ∃ c ∈ ctls, e = (c.name, c.target.key, if c.target.type = "" then "Updater" else c.target.type)

/-- A resource as it is drawn: group, version, kind, as given. -/
def VRes.shown (r : VRes) : String := (match r.group with | some g => g | none => "") ++ "/" ++ (match r.version with | some v => v | none => "") ++ "/" ++ r.kind

/-- The edge is one from a source to its controller, as given in the operator, or one from a controller to its target. -/
def OfSpec (ctls : List VSpec) (e : VEdge) : Prop :=
  (∃ c ∈ ctls, ∃ s ∈ c.sources, e = (s.shown, c.name, if s.type = "" then "Watcher" else s.type)) ∨
  ∃ c ∈ ctls, e = (c.name, c.target.shown, if c.target.type = "" then "Updater" else c.target.type)

end Dctl
