import Verif.Cache.View
/-!
# Specification: what a table row shows
-/
set_option autoImplicit false
namespace Dctl

/-- The conditions of an object: the elements of `status.conditions` that have a type and a status. -/
def conditionsOf (o : Obj) : List (String × String) :=
  match nested o ["status", "conditions"] with
  | some (.list cs) => cs.filterMap fun c =>
      match c with
      | .map m =>
        match SMap.get m "type", SMap.get m "status" with
        | some (.str t), some (.str s) => some (t, s)
        | _, _ => none
      | _ => none
  | _ => []

/-- Conditions in the order they should be shown: `Ready`, `Available`, `Progressing`, `Degraded`, then all others, each as they come. -/
def shownOrder (l : List (String × String)) : List (String × String) :=
  l.filter (fun c => c.1 == "Ready") ++ l.filter (fun c => c.1 == "Available") ++ l.filter (fun c => c.1 == "Progressing") ++ l.filter (fun c => c.1 == "Degraded") ++
    l.filter (fun c => c.1 ∉ ["Ready", "Available", "Progressing", "Degraded"])

/-- A cell shows a list of words: all of them if there are at most three, otherwise three and how many more there are. -/
def Shows (cell : String) (l : List String) : Prop :=
  match l with
  | [] => cell = "<none>"
  | [a] => cell = a
  | [a, b] => cell = a ++ "," ++ b
  | [a, b, c] => cell = a ++ "," ++ b ++ "," ++ c
  | a :: b :: c :: rest => cell = a ++ "," ++ b ++ "," ++ c ++ " +" ++ toString rest.length ++ " more"

end Dctl
