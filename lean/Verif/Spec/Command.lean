import Verif.Spec.Auth
import Verif.Auth.Command
/-!
# What `generate-config` is asked for
-/
set_option autoImplicit false
namespace Dctl

/-- `x` is one of the items of the comma-separated list `s`, white space around items not counting. -/
def Listed (s x : String) : Prop :=
  ∃ pre a b post : List Char, s.toList = pre ++ a ++ x.toList ++ b ++ post ∧
    (pre = [] ∨ pre.getLast? = some ',') ∧ (post = [] ∨ post.head? = some ',') ∧
    (∀ c ∈ a, isUniSpace c = true) ∧ (∀ c ∈ b, isUniSpace c = true) ∧
    x ≠ "" ∧ ',' ∉ x.toList ∧ (∀ c, x.toList.head? = some c → isUniSpace c = false) ∧ (∀ c, x.toList.getLast? = some c → isUniSpace c = false)

/-- The namespace is asked for: no restriction is given, or all namespaces are, or this one. -/
def AskedNamespace (f : GenFlags) (ns : String) : Prop :=
  f.namespaces = "" ∨ Listed f.namespaces "*" ∨ (ns ≠ "" ∧ Listed f.namespaces ns)

/-- The request is covered by the rule with the names on the command line in place of its own, if some are given. -/
def CoversNamed (f : GenFlags) (r : PolicyRule) (a : Attrs) : Prop :=
  if f.resourceNames = "" then Covers Reads r a.verb a.apiGroup a.resource a.name
  else Covers Reads { r with resourceNames := [] } a.verb a.apiGroup a.resource a.name ∧
    (a.name ≠ "" → a.verb ∉ ["list", "watch", "create", "deletecollection"] → ∃ p, Listed f.resourceNames p ∧ Reads p a.name)

/-- The request is asked for, when the rules given are `rs`: no rules are given, or one but the last covers it, or the last does with the names on the
command line. -/
def AskedRules (f : GenFlags) (rs : List PolicyRule) (a : Attrs) : Prop :=
  (f.rules = none ∧ f.rulesFile = none) ∨
  ∃ init last, rs = init ++ [last] ∧ ((∃ r ∈ init, Covers Reads r a.verb a.apiGroup a.resource a.name) ∨ CoversNamed f last a)

/-- A list on the command line names something unless it is empty. -/
def SaysSomething (s : String) : Prop := s = "" ∨ ∃ x, Listed s x

/-- The rules given by the flags, as a JSON value: those of the file, if there is one. -/
def GivenRules (f : GenFlags) (rs : List PolicyRule) : Prop :=
  (f.rulesFile = none ∧ f.rules = none ∧ rs = []) ∨
  ∃ v, (f.rulesFile = some (some (some v)) ∨ (f.rulesFile = none ∧ f.rules = some (some v))) ∧ readRules (some v) = some rs

end Dctl
