import Verif.Auth.Token
/-!
# What authorization should mean
-/
set_option autoImplicit false
namespace Dctl

/-- `v` is `p` with a '*' replaced by some string. -/
def Fills (p v : String) : Prop := ∃ a x b : String, p = a ++ "*" ++ b ∧ v = a ++ x ++ b

/-- What a pattern with at most one '*' stands for: itself, or itself with the '*' replaced. -/
def Denotes (p v : String) : Prop := p = v ∨ Fills p v

/-- What the patterns are taken to mean by the code: a leading '*' leaves a suffix, else a trailing '*' leaves a prefix, else what precedes the first '*'
has to be a prefix and what follows it has to be a suffix; the two may overlap. Further '*'s stand for themselves. -/
def Reads (p v : String) : Prop :=
  p = v ∨
  (∃ b x : String, p = "*" ++ b ∧ v = x ++ b) ∨
  (∃ a x : String, p = a ++ "*" ∧ a.toList.head? ≠ some '*' ∧ v = a ++ x) ∨
  (∃ a b x y : String, p = a ++ "*" ++ b ∧ a ≠ "" ∧ b.toList.getLast? ≠ some '*' ∧ b ≠ "" ∧ '*' ∉ a.toList ∧ v = a ++ x ∧ v = y ++ b)

/-- The requests a rule is about, given what its patterns mean: verb, group and resource have to match, and the name if the rule gives names, the request
gives a name, and the verb is not one about collections. -/
def Covers (sem : String → String → Prop) (r : PolicyRule) (verb apiGroup resource name : String) : Prop :=
  (∃ p ∈ r.verbs, sem p verb) ∧ (∃ p ∈ r.apiGroups, sem p apiGroup) ∧ (∃ p ∈ r.resources, sem p resource) ∧
  (name ≠ "" → verb ∉ ["list", "watch", "create", "deletecollection"] → r.resourceNames ≠ [] → ∃ p ∈ r.resourceNames, sem p name)

/-- The patterns of a rule have their '*', if any, at an end, and no other. -/
def EndStars (r : PolicyRule) : Prop :=
  ∀ p ∈ r.verbs ++ r.apiGroups ++ r.resources ++ r.resourceNames, ∃ a : String, '*' ∉ a.toList ∧ (p = a ∨ p = "*" ++ a ∨ p = a ++ "*")

/-- The namespaces a list of granted namespaces is about; the empty list is no restriction, the empty namespace stands for all of them. -/
def InNamespaces (nss : List String) (ns : String) : Prop := nss = [] ∨ "*" ∈ nss ∨ (ns ≠ "" ∧ ns ∈ nss)

/-- What theorems ask of the token library for a token with claims `c` signed with the key `k`: it is read back as it was written, and its signature
verifies with the public key. -/
def Jwt.SoundFor {Key Pub Sig : Type} (j : Jwt Key Pub Sig) (k : Key) (c : Json) : Prop :=
  j.decode (j.encode ⟨"RS256", c, j.sign k "RS256" c⟩) = some ⟨"RS256", c, j.sign k "RS256" c⟩ ∧ j.verify (j.pub k) "RS256" c (j.sign k "RS256" c) = true

/-- The claims a token for a user is expected to carry. -/
def expectedClaims (made expiry : Int) (u : String) (nss : List String) (rs : List PolicyRule) : Claims :=
  ⟨u, nss, rs, some ((made + expiry) / second), some (made / second)⟩

end Dctl
