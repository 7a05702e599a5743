import Verif.Json.Basic
/-!
# Patching and merging of unstructured content (`pkg/object/patch.go`, `pkg/object/utils.go`, `pkg/reconciler/target.go`)

Deep copies are implicit, values are immutable. The entries of a patch are visited in key order: every iteration of the loops
below writes its own key only, so the (random) order of a Go map iteration does not matter.
-/
set_option autoImplicit false
namespace Dctl

mutual
/-- `patch.go:26-93` `patch(o, m)`: apply the patch `m` to `o`. -/
def Json.patch (o : Json) : Json → Json
  | .null => .null
  | .bool b => .bool b
  | .int i => .int i
  | .float f => .float f
  | .str s => .str s
  | .list lm =>
    if o = .list lm then .list lm
    else
      match o with
      | .list lo => .list (Json.patchL lo lm)
      | _ => .list lm
  | .map mm =>
    if o = .map mm then .map mm
    else
      match o with
      | .map mo => .map (Json.patchM mo mo mm)
      | _ => .map mm
termination_by structural m => m
/-- `patch.go:39-56`: lists are patched position by position, what the patch has in addition is appended. -/
def Json.patchL (lo : List Json) : List Json → List Json
  | [] => lo
  | y :: lm =>
    match lo with
    | [] => y :: lm
    | x :: lo => Json.patch x y :: Json.patchL lo lm
/-- `patch.go:58-85`: maps are patched field by field; `ret` is the result so far, `mo` the original map. A null
removes the field. -/
def Json.patchM (ret mo : SMap Json) : List (String × Json) → SMap Json
  | [] => ret
  | (k, v) :: mm =>
    if v = .null then Json.patchM (SMap.erase ret k) mo mm
    else
      match SMap.get mo k with
      | none => Json.patchM (SMap.set ret k v) mo mm
      | some vo => Json.patchM (SMap.set ret k (Json.patch vo v)) mo mm
end

mutual
/-- `target.go:320-327,335-342`: what becomes of a value in an inverse patch; nothing for null. -/
def Json.inv : Json → Option Json
  | .null => none
  | .bool _ => some .null
  | .int _ => some .null
  | .float _ => some .null
  | .str _ => some .null
  | .list l => some (.list (Json.removeL l))
  | .map m => some (.map (Json.removeM m))
termination_by structural j => j
/-- `target.go:317-330` `removeNestedMap`: scalars become null, maps and lists are processed recursively, fields holding null are
left out. -/
def Json.removeM : List (String × Json) → SMap Json
  | [] => []
  | (k, v) :: m =>
    match v.inv with
    | none => Json.removeM m
    | some r => (k, r) :: Json.removeM m
/-- `target.go:332-345` `removeNestedList`: as above, null elements stay null. -/
def Json.removeL : List Json → List Json
  | [] => []
  | v :: l => v.inv.getD .null :: Json.removeL l
end

mutual
/-- `pkg/object/utils.go:110-147` `MergeAny(a, b)`; `none` is the error. -/
def Json.merge (a : Json) : Json → Option Json
  | .null => if a = .null then some .null else none
  | .bool b => some (.bool b)
  | .int i => some (.int i)
  | .float f => some (.float f)
  | .str s => some (.str s)
  | .list lb =>
    match a with
    | .list la => some (.list (la ++ lb))
    | _ => some (.list lb)
  | .map mb =>
    match a with
    | .map ma => (Json.mergeM ma ma mb).map .map
    | _ => some (.map mb)
termination_by structural b => b
/-- `utils.go:124-143`: fields of both are merged, the others are taken over; `ret` is the result so far, `ma` the first map. -/
def Json.mergeM (ret ma : SMap Json) : List (String × Json) → Option (SMap Json)
  | [] => some ret
  | (k, vb) :: mb =>
    match SMap.get ma k with
    | none => Json.mergeM (SMap.set ret k vb) ma mb
    | some va =>
      match Json.merge va vb with
      | none => none
      | some x => Json.mergeM (SMap.set ret k x) ma mb
end

/-- `pkg/pipeline/op.go:77-84` and `utils.go:110-112`: merge the parts of a projection, starting with nil. -/
def mergeAll (v : Json) : List Json → Option Json
  | [] => some v
  | u :: us =>
    match Json.merge v u with
    | none => none
    | some v' => mergeAll v' us

example : Json.patch (.map [("a", .int 1), ("b", .map [("c", .int 2), ("d", .int 3)])]) (.map [("a", .null), ("b", .map [("c", .int 5)])]) =
    .map [("b", .map [("c", .int 5), ("d", .int 3)])] := by decide

example : Json.merge (.map [("a", .int 1), ("b", .list [.int 2])]) (.map [("a", .int 5), ("b", .list [.int 3])]) =
    some (.map [("a", .int 5), ("b", .list [.int 2, .int 3])]) := by decide

end Dctl
