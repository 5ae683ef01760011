import Verif.Model

/-!
# Filters with any `int` as index

Model.lean takes the index of a filter as a natural number. The parameter is an `int`
(`Model::GetFilteredPolicy` and `Model::RemoveFilteredPolicy`, include/casbin/model/model.h 95, 119).
-/

namespace Casbin
namespace Model

/-- `rule[k]` for an `int` `k`: it is converted to `size_t`, and a negative one to a number that is larger
than every size (`std::vector::operator[]`, used in model.cpp 254, 410). -/
def vecAtInt (rule : Rule) (k : Int) : Outcome Str :=
  if k < 0 then .ub .outOfBounds else vecAt rule k.toNat

/-- The field loop of `GetFilteredPolicy` and `RemoveFilteredPolicy` (model.cpp 252–258, 409–414) from
value number `j` on: `field_index + j` is a sum of `int`s. -/
def matchFilterInt (rule : Rule) (i : Int) : Nat → List Str → Outcome Bool
  | _, [] => .ok true
  | j, v :: vs =>
    if v ≠ [] then
      if i + j > 2147483647 then .ub .overflow
      else do
        let x ← vecAtInt rule (i + j)
        if x ≠ v then .ok false else matchFilterInt rule i (j + 1) vs
    else matchFilterInt rule i (j + 1) vs

end Model
end Casbin
