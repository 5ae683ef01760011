import Verif.Util
import Verif.RoleManager

/-!
# Policies, assertions and the policy part of `Model`

Models `casbin/model/policy_collection.cpp`, `casbin/model/assertion.cpp` and
`casbin/model/model.cpp` (lines 195–454; definitions are in `ModelDef.lean`).
-/

namespace Casbin

/-- `class PoliciesValues` (include/casbin/model/policy_collection.hpp): a vector of rules, or an
unordered set of rules when `hash`. `items` is the contents in insertion order; iteration over
the set goes through `IterOrder`. -/
structure Policies where
  hash : Bool
  items : List Rule
  deriving DecidableEq, Repr

namespace Policies

/-- `createWithVector` (policy_collection.cpp 34–37) and `PoliciesValues(capacity)` (30–33). -/
def vector (l : List Rule := []) : Policies := { hash := false, items := l }

/-- `createWithHashset` (policy_collection.cpp 40–43). -/
def hashset : Policies := { hash := true, items := [] }

/-- the sequence a range-for visits -/
def iterate [IterOrder] (P : Policies) : List Rule :=
  if P.hash then IterOrder.iter P.items else P.items

/-- `emplace` (policy_collection.cpp 61–66): `push_back`, or insertion into the set. -/
def emplace (P : Policies) (r : Rule) : Policies :=
  if P.hash then
    if r ∈ P.items then P else { P with items := P.items ++ [r] }
  else { P with items := P.items ++ [r] }

/-- `find` (policy_collection.cpp 104–108) compared with `end()`: exact equality of rules. -/
def contains (P : Policies) (r : Rule) : Bool := decide (r ∈ P.items)

/-- `clear` (policy_collection.cpp 110–115). -/
def clear (P : Policies) : Policies := { P with items := [] }

/-- A loop `for (it ...) if (pred(*it)) { erase(it); break; }`; `none` when nothing was erased. -/
def eraseFirst [IterOrder] (P : Policies) (pred : Rule → Bool) : Option Policies :=
  if P.hash then
    match (IterOrder.iter P.items).find? pred with
    | some r => some { P with items := P.items.erase r }
    | none => none
  else
    if P.items.any pred then some { P with items := P.items.eraseP pred } else none

end Policies

/-- `class Assertion` (include/casbin/model/assertion.h 33–). `rm` is the shared pointer to the
role manager, an index into the enforcer's heap of role managers; `none` is null. -/
structure Assertion where
  key : Str
  value : Str
  tokens : List Str
  policy : Policies
  rm : Option Nat
  deriving DecidableEq, Repr

/-- `Model::m`: section → policy type → assertion. A missing assertion is a null `shared_ptr`
(`operator[]` creates it), whose dereference is undefined behaviour. -/
abbrev Model := UMap Str (UMap Str Assertion)

namespace Model

/-- `m[sec].assertion_map[ptype]`. -/
def find (m : Model) (sec ptype : Str) : Option Assertion :=
  match m.get sec with
  | some am => am.get ptype
  | none => none

/-- Replace an existing assertion. -/
def put (m : Model) (sec ptype : Str) (a : Assertion) : Model :=
  match m.get sec with
  | some am => m.set sec (am.set ptype a)
  | none => m.set sec [(ptype, a)]

/-- `m[sec].assertion_map[ptype]->` : dereferencing a missing assertion is undefined. -/
def at_ (sec ptype : Str) : M Model Assertion := fun m =>
  match m.find sec ptype with
  | some a => (.ok a, m)
  | none => (.ub .nullDeref, m)

/-- Assign `m[sec].assertion_map[ptype]->policy`. -/
def setPolicy (sec ptype : Str) (P : Policies) : M Model Unit := fun m =>
  match m.find sec ptype with
  | some a => (.ok (), m.put sec ptype { a with policy := P })
  | none => (.ub .nullDeref, m)

/-- `m[sec]` used as a value: creates the section when it is missing. -/
def ensureSec (m : Model) (sec : Str) : Model :=
  if m.has sec then m else m.set sec []

/-- The assertions of a section that is iterated over with `m[sec].assertion_map`. -/
def secMap (m : Model) (sec : Str) : UMap Str Assertion :=
  match m.get sec with
  | some am => am
  | none => []

/-- `Model::HasSection` (model.cpp 64–66). -/
def hasSection (m : Model) (sec : Str) : Bool := m.has sec

/-- `if (size() > 0) clear()` for every assertion of a section (model.cpp 229–238). -/
def clearSec (m : Model) (sec : Str) : Model :=
  match m.get sec with
  | some am => m.set sec (am.map fun kv => (kv.1, { kv.2 with policy := kv.2.policy.clear }))
  | none => m.set sec []

/-- `Model::ClearPolicy` (model.cpp 227–239). -/
def clearPolicy (m : Model) : Model := (m.clearSec c!"p").clearSec c!"g"

variable [IterOrder]

/-- `Model::GetPolicy` (model.cpp 242–244). -/
def getPolicy (sec ptype : Str) : M Model Policies := do
  let a ← at_ sec ptype
  pure a.policy

/-- The field loop of `GetFilteredPolicy`/`RemoveFilteredPolicy` (model.cpp 252–258, 409–414):
`policy_value[field_index + j]` is read only for non-empty filter values; reading beyond the end
is undefined. The index is an `int`; the loop with an `int` index is `Model.matchFilterInt` in
`Index.lean`. -/
def matchFilter (rule : Rule) : Nat → List Str → Outcome Bool
  | _, [] => .ok true
  | i, v :: vs =>
    if v ≠ [] then do
      let x ← vecAt rule i
      if x ≠ v then .ok false else matchFilter rule (i + 1) vs
    else matchFilter rule (i + 1) vs

/-- Split a list of rules by the filter: (matched, others), in order. -/
def partitionFilter (i : Nat) (vs : List Str) : List Rule → Outcome (List Rule × List Rule)
  | [] => .ok ([], [])
  | r :: rs => do
    let b ← matchFilter r i vs
    let (yes, no) ← partitionFilter i vs rs
    if b then .ok (r :: yes, no) else .ok (yes, r :: no)

/-- `Model::GetFilteredPolicy` (model.cpp 247–264). The result is a vector. -/
def getFilteredPolicy (sec ptype : Str) (i : Nat) (vs : List Str) : M Model Policies := do
  let a ← at_ sec ptype
  let (yes, _) ← M.lift (partitionFilter i vs a.policy.iterate)
  pure (Policies.vector yes)

/-- `Model::HasPolicy` (model.cpp 267–274). -/
def hasPolicy (sec ptype : Str) (rule : Rule) : M Model Bool := do
  let a ← at_ sec ptype
  pure (a.policy.iterate.any (fun r => arrayEquals rule r))

/-- `Model::AddPolicy` (model.cpp 277–284). -/
def addPolicy (sec ptype : Str) (rule : Rule) : M Model Bool := do
  let h ← hasPolicy sec ptype rule
  if h then pure false
  else do
    let a ← at_ sec ptype
    setPolicy sec ptype (a.policy.emplace rule)
    pure true

/-- The first loop of `AddPolicies` (model.cpp 288–290) and the check of `UpdatePolicies` (346–351):
is one of the rules present? -/
def anyPresent (sec ptype : Str) : List Rule → M Model Bool
  | [] => pure false
  | r :: rs => do
    let h ← hasPolicy sec ptype r
    if h then pure true else anyPresent sec ptype rs

/-- The insertion loops (model.cpp 292–293, 353–355). -/
def emplaceAll (sec ptype : Str) : List Rule → M Model Unit
  | [] => pure ()
  | r :: rs => do
    let a ← at_ sec ptype
    setPolicy sec ptype (a.policy.emplace r)
    emplaceAll sec ptype rs

/-- `Model::AddPolicies` (model.cpp 287–296). `rules` is what iterating over the argument
visits. -/
def addPolicies (sec ptype : Str) (rules : List Rule) : M Model Bool := do
  let h ← anyPresent sec ptype rules
  if h then pure false
  else do
    emplaceAll sec ptype rules
    pure true

/-- The erase loop of `UpdatePolicy`/`UpdatePolicies`/`RemovePolicy` (model.cpp 305–311, 335–341,
366–371). -/
def eraseRule (sec ptype : Str) (rule : Rule) : M Model Bool := do
  let a ← at_ sec ptype
  match a.policy.eraseFirst (fun r => arrayEquals rule r) with
  | some P => do
    setPolicy sec ptype P
    pure true
  | none => pure false

/-- `Model::UpdatePolicy` (model.cpp 298–326). -/
def updatePolicy (sec ptype : Str) (oldRule newRule : Rule) : M Model Bool := do
  let deleted ← eraseRule sec ptype oldRule
  if !deleted then pure false
  else do
    let h ← hasPolicy sec ptype newRule
    if h then pure false
    else do
      let a ← at_ sec ptype
      setPolicy sec ptype (a.policy.emplace newRule)
      pure true

/-- The deletion loop of `UpdatePolicies` (model.cpp 333–344); stops at the first rule not found. -/
def eraseAll (sec ptype : Str) : List Rule → M Model Bool
  | [] => pure true
  | r :: rs => do
    let deleted ← eraseRule sec ptype r
    if !deleted then pure false else eraseAll sec ptype rs

/-- `Model::UpdatePolicies` (model.cpp 328–360). (`policy` is fetched first, so a missing
assertion is dereferenced only when there is something to do; binding a reference through the
null pointer is undefined already.) -/
def updatePolicies (sec ptype : Str) (oldRules newRules : List Rule) : M Model Bool := do
  let _ ← at_ sec ptype
  let deleted ← eraseAll sec ptype oldRules
  if !deleted then pure false
  else do
    let h ← anyPresent sec ptype newRules
    if h then pure false
    else do
      emplaceAll sec ptype newRules
      pure true

/-- `Model::RemovePolicy` (model.cpp 363–373). -/
def removePolicy (sec ptype : Str) (rule : Rule) : M Model Bool := eraseRule sec ptype rule

/-- `Model::RemovePolicies` (model.cpp 376–399). After an erase the loop increments the erased
(invalidated) iterator, which is undefined; since every rule was found present before, the first
rule reaches that point. -/
def removePolicies (sec ptype : Str) (rules : List Rule) : M Model Bool := do
  let a ← at_ sec ptype
  if rules.all (fun r => a.policy.iterate.any (fun x => arrayEquals r x)) then
    match rules with
    | [] => pure true
    | _ :: _ => M.ub .iterator
  else pure false

/-- `Model::RemoveFilteredPolicy` (model.cpp 402–425). The policy becomes a vector. -/
def removeFilteredPolicy (sec ptype : Str) (i : Nat) (vs : List Str) :
    M Model (Bool × List Rule) := do
  let a ← at_ sec ptype
  let (yes, no) ← M.lift (partitionFilter i vs a.policy.iterate)
  setPolicy sec ptype (Policies.vector no)
  pure (!yes.isEmpty, yes)

/-- The column of a list of rules, reading beyond the end of a rule being undefined. -/
def column (i : Nat) : List Rule → Outcome (List Str)
  | [] => .ok []
  | r :: rs => do
    let x ← vecAt r i
    let xs ← column i rs
    .ok (x :: xs)

/-- `Model::GetValuesForFieldInPolicy` (model.cpp 428–439). -/
def getValuesForField (sec ptype : Str) (i : Nat) : M Model (List Str) := do
  let a ← at_ sec ptype
  let vs ← M.lift (column i a.policy.iterate)
  pure (arrayRemoveDuplicates vs)

/-- The loop of `GetValuesForFieldInPolicyAllTypes` (model.cpp 445–449). -/
def valuesAllTypes (sec : Str) (i : Nat) : List Str → M Model (List Str)
  | [] => pure []
  | pt :: pts => do
    let vs ← getValuesForField sec pt i
    let ws ← valuesAllTypes sec i pts
    pure (vs ++ ws)

/-- `Model::GetValuesForFieldInPolicyAllTypes` (model.cpp 442–454). `m[sec]` creates a missing
section. -/
def getValuesForFieldAllTypes (sec : Str) (i : Nat) : M Model (List Str) := do
  M.modify (fun m => m.ensureSec sec)
  let m ← M.get
  let vs ← valuesAllTypes sec i (IterOrder.iter (m.secMap sec).keys)
  pure (arrayRemoveDuplicates vs)

end Model

/-- `enum policy_op` (assertion.h 28). -/
inductive PolicyOp
  | add
  | remove
  deriving DecidableEq, Repr

namespace Assertion

variable [IterOrder]

/-- The rule loop of `Assertion::BuildIncrementalRoleLinks` (assertion.cpp 36–52) and
`BuildRoleLinks` (62–70), on the role manager. `n` is the number of `_` in the definition. -/
def linkRules (op : PolicyOp) (n : Nat) : List Rule → M RM Unit
  | [] => pure ()
  | r :: rs => do
    if r.length < n then M.throw .illegalArgument
    else do
      let r' := r.take n
      let a ← M.lift (vecAt r' 0)
      let b ← M.lift (vecAt r' 1)
      match op with
      | .add => RM.addLink a b (r'.drop 2)
      | .remove => RM.deleteLink a b (r'.drop 2)
      linkRules op n rs

/-- `Assertion::BuildIncrementalRoleLinks` (assertion.cpp 29–53) after `this->rm = rm`. -/
def buildLinks (value : Str) (op : PolicyOp) (rules : List Rule) : M RM Unit := do
  if countChar '_' value < 2 then M.throw .illegalArgument
  else linkRules op (countChar '_' value) rules

end Assertion
end Casbin
