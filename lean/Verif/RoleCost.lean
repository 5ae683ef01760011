import Verif.RoleManager

/-!
# How often `HasLink` looks at a role

The search of `RoleManager.lean` once more, with the number of times `Role::HasRole` is entered.
`Props/RoleCost` shows that the answers are those of `RM.hasLink`.
-/

namespace Casbin
namespace RM

/-- The loop of `Role::HasRole` (casbin/rbac/default_role_manager.cpp 54–57): ask the roles in
turn and stop at the first that answers yes; with the number of calls made on the way. -/
def anyCalls (f : Str → Bool × Nat) : List Str → Bool × Nat
  | [] => (false, 0)
  | r :: rs =>
    if (f r).1 then (true, (f r).2)
    else ((anyCalls f rs).1, (f r).2 + (anyCalls f rs).2)

/-- `Role::HasRole` (casbin/rbac/default_role_manager.cpp 47–60) with the number of calls of
`Role::HasRole`, this one included. -/
def roleHasRoleCalls (m : UMap Str (List Str)) (name : Str) : Nat → Str → Bool × Nat
  | 0, cur => (decide (cur = name), 1)
  | level + 1, cur =>
    if cur = name then (true, 1)
    else
      let s := anyCalls (fun r => roleHasRoleCalls m name level r) (direct m cur)
      (s.1, s.2 + 1)

/-- `HasLink` (casbin/rbac/default_role_manager.cpp 208–223) with the number of calls of
`Role::HasRole` it makes. -/
def hasLinkCalls [IterOrder] (name1 name2 : Str) (domain : List Str) : M RM (Bool × Nat) := do
  let n1 ← M.lift (qualify domain name1)
  let n2 ← M.lift (qualify domain name2)
  if n1 = n2 then pure (true, 0)
  else do
    let rm ← M.get
    if !rm.hasRole n1 || !rm.hasRole n2 then pure (false, 0)
    else do
      M.modify (fun rm => rm.createRole n1)
      let rm ← M.get
      pure (roleHasRoleCalls rm.roles n2 rm.maxLevel n1)

end RM
end Casbin
