import Verif.RoleManager

/-!
# The role manager with a matching function that may raise an exception

Models `casbin/rbac/default_role_manager.cpp` with `has_pattern` set and a `matching_func` that need not
answer: `KeyMatch4` throws a `const char*` (built_in_functions.cpp 192), `IPMatch` an exception (218, 224),
`std::regex` a `regex_error`, a function of the user anything. `RoleManager.lean` has the functions that
always answer; `C171_same` says that for those the two are the same. The state is `all_roles`; the function and the bound of the hierarchy do not change.
-/

namespace Casbin
namespace Raising

/-- `MatchingFunc` (include/casbin/rbac/role_manager.h). -/
abbrev Fn := Str → Str → Outcome Bool

/-- `all_roles`, as in `RM`. -/
abbrev Roles := UMap Str (List Str)

/-- The loop of `DefaultRoleManager::HasRole` (default_role_manager.cpp 104–107): it does not stop at the first
match. -/
def anyMatch (f : Fn) (name : Str) : List Str → Outcome Bool
  | [] => .ok false
  | k :: ks => do
    let b ← f name k
    let r ← anyMatch f name ks
    .ok (b || r)

/-- `DefaultRoleManager::HasRole` (default_role_manager.cpp 101–112). -/
def hasRole [IterOrder] (f : Fn) (m : Roles) (name : Str) : Outcome Bool :=
  anyMatch f name (IterOrder.iter m.keys)

/-- The loop of `CreateRole` (default_role_manager.cpp 124–136): the function is asked first, also about the
name itself; the links made before an exception stay. -/
def linkAll (f : Fn) (name : Str) : List Str → M Roles Unit
  | [] => pure ()
  | k :: ks => do
    let b ← M.lift (f name k)
    M.modify (fun m => if b = true ∧ name ≠ k then RM.addRole m name k else m)
    linkAll f name ks

/-- `DefaultRoleManager::CreateRole` (default_role_manager.cpp 114–140): the name is entered first. -/
def createRole [IterOrder] (f : Fn) (name : Str) : M Roles Unit := do
  M.modify (fun m => if m.has name then m else m.set name [])
  let m ← M.get
  linkAll f name (IterOrder.iter m.keys)

/-- `AddLink` (default_role_manager.cpp 171–181). -/
def addLink [IterOrder] (f : Fn) (name1 name2 : Str) (domain : List Str) : M Roles Unit := do
  let n1 ← M.lift (RM.qualify domain name1)
  let n2 ← M.lift (RM.qualify domain name2)
  createRole f n1
  createRole f n2
  M.modify (fun m => RM.addRole m n1 n2)

/-- `DeleteLink` (default_role_manager.cpp 188–202). -/
def deleteLink [IterOrder] (f : Fn) (name1 name2 : Str) (domain : List Str) : M Roles Unit := do
  let n1 ← M.lift (RM.qualify domain name1)
  let n2 ← M.lift (RM.qualify domain name2)
  let m ← M.get
  let h1 ← M.lift (hasRole f m n1)
  if !h1 then M.throw .rbac
  else do
    let h2 ← M.lift (hasRole f m n2)
    if !h2 then M.throw .rbac
    else do
      createRole f n1
      createRole f n2
      M.modify (fun m => RM.delRole m n1 n2)

/-- `HasLink` (default_role_manager.cpp 208–223). -/
def hasLink [IterOrder] (f : Fn) (lvl : Nat) (name1 name2 : Str) (domain : List Str) : M Roles Bool := do
  let n1 ← M.lift (RM.qualify domain name1)
  let n2 ← M.lift (RM.qualify domain name2)
  if n1 = n2 then pure true
  else do
    let m ← M.get
    let h1 ← M.lift (hasRole f m n1)
    if !h1 then pure false
    else do
      let h2 ← M.lift (hasRole f m n2)
      if !h2 then pure false
      else do
        createRole f n1
        let m ← M.get
        pure (RM.roleHasRole m n2 lvl n1)

/-- `GetRoles` (default_role_manager.cpp 229–248). -/
def getRoles [IterOrder] (f : Fn) (name : Str) (domain : List Str) : M Roles (List Str) := do
  let n ← M.lift (RM.qualify domain name)
  let m ← M.get
  let h ← M.lift (hasRole f m n)
  if !h then pure []
  else do
    createRole f n
    let m ← M.get
    M.lift (RM.stripAll domain (RM.direct m n))

/-- `GetUsers` (default_role_manager.cpp 250–272). -/
def getUsers [IterOrder] (f : Fn) (name : Str) (domain : List Str) : M Roles (List Str) := do
  let n ← M.lift (RM.qualify domain name)
  let m ← M.get
  let h ← M.lift (hasRole f m n)
  if !h then M.throw .rbac
  else
    M.lift (RM.stripAll domain
      ((IterOrder.iter m.keys).filter (fun u => decide (n ∈ RM.direct m u))))

end Raising
end Casbin
