import Verif.Util

/-!
# The default role manager

Models `casbin/rbac/default_role_manager.cpp`. A `Role` object is identified by its name
(each name has one object, owned by `all_roles`); `roles` maps a name to the names of its
direct roles in insertion order. `Role::roles` holds raw pointers to objects of the same
`all_roles`, which is the well-formedness invariant `RM.WF`.
-/

namespace Casbin

/-- `class DefaultRoleManager` (include/casbin/rbac/default_role_manager.h 60–). The hierarchy
bound is an `int`; a non-positive bound behaves as 0. `pattern` is `has_pattern` together with
`matching_func`. -/
structure RM where
  roles : UMap Str (List Str)
  maxLevel : Nat
  pattern : Option (Str → Str → Bool)

namespace RM

/-- A new role manager (default_role_manager.cpp 148–151). -/
def new (maxLevel : Nat) : RM := { roles := [], maxLevel := maxLevel, pattern := none }

/-- `Role::AddRole` (default_role_manager.cpp 31–38) on the object named `a`. -/
def addRole (m : UMap Str (List Str)) (a b : Str) : UMap Str (List Str) :=
  match m.get a with
  | some l => if b ∈ l then m else m.set a (l ++ [b])
  | none => m

/-- The erase loop of `Role::DeleteRole` (default_role_manager.cpp 40–45): after erasing at position
`i` the loop goes on at `i + 1`, so the element that moved into position `i` is skipped. -/
def eraseLoop (b : Str) : List Str → List Str
  | [] => []
  | x :: xs =>
    if x = b then
      match xs with
      | [] => []
      | y :: ys => y :: eraseLoop b ys
    else x :: eraseLoop b xs

/-- `Role::DeleteRole` (default_role_manager.cpp 40–45) on the object named `a`. -/
def delRole (m : UMap Str (List Str)) (a b : Str) : UMap Str (List Str) :=
  match m.get a with
  | some l => m.set a (eraseLoop b l)
  | none => m

/-- The direct roles of the object named `a`. -/
def direct (m : UMap Str (List Str)) (a : Str) : List Str :=
  match m.get a with
  | some l => l
  | none => []

/-- `Role::HasRole` (default_role_manager.cpp 47–60): depth-first search with a level bound. -/
def roleHasRole (m : UMap Str (List Str)) (name : Str) : Nat → Str → Bool
  | 0, cur => decide (cur = name)
  | level + 1, cur =>
    decide (cur = name) || (direct m cur).any (fun r => roleHasRole m name level r)

/-- `DefaultRoleManager::HasRole` (default_role_manager.cpp 101–112). -/
def hasRole (rm : RM) (name : Str) : Bool :=
  match rm.pattern with
  | none => rm.roles.has name
  | some f => rm.roles.keys.any (fun k => f name k)

/-- `DefaultRoleManager::CreateRole` (default_role_manager.cpp 114–140), returning the map after the
call. The pattern loop visits `all_roles` in the order of the container. -/
def createRole [IterOrder] (rm : RM) (name : Str) : RM :=
  let m := if rm.roles.has name then rm.roles else rm.roles.set name []
  match rm.pattern with
  | none => { rm with roles := m }
  | some f =>
    let m' := (IterOrder.iter m.keys).foldl
      (fun m k => if f name k = true ∧ name ≠ k then addRole m name k else m) m
    { rm with roles := m' }

/-- `AddMatchingFunc` (default_role_manager.cpp 156–159). Simplified: the function answers for every pair of
names; `RoleRaise.lean` has the role manager with one that throws. -/
def addMatchingFunc (rm : RM) (f : Str → Str → Bool) : RM := { rm with pattern := some f }

/-- `Clear` (default_role_manager.cpp 164–166). -/
def clear (rm : RM) : RM := { rm with roles := [] }

/-- The domain prefix put before a name (default_role_manager.cpp 172–176 and the same lines of the
other methods); two or more domain values throw. -/
def qualify (domain : List Str) (name : Str) : Outcome Str :=
  match domain with
  | [] => .ok name
  | [d] => .ok (d ++ c!"::" ++ name)
  | _ => .throw .rbac

/-- `AddLink` (default_role_manager.cpp 171–182). -/
def addLink [IterOrder] (name1 name2 : Str) (domain : List Str) : M RM Unit := do
  let n1 ← M.lift (qualify domain name1)
  let n2 ← M.lift (qualify domain name2)
  M.modify (fun rm => rm.createRole n1)
  M.modify (fun rm => rm.createRole n2)
  M.modify (fun rm => { rm with roles := addRole rm.roles n1 n2 })

/-- `DeleteLink` (default_role_manager.cpp 188–202). -/
def deleteLink [IterOrder] (name1 name2 : Str) (domain : List Str) : M RM Unit := do
  let n1 ← M.lift (qualify domain name1)
  let n2 ← M.lift (qualify domain name2)
  let rm ← M.get
  if !rm.hasRole n1 || !rm.hasRole n2 then M.throw .rbac
  else do
    M.modify (fun rm => rm.createRole n1)
    M.modify (fun rm => rm.createRole n2)
    M.modify (fun rm => { rm with roles := delRole rm.roles n1 n2 })

/-- `HasLink` (default_role_manager.cpp 208–223). -/
def hasLink [IterOrder] (name1 name2 : Str) (domain : List Str) : M RM Bool := do
  let n1 ← M.lift (qualify domain name1)
  let n2 ← M.lift (qualify domain name2)
  if n1 = n2 then pure true
  else do
    let rm ← M.get
    if !rm.hasRole n1 || !rm.hasRole n2 then pure false
    else do
      M.modify (fun rm => rm.createRole n1)
      let rm ← M.get
      pure (roleHasRole rm.roles n2 rm.maxLevel n1)

/-- `substr(domain.length() + 2, ...)` (default_role_manager.cpp 243, 270): throws when the text is
too short. -/
def stripDomain (domain : List Str) (name : Str) : Outcome Str :=
  match domain with
  | [d] => if name.length < d.length + 2 then .throw .outOfRange else .ok (name.drop (d.length + 2))
  | _ => .ok name

/-- the loop stripping the domain from each name -/
def stripAll (domain : List Str) : List Str → Outcome (List Str)
  | [] => .ok []
  | n :: ns => do
    let n' ← stripDomain domain n
    let ns' ← stripAll domain ns
    .ok (n' :: ns')

/-- `GetRoles` (default_role_manager.cpp 229–248). -/
def getRoles [IterOrder] (name : Str) (domain : List Str) : M RM (List Str) := do
  let n ← M.lift (qualify domain name)
  let rm ← M.get
  if !rm.hasRole n then pure []
  else do
    M.modify (fun rm => rm.createRole n)
    let rm ← M.get
    M.lift (stripAll domain (direct rm.roles n))

/-- `GetUsers` (default_role_manager.cpp 250–274): visits `all_roles` in the order of the container. -/
def getUsers [IterOrder] (name : Str) (domain : List Str) : M RM (List Str) := do
  let n ← M.lift (qualify domain name)
  let rm ← M.get
  if !rm.hasRole n then M.throw .rbac
  else
    M.lift (stripAll domain
      ((IterOrder.iter rm.roles.keys).filter (fun u => decide (n ∈ direct rm.roles u))))

end RM
end Casbin
