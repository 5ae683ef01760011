import Verif.Python
import Verif.Props.Synced

/-!
# The methods of `Enforcer` behind the Python module

What the C++ functions bound in `pycasbin/src/py_enforcer.cpp` do, for the functions of the model. The
others (opening files, setting a model or an adapter, the log, requests with a matcher given as a map)
are a parameter.
-/

namespace Casbin
namespace Py

open SyncedProps

/-- Calls without parameters. -/
def args0 (c : Call) : List CVal → Option Call
  | [] => some c
  | _ => none
/-- Calls by the types of their parameters: `S` a text, `L` a list of texts, `I` a number, `B` a truth
value. -/
def argsS (f : Str → Call) : List CVal → Option Call
  | [.str a] => some (f a)
  | _ => none
@[inherit_doc argsS] def argsSS (f : Str → Str → Call) : List CVal → Option Call
  | [.str a, .str b] => some (f a b)
  | _ => none
@[inherit_doc argsS] def argsSSS (f : Str → Str → Str → Call) : List CVal → Option Call
  | [.str a, .str b, .str c] => some (f a b c)
  | _ => none
@[inherit_doc argsS] def argsL (f : List Str → Call) : List CVal → Option Call
  | [.strs a] => some (f a)
  | _ => none
@[inherit_doc argsS] def argsLL (f : List Str → List Str → Call) : List CVal → Option Call
  | [.strs a, .strs b] => some (f a b)
  | _ => none
@[inherit_doc argsS] def argsSL (f : Str → List Str → Call) : List CVal → Option Call
  | [.str a, .strs b] => some (f a b)
  | _ => none
@[inherit_doc argsS] def argsSLL (f : Str → List Str → List Str → Call) : List CVal → Option Call
  | [.str a, .strs b, .strs c] => some (f a b c)
  | _ => none
@[inherit_doc argsS] def argsIL (f : Nat → List Str → Call) : List CVal → Option Call
  | [.int a, .strs b] => some (f a b)
  | _ => none
@[inherit_doc argsS] def argsSIL (f : Str → Nat → List Str → Call) : List CVal → Option Call
  | [.str a, .int b, .strs c] => some (f a b c)
  | _ => none
@[inherit_doc argsS] def argsB (f : Bool → Call) : List CVal → Option Call
  | [.bool a] => some (f a)
  | _ => none
/-- The two overloads of `Enforce` (enforcer.h 164, 166). -/
def argsReq (f : List ReqVal → Call) (g : UMap Str ReqVal → Call) : List CVal → Option Call
  | [.data a] => some (f a)
  | [.dataMap a] => some (g a)
  | _ => none

/-- A method: its name, the type of its result, and the call for the values of its parameters. -/
structure Entry where
  target : Str
  ret : Ty
  build : List CVal → Option Call

/-- The methods of `Enforcer` (enforcer.h 98–275) that are bound with parameters that Python can give.
`GetRolesForUserInDomain` and `GetUsersForRoleInDomain` are the calls without `InDomain` with one domain
(rbac_api_with_domains.cpp 27–38). -/
def methods : List Entry :=
  [ ⟨c!"ClearPolicy", .void, args0 .clearPolicy⟩,
    ⟨c!"LoadPolicy", .void, args0 .loadPolicy⟩,
    ⟨c!"SavePolicy", .void, args0 .savePolicy⟩,
    ⟨c!"EnableEnforce", .void, argsB .enableEnforce⟩,
    ⟨c!"EnableAutoNotifyWatcher", .void, argsB .enableAutoNotify⟩,
    ⟨c!"EnableAutoSave", .void, argsB .enableAutoSave⟩,
    ⟨c!"EnableAutoBuildRoleLinks", .void, argsB .enableAutoBuild⟩,
    ⟨c!"BuildRoleLinks", .void, args0 .buildRoleLinks⟩,
    ⟨c!"Enforce", .bool, argsReq .enforce .enforceMap⟩,
    ⟨c!"GetAllSubjects", .strs, args0 .getAllSubjects⟩,
    ⟨c!"GetAllNamedSubjects", .strs, argsS .getAllNamedSubjects⟩,
    ⟨c!"GetAllObjects", .strs, args0 .getAllObjects⟩,
    ⟨c!"GetAllNamedObjects", .strs, argsS .getAllNamedObjects⟩,
    ⟨c!"GetAllActions", .strs, args0 .getAllActions⟩,
    ⟨c!"GetAllNamedActions", .strs, argsS .getAllNamedActions⟩,
    ⟨c!"GetAllRoles", .strs, args0 .getAllRoles⟩,
    ⟨c!"GetAllNamedRoles", .strs, argsS .getAllNamedRoles⟩,
    ⟨c!"GetPolicy", rulesT, args0 .getPolicy⟩,
    ⟨c!"GetFilteredPolicy", rulesT, argsIL .getFilteredPolicy⟩,
    ⟨c!"GetNamedPolicy", rulesT, argsS .getNamedPolicy⟩,
    ⟨c!"GetFilteredNamedPolicy", rulesT, argsSIL .getFilteredNamedPolicy⟩,
    ⟨c!"GetGroupingPolicy", rulesT, args0 .getGroupingPolicy⟩,
    ⟨c!"GetFilteredGroupingPolicy", rulesT, argsIL .getFilteredGroupingPolicy⟩,
    ⟨c!"GetNamedGroupingPolicy", rulesT, argsS .getNamedGroupingPolicy⟩,
    ⟨c!"GetFilteredNamedGroupingPolicy", rulesT, argsSIL .getFilteredNamedGroupingPolicy⟩,
    ⟨c!"HasPolicy", .bool, argsL .hasPolicy⟩,
    ⟨c!"HasNamedPolicy", .bool, argsSL .hasNamedPolicy⟩,
    ⟨c!"AddPolicy", .bool, argsL .addPolicy⟩,
    ⟨c!"AddNamedPolicy", .bool, argsSL .addNamedPolicy⟩,
    ⟨c!"RemovePolicy", .bool, argsL .removePolicy⟩,
    ⟨c!"RemoveFilteredPolicy", .bool, argsIL .removeFilteredPolicy⟩,
    ⟨c!"RemoveFilteredNamedPolicy", .bool, argsSIL .removeFilteredNamedPolicy⟩,
    ⟨c!"HasNamedGroupingPolicy", .bool, argsSL .hasNamedGroupingPolicy⟩,
    ⟨c!"AddGroupingPolicy", .bool, argsL .addGroupingPolicy⟩,
    ⟨c!"AddNamedGroupingPolicy", .bool, argsSL .addNamedGroupingPolicy⟩,
    ⟨c!"RemoveGroupingPolicy", .bool, argsL .removeGroupingPolicy⟩,
    ⟨c!"RemoveFilteredGroupingPolicy", .bool, argsIL .removeFilteredGroupingPolicy⟩,
    ⟨c!"RemoveNamedGroupingPolicy", .bool, argsSL .removeNamedGroupingPolicy⟩,
    ⟨c!"RemoveFilteredNamedGroupingPolicy", .bool, argsSIL .removeFilteredNamedGroupingPolicy⟩,
    ⟨c!"UpdateGroupingPolicy", .bool, argsLL .updateGroupingPolicy⟩,
    ⟨c!"UpdateNamedGroupingPolicy", .bool, argsSLL .updateNamedGroupingPolicy⟩,
    ⟨c!"UpdatePolicy", .bool, argsLL .updatePolicy⟩,
    ⟨c!"UpdateNamedPolicy", .bool, argsSLL .updateNamedPolicy⟩,
    ⟨c!"GetRolesForUser", .strs, argsSL .getRolesForUser⟩,
    ⟨c!"GetUsersForRole", .strs, argsSL .getUsersForRole⟩,
    ⟨c!"HasRoleForUser", .bool, argsSS .hasRoleForUser⟩,
    ⟨c!"AddRoleForUser", .bool, argsSS .addRoleForUser⟩,
    ⟨c!"AddRolesForUser", .bool, argsSL .addRolesForUser⟩,
    ⟨c!"AddPermissionForUser", .bool, argsSL .addPermissionForUser⟩,
    ⟨c!"DeletePermissionForUser", .bool, argsSL .deletePermissionForUser⟩,
    ⟨c!"DeletePermissionsForUser", .bool, argsS .deletePermissionsForUser⟩,
    ⟨c!"GetPermissionsForUser", rulesT, argsS .getPermissionsForUser⟩,
    ⟨c!"HasPermissionForUser", .bool, argsSL .hasPermissionForUser⟩,
    ⟨c!"GetImplicitRolesForUser", .strs, argsSL .getImplicitRolesForUser⟩,
    ⟨c!"GetImplicitPermissionsForUser", rulesT, argsSL .getImplicitPermissionsForUser⟩,
    ⟨c!"GetImplicitUsersForPermission", .strs, argsL .getImplicitUsersForPermission⟩,
    ⟨c!"DeleteRoleForUser", .bool, argsSS .deleteRoleForUser⟩,
    ⟨c!"DeleteRolesForUser", .bool, argsS .deleteRolesForUser⟩,
    ⟨c!"DeleteUser", .bool, argsS .deleteUser⟩,
    ⟨c!"DeleteRole", .bool, argsS .deleteRole⟩,
    ⟨c!"DeletePermission", .bool, argsL .deletePermission⟩,
    ⟨c!"GetUsersForRoleInDomain", .strs, argsSS fun u d => .getUsersForRole u [d]⟩,
    ⟨c!"GetRolesForUserInDomain", .strs, argsSS fun u d => .getRolesForUser u [d]⟩,
    ⟨c!"GetPermissionsForUserInDomain", rulesT, argsSS .getPermissionsForUserInDomain⟩,
    ⟨c!"AddRoleForUserInDomain", .bool, argsSSS .addRoleForUserInDomain⟩,
    ⟨c!"DeleteRoleForUserInDomain", .bool, argsSSS .deleteRoleForUserInDomain⟩ ]

/-- The C++ value that a method returns. -/
def retVal : Ret → CVal
  | .unit => .unit
  | .bool b => .bool b
  | .strs l => .strs l
  | .pols p => .rules p
  | .rules l => .rules (.vector l)
  | .bools l => .bools l
  | .dec b e => .pair (.bool b) (.strs e)

/-- The C++ functions of `Enforcer`: those of the model, `other` for the rest. -/
def plainCpp [IterOrder] (lib : ExprLib) (other : Str → List CVal → M Enforcer CVal)
    (owner target : Str) (args : List CVal) : M Enforcer CVal :=
  match (if owner = c!"Enforcer" then methods.find? fun e => e.target = target else none) with
  | none => other target args
  | some e =>
    match e.build args with
    | none => other target args
    | some c => do
      let r ← onPlain lib c
      pure (retVal r)

end Py
end Casbin
