import Verif.Model
import Verif.Enforce

/-!
# The Python module

Models `pycasbin/src/*.cpp`: which C++ function each method of a Python class calls, and what
pybind11 (version 2.11.1, cmake/modules/Findpybind11.cmake 20) does around the call: finding the method,
choosing an overload, turning Python values into C++ values and back. What the C++ functions do is a
parameter here.

Left out: constructors, the static data member `Model.required_sections`, keyword arguments, negative
numbers, subclasses written in Python, the number types of other packages, a `timedelta` given as a
float, and texts that are not valid UTF-8.
-/

namespace Casbin
namespace Py

/-- Values of a Python program, as far as the bound functions tell them apart. -/
inductive PyVal
  | none
  | bool (b : Bool)
  | int (n : Nat)
  /-- A float, by its bits as a C++ `float`; other floats are left out. -/
  | float (bits : Nat)
  | str (s : Str)
  | bytes (s : Str)
  /-- A list or a tuple. -/
  | seq (xs : List PyVal)
  | dict (kvs : List (PyVal × PyVal))
  /-- A `timedelta` of so many microseconds. -/
  | delta (n : Nat)
  /-- An object of a class of the module. -/
  | obj (cls : Str) (id : Nat)
  | other

/-- The C++ types in the signatures of the bound functions; references and `const` make no
difference. -/
inductive Ty
  | void
  | bool
  | int
  | float
  /-- `std::string`, `std::string_view`. -/
  | str
  /-- `std::vector<std::string>`. -/
  | strs
  /-- `std::vector<bool>`. -/
  | bools
  /-- `DataVector` (casbin_types.h 30). -/
  | data
  /-- `DataMap` (casbin_types.h 32). -/
  | dataMap
  /-- `std::chrono::duration<int64_t, std::nano>`; py_synced_enforcer.cpp 19 includes the header for it. -/
  | duration
  /-- `std::shared_ptr` to an object of the class. -/
  | ptr (cls : Str)
  /-- A class or an enumeration by value. -/
  | val (cls : Str)
  | pair (a b : Ty)
  deriving DecidableEq

/-- C++ values. -/
inductive CVal
  | unit
  | bool (b : Bool)
  | int (n : Nat)
  | float (bits : Nat)
  | str (s : Str)
  | strs (l : List Str)
  | bools (l : List Bool)
  | data (l : List ReqVal)
  | dataMap (m : UMap Str ReqVal)
  | duration (micros : Nat)
  | null
  | obj (cls : Str) (id : Nat)
  | rules (p : Policies)
  | pair (a b : CVal)

/-- The classes that the module knows (main.cpp 37–42 with the `py::class_` of the functions called
there). -/
def registered : List Str :=
  [c!"Enforcer", c!"CachedEnforcer", c!"Model", c!"Config", c!"SyncedEnforcer", c!"Adapter",
   c!"BatchAdapter", c!"FileAdapter", c!"BatchFileAdapter"]

/-- The order in which Python looks for a method: the class and its base classes, as given to
`py::class_` (py_cached_enforcer.cpp 24, py_synced_enforcer.cpp 27, py_adapter.cpp 38, 45, 58). -/
def mro (cls : Str) : List Str :=
  if cls = c!"CachedEnforcer" then [c!"CachedEnforcer", c!"Enforcer"]
  else if cls = c!"SyncedEnforcer" then [c!"SyncedEnforcer", c!"Enforcer"]
  else if cls = c!"BatchAdapter" then [c!"BatchAdapter", c!"Adapter"]
  else if cls = c!"FileAdapter" then [c!"FileAdapter", c!"Adapter"]
  else if cls = c!"BatchFileAdapter" then
    [c!"BatchFileAdapter", c!"BatchAdapter", c!"FileAdapter", c!"Adapter"]
  else [cls]

/-! ## Values -/

/-- `std::string` from a Python value: texts and byte strings. -/
def loadStr : PyVal → Option Str
  | .str s => some s
  | .bytes s => some s
  | _ => none

/-- `Data` (casbin_types.h 29), a text or a pointer to a JSON value: the class of JSON values is not
known to the module, so it is a text. -/
def loadData (v : PyVal) : Option ReqVal := (loadStr v).map .str

/-- The entries of a `dict`; `emplace` keeps the first of several equal keys. -/
def loadEntries : List (PyVal × PyVal) → UMap Str ReqVal → Option (UMap Str ReqVal)
  | [], m => some m
  | (k, v) :: kvs, m =>
    match loadStr k, loadData v with
    | some k, some v => loadEntries kvs (if (m.get k).isSome then m else m.set k v)
    | _, _ => none

/-- A C++ value of the type from a Python value; `conv` allows conversions (the second pass over the
overloads, or the only one). A class is a class of the module or unknown. -/
def load (conv : Bool) : Ty → PyVal → Option CVal
  | .bool, .bool b => some (.bool b)
  | .bool, .none => if conv then some (.bool false) else none
  | .bool, .int n => if conv then some (.bool (n != 0)) else none
  | .bool, .float b => if conv then some (.bool (b % 2 ^ 31 != 0)) else none
  | .bool, .delta n => if conv then some (.bool (n != 0)) else none
  | .int, .int n => if n < 2 ^ 31 then some (.int n) else none
  | .int, .bool b => some (.int b.toNat)
  | .str, v => (loadStr v).map .str
  | .strs, .seq xs => (xs.mapM loadStr).map .strs
  | .data, .seq xs => (xs.mapM loadData).map .data
  | .dataMap, .dict kvs => (loadEntries kvs []).map .dataMap
  | .duration, .delta n => some (.duration n)
  | .ptr cls, .none => if conv ∧ cls ∈ registered then some .null else none
  | .ptr cls, .obj c i => if cls ∈ registered ∧ cls ∈ mro c then some (.obj c i) else none
  | .val cls, .obj c i => if cls ∈ registered ∧ cls ∈ mro c then some (.obj c i) else none
  | _, _ => none

/-- The Python value for a result of the type; `none` when the type is not known to the module. A
pointer becomes an object of its own class, or of the declared one when that is not known. -/
def toPy : Ty → CVal → Option PyVal
  | .void, .unit => some .none
  | .bool, .bool b => some (.bool b)
  | .int, .int n => some (.int n)
  | .float, .float b => some (.float b)
  | .str, .str s => some (.str s)
  | .strs, .strs l => some (.seq (l.map .str))
  | .bools, .bools l => some (.seq (l.map .bool))
  | .ptr cls, .null => if cls ∈ registered then some .none else none
  | .ptr cls, .obj c i =>
    if cls ∈ registered then some (.obj (if c ∈ registered then c else cls) i) else none
  | .val cls, .obj c i => if cls ∈ registered ∧ cls ∈ mro c then some (.obj cls i) else none
  | .pair a b, .pair x y =>
    match toPy a x, toPy b y with
    | some v, some w => some (.seq [v, w])
    | _, _ => none
  | _, _ => none

/-! ## The tables -/

/-- A line `.def(name, &casbin::owner::target)` with the signature of the function. -/
structure Def where
  name : Str
  owner : Str
  target : Str
  params : List Ty
  ret : Ty
  deriving DecidableEq

/-- `PoliciesValues`. -/
abbrev rulesT : Ty := .val c!"PoliciesValues"
/-- `std::shared_ptr<Model>`. -/
abbrev modelT : Ty := .ptr c!"Model"
/-- `std::shared_ptr<Adapter>`. -/
abbrev adapterT : Ty := .ptr c!"Adapter"

/-- `Enforcer` (pycasbin/src/py_enforcer.cpp 26–149). -/
def enforcerDefs : List Def :=
  [ ⟨c!"InitWithFile", c!"Enforcer", c!"InitWithFile", [.str, .str], .void⟩,
    ⟨c!"InitWithAdapter", c!"Enforcer", c!"InitWithAdapter", [.str, adapterT], .void⟩,
    ⟨c!"InitWithModelAndAdapter", c!"Enforcer", c!"InitWithModelAndAdapter", [modelT, adapterT], .void⟩,
    ⟨c!"Initialize", c!"Enforcer", c!"Initialize", [], .void⟩,
    ⟨c!"LoadModel", c!"Enforcer", c!"LoadModel", [], .void⟩,
    ⟨c!"GetModel", c!"Enforcer", c!"GetModel", [], modelT⟩,
    ⟨c!"SetModel", c!"Enforcer", c!"SetModel", [modelT], .void⟩,
    ⟨c!"GetAdapter", c!"Enforcer", c!"GetAdapter", [], adapterT⟩,
    ⟨c!"SetAdapter", c!"Enforcer", c!"SetAdapter", [adapterT], .void⟩,
    ⟨c!"SetWatcher", c!"Enforcer", c!"SetWatcher", [(.ptr c!"Watcher")], .void⟩,
    ⟨c!"GetRoleManager", c!"Enforcer", c!"GetRoleManager", [], (.ptr c!"RoleManager")⟩,
    ⟨c!"SetRoleManager", c!"Enforcer", c!"SetRoleManager", [(.ptr c!"RoleManager")], .void⟩,
    ⟨c!"SetEffector", c!"Enforcer", c!"SetEffector", [(.ptr c!"Effector")], .void⟩,
    ⟨c!"ClearPolicy", c!"Enforcer", c!"ClearPolicy", [], .void⟩,
    ⟨c!"LoadPolicy", c!"Enforcer", c!"LoadPolicy", [], .void⟩,
    ⟨c!"IsFiltered", c!"Enforcer", c!"IsFiltered", [], .bool⟩,
    ⟨c!"SavePolicy", c!"Enforcer", c!"SavePolicy", [], .void⟩,
    ⟨c!"EnableEnforce", c!"Enforcer", c!"EnableEnforce", [.bool], .void⟩,
    ⟨c!"EnableLog", c!"Enforcer", c!"EnableLog", [.bool], .void⟩,
    ⟨c!"EnableAutoNotifyWatcher", c!"Enforcer", c!"EnableAutoNotifyWatcher", [.bool], .void⟩,
    ⟨c!"EnableAutoSave", c!"Enforcer", c!"EnableAutoSave", [.bool], .void⟩,
    ⟨c!"EnableAutoBuildRoleLinks", c!"Enforcer", c!"EnableAutoBuildRoleLinks", [.bool], .void⟩,
    ⟨c!"BuildRoleLinks", c!"Enforcer", c!"BuildRoleLinks", [], .void⟩,
    ⟨c!"BuildIncrementalRoleLinks", c!"Enforcer", c!"BuildIncrementalRoleLinks", [(.val c!"policy_op"), .str, rulesT], .void⟩,
    ⟨c!"Enforce", c!"Enforcer", c!"Enforce", [.data], .bool⟩,
    ⟨c!"Enforce", c!"Enforcer", c!"Enforce", [.dataMap], .bool⟩,
    ⟨c!"EnforceWithMatcher", c!"Enforcer", c!"EnforceWithMatcher", [.str, (.val c!"DataList")], .bool⟩,
    ⟨c!"EnforceWithMatcher", c!"Enforcer", c!"EnforceWithMatcher", [.str, .dataMap], .bool⟩,
    ⟨c!"BatchEnforce", c!"Enforcer", c!"BatchEnforce", [(.val c!"initializer_list<DataList>")], .bools⟩,
    ⟨c!"BatchEnforceWithMatcher", c!"Enforcer", c!"BatchEnforceWithMatcher", [.str, (.val c!"initializer_list<DataList>")], .bools⟩,
    ⟨c!"GetAllSubjects", c!"Enforcer", c!"GetAllSubjects", [], .strs⟩,
    ⟨c!"GetAllNamedSubjects", c!"Enforcer", c!"GetAllNamedSubjects", [.str], .strs⟩,
    ⟨c!"GetAllObjects", c!"Enforcer", c!"GetAllObjects", [], .strs⟩,
    ⟨c!"GetAllNamedObjects", c!"Enforcer", c!"GetAllNamedObjects", [.str], .strs⟩,
    ⟨c!"GetAllActions", c!"Enforcer", c!"GetAllActions", [], .strs⟩,
    ⟨c!"GetAllNamedActions", c!"Enforcer", c!"GetAllNamedActions", [.str], .strs⟩,
    ⟨c!"GetAllRoles", c!"Enforcer", c!"GetAllRoles", [], .strs⟩,
    ⟨c!"GetAllNamedRoles", c!"Enforcer", c!"GetAllNamedRoles", [.str], .strs⟩,
    ⟨c!"GetPolicy", c!"Enforcer", c!"GetPolicy", [], rulesT⟩,
    ⟨c!"GetFilteredPolicy", c!"Enforcer", c!"GetFilteredPolicy", [.int, .strs], rulesT⟩,
    ⟨c!"GetNamedPolicy", c!"Enforcer", c!"GetNamedPolicy", [.str], rulesT⟩,
    ⟨c!"GetFilteredNamedPolicy", c!"Enforcer", c!"GetFilteredNamedPolicy", [.str, .int, .strs], rulesT⟩,
    ⟨c!"GetGroupingPolicy", c!"Enforcer", c!"GetGroupingPolicy", [], rulesT⟩,
    ⟨c!"GetFilteredGroupingPolicy", c!"Enforcer", c!"GetFilteredGroupingPolicy", [.int, .strs], rulesT⟩,
    ⟨c!"GetNamedGroupingPolicy", c!"Enforcer", c!"GetNamedGroupingPolicy", [.str], rulesT⟩,
    ⟨c!"GetFilteredNamedGroupingPolicy", c!"Enforcer", c!"GetFilteredNamedGroupingPolicy", [.str, .int, .strs], rulesT⟩,
    ⟨c!"HasPolicy", c!"Enforcer", c!"HasPolicy", [.strs], .bool⟩,
    ⟨c!"HasNamedPolicy", c!"Enforcer", c!"HasNamedPolicy", [.str, .strs], .bool⟩,
    ⟨c!"AddPolicy", c!"Enforcer", c!"AddPolicy", [.strs], .bool⟩,
    ⟨c!"AddNamedPolicy", c!"Enforcer", c!"AddNamedPolicy", [.str, .strs], .bool⟩,
    ⟨c!"AddNamedPolicies", c!"Enforcer", c!"AddNamedPolicies", [.str, rulesT], .bool⟩,
    ⟨c!"RemovePolicy", c!"Enforcer", c!"RemovePolicy", [.strs], .bool⟩,
    ⟨c!"RemovePolicies", c!"Enforcer", c!"RemovePolicies", [rulesT], .bool⟩,
    ⟨c!"RemoveFilteredPolicy", c!"Enforcer", c!"RemoveFilteredPolicy", [.int, .strs], .bool⟩,
    ⟨c!"RemoveNamedPolicies", c!"Enforcer", c!"RemoveNamedPolicies", [.str, rulesT], .bool⟩,
    ⟨c!"RemoveFilteredNamedPolicy", c!"Enforcer", c!"RemoveFilteredNamedPolicy", [.str, .int, .strs], .bool⟩,
    ⟨c!"HasNamedGroupingPolicy", c!"Enforcer", c!"HasNamedGroupingPolicy", [.str, .strs], .bool⟩,
    ⟨c!"AddGroupingPolicy", c!"Enforcer", c!"AddGroupingPolicy", [.strs], .bool⟩,
    ⟨c!"AddGroupingPolicies", c!"Enforcer", c!"AddGroupingPolicies", [rulesT], .bool⟩,
    ⟨c!"AddNamedGroupingPolicy", c!"Enforcer", c!"AddNamedGroupingPolicy", [.str, .strs], .bool⟩,
    ⟨c!"AddNamedGroupingPolicies", c!"Enforcer", c!"AddNamedGroupingPolicies", [.str, rulesT], .bool⟩,
    ⟨c!"RemoveGroupingPolicy", c!"Enforcer", c!"RemoveGroupingPolicy", [.strs], .bool⟩,
    ⟨c!"RemoveGroupingPolicies", c!"Enforcer", c!"RemoveGroupingPolicies", [rulesT], .bool⟩,
    ⟨c!"RemoveFilteredGroupingPolicy", c!"Enforcer", c!"RemoveFilteredGroupingPolicy", [.int, .strs], .bool⟩,
    ⟨c!"RemoveNamedGroupingPolicy", c!"Enforcer", c!"RemoveNamedGroupingPolicy", [.str, .strs], .bool⟩,
    ⟨c!"RemoveNamedGroupingPolicies", c!"Enforcer", c!"RemoveNamedGroupingPolicies", [.str, rulesT], .bool⟩,
    ⟨c!"RemoveFilteredNamedGroupingPolicy", c!"Enforcer", c!"RemoveFilteredNamedGroupingPolicy", [.str, .int, .strs], .bool⟩,
    ⟨c!"UpdateGroupingPolicy", c!"Enforcer", c!"UpdateGroupingPolicy", [.strs, .strs], .bool⟩,
    ⟨c!"UpdateNamedGroupingPolicy", c!"Enforcer", c!"UpdateNamedGroupingPolicy", [.str, .strs, .strs], .bool⟩,
    ⟨c!"UpdatePolicy", c!"Enforcer", c!"UpdatePolicy", [.strs, .strs], .bool⟩,
    ⟨c!"UpdateNamedPolicy", c!"Enforcer", c!"UpdateNamedPolicy", [.str, .strs, .strs], .bool⟩,
    ⟨c!"UpdatePolicies", c!"Enforcer", c!"UpdatePolicies", [rulesT, rulesT], .bool⟩,
    ⟨c!"UpdateNamedPolicies", c!"Enforcer", c!"UpdateNamedPolicies", [.str, rulesT, rulesT], .bool⟩,
    ⟨c!"GetRolesForUser", c!"Enforcer", c!"GetRolesForUser", [.str, .strs], .strs⟩,
    ⟨c!"GetUsersForRole", c!"Enforcer", c!"GetUsersForRole", [.str, .strs], .strs⟩,
    ⟨c!"HasRoleForUser", c!"Enforcer", c!"HasRoleForUser", [.str, .str], .bool⟩,
    ⟨c!"AddRoleForUser", c!"Enforcer", c!"AddRoleForUser", [.str, .str], .bool⟩,
    ⟨c!"AddRolesForUser", c!"Enforcer", c!"AddRolesForUser", [.str, .strs], .bool⟩,
    ⟨c!"AddPermissionForUser", c!"Enforcer", c!"AddPermissionForUser", [.str, .strs], .bool⟩,
    ⟨c!"DeletePermissionForUser", c!"Enforcer", c!"DeletePermissionForUser", [.str, .strs], .bool⟩,
    ⟨c!"DeletePermissionsForUser", c!"Enforcer", c!"DeletePermissionsForUser", [.str], .bool⟩,
    ⟨c!"GetPermissionsForUser", c!"Enforcer", c!"GetPermissionsForUser", [.str], rulesT⟩,
    ⟨c!"HasPermissionForUser", c!"Enforcer", c!"HasPermissionForUser", [.str, .strs], .bool⟩,
    ⟨c!"GetImplicitRolesForUser", c!"Enforcer", c!"GetImplicitRolesForUser", [.str, .strs], .strs⟩,
    ⟨c!"GetImplicitPermissionsForUser", c!"Enforcer", c!"GetImplicitPermissionsForUser", [.str, .strs], rulesT⟩,
    ⟨c!"GetImplicitUsersForPermission", c!"Enforcer", c!"GetImplicitUsersForPermission", [.strs], .strs⟩,
    ⟨c!"DeleteRoleForUser", c!"Enforcer", c!"DeleteRoleForUser", [.str, .str], .bool⟩,
    ⟨c!"DeleteRolesForUser", c!"Enforcer", c!"DeleteRolesForUser", [.str], .bool⟩,
    ⟨c!"DeleteUser", c!"Enforcer", c!"DeleteUser", [.str], .bool⟩,
    ⟨c!"DeleteRole", c!"Enforcer", c!"DeleteRole", [.str], .bool⟩,
    ⟨c!"DeletePermission", c!"Enforcer", c!"DeletePermission", [.strs], .bool⟩,
    ⟨c!"GetUsersForRoleInDomain", c!"Enforcer", c!"GetUsersForRoleInDomain", [.str, .str], .strs⟩,
    ⟨c!"GetRolesForUserInDomain", c!"Enforcer", c!"GetRolesForUserInDomain", [.str, .str], .strs⟩,
    ⟨c!"GetPermissionsForUserInDomain", c!"Enforcer", c!"GetPermissionsForUserInDomain", [.str, .str], rulesT⟩,
    ⟨c!"AddRoleForUserInDomain", c!"Enforcer", c!"AddRoleForUserInDomain", [.str, .str, .str], .bool⟩,
    ⟨c!"DeleteRoleForUserInDomain", c!"Enforcer", c!"DeleteRoleForUserInDomain", [.str, .str, .str], .bool⟩ ]

/-- `CachedEnforcer` (pycasbin/src/py_cached_enforcer.cpp 24–77). -/
def cachedDefs : List Def :=
  [ ⟨c!"InvalidateCache", c!"CachedEnforcer", c!"InvalidateCache", [], .void⟩,
    ⟨c!"Enforce", c!"CachedEnforcer", c!"Enforce", [.data], .bool⟩,
    ⟨c!"Enforce", c!"CachedEnforcer", c!"Enforce", [(.val c!"DataList")], .bool⟩,
    ⟨c!"Enforce", c!"CachedEnforcer", c!"Enforce", [.dataMap], .bool⟩,
    ⟨c!"EnforceWithMatcher", c!"CachedEnforcer", c!"EnforceWithMatcher", [.str, (.val c!"DataList")], .bool⟩,
    ⟨c!"EnforceWithMatcher", c!"CachedEnforcer", c!"EnforceWithMatcher", [.str, .dataMap], .bool⟩ ]

/-- `Model` (pycasbin/src/py_model.cpp 28–60). -/
def modelDefs : List Def :=
  [ ⟨c!"HasSection", c!"Model", c!"HasSection", [.str], .bool⟩,
    ⟨c!"AddDef", c!"Model", c!"AddDef", [.str, .str, .str], .bool⟩,
    ⟨c!"LoadModel", c!"Model", c!"LoadModel", [.str], .void⟩,
    ⟨c!"LoadModelFromText", c!"Model", c!"LoadModelFromText", [.str], .void⟩,
    ⟨c!"LoadModelFromConfig", c!"Model", c!"LoadModelFromConfig", [(.ptr c!"Config")], .void⟩,
    ⟨c!"PrintModel", c!"Model", c!"PrintModel", [], .void⟩,
    ⟨c!"BuildIncrementalRoleLinks", c!"Model", c!"BuildIncrementalRoleLinks", [(.ptr c!"RoleManager"), (.val c!"policy_op"), .str, .str, rulesT], .void⟩,
    ⟨c!"BuildRoleLinks", c!"Model", c!"BuildRoleLinks", [(.ptr c!"RoleManager")], .void⟩,
    ⟨c!"PrintPolicy", c!"Model", c!"PrintPolicy", [], .void⟩,
    ⟨c!"ClearPolicy", c!"Model", c!"ClearPolicy", [], .void⟩,
    ⟨c!"GetPolicy", c!"Model", c!"GetPolicy", [.str, .str], rulesT⟩,
    ⟨c!"GetFilteredPolicy", c!"Model", c!"GetFilteredPolicy", [.str, .str, .int, .strs], rulesT⟩,
    ⟨c!"HasPolicy", c!"Model", c!"HasPolicy", [.str, .str, .strs], .bool⟩,
    ⟨c!"AddPolicy", c!"Model", c!"AddPolicy", [.str, .str, .strs], .bool⟩,
    ⟨c!"AddPolicies", c!"Model", c!"AddPolicies", [.str, .str, rulesT], .bool⟩,
    ⟨c!"UpdatePolicy", c!"Model", c!"UpdatePolicy", [.str, .str, .strs, .strs], .bool⟩,
    ⟨c!"UpdatePolicies", c!"Model", c!"UpdatePolicies", [.str, .str, rulesT, rulesT], .bool⟩,
    ⟨c!"RemovePolicy", c!"Model", c!"RemovePolicy", [.str, .str, .strs], .bool⟩,
    ⟨c!"RemovePolicies", c!"Model", c!"RemovePolicies", [.str, .str, rulesT], .bool⟩,
    ⟨c!"RemoveFilteredPolicy", c!"Model", c!"RemoveFilteredPolicy", [.str, .str, .int, .strs], .pair .bool rulesT⟩,
    ⟨c!"GetValuesForFieldInPolicy", c!"Model", c!"GetValuesForFieldInPolicy", [.str, .str, .int], .strs⟩,
    ⟨c!"GetValuesForFieldInPolicyAllTypes", c!"Model", c!"GetValuesForFieldInPolicyAllTypes", [.str, .int], .strs⟩,
    ⟨c!"NewModel", c!"Model", c!"NewModel", [], modelT⟩,
    ⟨c!"NewModelFromFile", c!"Model", c!"NewModelFromFile", [.str], modelT⟩,
    ⟨c!"NewModelFromString", c!"Model", c!"NewModelFromString", [.str], modelT⟩ ]

/-- `Config` (pycasbin/src/py_config.cpp 24–49). -/
def configDefs : List Def :=
  [ ⟨c!"NewConfig", c!"Config", c!"NewConfig", [.str], (.ptr c!"Config")⟩,
    ⟨c!"NewConfigFromText", c!"Config", c!"NewConfigFromText", [.str], (.ptr c!"Config")⟩,
    ⟨c!"GetBool", c!"Config", c!"GetBool", [.str], .bool⟩,
    ⟨c!"GetInt", c!"Config", c!"GetInt", [.str], .int⟩,
    ⟨c!"GetFloat", c!"Config", c!"GetFloat", [.str], .float⟩,
    ⟨c!"GetString", c!"Config", c!"GetString", [.str], .str⟩,
    ⟨c!"GetStrings", c!"Config", c!"GetStrings", [.str], .strs⟩,
    ⟨c!"Set", c!"Config", c!"Set", [.str, .str], .void⟩,
    ⟨c!"Get", c!"Config", c!"Get", [.str], .str⟩ ]

/-- `SyncedEnforcer` (pycasbin/src/py_synced_enforcer.cpp 27–118). -/
def syncedDefs : List Def :=
  [ ⟨c!"StartAutoLoadPolicy", c!"SyncedEnforcer", c!"StartAutoLoadPolicy", [.duration], .void⟩,
    ⟨c!"IsAutoLoadingRunning", c!"SyncedEnforcer", c!"IsAutoLoadingRunning", [], .bool⟩,
    ⟨c!"StopAutoLoadPolicy", c!"SyncedEnforcer", c!"StopAutoLoadPolicy", [], .void⟩,
    ⟨c!"SetWatcher", c!"SyncedEnforcer", c!"SetWatcher", [(.ptr c!"Watcher")], .void⟩,
    ⟨c!"LoadModel", c!"SyncedEnforcer", c!"LoadModel", [], .void⟩,
    ⟨c!"ClearPolicy", c!"SyncedEnforcer", c!"ClearPolicy", [], .void⟩,
    ⟨c!"LoadPolicy", c!"SyncedEnforcer", c!"LoadPolicy", [], .void⟩,
    ⟨c!"SavePolicy", c!"SyncedEnforcer", c!"SavePolicy", [], .void⟩,
    ⟨c!"BuildRoleLinks", c!"SyncedEnforcer", c!"BuildRoleLinks", [], .void⟩,
    ⟨c!"Enforce", c!"SyncedEnforcer", c!"Enforce", [.data], .bool⟩,
    ⟨c!"Enforce", c!"SyncedEnforcer", c!"Enforce", [.dataMap], .bool⟩,
    ⟨c!"BatchEnforce", c!"SyncedEnforcer", c!"BatchEnforce", [(.val c!"initializer_list<DataList>")], .bools⟩,
    ⟨c!"BatchEnforceWithMatcher", c!"SyncedEnforcer", c!"BatchEnforceWithMatcher", [.str, (.val c!"initializer_list<DataList>")], .bools⟩,
    ⟨c!"GetAllSubjects", c!"SyncedEnforcer", c!"GetAllSubjects", [], .strs⟩,
    ⟨c!"GetAllNamedSubjects", c!"SyncedEnforcer", c!"GetAllNamedSubjects", [.str], .strs⟩,
    ⟨c!"GetAllObjects", c!"SyncedEnforcer", c!"GetAllObjects", [], .strs⟩,
    ⟨c!"GetAllNamedObjects", c!"SyncedEnforcer", c!"GetAllNamedObjects", [.str], .strs⟩,
    ⟨c!"GetAllNamedActions", c!"SyncedEnforcer", c!"GetAllNamedActions", [.str], .strs⟩,
    ⟨c!"GetAllRoles", c!"SyncedEnforcer", c!"GetAllRoles", [], .strs⟩,
    ⟨c!"GetAllNamedRoles", c!"SyncedEnforcer", c!"GetAllNamedRoles", [.str], .strs⟩,
    ⟨c!"GetPolicy", c!"SyncedEnforcer", c!"GetPolicy", [], rulesT⟩,
    ⟨c!"GetNamedPolicy", c!"SyncedEnforcer", c!"GetNamedPolicy", [.str], rulesT⟩,
    ⟨c!"GetFilteredNamedPolicy", c!"SyncedEnforcer", c!"GetFilteredNamedPolicy", [.str, .int, .strs], rulesT⟩,
    ⟨c!"GetGroupingPolicy", c!"SyncedEnforcer", c!"GetGroupingPolicy", [], rulesT⟩,
    ⟨c!"GetFilteredGroupingPolicy", c!"SyncedEnforcer", c!"GetFilteredGroupingPolicy", [.int, .strs], rulesT⟩,
    ⟨c!"GetNamedGroupingPolicy", c!"SyncedEnforcer", c!"GetNamedGroupingPolicy", [.str], rulesT⟩,
    ⟨c!"GetFilteredNamedGroupingPolicy", c!"SyncedEnforcer", c!"GetFilteredNamedGroupingPolicy", [.str, .int, .strs], rulesT⟩,
    ⟨c!"HasPolicy", c!"SyncedEnforcer", c!"HasPolicy", [.strs], .bool⟩,
    ⟨c!"HasNamedPolicy", c!"SyncedEnforcer", c!"HasNamedPolicy", [.str, .strs], .bool⟩,
    ⟨c!"AddPolicy", c!"SyncedEnforcer", c!"AddPolicy", [.strs], .bool⟩,
    ⟨c!"AddNamedPolicy", c!"SyncedEnforcer", c!"AddNamedPolicy", [.str, .strs], .bool⟩,
    ⟨c!"AddNamedPolicies", c!"SyncedEnforcer", c!"AddNamedPolicies", [.str, rulesT], .bool⟩,
    ⟨c!"RemovePolicy", c!"SyncedEnforcer", c!"RemovePolicy", [.strs], .bool⟩,
    ⟨c!"RemovePolicies", c!"SyncedEnforcer", c!"RemovePolicies", [rulesT], .bool⟩,
    ⟨c!"RemoveFilteredPolicy", c!"SyncedEnforcer", c!"RemoveFilteredPolicy", [.int, .strs], .bool⟩,
    ⟨c!"RemoveNamedPolicies", c!"SyncedEnforcer", c!"RemoveNamedPolicies", [.str, rulesT], .bool⟩,
    ⟨c!"RemoveFilteredNamedPolicy", c!"SyncedEnforcer", c!"RemoveFilteredNamedPolicy", [.str, .int, .strs], .bool⟩,
    ⟨c!"HasNamedGroupingPolicy", c!"SyncedEnforcer", c!"HasNamedGroupingPolicy", [.str, .strs], .bool⟩,
    ⟨c!"AddGroupingPolicy", c!"SyncedEnforcer", c!"AddGroupingPolicy", [.strs], .bool⟩,
    ⟨c!"AddGroupingPolicies", c!"SyncedEnforcer", c!"AddGroupingPolicies", [rulesT], .bool⟩,
    ⟨c!"AddNamedGroupingPolicy", c!"SyncedEnforcer", c!"AddNamedGroupingPolicy", [.str, .strs], .bool⟩,
    ⟨c!"AddNamedGroupingPolicies", c!"SyncedEnforcer", c!"AddNamedGroupingPolicies", [.str, rulesT], .bool⟩,
    ⟨c!"RemoveGroupingPolicy", c!"SyncedEnforcer", c!"RemoveGroupingPolicy", [.strs], .bool⟩,
    ⟨c!"RemoveGroupingPolicies", c!"SyncedEnforcer", c!"RemoveGroupingPolicies", [rulesT], .bool⟩,
    ⟨c!"RemoveFilteredGroupingPolicy", c!"SyncedEnforcer", c!"RemoveFilteredGroupingPolicy", [.int, .strs], .bool⟩,
    ⟨c!"RemoveNamedGroupingPolicy", c!"SyncedEnforcer", c!"RemoveNamedGroupingPolicy", [.str, .strs], .bool⟩,
    ⟨c!"RemoveNamedGroupingPolicies", c!"SyncedEnforcer", c!"RemoveNamedGroupingPolicies", [.str, rulesT], .bool⟩,
    ⟨c!"RemoveFilteredNamedGroupingPolicy", c!"SyncedEnforcer", c!"RemoveFilteredNamedGroupingPolicy", [.str, .int, .strs], .bool⟩,
    ⟨c!"UpdateGroupingPolicy", c!"SyncedEnforcer", c!"UpdateGroupingPolicy", [.strs, .strs], .bool⟩,
    ⟨c!"UpdateNamedGroupingPolicy", c!"SyncedEnforcer", c!"UpdateNamedGroupingPolicy", [.str, .strs, .strs], .bool⟩,
    ⟨c!"UpdatePolicy", c!"SyncedEnforcer", c!"UpdatePolicy", [.strs, .strs], .bool⟩,
    ⟨c!"UpdateNamedPolicy", c!"SyncedEnforcer", c!"UpdateNamedPolicy", [.str, .strs, .strs], .bool⟩,
    ⟨c!"UpdatePolicies", c!"SyncedEnforcer", c!"UpdatePolicies", [rulesT, rulesT], .bool⟩,
    ⟨c!"UpdateNamedPolicies", c!"SyncedEnforcer", c!"UpdateNamedPolicies", [.str, rulesT, rulesT], .bool⟩ ]

/-- `Adapter` (pycasbin/src/py_adapter.cpp 28–34). -/
def adapterDefs : List Def :=
  [ ⟨c!"LoadPolicy", c!"Adapter", c!"LoadPolicy", [modelT], .void⟩,
    ⟨c!"SavePolicy", c!"Adapter", c!"SavePolicy", [modelT], .void⟩,
    ⟨c!"AddPolicy", c!"Adapter", c!"AddPolicy", [.str, .str, .strs], .void⟩,
    ⟨c!"RemovePolicy", c!"Adapter", c!"RemovePolicy", [.str, .str, .strs], .void⟩,
    ⟨c!"RemoveFilteredPolicy", c!"Adapter", c!"RemoveFilteredPolicy", [.str, .str, .int, .strs], .void⟩,
    ⟨c!"IsFiltered", c!"Adapter", c!"IsFiltered", [], .bool⟩ ]

/-- `BatchAdapter` (pycasbin/src/py_adapter.cpp 38–40). -/
def batchAdapterDefs : List Def :=
  [ ⟨c!"AddPolicies", c!"BatchAdapter", c!"AddPolicies", [.str, .str, rulesT], .void⟩,
    ⟨c!"RemovePolicies", c!"BatchAdapter", c!"RemovePolicies", [.str, .str, rulesT], .void⟩ ]

/-- `FileAdapter` (pycasbin/src/py_adapter.cpp 45–53). -/
def fileAdapterDefs : List Def :=
  [ ⟨c!"NewFileAdapter", c!"FileAdapter", c!"NewFileAdapter", [.str], (.ptr c!"FileAdapter")⟩,
    ⟨c!"LoadPolicy", c!"FileAdapter", c!"LoadPolicy", [modelT], .void⟩,
    ⟨c!"SavePolicy", c!"FileAdapter", c!"SavePolicy", [modelT], .void⟩,
    ⟨c!"AddPolicy", c!"FileAdapter", c!"AddPolicy", [.str, .str, .strs], .void⟩,
    ⟨c!"RemovePolicy", c!"FileAdapter", c!"RemovePolicy", [.str, .str, .strs], .void⟩,
    ⟨c!"RemoveFilteredPolicy", c!"FileAdapter", c!"RemoveFilteredPolicy", [.str, .str, .int, .strs], .void⟩,
    ⟨c!"IsFiltered", c!"FileAdapter", c!"IsFiltered", [], .bool⟩ ]

/-- `BatchFileAdapter` (pycasbin/src/py_adapter.cpp 58–62). -/
def batchFileAdapterDefs : List Def :=
  [ ⟨c!"NewBatchFileAdapter", c!"BatchFileAdapter", c!"NewBatchFileAdapter", [.str], (.ptr c!"BatchFileAdapter")⟩,
    ⟨c!"AddPolicies", c!"BatchFileAdapter", c!"AddPolicies", [.str, .str, rulesT], .void⟩,
    ⟨c!"RemovePolicies", c!"BatchFileAdapter", c!"RemovePolicies", [.str, .str, rulesT], .void⟩ ]

/-- The methods of a class of the module, without those of its base classes. -/
def defsOf (cls : Str) : List Def :=
  if cls = c!"Enforcer" then enforcerDefs
  else if cls = c!"CachedEnforcer" then cachedDefs
  else if cls = c!"Model" then modelDefs
  else if cls = c!"Config" then configDefs
  else if cls = c!"SyncedEnforcer" then syncedDefs
  else if cls = c!"Adapter" then adapterDefs
  else if cls = c!"BatchAdapter" then batchAdapterDefs
  else if cls = c!"FileAdapter" then fileAdapterDefs
  else if cls = c!"BatchFileAdapter" then batchFileAdapterDefs
  else []

/-- The overloads of a name in the first class of the list that has it: a class that has the name
hides the overloads of its base classes. -/
def overloadsIn (name : Str) : List Str → List Def
  | [] => []
  | c :: cs =>
    match (defsOf c).filter fun d => d.name = name with
    | [] => overloadsIn name cs
    | ds => ds

/-- The overloads that a call of the method on an object of the class chooses from. -/
def overloads (cls name : Str) : List Def := overloadsIn name (mro cls)

/-- All arguments, one for each parameter. -/
def loadAll (conv : Bool) : List Ty → List PyVal → Option (List CVal)
  | [], [] => some []
  | t :: ts, v :: vs =>
    match load conv t v, loadAll conv ts vs with
    | some c, some cs => some (c :: cs)
    | _, _ => none
  | _, _ => none

/-- The first overload that takes the arguments. -/
def firstTaking (conv : Bool) (args : List PyVal) : List Def → Option (Def × List CVal)
  | [] => none
  | d :: ds =>
    match loadAll conv d.params args with
    | some cs => some (d, cs)
    | none => firstTaking conv args ds

/-- The overload that is called: without conversions if there is a choice, then with them. -/
def choose (ds : List Def) (args : List PyVal) : Option (Def × List CVal) :=
  match ds with
  | _ :: _ :: _ =>
    match firstTaking false args ds with
    | some r => some r
    | none => firstTaking true args ds
  | _ => firstTaking true args ds

/-- How a call ends in Python. -/
inductive End
  | value (v : PyVal)
  | typeError
  | attributeError
  /-- An exception of the C++ function, as a Python exception. -/
  | raised (e : Exn)

variable {σ : Type}

/-- `object.name(*args)` for an object of the class. `cpp owner target` is the C++ function. The result
is turned into a Python value after the call. -/
def call (cpp : Str → Str → List CVal → M σ CVal) (cls name : Str) (args : List PyVal) : M σ End :=
  fun s =>
  if overloads cls name = [] then (.ok .attributeError, s)
  else
    match choose (overloads cls name) args with
    | none => (.ok .typeError, s)
    | some (d, cs) =>
      match cpp d.owner d.target cs s with
      | (.ok r, s') =>
        (.ok (match toPy d.ret r with
          | some v => .value v
          | none => .typeError), s')
      | (.throw e, s') => (.ok (.raised e), s')
      | (.ub u, s') => (.ub u, s')

end Py
end Casbin
