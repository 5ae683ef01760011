import Verif.Enforcer

/-!
# The synchronised enforcer, used from one thread

Models `casbin/enforcer_synced.cpp`. Every overriding method takes the lock `policyMutex` and then
runs the method of `Enforcer`, whose calls of virtual methods come back to `SyncedEnforcer`. So each
method is modelled by its body with every call of an overridden method going to the override here;
the bodies that make no such call are those of `Enforcer`.

Left out: `LoadFilteredPolicy` (a template defined in a source file). The overloads of `Enforce` and
relatives taking an evaluator are in `SyncedEval.lean`.
-/

namespace Casbin

/-- `std::unique_lock` or `std::shared_lock`. -/
inductive LockKind
  | unique
  | shared
  deriving DecidableEq, Repr

/-- `class SyncedEnforcer` (include/casbin/enforcer_synced.h 31–36): the enforcer it extends, the
way the calling thread holds `policyMutex`, and its own member `watcher`. -/
structure SyncedEnforcer where
  base : Enforcer
  held : Option LockKind
  watcher : Option Watcher

/-- The calls of the public methods, with their arguments. -/
inductive Call
  | loadModel (file : Outcome Model)
  | clearPolicy
  | loadPolicy
  | savePolicy
  | buildRoleLinks
  | enforce (vals : List ReqVal)
  | enforceMap (vals : UMap Str ReqVal)
  | batchEnforce (rs : List (List ReqVal))
  | batchEnforceWithMatcher (matcher : Str) (rs : List (List ReqVal))
  | getAllSubjects
  | getAllNamedSubjects (pt : Str)
  | getAllObjects
  | getAllNamedObjects (pt : Str)
  | getAllNamedActions (pt : Str)
  | getAllRoles
  | getAllNamedRoles (pt : Str)
  | getNamedPolicy (pt : Str)
  | getPolicy
  | getFilteredNamedPolicy (pt : Str) (i : Nat) (vs : List Str)
  | getNamedGroupingPolicy (pt : Str)
  | getGroupingPolicy
  | getFilteredNamedGroupingPolicy (pt : Str) (i : Nat) (vs : List Str)
  | getFilteredGroupingPolicy (i : Nat) (vs : List Str)
  | hasNamedPolicy (pt : Str) (r : Rule)
  | hasPolicy (r : Rule)
  | addNamedPolicy (pt : Str) (r : Rule)
  | addPolicy (r : Rule)
  | addNamedPolicies (pt : Str) (rs : List Rule)
  | addPolicies (rs : List Rule)
  | removeNamedPolicy (pt : Str) (r : Rule)
  | removePolicy (r : Rule)
  | updateNamedPolicy (pt : Str) (o n : Rule)
  | updatePolicy (o n : Rule)
  | updateNamedPolicies (pt : Str) (o n : List Rule)
  | updatePolicies (o n : List Rule)
  | removeNamedPolicies (pt : Str) (rs : List Rule)
  | removePolicies (rs : List Rule)
  | removeFilteredNamedPolicy (pt : Str) (i : Nat) (vs : List Str)
  | removeFilteredPolicy (i : Nat) (vs : List Str)
  | hasNamedGroupingPolicy (pt : Str) (r : Rule)
  | hasGroupingPolicy (r : Rule)
  | addNamedGroupingPolicy (pt : Str) (r : Rule)
  | addGroupingPolicy (r : Rule)
  | addNamedGroupingPolicies (pt : Str) (rs : List Rule)
  | addGroupingPolicies (rs : List Rule)
  | removeNamedGroupingPolicy (pt : Str) (r : Rule)
  | removeGroupingPolicy (r : Rule)
  | removeNamedGroupingPolicies (pt : Str) (rs : List Rule)
  | removeGroupingPolicies (rs : List Rule)
  | removeFilteredNamedGroupingPolicy (pt : Str) (i : Nat) (vs : List Str)
  | removeFilteredGroupingPolicy (i : Nat) (vs : List Str)
  | updateNamedGroupingPolicy (pt : Str) (o n : Rule)
  | updateGroupingPolicy (o n : Rule)
  | getAllActions
  | getFilteredPolicy (i : Nat) (vs : List Str)
  | syncedEnforceEx (matcher : Str) (vals : List ReqVal) (explain : Rule)
  | syncedEnforceExMap (matcher : Str) (vals : UMap Str ReqVal) (explain : Rule)
  | syncedEnforceWithMatcher (matcher : Str) (vals : List ReqVal)
  | initWithModelAndAdapter (m : Model) (a : Option Adapter)
  | setModel (m : Model)
  | setAdapter (a : Adapter)
  | enableEnforce (b : Bool)
  | enableAutoSave (b : Bool)
  | enableAutoBuild (b : Bool)
  | enableAutoNotify (b : Bool)
  | addNamedMatchingFunc (f : Str → Str → Bool)
  | enforceEx (matcher : Str) (vals : List ReqVal) (explain : Rule)
  | enforceExMap (matcher : Str) (vals : UMap Str ReqVal) (explain : Rule)
  | enforceWithMatcher (matcher : Str) (vals : List ReqVal)
  | getRolesForUser (name : Str) (domain : List Str)
  | getUsersForRole (name : Str) (domain : List Str)
  | hasRoleForUser (name : Str) (role : Str)
  | addRoleForUser (user : Str) (role : Str)
  | addRolesForUser (user : Str) (roles : List Str)
  | deleteRoleForUser (user : Str) (role : Str)
  | deleteRolesForUser (user : Str)
  | deleteUser (user : Str)
  | deleteRole (role : Str)
  | deletePermission (perm : List Str)
  | addPermissionForUser (user : Str) (perm : List Str)
  | deletePermissionForUser (user : Str) (perm : List Str)
  | deletePermissionsForUser (user : Str)
  | getPermissionsForUser (user : Str)
  | hasPermissionForUser (user : Str) (perm : List Str)
  | getPermissionsForUserInDomain (user : Str) (domain : Str)
  | addRoleForUserInDomain (user : Str) (role : Str) (domain : Str)
  | deleteRoleForUserInDomain (user : Str) (role : Str) (domain : Str)
  | getImplicitRolesForUser (name : Str) (domain : List Str)
  | getImplicitPermissionsForUser (user : Str) (domain : List Str)
  | getImplicitUsersForPermission (perm : List Str)
  | setWatcher (w : Watcher)
  | updateWrapper

/-- What a call returns. -/
inductive Ret
  | unit
  | bool (b : Bool)
  | strs (l : List Str)
  | pols (p : Policies)
  | rules (l : List Rule)
  | bools (l : List Bool)
  | dec (b : Bool) (explain : Rule)
  deriving DecidableEq, Repr

/-- The lock a method takes, `none` for the methods that `SyncedEnforcer` inherits and for
`SetWatcher` and `UpdateWrapper` (enforcer_synced.cpp 129–138). The lines of the others are given at
their definitions below. -/
def lockOf : Call → Option LockKind
  | .loadModel _ => some .unique
  | .clearPolicy => some .unique
  | .loadPolicy => some .unique
  | .savePolicy => some .unique
  | .buildRoleLinks => some .unique
  | .enforce _ => some .unique
  | .enforceMap _ => some .unique
  | .batchEnforce _ => some .unique
  | .batchEnforceWithMatcher _ _ => some .unique
  | .getAllSubjects => some .shared
  | .getAllNamedSubjects _ => some .shared
  | .getAllObjects => some .shared
  | .getAllNamedObjects _ => some .shared
  | .getAllNamedActions _ => some .shared
  | .getAllRoles => some .shared
  | .getAllNamedRoles _ => some .shared
  | .getNamedPolicy _ => some .shared
  | .getPolicy => some .shared
  | .getFilteredNamedPolicy _ _ _ => some .shared
  | .getNamedGroupingPolicy _ => some .shared
  | .getGroupingPolicy => some .shared
  | .getFilteredNamedGroupingPolicy _ _ _ => some .shared
  | .getFilteredGroupingPolicy _ _ => some .shared
  | .hasNamedPolicy _ _ => some .shared
  | .hasPolicy _ => some .shared
  | .addNamedPolicy _ _ => some .unique
  | .addPolicy _ => some .unique
  | .addNamedPolicies _ _ => some .unique
  | .addPolicies _ => some .unique
  | .removeNamedPolicy _ _ => some .unique
  | .removePolicy _ => some .unique
  | .updateNamedPolicy _ _ _ => some .unique
  | .updatePolicy _ _ => some .unique
  | .updateNamedPolicies _ _ _ => some .unique
  | .updatePolicies _ _ => some .unique
  | .removeNamedPolicies _ _ => some .unique
  | .removePolicies _ => some .unique
  | .removeFilteredNamedPolicy _ _ _ => some .unique
  | .removeFilteredPolicy _ _ => some .unique
  | .hasNamedGroupingPolicy _ _ => some .shared
  | .hasGroupingPolicy _ => some .shared
  | .addNamedGroupingPolicy _ _ => some .unique
  | .addGroupingPolicy _ => some .unique
  | .addNamedGroupingPolicies _ _ => some .unique
  | .addGroupingPolicies _ => some .unique
  | .removeNamedGroupingPolicy _ _ => some .unique
  | .removeGroupingPolicy _ => some .unique
  | .removeNamedGroupingPolicies _ _ => some .unique
  | .removeGroupingPolicies _ => some .unique
  | .removeFilteredNamedGroupingPolicy _ _ _ => some .unique
  | .removeFilteredGroupingPolicy _ _ => some .unique
  | .updateNamedGroupingPolicy _ _ _ => some .unique
  | .updateGroupingPolicy _ _ => some .unique
  | .getAllActions => some .unique
  | .getFilteredPolicy _ _ => some .unique
  | .syncedEnforceEx _ _ _ => some .unique
  | .syncedEnforceExMap _ _ _ => some .unique
  | .syncedEnforceWithMatcher _ _ => some .unique
  | _ => none

namespace SyncedEnforcer

/-- `std::unique_lock<std::shared_mutex> lock(policyMutex); ...` (or `shared_lock`). Taking a
`std::shared_mutex` that the thread holds already, in either way, is undefined (it blocks for ever).
The lock is released when the method is left, by an exception too. -/
def locked {α : Type} (k : LockKind) (f : M SyncedEnforcer α) : M SyncedEnforcer α := fun s =>
  match s.held with
  | some _ => (.ub .relock, s)
  | none => ((f { s with held := some k }).1, { (f { s with held := some k }).2 with held := none })

/-- A method with its lock. -/
def method {α : Type} (c : Call) (f : M SyncedEnforcer α) : M SyncedEnforcer α :=
  match lockOf c with
  | some k => locked k f
  | none => f

/-- Code of `Enforcer` that calls no method overridden by `SyncedEnforcer`. -/
def plain {α : Type} (f : M Enforcer α) : M SyncedEnforcer α := fun s =>
  ((f s.base).1, { s with base := (f s.base).2 })

variable [IterOrder]

/-! ## The overriding methods -/

/-- `LoadModel` (enforcer_synced.cpp 141–144). -/
def loadModel (file : Outcome Model) : M SyncedEnforcer Unit :=
  method (.loadModel file) (plain (Enforcer.loadModel file))

/-- `ClearPolicy` (enforcer_synced.cpp 147–150). -/
def clearPolicy : M SyncedEnforcer Unit :=
  method .clearPolicy (plain Enforcer.clearPolicy)

/-- `LoadPolicy` (enforcer_synced.cpp 153–156). -/
def loadPolicy : M SyncedEnforcer Unit :=
  method .loadPolicy (plain Enforcer.loadPolicy)

/-- `SavePolicy` (enforcer_synced.cpp 172–175). -/
def savePolicy : M SyncedEnforcer Unit :=
  method .savePolicy (plain Enforcer.savePolicy)

/-- `BuildRoleLinks` (enforcer_synced.cpp 178–181). -/
def buildRoleLinks : M SyncedEnforcer Unit :=
  method .buildRoleLinks (plain Enforcer.buildRoleLinks)

/-- `Enforce` (enforcer_synced.cpp 192–203). -/
def enforce (lib : ExprLib) (vals : List ReqVal) : M SyncedEnforcer Bool :=
  method (.enforce vals) (plain (Enforcer.enforce lib vals))

/-- `Enforce`, for a map (enforcer_synced.cpp 207–210). -/
def enforceMap (lib : ExprLib) (vals : UMap Str ReqVal) : M SyncedEnforcer Bool :=
  method (.enforceMap vals) (plain (Enforcer.enforceMap lib vals))

/-- `BatchEnforce` (enforcer_synced.cpp 213–227). -/
def batchEnforce (lib : ExprLib) (rs : List (List ReqVal)) : M SyncedEnforcer (List Bool) :=
  method (.batchEnforce rs) (plain (Enforcer.batchEnforce lib rs))

/-- `BatchEnforceWithMatcher` (enforcer_synced.cpp 230–238). -/
def batchEnforceWithMatcher (lib : ExprLib) (matcher : Str) (rs : List (List ReqVal)) : M SyncedEnforcer (List Bool) :=
  method (.batchEnforceWithMatcher matcher rs) (plain (Enforcer.batchEnforceWithMatcher lib matcher rs))

/-- `GetAllSubjects` (enforcer_synced.cpp 241–244). -/
def getAllSubjects : M SyncedEnforcer (List Str) :=
  method .getAllSubjects (plain Enforcer.getAllSubjects)

/-- `GetAllNamedSubjects` (enforcer_synced.cpp 247–250). -/
def getAllNamedSubjects (pt : Str) : M SyncedEnforcer (List Str) :=
  method (.getAllNamedSubjects pt) (plain (Enforcer.getAllNamedSubjects pt))

/-- `GetAllObjects` (enforcer_synced.cpp 253–256). -/
def getAllObjects : M SyncedEnforcer (List Str) :=
  method .getAllObjects (plain Enforcer.getAllObjects)

/-- `GetAllNamedObjects` (enforcer_synced.cpp 259–262). -/
def getAllNamedObjects (pt : Str) : M SyncedEnforcer (List Str) :=
  method (.getAllNamedObjects pt) (plain (Enforcer.getAllNamedObjects pt))

/-- `GetAllNamedActions` (enforcer_synced.cpp 265–268). -/
def getAllNamedActions (pt : Str) : M SyncedEnforcer (List Str) :=
  method (.getAllNamedActions pt) (plain (Enforcer.getAllNamedActions pt))

/-- `GetAllRoles` (enforcer_synced.cpp 271–274). -/
def getAllRoles : M SyncedEnforcer (List Str) :=
  method .getAllRoles (plain Enforcer.getAllRoles)

/-- `GetAllNamedRoles` (enforcer_synced.cpp 277–280). -/
def getAllNamedRoles (pt : Str) : M SyncedEnforcer (List Str) :=
  method (.getAllNamedRoles pt) (plain (Enforcer.getAllNamedRoles pt))

/-- `GetNamedPolicy` (enforcer_synced.cpp 289–292). -/
def getNamedPolicy (pt : Str) : M SyncedEnforcer Policies :=
  method (.getNamedPolicy pt) (plain (Enforcer.getNamedPolicy pt))

/-- `GetPolicy` (enforcer_synced.cpp 283–286). -/
def getPolicy : M SyncedEnforcer Policies :=
  method .getPolicy (getNamedPolicy c!"p")

/-- `GetFilteredNamedPolicy` (enforcer_synced.cpp 295–298). -/
def getFilteredNamedPolicy (pt : Str) (i : Nat) (vs : List Str) : M SyncedEnforcer Policies :=
  method (.getFilteredNamedPolicy pt i vs) (plain (Enforcer.getFilteredNamedPolicy pt i vs))

/-- `GetNamedGroupingPolicy` (enforcer_synced.cpp 313–316). -/
def getNamedGroupingPolicy (pt : Str) : M SyncedEnforcer Policies :=
  method (.getNamedGroupingPolicy pt) (plain (Enforcer.getNamedGroupingPolicy pt))

/-- `GetGroupingPolicy` (enforcer_synced.cpp 301–304). -/
def getGroupingPolicy : M SyncedEnforcer Policies :=
  method .getGroupingPolicy (getNamedGroupingPolicy c!"g")

/-- `GetFilteredNamedGroupingPolicy` (enforcer_synced.cpp 319–322). -/
def getFilteredNamedGroupingPolicy (pt : Str) (i : Nat) (vs : List Str) : M SyncedEnforcer Policies :=
  method (.getFilteredNamedGroupingPolicy pt i vs) (plain (Enforcer.getFilteredNamedGroupingPolicy pt i vs))

/-- `GetFilteredGroupingPolicy` (enforcer_synced.cpp 307–310). -/
def getFilteredGroupingPolicy (i : Nat) (vs : List Str) : M SyncedEnforcer Policies :=
  method (.getFilteredGroupingPolicy i vs) (getFilteredNamedGroupingPolicy c!"g" i vs)

/-- `HasNamedPolicy` (enforcer_synced.cpp 331–334). -/
def hasNamedPolicy (pt : Str) (r : Rule) : M SyncedEnforcer Bool :=
  method (.hasNamedPolicy pt r) (plain (Enforcer.hasNamedPolicy pt r))

/-- `HasPolicy` (enforcer_synced.cpp 325–328). -/
def hasPolicy (r : Rule) : M SyncedEnforcer Bool :=
  method (.hasPolicy r) (hasNamedPolicy c!"p" r)

/-- `AddNamedPolicy` (enforcer_synced.cpp 355–358). -/
def addNamedPolicy (pt : Str) (r : Rule) : M SyncedEnforcer Bool :=
  method (.addNamedPolicy pt r) (plain (Enforcer.addNamedPolicy pt r))

/-- `AddPolicy` (enforcer_synced.cpp 339–342). -/
def addPolicy (r : Rule) : M SyncedEnforcer Bool :=
  method (.addPolicy r) (addNamedPolicy c!"p" r)

/-- `AddNamedPolicies` (enforcer_synced.cpp 363–366). -/
def addNamedPolicies (pt : Str) (rs : List Rule) : M SyncedEnforcer Bool :=
  method (.addNamedPolicies pt rs) (plain (Enforcer.addNamedPolicies pt rs))

/-- `AddPolicies` (enforcer_synced.cpp 347–350). -/
def addPolicies (rs : List Rule) : M SyncedEnforcer Bool :=
  method (.addPolicies rs) (addNamedPolicies c!"p" rs)

/-- `RemoveNamedPolicy` (enforcer_synced.cpp 409–412). -/
def removeNamedPolicy (pt : Str) (r : Rule) : M SyncedEnforcer Bool :=
  method (.removeNamedPolicy pt r) (plain (Enforcer.removeNamedPolicy pt r))

/-- `RemovePolicy` (enforcer_synced.cpp 369–372). -/
def removePolicy (r : Rule) : M SyncedEnforcer Bool :=
  method (.removePolicy r) (removeNamedPolicy c!"p" r)

/-- `UpdateNamedPolicy` (enforcer_synced.cpp 380–383). -/
def updateNamedPolicy (pt : Str) (o n : Rule) : M SyncedEnforcer Bool :=
  method (.updateNamedPolicy pt o n) (plain (Enforcer.updateNamedPolicy pt o n))

/-- `UpdatePolicy` (enforcer_synced.cpp 375–378). -/
def updatePolicy (o n : Rule) : M SyncedEnforcer Bool :=
  method (.updatePolicy o n) (updateNamedPolicy c!"p" o n)

/-- `UpdateNamedPolicies` (enforcer_synced.cpp 391–394). -/
def updateNamedPolicies (pt : Str) (o n : List Rule) : M SyncedEnforcer Bool :=
  method (.updateNamedPolicies pt o n) (plain (Enforcer.updateNamedPolicies pt o n))

/-- `UpdatePolicies` (enforcer_synced.cpp 386–389). -/
def updatePolicies (o n : List Rule) : M SyncedEnforcer Bool :=
  method (.updatePolicies o n) (updateNamedPolicies c!"p" o n)

/-- `RemoveNamedPolicies` (enforcer_synced.cpp 415–418). -/
def removeNamedPolicies (pt : Str) (rs : List Rule) : M SyncedEnforcer Bool :=
  method (.removeNamedPolicies pt rs) (plain (Enforcer.removeNamedPolicies pt rs))

/-- `RemovePolicies` (enforcer_synced.cpp 397–400). -/
def removePolicies (rs : List Rule) : M SyncedEnforcer Bool :=
  method (.removePolicies rs) (removeNamedPolicies c!"p" rs)

/-- `RemoveFilteredNamedPolicy` (enforcer_synced.cpp 421–424). -/
def removeFilteredNamedPolicy (pt : Str) (i : Nat) (vs : List Str) : M SyncedEnforcer Bool :=
  method (.removeFilteredNamedPolicy pt i vs) (plain (Enforcer.removeFilteredNamedPolicy pt i vs))

/-- `RemoveFilteredPolicy` (enforcer_synced.cpp 403–406). -/
def removeFilteredPolicy (i : Nat) (vs : List Str) : M SyncedEnforcer Bool :=
  method (.removeFilteredPolicy i vs) (removeFilteredNamedPolicy c!"p" i vs)

/-- `HasNamedGroupingPolicy` (enforcer_synced.cpp 433–436). -/
def hasNamedGroupingPolicy (pt : Str) (r : Rule) : M SyncedEnforcer Bool :=
  method (.hasNamedGroupingPolicy pt r) (plain (Enforcer.hasNamedGroupingPolicy pt r))

/-- `HasGroupingPolicy` (enforcer_synced.cpp 427–430). -/
def hasGroupingPolicy (r : Rule) : M SyncedEnforcer Bool :=
  method (.hasGroupingPolicy r) (hasNamedGroupingPolicy c!"g" r)

/-- `AddNamedGroupingPolicy` (enforcer_synced.cpp 457–460). -/
def addNamedGroupingPolicy (pt : Str) (r : Rule) : M SyncedEnforcer Bool :=
  method (.addNamedGroupingPolicy pt r) (plain (Enforcer.addNamedGroupingPolicy pt r))

/-- `AddGroupingPolicy` (enforcer_synced.cpp 441–444). -/
def addGroupingPolicy (r : Rule) : M SyncedEnforcer Bool :=
  method (.addGroupingPolicy r) (addNamedGroupingPolicy c!"g" r)

/-- `AddNamedGroupingPolicies` (enforcer_synced.cpp 465–468). -/
def addNamedGroupingPolicies (pt : Str) (rs : List Rule) : M SyncedEnforcer Bool :=
  method (.addNamedGroupingPolicies pt rs) (plain (Enforcer.addNamedGroupingPolicies pt rs))

/-- `AddGroupingPolicies` (enforcer_synced.cpp 449–452). -/
def addGroupingPolicies (rs : List Rule) : M SyncedEnforcer Bool :=
  method (.addGroupingPolicies rs) (addNamedGroupingPolicies c!"g" rs)

/-- `RemoveNamedGroupingPolicy` (enforcer_synced.cpp 489–492). -/
def removeNamedGroupingPolicy (pt : Str) (r : Rule) : M SyncedEnforcer Bool :=
  method (.removeNamedGroupingPolicy pt r) (do
    let removed ← plain (Enforcer.removePolicyI c!"g" pt r)
    let s ← M.get
    if s.base.autoBuild then buildRoleLinks else pure ()
    pure removed)

/-- `RemoveGroupingPolicy` (enforcer_synced.cpp 471–474). -/
def removeGroupingPolicy (r : Rule) : M SyncedEnforcer Bool :=
  method (.removeGroupingPolicy r) (removeNamedGroupingPolicy c!"g" r)

/-- `RemoveNamedGroupingPolicies` (enforcer_synced.cpp 495–498). -/
def removeNamedGroupingPolicies (pt : Str) (rs : List Rule) : M SyncedEnforcer Bool :=
  method (.removeNamedGroupingPolicies pt rs) (plain (Enforcer.removeNamedGroupingPolicies pt rs))

/-- `RemoveGroupingPolicies` (enforcer_synced.cpp 477–480). -/
def removeGroupingPolicies (rs : List Rule) : M SyncedEnforcer Bool :=
  method (.removeGroupingPolicies rs) (removeNamedGroupingPolicies c!"g" rs)

/-- `RemoveFilteredNamedGroupingPolicy` (enforcer_synced.cpp 511–514). -/
def removeFilteredNamedGroupingPolicy (pt : Str) (i : Nat) (vs : List Str) : M SyncedEnforcer Bool :=
  method (.removeFilteredNamedGroupingPolicy pt i vs) (do
    let removed ← plain (Enforcer.removeFilteredI c!"g" pt i vs)
    let s ← M.get
    if s.base.autoBuild then buildRoleLinks else pure ()
    pure removed)

/-- `RemoveFilteredGroupingPolicy` (enforcer_synced.cpp 483–486). -/
def removeFilteredGroupingPolicy (i : Nat) (vs : List Str) : M SyncedEnforcer Bool :=
  method (.removeFilteredGroupingPolicy i vs) (removeFilteredNamedGroupingPolicy c!"g" i vs)

/-- `UpdateNamedGroupingPolicy` (enforcer_synced.cpp 505–508). -/
def updateNamedGroupingPolicy (pt : Str) (o n : Rule) : M SyncedEnforcer Bool :=
  method (.updateNamedGroupingPolicy pt o n) (plain (Enforcer.updateNamedGroupingPolicy pt o n))

/-- `UpdateGroupingPolicy` (enforcer_synced.cpp 500–503). -/
def updateGroupingPolicy (o n : Rule) : M SyncedEnforcer Bool :=
  method (.updateGroupingPolicy o n) (updateNamedGroupingPolicy c!"g" o n)

/-- `GetAllActions` (enforcer_synced.cpp 517–520). -/
def getAllActions : M SyncedEnforcer (List Str) :=
  method .getAllActions (plain Enforcer.getAllActions)

/-- `GetFilteredPolicy` (enforcer_synced.cpp 523–526). -/
def getFilteredPolicy (i : Nat) (vs : List Str) : M SyncedEnforcer Policies :=
  method (.getFilteredPolicy i vs) (getFilteredNamedPolicy c!"p" i vs)

/-- `SyncedEnforceEx`, `SyncedEnforceExWithMatcher` (enforcer_synced.cpp 534–542, 555–563). -/
def syncedEnforceEx (lib : ExprLib) (matcher : Str) (vals : List ReqVal) (explain : Rule) : M SyncedEnforcer (Bool × Rule) :=
  method (.syncedEnforceEx matcher vals explain) (plain (Enforcer.enforceEx lib matcher vals explain))

/-- `SyncedEnforceEx`, `SyncedEnforceExWithMatcher`, for a map (enforcer_synced.cpp 544–547, 565–568). -/
def syncedEnforceExMap (lib : ExprLib) (matcher : Str) (vals : UMap Str ReqVal) (explain : Rule) : M SyncedEnforcer (Bool × Rule) :=
  method (.syncedEnforceExMap matcher vals explain) (plain (Enforcer.enforceExMap lib matcher vals explain))

/-- `SyncedEnforceWithMatcher` (enforcer_synced.cpp 576–584). -/
def syncedEnforceWithMatcher (lib : ExprLib) (matcher : Str) (vals : List ReqVal) : M SyncedEnforcer Bool :=
  method (.syncedEnforceWithMatcher matcher vals) (plain (Enforcer.enforceWithMatcher lib matcher vals))

/-! ## Inherited methods -/

/-- `InitWithModelAndAdapter` (enforcer.cpp 327–338). -/
def initWithModelAndAdapter (m : Model) (a : Option Adapter) : M SyncedEnforcer Unit := do
  plain (M.modify fun E => { E with adapter := a, model := m })
  plain Enforcer.initObject
  match a with
  | none => pure ()
  | some ad => if !ad.isFiltered then loadPolicy else pure ()

/-- `SetModel` (enforcer.cpp 376–380). -/
def setModel (m : Model) : M SyncedEnforcer Unit :=
  plain (Enforcer.setModel m)

/-- `SetAdapter` (enforcer.cpp 388–390). -/
def setAdapter (a : Adapter) : M SyncedEnforcer Unit :=
  plain (Enforcer.setAdapter a)

/-- `EnableEnforce` (enforcer.cpp 480–482). -/
def enableEnforce (b : Bool) : M SyncedEnforcer Unit :=
  plain (Enforcer.enableEnforce b)

/-- `EnableAutoSave` (enforcer.cpp 495–497). -/
def enableAutoSave (b : Bool) : M SyncedEnforcer Unit :=
  plain (Enforcer.enableAutoSave b)

/-- `EnableAutoBuildRoleLinks` (enforcer.cpp 500–502). -/
def enableAutoBuild (b : Bool) : M SyncedEnforcer Unit :=
  plain (Enforcer.enableAutoBuild b)

/-- `EnableAutoNotifyWatcher` (enforcer.cpp 490–492). -/
def enableAutoNotify (b : Bool) : M SyncedEnforcer Unit :=
  plain (Enforcer.enableAutoNotify b)

/-- `AddNamedMatchingFunc` (management_api.cpp 334–339). -/
def addNamedMatchingFunc (f : Str → Str → Bool) : M SyncedEnforcer Bool :=
  plain (Enforcer.addNamedMatchingFunc f)

/-- `EnforceEx`, `EnforceExWithMatcher` (enforcer.cpp 570–576, 586–652). -/
def enforceEx (lib : ExprLib) (matcher : Str) (vals : List ReqVal) (explain : Rule) : M SyncedEnforcer (Bool × Rule) :=
  plain (Enforcer.enforceEx lib matcher vals explain)

/-- `EnforceEx`, `EnforceExWithMatcher`, for a map (enforcer.cpp 578–580, 653–672). -/
def enforceExMap (lib : ExprLib) (matcher : Str) (vals : UMap Str ReqVal) (explain : Rule) : M SyncedEnforcer (Bool × Rule) :=
  plain (Enforcer.enforceExMap lib matcher vals explain)

/-- `EnforceWithMatcher` (enforcer.cpp 544–555). -/
def enforceWithMatcher (lib : ExprLib) (matcher : Str) (vals : List ReqVal) : M SyncedEnforcer Bool :=
  plain (Enforcer.enforceWithMatcher lib matcher vals)

/-- `GetRolesForUser` (rbac_api.cpp 29–32). -/
def getRolesForUser (name : Str) (domain : List Str) : M SyncedEnforcer (List Str) :=
  plain (Enforcer.getRolesForUser name domain)

/-- `GetUsersForRole` (rbac_api.cpp 35–38). -/
def getUsersForRole (name : Str) (domain : List Str) : M SyncedEnforcer (List Str) :=
  plain (Enforcer.getUsersForRole name domain)

/-- `HasRoleForUser` (rbac_api.cpp 41–54). -/
def hasRoleForUser (name : Str) (role : Str) : M SyncedEnforcer Bool :=
  plain (Enforcer.hasRoleForUser name role)

/-- `AddRoleForUser` (rbac_api.cpp 58–61). -/
def addRoleForUser (user : Str) (role : Str) : M SyncedEnforcer Bool :=
  addGroupingPolicy [user, role]

/-- `AddRolesForUser` (rbac_api.cpp 65–73). -/
def addRolesForUser (user : Str) : List Str → M SyncedEnforcer Bool
  | [] => pure false
  | r :: rs => do
    let b ← addGroupingPolicy [user, r]
    let f ← addRolesForUser user rs
    pure (b || f)

/-- `DeleteRoleForUser` (rbac_api.cpp 77–80). -/
def deleteRoleForUser (user : Str) (role : Str) : M SyncedEnforcer Bool :=
  removeGroupingPolicy [user, role]

/-- `DeleteRolesForUser` (rbac_api.cpp 84–87). -/
def deleteRolesForUser (user : Str) : M SyncedEnforcer Bool :=
  removeFilteredGroupingPolicy 0 [user]

/-- `DeleteUser` (rbac_api.cpp 91–99). -/
def deleteUser (user : Str) : M SyncedEnforcer Bool := do
  let r1 ← removeFilteredGroupingPolicy 0 [user]
  let r2 ← removeFilteredPolicy 0 [user]
  pure (r1 || r2)

/-- `DeleteRole` (rbac_api.cpp 103–111). -/
def deleteRole (role : Str) : M SyncedEnforcer Bool := do
  let r1 ← removeFilteredGroupingPolicy 1 [role]
  let r2 ← removeFilteredPolicy 0 [role]
  pure (r1 || r2)

/-- `DeletePermission` (rbac_api.cpp 115–118). -/
def deletePermission (perm : List Str) : M SyncedEnforcer Bool :=
  removeFilteredPolicy 1 perm

/-- `AddPermissionForUser` (rbac_api.cpp 122–124). -/
def addPermissionForUser (user : Str) (perm : List Str) : M SyncedEnforcer Bool :=
  addPolicy (joinSlice user perm)

/-- `DeletePermissionForUser` (rbac_api.cpp 128–130). -/
def deletePermissionForUser (user : Str) (perm : List Str) : M SyncedEnforcer Bool :=
  removePolicy (joinSlice user perm)

/-- `DeletePermissionsForUser` (rbac_api.cpp 134–137). -/
def deletePermissionsForUser (user : Str) : M SyncedEnforcer Bool :=
  removeFilteredPolicy 0 [user]

/-- `GetPermissionsForUser` (rbac_api.cpp 140–143). The virtual `GetFilteredPolicy` it calls is the one of `Enforcer`: the method of that name in
`SyncedEnforcer` takes the values by value (enforcer_synced.h 301) and overrides nothing. -/
def getPermissionsForUser (user : Str) : M SyncedEnforcer Policies :=
  getFilteredNamedPolicy c!"p" 0 [user]

/-- `HasPermissionForUser` (rbac_api.cpp 146–148). -/
def hasPermissionForUser (user : Str) (perm : List Str) : M SyncedEnforcer Bool :=
  hasPolicy (joinSlice user perm)

/-- `GetPermissionsForUserInDomain` (rbac_api_with_domains.cpp 41–44). -/
def getPermissionsForUserInDomain (user : Str) (domain : Str) : M SyncedEnforcer Policies :=
  getFilteredNamedPolicy c!"p" 0 [user, domain]

/-- `AddRoleForUserInDomain` (rbac_api_with_domains.cpp 48–51). -/
def addRoleForUserInDomain (user : Str) (role : Str) (domain : Str) : M SyncedEnforcer Bool :=
  addGroupingPolicy [user, role, domain]

/-- `DeleteRoleForUserInDomain` (rbac_api_with_domains.cpp 55–58). -/
def deleteRoleForUserInDomain (user : Str) (role : Str) (domain : Str) : M SyncedEnforcer Bool :=
  removeGroupingPolicy [user, role, domain]

/-- `GetImplicitRolesForUser` (rbac_api.cpp 158–182). -/
def getImplicitRolesForUser (name : Str) (domain : List Str) : M SyncedEnforcer (List Str) :=
  plain (Enforcer.getImplicitRolesForUser name domain)

/-- The loop of `GetImplicitPermissionsForUser` (rbac_api.cpp 206–214). -/
def implicitPermLoop (domain : List Str) : List Str → M SyncedEnforcer (List Rule)
  | [] => pure []
  | r :: rs => do
    let perms ← match domain with
      | [d] => getPermissionsForUserInDomain r d
      | _ => getPermissionsForUser r
    let rest ← implicitPermLoop domain rs
    pure (perms.items ++ rest)

/-- `GetImplicitPermissionsForUser` (rbac_api.cpp 193–217). -/
def getImplicitPermissionsForUser (user : Str) (domain : List Str) : M SyncedEnforcer (List Rule) := do
  let roles ← getImplicitRolesForUser user domain
  if domain.length > 1 then M.throw .enforcer
  else implicitPermLoop domain (user :: roles)

/-- The loop of `GetImplicitUsersForPermission` (rbac_api.cpp 237–243). -/
def implicitUsersLoop (lib : ExprLib) (perm : List Str) : List Str → M SyncedEnforcer (List Str)
  | [] => pure []
  | s :: ss => do
    let p0 ← M.lift (vecAt perm 0)
    let p1 ← M.lift (vecAt perm 1)
    let b ← enforce lib [.str s, .str p0, .str p1]
    let rest ← implicitUsersLoop lib perm ss
    pure (if b then s :: rest else rest)

/-- `GetImplicitUsersForPermission` (rbac_api.cpp 227–247). -/
def getImplicitUsersForPermission (lib : ExprLib) (perm : List Str) : M SyncedEnforcer (List Str) := do
  let pSubjects ← getAllSubjects
  let gInherit ← plain (Enforcer.onModel (Model.getValuesForFieldAllTypes c!"g" 1))
  let gSubjects ← plain (Enforcer.onModel (Model.getValuesForFieldAllTypes c!"g" 0))
  let subjects := arrayRemoveDuplicates (pSubjects ++ gSubjects)
  let res ← implicitUsersLoop lib perm subjects
  pure (setSubtract res gInherit)

/-- `SetWatcher` (enforcer_synced.cpp 135–138): the member of `SyncedEnforcer`, not the `m_watcher` of
`Enforcer` that the other methods notify. A null pointer is not modelled. -/
def setWatcher (w : Watcher) : M SyncedEnforcer Unit := M.modify fun s => { s with watcher := some w }

/-- `UpdateWrapper` (enforcer_synced.cpp 129–132); its result, the empty text, is left out. -/
def updateWrapper : M SyncedEnforcer Unit := loadPolicy

/-- Any call. -/
def run (lib : ExprLib) : Call → M SyncedEnforcer Ret
  | .loadModel file => do let _ ← loadModel file; pure .unit
  | .clearPolicy => do let _ ← clearPolicy; pure .unit
  | .loadPolicy => do let _ ← loadPolicy; pure .unit
  | .savePolicy => do let _ ← savePolicy; pure .unit
  | .buildRoleLinks => do let _ ← buildRoleLinks; pure .unit
  | .enforce vals => do let x ← enforce lib vals; pure (.bool x)
  | .enforceMap vals => do let x ← enforceMap lib vals; pure (.bool x)
  | .batchEnforce rs => do let x ← batchEnforce lib rs; pure (.bools x)
  | .batchEnforceWithMatcher matcher rs => do let x ← batchEnforceWithMatcher lib matcher rs; pure (.bools x)
  | .getAllSubjects => do let x ← getAllSubjects; pure (.strs x)
  | .getAllNamedSubjects pt => do let x ← getAllNamedSubjects pt; pure (.strs x)
  | .getAllObjects => do let x ← getAllObjects; pure (.strs x)
  | .getAllNamedObjects pt => do let x ← getAllNamedObjects pt; pure (.strs x)
  | .getAllNamedActions pt => do let x ← getAllNamedActions pt; pure (.strs x)
  | .getAllRoles => do let x ← getAllRoles; pure (.strs x)
  | .getAllNamedRoles pt => do let x ← getAllNamedRoles pt; pure (.strs x)
  | .getNamedPolicy pt => do let x ← getNamedPolicy pt; pure (.pols x)
  | .getPolicy => do let x ← getPolicy; pure (.pols x)
  | .getFilteredNamedPolicy pt i vs => do let x ← getFilteredNamedPolicy pt i vs; pure (.pols x)
  | .getNamedGroupingPolicy pt => do let x ← getNamedGroupingPolicy pt; pure (.pols x)
  | .getGroupingPolicy => do let x ← getGroupingPolicy; pure (.pols x)
  | .getFilteredNamedGroupingPolicy pt i vs => do let x ← getFilteredNamedGroupingPolicy pt i vs; pure (.pols x)
  | .getFilteredGroupingPolicy i vs => do let x ← getFilteredGroupingPolicy i vs; pure (.pols x)
  | .hasNamedPolicy pt r => do let x ← hasNamedPolicy pt r; pure (.bool x)
  | .hasPolicy r => do let x ← hasPolicy r; pure (.bool x)
  | .addNamedPolicy pt r => do let x ← addNamedPolicy pt r; pure (.bool x)
  | .addPolicy r => do let x ← addPolicy r; pure (.bool x)
  | .addNamedPolicies pt rs => do let x ← addNamedPolicies pt rs; pure (.bool x)
  | .addPolicies rs => do let x ← addPolicies rs; pure (.bool x)
  | .removeNamedPolicy pt r => do let x ← removeNamedPolicy pt r; pure (.bool x)
  | .removePolicy r => do let x ← removePolicy r; pure (.bool x)
  | .updateNamedPolicy pt o n => do let x ← updateNamedPolicy pt o n; pure (.bool x)
  | .updatePolicy o n => do let x ← updatePolicy o n; pure (.bool x)
  | .updateNamedPolicies pt o n => do let x ← updateNamedPolicies pt o n; pure (.bool x)
  | .updatePolicies o n => do let x ← updatePolicies o n; pure (.bool x)
  | .removeNamedPolicies pt rs => do let x ← removeNamedPolicies pt rs; pure (.bool x)
  | .removePolicies rs => do let x ← removePolicies rs; pure (.bool x)
  | .removeFilteredNamedPolicy pt i vs => do let x ← removeFilteredNamedPolicy pt i vs; pure (.bool x)
  | .removeFilteredPolicy i vs => do let x ← removeFilteredPolicy i vs; pure (.bool x)
  | .hasNamedGroupingPolicy pt r => do let x ← hasNamedGroupingPolicy pt r; pure (.bool x)
  | .hasGroupingPolicy r => do let x ← hasGroupingPolicy r; pure (.bool x)
  | .addNamedGroupingPolicy pt r => do let x ← addNamedGroupingPolicy pt r; pure (.bool x)
  | .addGroupingPolicy r => do let x ← addGroupingPolicy r; pure (.bool x)
  | .addNamedGroupingPolicies pt rs => do let x ← addNamedGroupingPolicies pt rs; pure (.bool x)
  | .addGroupingPolicies rs => do let x ← addGroupingPolicies rs; pure (.bool x)
  | .removeNamedGroupingPolicy pt r => do let x ← removeNamedGroupingPolicy pt r; pure (.bool x)
  | .removeGroupingPolicy r => do let x ← removeGroupingPolicy r; pure (.bool x)
  | .removeNamedGroupingPolicies pt rs => do let x ← removeNamedGroupingPolicies pt rs; pure (.bool x)
  | .removeGroupingPolicies rs => do let x ← removeGroupingPolicies rs; pure (.bool x)
  | .removeFilteredNamedGroupingPolicy pt i vs => do let x ← removeFilteredNamedGroupingPolicy pt i vs; pure (.bool x)
  | .removeFilteredGroupingPolicy i vs => do let x ← removeFilteredGroupingPolicy i vs; pure (.bool x)
  | .updateNamedGroupingPolicy pt o n => do let x ← updateNamedGroupingPolicy pt o n; pure (.bool x)
  | .updateGroupingPolicy o n => do let x ← updateGroupingPolicy o n; pure (.bool x)
  | .getAllActions => do let x ← getAllActions; pure (.strs x)
  | .getFilteredPolicy i vs => do let x ← getFilteredPolicy i vs; pure (.pols x)
  | .syncedEnforceEx matcher vals explain => do let x ← syncedEnforceEx lib matcher vals explain; pure (.dec x.1 x.2)
  | .syncedEnforceExMap matcher vals explain => do let x ← syncedEnforceExMap lib matcher vals explain; pure (.dec x.1 x.2)
  | .syncedEnforceWithMatcher matcher vals => do let x ← syncedEnforceWithMatcher lib matcher vals; pure (.bool x)
  | .initWithModelAndAdapter m a => do let _ ← initWithModelAndAdapter m a; pure .unit
  | .setModel m => do let _ ← setModel m; pure .unit
  | .setAdapter a => do let _ ← setAdapter a; pure .unit
  | .enableEnforce b => do let _ ← enableEnforce b; pure .unit
  | .enableAutoSave b => do let _ ← enableAutoSave b; pure .unit
  | .enableAutoBuild b => do let _ ← enableAutoBuild b; pure .unit
  | .enableAutoNotify b => do let _ ← enableAutoNotify b; pure .unit
  | .addNamedMatchingFunc f => do let x ← addNamedMatchingFunc f; pure (.bool x)
  | .enforceEx matcher vals explain => do let x ← enforceEx lib matcher vals explain; pure (.dec x.1 x.2)
  | .enforceExMap matcher vals explain => do let x ← enforceExMap lib matcher vals explain; pure (.dec x.1 x.2)
  | .enforceWithMatcher matcher vals => do let x ← enforceWithMatcher lib matcher vals; pure (.bool x)
  | .getRolesForUser name domain => do let x ← getRolesForUser name domain; pure (.strs x)
  | .getUsersForRole name domain => do let x ← getUsersForRole name domain; pure (.strs x)
  | .hasRoleForUser name role => do let x ← hasRoleForUser name role; pure (.bool x)
  | .addRoleForUser user role => do let x ← addRoleForUser user role; pure (.bool x)
  | .addRolesForUser user roles => do let x ← addRolesForUser user roles; pure (.bool x)
  | .deleteRoleForUser user role => do let x ← deleteRoleForUser user role; pure (.bool x)
  | .deleteRolesForUser user => do let x ← deleteRolesForUser user; pure (.bool x)
  | .deleteUser user => do let x ← deleteUser user; pure (.bool x)
  | .deleteRole role => do let x ← deleteRole role; pure (.bool x)
  | .deletePermission perm => do let x ← deletePermission perm; pure (.bool x)
  | .addPermissionForUser user perm => do let x ← addPermissionForUser user perm; pure (.bool x)
  | .deletePermissionForUser user perm => do let x ← deletePermissionForUser user perm; pure (.bool x)
  | .deletePermissionsForUser user => do let x ← deletePermissionsForUser user; pure (.bool x)
  | .getPermissionsForUser user => do let x ← getPermissionsForUser user; pure (.pols x)
  | .hasPermissionForUser user perm => do let x ← hasPermissionForUser user perm; pure (.bool x)
  | .getPermissionsForUserInDomain user domain => do let x ← getPermissionsForUserInDomain user domain; pure (.pols x)
  | .addRoleForUserInDomain user role domain => do let x ← addRoleForUserInDomain user role domain; pure (.bool x)
  | .deleteRoleForUserInDomain user role domain => do let x ← deleteRoleForUserInDomain user role domain; pure (.bool x)
  | .getImplicitRolesForUser name domain => do let x ← getImplicitRolesForUser name domain; pure (.strs x)
  | .getImplicitPermissionsForUser user domain => do let x ← getImplicitPermissionsForUser user domain; pure (.rules x)
  | .getImplicitUsersForPermission perm => do let x ← getImplicitUsersForPermission lib perm; pure (.strs x)
  | .setWatcher w => do let _ ← setWatcher w; pure .unit
  | .updateWrapper => do let _ ← updateWrapper; pure .unit

end SyncedEnforcer
end Casbin
