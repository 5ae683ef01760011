import Verif.Enforce
import Verif.Adapter

/-!
# The enforcer object: construction, loading, policy editing, RBAC queries

Models `casbin/enforcer.cpp` 238–700, `casbin/internal_api.cpp`, `casbin/management_api.cpp`,
`casbin/rbac_api.cpp` and `casbin/rbac_api_with_domains.cpp`.
-/

namespace Casbin

/-- What a watcher is told. `update` is `Watcher::Update`; the other constructors are the calls of
`WatcherEx`/`WatcherUpdatable`. -/
inductive WatcherEvent
  | update
  | add (rule : Rule)
  | remove (rule : Rule)
  | removeFiltered (i : Nat) (vs : List Str)
  | updateRule (old new : Rule)
  deriving DecidableEq, Repr

/-- A watcher object with what it has been told. `ex`: it is a `WatcherEx`/`WatcherUpdatable`.
The update callback given to `SetUpdateCallback` (a non-virtual no-op, watcher.h 29–32) is never
stored. -/
structure Watcher where
  ex : Bool
  log : List WatcherEvent
  deriving DecidableEq, Repr

/-- `class Enforcer` (include/casbin/enforcer.h 33–). `heap` holds the role manager objects, `rm`
is the enforcer's pointer to its own. The effector is always the default one. -/
structure Enforcer where
  model : Model
  heap : List RM
  rm : Nat
  adapter : Option Adapter
  watcher : Option Watcher
  eval : Option Evaluator
  enabled : Bool
  autoSave : Bool
  autoBuild : Bool
  autoNotify : Bool

namespace Enforcer

/-- Run a method of the model. -/
def onModel {α : Type} (f : M Model α) : M Enforcer α := fun E =>
  ((f E.model).1, { E with model := (f E.model).2 })

/-- Run a method of role manager object `p`. -/
def onRm {α : Type} (p : Nat) (f : M RM α) : M Enforcer α := fun E =>
  ((onHeap p f E.heap).1, { E with heap := (onHeap p f E.heap).2 })

/-- Run a method of the adapter; a null adapter is a null dereference. -/
def onAdapter {α : Type} (f : M Adapter α) : M Enforcer α := fun E =>
  match E.adapter with
  | none => (.ub .nullDeref, E)
  | some a => ((f a).1, { E with adapter := some (f a).2 })

/-- `Initialize` (enforcer.cpp 340–350): a new role manager with bound 10, no watcher, no
evaluator, all flags on. -/
def initObject : M Enforcer Unit := M.modify fun E =>
  { E with heap := E.heap ++ [RM.new 10], rm := E.heap.length, watcher := none, eval := none,
           enabled := true, autoSave := true, autoBuild := true, autoNotify := true }

/-- `ClearPolicy` (enforcer.cpp 422–424). -/
def clearPolicy : M Enforcer Unit := onModel (M.modify Model.clearPolicy)

variable [IterOrder]

/-- `BuildIncrementalRoleLinks` (enforcer.cpp 512–514, model.cpp 195–198, assertion.cpp 29–53). -/
def buildIncremental (op : PolicyOp) (ptype : Str) (rules : List Rule) : M Enforcer Unit := do
  let E ← M.get
  match E.model.find c!"g" ptype with
  | none => M.ub .nullDeref
  | some a => do
    onModel (M.modify fun m => m.put c!"g" ptype { a with rm := some E.rm })
    onRm E.rm (Assertion.buildLinks a.value op rules)

/-- The loop of `Model::BuildRoleLinks` (model.cpp 201–204) over the policy types of section `g`,
each doing `Assertion::BuildRoleLinks` (assertion.cpp 55–81). -/
def buildAll : List Str → M Enforcer Unit
  | [] => pure ()
  | k :: rest => do
    let E ← M.get
    match E.model.find c!"g" k with
    | none => M.ub .nullDeref
    | some a => do
      onModel (M.modify fun m => m.put c!"g" k { a with rm := some E.rm })
      onRm E.rm (Assertion.buildLinks a.value .add a.policy.iterate)
      buildAll rest

/-- `BuildRoleLinks` (enforcer.cpp 505–509). -/
def buildRoleLinks : M Enforcer Unit := do
  let E ← M.get
  onRm E.rm (M.modify RM.clear)
  onModel (M.modify fun m => m.ensureSec c!"g")
  let E ← M.get
  buildAll (IterOrder.iter (E.model.secMap c!"g").keys)

/-- `LoadPolicy` (enforcer.cpp 427–436). -/
def loadPolicy : M Enforcer Unit := do
  clearPolicy
  let E ← M.get
  match E.adapter with
  | none => M.ub .nullDeref
  | some a => do
    onAdapter (M.modify fun a => { a with log := a.log ++ [.load] })
    onModel a.loadPolicy
    let E ← M.get
    if E.autoBuild then buildRoleLinks else pure ()

/-- The constructor from a model and an adapter (enforcer.cpp 269–280). -/
def construct (m : Model) (a : Option Adapter) : Outcome Unit × Enforcer :=
  let E₀ : Enforcer :=
    { model := m, heap := [], rm := 0, adapter := a, watcher := none, eval := none,
      enabled := true, autoSave := true, autoBuild := true, autoNotify := true }
  (do
    initObject
    match a with
    | none => pure ()
    | some ad => if ad.isValid then loadPolicy else pure ()) E₀

/-- `InitWithModelAndAdapter` (enforcer.cpp 327–338). -/
def initWithModelAndAdapter (m : Model) (a : Option Adapter) : M Enforcer Unit := do
  M.modify fun E => { E with adapter := a, model := m }
  initObject
  match a with
  | none => pure ()
  | some ad => if !ad.isFiltered then loadPolicy else pure ()

/-- `SetModel` (enforcer.cpp 376–380). -/
def setModel (m : Model) : M Enforcer Unit := do
  M.modify fun E => { E with model := m }
  initObject

/-- `LoadModel` (enforcer.cpp 362–368). `file` is what reading the model file gives
(`Model::NewModelFromFile`); an exception of it leaves the enforcer as it is. -/
def loadModel (file : Outcome Model) : M Enforcer Unit := do
  let m ← M.lift file
  setModel m

/-- `SetAdapter` (enforcer.cpp 388–390). -/
def setAdapter (a : Adapter) : M Enforcer Unit := M.modify fun E => { E with adapter := some a }

/-- `SetWatcher` (enforcer.cpp 393–399). -/
def setWatcher (w : Watcher) : M Enforcer Unit := M.modify fun E => { E with watcher := some w }

/-- `EnableEnforce` (enforcer.cpp 480–482). -/
def enableEnforce (b : Bool) : M Enforcer Unit := M.modify fun E => { E with enabled := b }
/-- `EnableAutoSave` (enforcer.cpp 495–497). -/
def enableAutoSave (b : Bool) : M Enforcer Unit := M.modify fun E => { E with autoSave := b }
/-- `EnableAutoBuildRoleLinks` (enforcer.cpp 500–502). -/
def enableAutoBuild (b : Bool) : M Enforcer Unit := M.modify fun E => { E with autoBuild := b }
/-- `EnableAutoNotifyWatcher` (enforcer.cpp 490–492). -/
def enableAutoNotify (b : Bool) : M Enforcer Unit := M.modify fun E => { E with autoNotify := b }

/-- `AddNamedMatchingFunc` (management_api.cpp 334–339): acts on the enforcer's role manager
whatever the policy type. -/
def addNamedMatchingFunc (f : Str → Str → Bool) : M Enforcer Bool := do
  let E ← M.get
  onRm E.rm (M.modify fun rm => rm.addMatchingFunc f)
  pure true

/-- `SavePolicy` (enforcer.cpp 463–476): `IsFiltered` dereferences the adapter. -/
def savePolicy : M Enforcer Unit := do
  let E ← M.get
  match E.adapter with
  | none => M.ub .nullDeref
  | some a =>
    if a.isFiltered then M.throw .enforcer
    else do
      onModel (M.modify fun m => (m.ensureSec c!"p").ensureSec c!"g")
      let E ← M.get
      onAdapter (Adapter.savePolicy E.model)
      M.modify fun E => { E with watcher := E.watcher.map fun w => { w with log := w.log ++ [.update] } }

/-! ## internal_api.cpp -/

/-- `if (m_adapter && m_auto_save) try { m_adapter->... } catch (UnsupportedOperationException)`
(internal_api.cpp 43–48 and the same lines of the other functions). -/
def autoSaveCall (c : AdapterCall) : M Enforcer Unit := do
  let E ← M.get
  match E.adapter with
  | some _ => if E.autoSave then M.catchOnly .unsupported (onAdapter (Adapter.edit c)) else pure ()
  | none => pure ()

/-- The same for the batch calls (internal_api.cpp 68–73, 118–123): the cast of an adapter that is
not a `BatchAdapter` is null and is dereferenced. -/
def autoSaveBatch (c : AdapterCall) : M Enforcer Unit := do
  let E ← M.get
  match E.adapter with
  | some a =>
    if E.autoSave then
      if a.isBatch then M.catchOnly .unsupported (onAdapter (Adapter.edit c)) else M.ub .nullDeref
    else pure ()
  | none => pure ()

/-- `if (m_watcher && m_auto_notify_watcher)` (internal_api.cpp 50–55 and the same lines of the
other functions). `IsInstanceOf<WatcherEx>(m_watcher.get())` compares the static types `WatcherEx`
and `Watcher` (util/is_instance_of.cpp 28–31) and is always false, so it is always `Update`. -/
def notify : M Enforcer Unit := M.modify fun E =>
  if E.autoNotify then
    { E with watcher := E.watcher.map fun w => { w with log := w.log ++ [.update] } }
  else E

/-- `if (sec == "g") BuildIncrementalRoleLinks(...)`. -/
def linkIfG (sec : Str) (op : PolicyOp) (ptype : Str) (rules : List Rule) : M Enforcer Unit :=
  if sec = c!"g" then buildIncremental op ptype rules else pure ()

/-- `Enforcer::addPolicy` (internal_api.cpp 32–57). -/
def addPolicyI (sec ptype : Str) (rule : Rule) : M Enforcer Bool := do
  let added ← onModel (Model.addPolicy sec ptype rule)
  if !added then pure false
  else do
    linkIfG sec .add ptype [rule]
    autoSaveCall (.add sec ptype rule)
    notify
    pure true

/-- `Enforcer::addPolicies` (internal_api.cpp 60–79). -/
def addPoliciesI (sec ptype : Str) (rules : List Rule) : M Enforcer Bool := do
  let added ← onModel (Model.addPolicies sec ptype rules)
  if !added then pure false
  else do
    linkIfG sec .add ptype rules
    autoSaveBatch (.addMany sec ptype rules)
    notify
    pure true

/-- `Enforcer::removePolicy` (internal_api.cpp 82–107). Links are *added* (line 89). -/
def removePolicyI (sec ptype : Str) (rule : Rule) : M Enforcer Bool := do
  let removed ← onModel (Model.removePolicy sec ptype rule)
  if !removed then pure false
  else do
    linkIfG sec .add ptype [rule]
    autoSaveCall (.remove sec ptype rule)
    notify
    pure true

/-- `Enforcer::removePolicies` (internal_api.cpp 110–129). The rules are *added* (line 111). -/
def removePoliciesI (sec ptype : Str) (rules : List Rule) : M Enforcer Bool := do
  let removed ← onModel (Model.addPolicies sec ptype rules)
  if !removed then pure false
  else do
    linkIfG sec .add ptype rules
    autoSaveBatch (.removeMany sec ptype rules)
    notify
    pure true

/-- `Enforcer::removeFilteredPolicy` (internal_api.cpp 132–158). -/
def removeFilteredI (sec ptype : Str) (i : Nat) (vs : List Str) : M Enforcer Bool := do
  let (removed, effects) ← onModel (Model.removeFilteredPolicy sec ptype i vs)
  if !removed then pure false
  else do
    linkIfG sec .remove ptype effects
    autoSaveCall (.removeFiltered sec ptype i vs)
    notify
    pure true

/-- `Enforcer::updatePolicy` (internal_api.cpp 160–177). No adapter call. -/
def updatePolicyI (sec ptype : Str) (old new : Rule) : M Enforcer Bool := do
  let updated ← onModel (Model.updatePolicy sec ptype old new)
  if !updated then pure false
  else do
    linkIfG sec .remove ptype [old]
    linkIfG sec .add ptype [new]
    notify
    pure true

/-- `Enforcer::updatePolicies` (internal_api.cpp 179–198). No adapter call. -/
def updatePoliciesI (sec ptype : Str) (olds news : List Rule) : M Enforcer Bool := do
  let updated ← onModel (Model.updatePolicies sec ptype olds news)
  if !updated then pure false
  else do
    linkIfG sec .remove ptype olds
    linkIfG sec .add ptype news
    notify
    pure true

/-! ## management_api.cpp

Where a method copies its argument element by element the copy is left out. -/

/-- `GetAllSubjects` (management_api.cpp 27–29): column 0 of section `p`. -/
def getAllSubjects : M Enforcer (List Str) := onModel (Model.getValuesForFieldAllTypes c!"p" 0)
/-- `GetAllObjects` (management_api.cpp 37–39): column 1 of section `p`. -/
def getAllObjects : M Enforcer (List Str) := onModel (Model.getValuesForFieldAllTypes c!"p" 1)
/-- `GetAllActions` (management_api.cpp 47–49): column 2 of section `p`. -/
def getAllActions : M Enforcer (List Str) := onModel (Model.getValuesForFieldAllTypes c!"p" 2)
/-- `GetAllRoles` (management_api.cpp 57–59): column 1 of section `g`. -/
def getAllRoles : M Enforcer (List Str) := onModel (Model.getValuesForFieldAllTypes c!"g" 1)
/-- `GetAllNamedSubjects` (management_api.cpp 32–34). -/
def getAllNamedSubjects (pt : Str) : M Enforcer (List Str) :=
  onModel (Model.getValuesForField c!"p" pt 0)
/-- `GetAllNamedObjects` (management_api.cpp 42–44). -/
def getAllNamedObjects (pt : Str) : M Enforcer (List Str) :=
  onModel (Model.getValuesForField c!"p" pt 1)
/-- `GetAllNamedActions` (management_api.cpp 52–54). -/
def getAllNamedActions (pt : Str) : M Enforcer (List Str) :=
  onModel (Model.getValuesForField c!"p" pt 2)
/-- `GetAllNamedRoles` (management_api.cpp 62–64). -/
def getAllNamedRoles (pt : Str) : M Enforcer (List Str) :=
  onModel (Model.getValuesForField c!"g" pt 1)

/-- `GetNamedPolicy` (management_api.cpp 77–79). -/
def getNamedPolicy (pt : Str) : M Enforcer Policies := onModel (Model.getPolicy c!"p" pt)
/-- `GetPolicy` (management_api.cpp 67–69). -/
def getPolicy : M Enforcer Policies := getNamedPolicy c!"p"
/-- `GetFilteredNamedPolicy` (management_api.cpp 82–84). -/
def getFilteredNamedPolicy (pt : Str) (i : Nat) (vs : List Str) : M Enforcer Policies :=
  onModel (Model.getFilteredPolicy c!"p" pt i vs)
/-- `GetFilteredPolicy` (management_api.cpp 72–74). -/
def getFilteredPolicy (i : Nat) (vs : List Str) : M Enforcer Policies :=
  getFilteredNamedPolicy c!"p" i vs
/-- `GetNamedGroupingPolicy` (management_api.cpp 97–99). -/
def getNamedGroupingPolicy (pt : Str) : M Enforcer Policies := onModel (Model.getPolicy c!"g" pt)
/-- `GetGroupingPolicy` (management_api.cpp 87–89). -/
def getGroupingPolicy : M Enforcer Policies := getNamedGroupingPolicy c!"g"
/-- `GetFilteredNamedGroupingPolicy` (management_api.cpp 102–104). -/
def getFilteredNamedGroupingPolicy (pt : Str) (i : Nat) (vs : List Str) : M Enforcer Policies :=
  onModel (Model.getFilteredPolicy c!"g" pt i vs)
/-- `GetFilteredGroupingPolicy` (management_api.cpp 92–94). -/
def getFilteredGroupingPolicy (i : Nat) (vs : List Str) : M Enforcer Policies :=
  getFilteredNamedGroupingPolicy c!"g" i vs

/-- `HasNamedPolicy` (management_api.cpp 112–122). -/
def hasNamedPolicy (pt : Str) (r : Rule) : M Enforcer Bool := onModel (Model.hasPolicy c!"p" pt r)
/-- `HasPolicy` (management_api.cpp 107–109). -/
def hasPolicy (r : Rule) : M Enforcer Bool := hasNamedPolicy c!"p" r
/-- `AddNamedPolicy` (management_api.cpp 141–148). -/
def addNamedPolicy (pt : Str) (r : Rule) : M Enforcer Bool := addPolicyI c!"p" pt r
/-- `AddPolicy` (management_api.cpp 127–129). -/
def addPolicy (r : Rule) : M Enforcer Bool := addNamedPolicy c!"p" r
/-- `AddNamedPolicies` (management_api.cpp 153–155). -/
def addNamedPolicies (pt : Str) (rs : List Rule) : M Enforcer Bool := addPoliciesI c!"p" pt rs
/-- `AddPolicies` (management_api.cpp 134–136). -/
def addPolicies (rs : List Rule) : M Enforcer Bool := addNamedPolicies c!"p" rs
/-- `RemoveNamedPolicy` (management_api.cpp 173–183). -/
def removeNamedPolicy (pt : Str) (r : Rule) : M Enforcer Bool := removePolicyI c!"p" pt r
/-- `RemovePolicy` (management_api.cpp 158–160). -/
def removePolicy (r : Rule) : M Enforcer Bool := removeNamedPolicy c!"p" r
/-- `RemoveNamedPolicies` (management_api.cpp 186–188). -/
def removeNamedPolicies (pt : Str) (rs : List Rule) : M Enforcer Bool := removePoliciesI c!"p" pt rs
/-- `RemovePolicies` (management_api.cpp 163–165). -/
def removePolicies (rs : List Rule) : M Enforcer Bool := removeNamedPolicies c!"p" rs
/-- `RemoveFilteredNamedPolicy` (management_api.cpp 191–193). -/
def removeFilteredNamedPolicy (pt : Str) (i : Nat) (vs : List Str) : M Enforcer Bool :=
  removeFilteredI c!"p" pt i vs
/-- `RemoveFilteredPolicy` (management_api.cpp 168–170). -/
def removeFilteredPolicy (i : Nat) (vs : List Str) : M Enforcer Bool :=
  removeFilteredNamedPolicy c!"p" i vs
/-- `HasNamedGroupingPolicy` (management_api.cpp 201–211). -/
def hasNamedGroupingPolicy (pt : Str) (r : Rule) : M Enforcer Bool :=
  onModel (Model.hasPolicy c!"g" pt r)
/-- `HasGroupingPolicy` (management_api.cpp 196–198). -/
def hasGroupingPolicy (r : Rule) : M Enforcer Bool := hasNamedGroupingPolicy c!"g" r

/-- `AddNamedGroupingPolicy` (management_api.cpp 230–248): with automatic building the link is added
whatever `addPolicy` returned. -/
def addNamedGroupingPolicy (pt : Str) (r : Rule) : M Enforcer Bool := do
  let added ← addPolicyI c!"g" pt r
  let E ← M.get
  if E.autoBuild then buildIncremental .add pt [r] else pure ()
  pure added
/-- `AddGroupingPolicy` (management_api.cpp 216–218). -/
def addGroupingPolicy (r : Rule) : M Enforcer Bool := addNamedGroupingPolicy c!"g" r
/-- `AddNamedGroupingPolicies` (management_api.cpp 253–255). -/
def addNamedGroupingPolicies (pt : Str) (rs : List Rule) : M Enforcer Bool :=
  addPoliciesI c!"g" pt rs
/-- `AddGroupingPolicies` (management_api.cpp 223–225). -/
def addGroupingPolicies (rs : List Rule) : M Enforcer Bool := addNamedGroupingPolicies c!"g" rs
/-- `RemoveNamedGroupingPolicy` (management_api.cpp 273–290). -/
def removeNamedGroupingPolicy (pt : Str) (r : Rule) : M Enforcer Bool := do
  let removed ← removePolicyI c!"g" pt r
  let E ← M.get
  if E.autoBuild then buildRoleLinks else pure ()
  pure removed
/-- `RemoveGroupingPolicy` (management_api.cpp 258–260). -/
def removeGroupingPolicy (r : Rule) : M Enforcer Bool := removeNamedGroupingPolicy c!"g" r
/-- `RemoveNamedGroupingPolicies` (management_api.cpp 293–295). -/
def removeNamedGroupingPolicies (pt : Str) (rs : List Rule) : M Enforcer Bool :=
  removePoliciesI c!"g" pt rs
/-- `RemoveGroupingPolicies` (management_api.cpp 263–265). -/
def removeGroupingPolicies (rs : List Rule) : M Enforcer Bool :=
  removeNamedGroupingPolicies c!"g" rs
/-- `RemoveFilteredNamedGroupingPolicy` (management_api.cpp 298–305). -/
def removeFilteredNamedGroupingPolicy (pt : Str) (i : Nat) (vs : List Str) : M Enforcer Bool := do
  let removed ← removeFilteredI c!"g" pt i vs
  let E ← M.get
  if E.autoBuild then buildRoleLinks else pure ()
  pure removed
/-- `RemoveFilteredGroupingPolicy` (management_api.cpp 268–270). -/
def removeFilteredGroupingPolicy (i : Nat) (vs : List Str) : M Enforcer Bool :=
  removeFilteredNamedGroupingPolicy c!"g" i vs
/-- `UpdateNamedGroupingPolicy` (management_api.cpp 311–313). -/
def updateNamedGroupingPolicy (pt : Str) (o n : Rule) : M Enforcer Bool := updatePolicyI c!"g" pt o n
/-- `UpdateGroupingPolicy` (management_api.cpp 307–309). -/
def updateGroupingPolicy (o n : Rule) : M Enforcer Bool := updateNamedGroupingPolicy c!"g" o n
/-- `UpdateNamedPolicy` (management_api.cpp 320–322). -/
def updateNamedPolicy (pt : Str) (o n : Rule) : M Enforcer Bool := updatePolicyI c!"p" pt o n
/-- `UpdatePolicy` (management_api.cpp 316–318). -/
def updatePolicy (o n : Rule) : M Enforcer Bool := updateNamedPolicy c!"p" o n
/-- `UpdateNamedPolicies` (management_api.cpp 329–331). -/
def updateNamedPolicies (pt : Str) (o n : List Rule) : M Enforcer Bool :=
  updatePoliciesI c!"p" pt o n
/-- `UpdatePolicies` (management_api.cpp 325–327). -/
def updatePolicies (o n : List Rule) : M Enforcer Bool := updateNamedPolicies c!"p" o n

/-! ## Requests (enforcer.cpp 518–700) -/

/-- The evaluator object of the enforcer, created at the first request (enforcer.cpp 595–597). -/
def evaluator (E : Enforcer) : Evaluator :=
  match E.eval with
  | some ev => ev
  | none => Evaluator.new

/-- Run a request on the enforcer's own evaluator and write the objects back. -/
def runRequest (explain : Rule) (f : M ReqSt Bool) : M Enforcer (Bool × Rule) := fun E =>
  let r := f { ev := E.evaluator, heap := E.heap, explain := explain }
  (r.1.map (fun b => (b, r.2.explain)), { E with eval := some r.2.ev, heap := r.2.heap })

/-- `EnforceExWithMatcher` for a list or a vector of values (enforcer.cpp 586–652). A wrong number
of values returns before `explain` is touched. -/
def enforceEx (lib : ExprLib) (matcher : Str) (vals : List ReqVal) (explain : Rule) :
    M Enforcer (Bool × Rule) := do
  let E ← M.get
  match E.model.find c!"r" c!"r" with
  | none => M.ub .nullDeref
  | some r =>
    if vals.length ≠ r.tokens.length then pure (false, explain)
    else runRequest explain (do
      ReqSt.onEv (pushRequest r.tokens vals)
      mEnforce lib E.model E.enabled matcher)

/-- `EnforceExWithMatcher` for a map (enforcer.cpp 653–672), visited in the order of the
container. -/
def enforceExMap (lib : ExprLib) (matcher : Str) (vals : UMap Str ReqVal) (explain : Rule) :
    M Enforcer (Bool × Rule) := do
  let E ← M.get
  runRequest explain (do
    ReqSt.onEv (pushMap (IterOrder.iter vals))
    mEnforce lib E.model E.enabled matcher)

/-- `EnforceWithMatcher` (enforcer.cpp 544–555). -/
def enforceWithMatcher (lib : ExprLib) (matcher : Str) (vals : List ReqVal) : M Enforcer Bool := do
  let r ← enforceEx lib matcher vals []
  pure r.1
/-- `Enforce` (enforcer.cpp 523–529). -/
def enforce (lib : ExprLib) (vals : List ReqVal) : M Enforcer Bool :=
  enforceWithMatcher lib [] vals
/-- The same for a map (enforcer.cpp 532–534, 560–564). -/
def enforceMap (lib : ExprLib) (vals : UMap Str ReqVal) : M Enforcer Bool := do
  let r ← enforceExMap lib [] vals []
  pure r.1

/-- `BatchEnforceWithMatcher` (enforcer.cpp 686–693). -/
def batchEnforceWithMatcher (lib : ExprLib) (matcher : Str) : List (List ReqVal) →
    M Enforcer (List Bool)
  | [] => pure []
  | r :: rs => do
    let b ← enforceWithMatcher lib matcher r
    let bs ← batchEnforceWithMatcher lib matcher rs
    pure (b :: bs)

/-- `BatchEnforce` (enforcer.cpp 675–683). -/
def batchEnforce (lib : ExprLib) : List (List ReqVal) → M Enforcer (List Bool)
  | [] => pure []
  | r :: rs => do
    let b ← enforce lib r
    let bs ← batchEnforce lib rs
    pure (b :: bs)

/-! ## rbac_api.cpp, rbac_api_with_domains.cpp -/

/-- `m_model->m["g"].assertion_map["g"]->rm->...` (rbac_api.cpp 30, 36). -/
def onGRm {α : Type} (f : M RM α) : M Enforcer α := do
  let E ← M.get
  match E.model.find c!"g" c!"g" with
  | none => M.ub .nullDeref
  | some a =>
    match a.rm with
    | none => M.ub .nullDeref
    | some p => onRm p f

/-- `GetRolesForUser` (rbac_api.cpp 29–32), `GetRolesForUserInDomain`
(rbac_api_with_domains.cpp 34–38). -/
def getRolesForUser (name : Str) (domain : List Str) : M Enforcer (List Str) :=
  onGRm (RM.getRoles name domain)
/-- `GetUsersForRole` (rbac_api.cpp 35–38), `GetUsersForRoleInDomain`
(rbac_api_with_domains.cpp 27–31). -/
def getUsersForRole (name : Str) (domain : List Str) : M Enforcer (List Str) :=
  onGRm (RM.getUsers name domain)
/-- `HasRoleForUser` (rbac_api.cpp 41–54). -/
def hasRoleForUser (name role : Str) : M Enforcer Bool := do
  let roles ← getRolesForUser name []
  pure (roles.any (fun r => decide (r = role)))
/-- `AddRoleForUser` (rbac_api.cpp 58–61). -/
def addRoleForUser (user role : Str) : M Enforcer Bool := addGroupingPolicy [user, role]
/-- `AddRolesForUser` (rbac_api.cpp 65–73). -/
def addRolesForUser (user : Str) : List Str → M Enforcer Bool
  | [] => pure false
  | r :: rs => do
    let b ← addGroupingPolicy [user, r]
    let f ← addRolesForUser user rs
    pure (b || f)
/-- `DeleteRoleForUser` (rbac_api.cpp 77–80). -/
def deleteRoleForUser (user role : Str) : M Enforcer Bool := removeGroupingPolicy [user, role]
/-- `DeleteRolesForUser` (rbac_api.cpp 84–87). -/
def deleteRolesForUser (user : Str) : M Enforcer Bool := removeFilteredGroupingPolicy 0 [user]
/-- `DeleteUser` (rbac_api.cpp 91–99). -/
def deleteUser (user : Str) : M Enforcer Bool := do
  let r1 ← removeFilteredGroupingPolicy 0 [user]
  let r2 ← removeFilteredPolicy 0 [user]
  pure (r1 || r2)
/-- `DeleteRole` (rbac_api.cpp 103–111). -/
def deleteRole (role : Str) : M Enforcer Bool := do
  let r1 ← removeFilteredGroupingPolicy 1 [role]
  let r2 ← removeFilteredPolicy 0 [role]
  pure (r1 || r2)
/-- `DeletePermission` (rbac_api.cpp 115–118). -/
def deletePermission (perm : List Str) : M Enforcer Bool := removeFilteredPolicy 1 perm
/-- `AddPermissionForUser` (rbac_api.cpp 122–124). -/
def addPermissionForUser (user : Str) (perm : List Str) : M Enforcer Bool :=
  addPolicy (joinSlice user perm)
/-- `DeletePermissionForUser` (rbac_api.cpp 128–130). -/
def deletePermissionForUser (user : Str) (perm : List Str) : M Enforcer Bool :=
  removePolicy (joinSlice user perm)
/-- `DeletePermissionsForUser` (rbac_api.cpp 134–137). -/
def deletePermissionsForUser (user : Str) : M Enforcer Bool := removeFilteredPolicy 0 [user]
/-- `GetPermissionsForUser` (rbac_api.cpp 140–143). -/
def getPermissionsForUser (user : Str) : M Enforcer Policies := getFilteredPolicy 0 [user]
/-- `HasPermissionForUser` (rbac_api.cpp 146–148). -/
def hasPermissionForUser (user : Str) (perm : List Str) : M Enforcer Bool :=
  hasPolicy (joinSlice user perm)
/-- `GetPermissionsForUserInDomain` (rbac_api_with_domains.cpp 41–44). -/
def getPermissionsForUserInDomain (user domain : Str) : M Enforcer Policies :=
  getFilteredPolicy 0 [user, domain]
/-- `AddRoleForUserInDomain` (rbac_api_with_domains.cpp 48–51). -/
def addRoleForUserInDomain (user role domain : Str) : M Enforcer Bool :=
  addGroupingPolicy [user, role, domain]
/-- `DeleteRoleForUserInDomain` (rbac_api_with_domains.cpp 55–58). -/
def deleteRoleForUserInDomain (user role domain : Str) : M Enforcer Bool :=
  removeGroupingPolicy [user, role, domain]

/-- The inner loop of `GetImplicitRolesForUser` (rbac_api.cpp 172–178): the names not seen yet, in
order; `seen` is `role_set`. -/
def newRoles (seen : List Str) : List Str → List Str
  | [] => []
  | r :: rs => if r ∈ seen then newRoles seen rs else r :: newRoles (r :: seen) rs

/-- The queue loop of `GetImplicitRolesForUser` (rbac_api.cpp 166–179). `fuel` bounds the number of
rounds; running out of it stands for not terminating. -/
def implicitLoop (domain : List Str) : Nat → List Str → List Str → M RM (List Str)
  | _, _, [] => pure []
  | 0, _, _ :: _ => M.ub .unbounded
  | fuel + 1, seen, name :: q => do
    let roles ← RM.getRoles name domain
    let new := newRoles seen roles
    let rest ← implicitLoop domain fuel (new ++ seen) (q ++ new)
    pure (new ++ rest)

/-- `GetImplicitRolesForUser` (rbac_api.cpp 158–182). It uses the enforcer's role manager. Every
round takes a name not taken before, and all names but the first are names of the role manager,
so the bound given here is enough (`C21_implicitRoles`). -/
def getImplicitRolesForUser (name : Str) (domain : List Str) : M Enforcer (List Str) := do
  let E ← M.get
  onRm E.rm (do
    let rm ← M.get
    implicitLoop domain (rm.roles.length + 2) [name] [name])

/-- The loop of `GetImplicitPermissionsForUser` (rbac_api.cpp 206–214). -/
def implicitPermLoop (domain : List Str) : List Str → M Enforcer (List Rule)
  | [] => pure []
  | r :: rs => do
    let perms ← match domain with
      | [d] => getPermissionsForUserInDomain r d
      | _ => getPermissionsForUser r
    let rest ← implicitPermLoop domain rs
    pure (perms.items ++ rest)

/-- `GetImplicitPermissionsForUser` (rbac_api.cpp 193–217). -/
def getImplicitPermissionsForUser (user : Str) (domain : List Str) : M Enforcer (List Rule) := do
  let roles ← getImplicitRolesForUser user domain
  if domain.length > 1 then M.throw .enforcer
  else implicitPermLoop domain (user :: roles)

/-- The loop of `GetImplicitUsersForPermission` (rbac_api.cpp 237–243). -/
def implicitUsersLoop (lib : ExprLib) (perm : List Str) : List Str → M Enforcer (List Str)
  | [] => pure []
  | s :: ss => do
    let p0 ← M.lift (vecAt perm 0)
    let p1 ← M.lift (vecAt perm 1)
    let b ← enforce lib [.str s, .str p0, .str p1]
    let rest ← implicitUsersLoop lib perm ss
    pure (if b then s :: rest else rest)

/-- `GetImplicitUsersForPermission` (rbac_api.cpp 227–247). -/
def getImplicitUsersForPermission (lib : ExprLib) (perm : List Str) : M Enforcer (List Str) := do
  let pSubjects ← getAllSubjects
  let gInherit ← onModel (Model.getValuesForFieldAllTypes c!"g" 1)
  let gSubjects ← onModel (Model.getValuesForFieldAllTypes c!"g" 0)
  let subjects := arrayRemoveDuplicates (pSubjects ++ gSubjects)
  let res ← implicitUsersLoop lib perm subjects
  pure (setSubtract res gInherit)

end Enforcer
end Casbin
