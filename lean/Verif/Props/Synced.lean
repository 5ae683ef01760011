import Verif.Synced
import Verif.EditLemmas
import Verif.Fixtures

/-!
# C51, C85: the synchronised enforcer used from one thread
-/

set_option linter.unusedSectionVars false

namespace Casbin
namespace SyncedProps

open SyncedEnforcer Fixtures

variable [IterOrder]

/-! ## What is claimed -/

/-- The same call on a plain `Enforcer`. -/
def onPlain (lib : ExprLib) : Call → M Enforcer Ret
  | .loadModel file => do let _ ← Enforcer.loadModel file; pure .unit
  | .clearPolicy => do let _ ← Enforcer.clearPolicy; pure .unit
  | .loadPolicy => do let _ ← Enforcer.loadPolicy; pure .unit
  | .savePolicy => do let _ ← Enforcer.savePolicy; pure .unit
  | .buildRoleLinks => do let _ ← Enforcer.buildRoleLinks; pure .unit
  | .enforce vals => do let x ← Enforcer.enforce lib vals; pure (.bool x)
  | .enforceMap vals => do let x ← Enforcer.enforceMap lib vals; pure (.bool x)
  | .batchEnforce rs => do let x ← Enforcer.batchEnforce lib rs; pure (.bools x)
  | .batchEnforceWithMatcher matcher rs => do let x ← Enforcer.batchEnforceWithMatcher lib matcher rs; pure (.bools x)
  | .getAllSubjects => do let x ← Enforcer.getAllSubjects; pure (.strs x)
  | .getAllNamedSubjects pt => do let x ← Enforcer.getAllNamedSubjects pt; pure (.strs x)
  | .getAllObjects => do let x ← Enforcer.getAllObjects; pure (.strs x)
  | .getAllNamedObjects pt => do let x ← Enforcer.getAllNamedObjects pt; pure (.strs x)
  | .getAllNamedActions pt => do let x ← Enforcer.getAllNamedActions pt; pure (.strs x)
  | .getAllRoles => do let x ← Enforcer.getAllRoles; pure (.strs x)
  | .getAllNamedRoles pt => do let x ← Enforcer.getAllNamedRoles pt; pure (.strs x)
  | .getNamedPolicy pt => do let x ← Enforcer.getNamedPolicy pt; pure (.pols x)
  | .getPolicy => do let x ← Enforcer.getPolicy; pure (.pols x)
  | .getFilteredNamedPolicy pt i vs => do let x ← Enforcer.getFilteredNamedPolicy pt i vs; pure (.pols x)
  | .getNamedGroupingPolicy pt => do let x ← Enforcer.getNamedGroupingPolicy pt; pure (.pols x)
  | .getGroupingPolicy => do let x ← Enforcer.getGroupingPolicy; pure (.pols x)
  | .getFilteredNamedGroupingPolicy pt i vs => do let x ← Enforcer.getFilteredNamedGroupingPolicy pt i vs; pure (.pols x)
  | .getFilteredGroupingPolicy i vs => do let x ← Enforcer.getFilteredGroupingPolicy i vs; pure (.pols x)
  | .hasNamedPolicy pt r => do let x ← Enforcer.hasNamedPolicy pt r; pure (.bool x)
  | .hasPolicy r => do let x ← Enforcer.hasPolicy r; pure (.bool x)
  | .addNamedPolicy pt r => do let x ← Enforcer.addNamedPolicy pt r; pure (.bool x)
  | .addPolicy r => do let x ← Enforcer.addPolicy r; pure (.bool x)
  | .addNamedPolicies pt rs => do let x ← Enforcer.addNamedPolicies pt rs; pure (.bool x)
  | .addPolicies rs => do let x ← Enforcer.addPolicies rs; pure (.bool x)
  | .removeNamedPolicy pt r => do let x ← Enforcer.removeNamedPolicy pt r; pure (.bool x)
  | .removePolicy r => do let x ← Enforcer.removePolicy r; pure (.bool x)
  | .updateNamedPolicy pt o n => do let x ← Enforcer.updateNamedPolicy pt o n; pure (.bool x)
  | .updatePolicy o n => do let x ← Enforcer.updatePolicy o n; pure (.bool x)
  | .updateNamedPolicies pt o n => do let x ← Enforcer.updateNamedPolicies pt o n; pure (.bool x)
  | .updatePolicies o n => do let x ← Enforcer.updatePolicies o n; pure (.bool x)
  | .removeNamedPolicies pt rs => do let x ← Enforcer.removeNamedPolicies pt rs; pure (.bool x)
  | .removePolicies rs => do let x ← Enforcer.removePolicies rs; pure (.bool x)
  | .removeFilteredNamedPolicy pt i vs => do let x ← Enforcer.removeFilteredNamedPolicy pt i vs; pure (.bool x)
  | .removeFilteredPolicy i vs => do let x ← Enforcer.removeFilteredPolicy i vs; pure (.bool x)
  | .hasNamedGroupingPolicy pt r => do let x ← Enforcer.hasNamedGroupingPolicy pt r; pure (.bool x)
  | .hasGroupingPolicy r => do let x ← Enforcer.hasGroupingPolicy r; pure (.bool x)
  | .addNamedGroupingPolicy pt r => do let x ← Enforcer.addNamedGroupingPolicy pt r; pure (.bool x)
  | .addGroupingPolicy r => do let x ← Enforcer.addGroupingPolicy r; pure (.bool x)
  | .addNamedGroupingPolicies pt rs => do let x ← Enforcer.addNamedGroupingPolicies pt rs; pure (.bool x)
  | .addGroupingPolicies rs => do let x ← Enforcer.addGroupingPolicies rs; pure (.bool x)
  | .removeNamedGroupingPolicy pt r => do let x ← Enforcer.removeNamedGroupingPolicy pt r; pure (.bool x)
  | .removeGroupingPolicy r => do let x ← Enforcer.removeGroupingPolicy r; pure (.bool x)
  | .removeNamedGroupingPolicies pt rs => do let x ← Enforcer.removeNamedGroupingPolicies pt rs; pure (.bool x)
  | .removeGroupingPolicies rs => do let x ← Enforcer.removeGroupingPolicies rs; pure (.bool x)
  | .removeFilteredNamedGroupingPolicy pt i vs => do let x ← Enforcer.removeFilteredNamedGroupingPolicy pt i vs; pure (.bool x)
  | .removeFilteredGroupingPolicy i vs => do let x ← Enforcer.removeFilteredGroupingPolicy i vs; pure (.bool x)
  | .updateNamedGroupingPolicy pt o n => do let x ← Enforcer.updateNamedGroupingPolicy pt o n; pure (.bool x)
  | .updateGroupingPolicy o n => do let x ← Enforcer.updateGroupingPolicy o n; pure (.bool x)
  | .getAllActions => do let x ← Enforcer.getAllActions; pure (.strs x)
  | .getFilteredPolicy i vs => do let x ← Enforcer.getFilteredPolicy i vs; pure (.pols x)
  | .syncedEnforceEx matcher vals explain => do let x ← Enforcer.enforceEx lib matcher vals explain; pure (.dec x.1 x.2)
  | .syncedEnforceExMap matcher vals explain => do let x ← Enforcer.enforceExMap lib matcher vals explain; pure (.dec x.1 x.2)
  | .syncedEnforceWithMatcher matcher vals => do let x ← Enforcer.enforceWithMatcher lib matcher vals; pure (.bool x)
  | .initWithModelAndAdapter m a => do let _ ← Enforcer.initWithModelAndAdapter m a; pure .unit
  | .setModel m => do let _ ← Enforcer.setModel m; pure .unit
  | .setAdapter a => do let _ ← Enforcer.setAdapter a; pure .unit
  | .enableEnforce b => do let _ ← Enforcer.enableEnforce b; pure .unit
  | .enableAutoSave b => do let _ ← Enforcer.enableAutoSave b; pure .unit
  | .enableAutoBuild b => do let _ ← Enforcer.enableAutoBuild b; pure .unit
  | .enableAutoNotify b => do let _ ← Enforcer.enableAutoNotify b; pure .unit
  | .addNamedMatchingFunc f => do let x ← Enforcer.addNamedMatchingFunc f; pure (.bool x)
  | .enforceEx matcher vals explain => do let x ← Enforcer.enforceEx lib matcher vals explain; pure (.dec x.1 x.2)
  | .enforceExMap matcher vals explain => do let x ← Enforcer.enforceExMap lib matcher vals explain; pure (.dec x.1 x.2)
  | .enforceWithMatcher matcher vals => do let x ← Enforcer.enforceWithMatcher lib matcher vals; pure (.bool x)
  | .getRolesForUser name domain => do let x ← Enforcer.getRolesForUser name domain; pure (.strs x)
  | .getUsersForRole name domain => do let x ← Enforcer.getUsersForRole name domain; pure (.strs x)
  | .hasRoleForUser name role => do let x ← Enforcer.hasRoleForUser name role; pure (.bool x)
  | .addRoleForUser user role => do let x ← Enforcer.addRoleForUser user role; pure (.bool x)
  | .addRolesForUser user roles => do let x ← Enforcer.addRolesForUser user roles; pure (.bool x)
  | .deleteRoleForUser user role => do let x ← Enforcer.deleteRoleForUser user role; pure (.bool x)
  | .deleteRolesForUser user => do let x ← Enforcer.deleteRolesForUser user; pure (.bool x)
  | .deleteUser user => do let x ← Enforcer.deleteUser user; pure (.bool x)
  | .deleteRole role => do let x ← Enforcer.deleteRole role; pure (.bool x)
  | .deletePermission perm => do let x ← Enforcer.deletePermission perm; pure (.bool x)
  | .addPermissionForUser user perm => do let x ← Enforcer.addPermissionForUser user perm; pure (.bool x)
  | .deletePermissionForUser user perm => do let x ← Enforcer.deletePermissionForUser user perm; pure (.bool x)
  | .deletePermissionsForUser user => do let x ← Enforcer.deletePermissionsForUser user; pure (.bool x)
  | .getPermissionsForUser user => do let x ← Enforcer.getPermissionsForUser user; pure (.pols x)
  | .hasPermissionForUser user perm => do let x ← Enforcer.hasPermissionForUser user perm; pure (.bool x)
  | .getPermissionsForUserInDomain user domain => do let x ← Enforcer.getPermissionsForUserInDomain user domain; pure (.pols x)
  | .addRoleForUserInDomain user role domain => do let x ← Enforcer.addRoleForUserInDomain user role domain; pure (.bool x)
  | .deleteRoleForUserInDomain user role domain => do let x ← Enforcer.deleteRoleForUserInDomain user role domain; pure (.bool x)
  | .getImplicitRolesForUser name domain => do let x ← Enforcer.getImplicitRolesForUser name domain; pure (.strs x)
  | .getImplicitPermissionsForUser user domain => do let x ← Enforcer.getImplicitPermissionsForUser user domain; pure (.rules x)
  | .getImplicitUsersForPermission perm => do let x ← Enforcer.getImplicitUsersForPermission lib perm; pure (.strs x)
  | .setWatcher w => do let _ ← Enforcer.setWatcher w; pure .unit
  | .updateWrapper => do let _ ← Enforcer.loadPolicy; pure .unit

/-- The calls that come back to a locking method while the lock is held: the ones forwarding to their
`Named` variant, the RBAC methods built on these, and the two removals of grouping rules that rebuild
the links. -/
def Blocks (E : Enforcer) : Call → Prop
  | .getPolicy => True
  | .getGroupingPolicy => True
  | .getFilteredGroupingPolicy _ _ => True
  | .hasPolicy _ => True
  | .addPolicy _ => True
  | .addPolicies _ => True
  | .removePolicy _ => True
  | .updatePolicy _ _ => True
  | .updatePolicies _ _ => True
  | .removePolicies _ => True
  | .removeFilteredPolicy _ _ => True
  | .hasGroupingPolicy _ => True
  | .addGroupingPolicy _ => True
  | .addGroupingPolicies _ => True
  | .removeGroupingPolicy _ => True
  | .removeGroupingPolicies _ => True
  | .removeFilteredGroupingPolicy _ _ => True
  | .updateGroupingPolicy _ _ => True
  | .getFilteredPolicy _ _ => True
  | .addRoleForUser _ _ => True
  | .deleteRoleForUser _ _ => True
  | .deleteRolesForUser _ => True
  | .deleteUser _ => True
  | .deleteRole _ => True
  | .deletePermission _ => True
  | .addPermissionForUser _ _ => True
  | .deletePermissionForUser _ _ => True
  | .deletePermissionsForUser _ => True
  | .hasPermissionForUser _ _ => True
  | .addRoleForUserInDomain _ _ _ => True
  | .deleteRoleForUserInDomain _ _ _ => True
  | .addRolesForUser _ roles => roles ≠ []
  | .removeNamedGroupingPolicy pt r =>
    E.autoBuild = true ∧ ∃ b, (Enforcer.removePolicyI c!"g" pt r E).1 = .ok b
  | .removeFilteredNamedGroupingPolicy pt i vs =>
    E.autoBuild = true ∧ ∃ b, (Enforcer.removeFilteredI c!"g" pt i vs E).1 = .ok b
  | _ => False

/-- The call is not `SetWatcher`. -/
def NotWatcher : Call → Prop
  | .setWatcher _ => False
  | _ => True

/-! ## Lemmas -/

/-- With the lock free, the code does what the code of the plain enforcer does, and leaves the lock
free. -/
def Sim {α : Type} (f : M SyncedEnforcer α) (g : M Enforcer α) : Prop :=
  ∀ E w, f ⟨E, none, w⟩ = ((g E).1, ⟨(g E).2, none, w⟩)

theorem sim_plain {α : Type} (g : M Enforcer α) : Sim (plain g) g := fun _ _ => rfl

theorem sim_method {α : Type} (c : Call) (g : M Enforcer α) : Sim (method c (plain g)) g := by
  intro E w
  unfold method
  cases lockOf c <;> rfl

theorem sim_pure {α : Type} (a : α) : Sim (pure a) (pure a) := fun _ _ => rfl
theorem sim_throw {α : Type} (e : Exn) : Sim (M.throw e : M _ α) (M.throw e) := fun _ _ => rfl
theorem sim_lift {α : Type} (o : Outcome α) : Sim (M.lift o) (M.lift o) := fun _ _ => rfl

theorem sim_bind_at {α β : Type} {f : M SyncedEnforcer α} {g : M Enforcer α}
    {f' : α → M SyncedEnforcer β} {g' : α → M Enforcer β} {E : Enforcer} {w : Option Watcher}
    (h : f ⟨E, none, w⟩ = ((g E).1, ⟨(g E).2, none, w⟩)) (h' : ∀ a, Sim (f' a) (g' a)) :
    (f >>= f') ⟨E, none, w⟩ = (((g >>= g') E).1, ⟨((g >>= g') E).2, none, w⟩) := by
  rw [M.bind_run, M.bind_run, h]
  rcases g E with ⟨o, E'⟩
  cases o with
  | ok a => exact h' a E' w
  | throw e => rfl
  | ub u => rfl

theorem sim_bind {α β : Type} {f : M SyncedEnforcer α} {g : M Enforcer α}
    {f' : α → M SyncedEnforcer β} {g' : α → M Enforcer β} (h : Sim f g) (h' : ∀ a, Sim (f' a) (g' a)) :
    Sim (f >>= f') (g >>= g') := fun E w => sim_bind_at (h E w) h'

/-- A locking method called inside a locking method. -/
theorem relock {α : Type} (c c' : Call) (f : M SyncedEnforcer α) {s : SyncedEnforcer}
    (hs : s.held = none) (h : (lockOf c).isSome = true) (h' : (lockOf c').isSome = true) :
    (method c (method c' f) s).1 = .ub .relock := by
  unfold method
  rcases Option.isSome_iff_exists.1 h with ⟨k, hk⟩
  rcases Option.isSome_iff_exists.1 h' with ⟨k', hk'⟩
  rw [hk, hk']
  simp [locked, hs]

theorem ub_bind {σ α β : Type} {x : M σ α} {k : α → M σ β} {s : σ} {u : UB}
    (h : (x s).1 = .ub u) : ((x >>= k) s).1 = .ub u := by
  rw [M.bind_run]
  rcases hx : x s with ⟨o, s'⟩
  rw [hx] at h
  simp only at h
  subst h
  rfl

/-- The tail of the two removals of grouping rules. -/
theorem rebuild_blocks (c : Call) (hc : (lockOf c).isSome = true) {x : M Enforcer Bool} {E : Enforcer}
    {w : Option Watcher} {b : Bool} (hx : (x E).1 = .ok b) (ha : (x E).2.autoBuild = true) :
    (method c (do
      let removed ← plain x
      let s ← M.get
      if s.base.autoBuild then buildRoleLinks else pure ()
      pure removed) ⟨E, none, w⟩).1 = .ub .relock := by
  rcases Option.isSome_iff_exists.1 hc with ⟨k, hk⟩
  unfold method
  rw [hk]
  simp only [locked, M.bind_run, plain, hx, M.get_run, ha, if_true]
  simp [buildRoleLinks, method, lockOf, locked]

theorem rebuild_sim (c : Call) {x : M Enforcer Bool} {E : Enforcer} {w : Option Watcher}
    (hb : ∀ b, (x E).1 = .ok b → (x E).2.autoBuild = false) :
    method c (do
      let removed ← plain x
      let s ← M.get
      if s.base.autoBuild then buildRoleLinks else pure ()
      pure removed) ⟨E, none, w⟩ =
    (((do
      let removed ← x
      let E ← M.get
      if E.autoBuild then Enforcer.buildRoleLinks else pure ()
      pure removed) E).1,
     ⟨((do
      let removed ← x
      let E ← M.get
      if E.autoBuild then Enforcer.buildRoleLinks else pure ()
      pure removed) E).2, none, w⟩) := by
  rcases hx : x E with ⟨o, E'⟩
  rw [hx] at hb
  unfold method
  cases lockOf c <;> cases o <;>
    simp_all [locked, M.bind_run, plain]

theorem sim_permLoop (domain : List Str) :
    ∀ l, Sim (implicitPermLoop domain l) (Enforcer.implicitPermLoop domain l) := by
  intro l
  induction l with
  | nil => exact sim_pure _
  | cons r rs ih =>
    have h1 : Sim (getPermissionsForUser r) (Enforcer.getPermissionsForUser r) :=
      sim_method (.getFilteredNamedPolicy c!"p" 0 [r]) _
    have h2 : ∀ d, Sim (getPermissionsForUserInDomain r d)
        (Enforcer.getPermissionsForUserInDomain r d) :=
      fun d => sim_method (.getFilteredNamedPolicy c!"p" 0 [r, d]) _
    rcases domain with _ | ⟨d, _ | ⟨d', ds⟩⟩
    · exact sim_bind h1 fun _ => sim_bind ih fun _ => sim_pure _
    · exact sim_bind (h2 d) fun _ => sim_bind ih fun _ => sim_pure _
    · exact sim_bind h1 fun _ => sim_bind ih fun _ => sim_pure _

theorem sim_usersLoop (lib : ExprLib) (perm : List Str) :
    ∀ l, Sim (implicitUsersLoop lib perm l) (Enforcer.implicitUsersLoop lib perm l) := by
  intro l
  induction l with
  | nil => exact sim_pure _
  | cons r rs ih =>
    exact sim_bind (sim_lift _) fun _ => sim_bind (sim_lift _) fun _ =>
      sim_bind (sim_method _ _) fun _ => sim_bind ih fun _ => sim_pure _

/-! ## C51 -/

/-- C51 is violated: on an enforcer whose lock is free, each of these calls takes the lock twice, so it
never returns. -/
theorem C51_fails (lib : ExprLib) (c : Call) (s : SyncedEnforcer) (hs : s.held = none)
    (hc : Blocks s.base c) : (run lib c s).1 = .ub .relock := by
  obtain ⟨E, h, w⟩ := s
  simp only at hs hc
  subst hs
  cases c <;> try exact hc.elim
  case addRolesForUser user roles =>
    cases roles with
    | nil => exact absurd rfl hc
    | cons r rs => exact ub_bind (ub_bind (relock _ _ _ rfl rfl rfl))
  case deleteUser => exact ub_bind (ub_bind (relock _ _ _ rfl rfl rfl))
  case deleteRole => exact ub_bind (ub_bind (relock _ _ _ rfl rfl rfl))
  case removeNamedGroupingPolicy pt r =>
    obtain ⟨ha, b, hb⟩ := hc
    refine ub_bind (rebuild_blocks _ rfl hb ?_)
    rw [(Enforcer.removePolicyI_did c!"g" pt r E).rest.2.2.2.2.1]
    exact ha
  case removeFilteredNamedGroupingPolicy pt i vs =>
    obtain ⟨ha, b, hb⟩ := hc
    refine ub_bind (rebuild_blocks _ rfl hb ?_)
    exact (Enforcer.removeFilteredI_did true pt i vs E).rest.2.2.2.2.1.trans ha
  all_goals exact ub_bind (relock _ _ _ rfl rfl rfl)

/-- C51 for the other calls: with the lock free, they do exactly what the plain `Enforcer`, which has no
lock, does, and leave the lock free. Missing: the calls of `C51_fails`. -/
theorem C51_partial (lib : ExprLib) (c : Call) (s : SyncedEnforcer) (hs : s.held = none)
    (hc : ¬ Blocks s.base c) (hw : NotWatcher c) :
    run lib c s = ((onPlain lib c s.base).1, { s with base := (onPlain lib c s.base).2 }) := by
  obtain ⟨E, h, w⟩ := s
  simp only at hs hc
  subst hs
  cases c <;> try exact absurd trivial hc
  case setWatcher => exact hw.elim
  case addRolesForUser user roles =>
    cases roles with
    | nil => rfl
    | cons r rs => exact absurd (List.cons_ne_nil _ _) hc
  case removeNamedGroupingPolicy pt r =>
    refine sim_bind_at (rebuild_sim _ fun b hb => ?_) (fun _ => sim_pure _)
    rw [(Enforcer.removePolicyI_did c!"g" pt r E).rest.2.2.2.2.1]
    exact Bool.eq_false_iff.2 fun ha => hc ⟨ha, b, hb⟩
  case removeFilteredNamedGroupingPolicy pt i vs =>
    refine sim_bind_at (rebuild_sim _ fun b hb => ?_) (fun _ => sim_pure _)
    refine (Enforcer.removeFilteredI_did true pt i vs E).rest.2.2.2.2.1.trans ?_
    exact Bool.eq_false_iff.2 fun ha => hc ⟨ha, b, hb⟩
  case initWithModelAndAdapter m a =>
    refine sim_bind (sim_bind (sim_plain _) fun _ => sim_bind (sim_plain _) fun _ => ?_)
      (fun _ => sim_pure _) E w
    cases a with
    | none => exact sim_pure _
    | some ad =>
      cases hf : ad.isFiltered <;> simp only [hf, Bool.not_true, Bool.not_false, if_true, if_false,
        Bool.false_eq_true]
      · exact sim_method _ _
      · exact sim_pure _
  case getImplicitPermissionsForUser user domain =>
    refine sim_bind (sim_bind (sim_plain _) fun roles => ?_) (fun _ => sim_pure _) E w
    split
    · exact sim_throw _
    · exact sim_permLoop _ _
  case getImplicitUsersForPermission perm =>
    exact sim_bind (sim_bind (sim_method _ _) fun _ => sim_bind (sim_plain _) fun _ =>
      sim_bind (sim_plain _) fun _ => sim_bind (sim_usersLoop _ _ _) fun _ => sim_pure _)
      (fun _ => sim_pure _) E w
  all_goals first
    | exact sim_bind (sim_method _ _) (fun _ => sim_pure _) E w
    | exact sim_bind (sim_plain _) (fun _ => sim_pure _) E w

/-- Adding a rule with `AddPolicy` blocks, with `AddNamedPolicy` it works. -/
example (lib : ExprLib) :
    (run lib (.addPolicy alice) ⟨acl [], none, none⟩).1 = .ub .relock ∧
    (run lib (.addNamedPolicy c!"p" alice) ⟨acl [], none, none⟩).1 = .ok (.bool true) := by
  refine ⟨C51_fails lib _ _ rfl trivial, ?_⟩
  exact congrArg Prod.fst (C51_partial lib (.addNamedPolicy c!"p" alice) ⟨acl [], none, none⟩ rfl
    (fun h => h) trivial)

/-- Removing a grouping rule blocks exactly with automatic building of the links. -/
example (lib : ExprLib) :
    (run lib (.removeNamedGroupingPolicy c!"g" [c!"alice", c!"admin"])
      ⟨rbac [] [[c!"alice", c!"admin"]], none, none⟩).1 = .ub .relock ∧
    (run lib (.removeNamedGroupingPolicy c!"g" [c!"alice", c!"admin"])
      ⟨{ rbac [] [[c!"alice", c!"admin"]] with autoBuild := false }, none, none⟩).1 =
        .ok (.bool true) := by
  refine ⟨C51_fails lib _ _ rfl ⟨rfl, true, rfl⟩, ?_⟩
  exact congrArg Prod.fst (C51_partial lib (.removeNamedGroupingPolicy c!"g" [c!"alice", c!"admin"])
    ⟨{ rbac [] [[c!"alice", c!"admin"]] with autoBuild := false }, none, none⟩ rfl
    (fun h => absurd h.1 (by decide)) trivial)

/-! ## C85 -/

/-- The calls one after the other, until one does not return. -/
def runs (lib : ExprLib) : List Call → SyncedEnforcer → SyncedEnforcer
  | [], s => s
  | c :: cs, s => runs lib cs (run lib c s).2

/-- The code leaves the member `watcher` alone. -/
def Keeps {α : Type} (f : M SyncedEnforcer α) : Prop := ∀ s, (f s).2.watcher = s.watcher

theorem keeps_plain {α : Type} (g : M Enforcer α) : Keeps (plain g) := fun _ => rfl
theorem keeps_pure {α : Type} (a : α) : Keeps (pure a : M _ α) := fun _ => rfl
theorem keeps_get : Keeps (M.get : M SyncedEnforcer _) := fun _ => rfl
theorem keeps_throw {α : Type} (e : Exn) : Keeps (M.throw e : M _ α) := fun _ => rfl
theorem keeps_lift {α : Type} (o : Outcome α) : Keeps (M.lift o : M _ α) := fun _ => rfl

theorem keeps_bind {α β : Type} {f : M SyncedEnforcer α} {f' : α → M SyncedEnforcer β} (h : Keeps f)
    (h' : ∀ a, Keeps (f' a)) : Keeps (f >>= f') := by
  intro s
  have := h s
  rw [M.bind_run]
  rcases hf : f s with ⟨o, s'⟩
  rw [hf] at this
  cases o with
  | ok a => exact (h' a s').trans this
  | throw e => exact this
  | ub u => exact this

theorem keeps_method {α : Type} (c : Call) {f : M SyncedEnforcer α} (h : Keeps f) :
    Keeps (method c f) := by
  intro s
  unfold method
  cases lockOf c with
  | none => exact h s
  | some k =>
    simp only [locked]
    cases s.held with
    | none => exact h _
    | some _ => rfl

theorem keeps_rebuild (c : Call) (x : M Enforcer Bool) : Keeps (method c (do
      let removed ← plain x
      let s ← M.get
      if s.base.autoBuild then buildRoleLinks else pure ()
      pure removed)) := by
  refine keeps_method _ (keeps_bind (keeps_plain _) fun _ => keeps_bind keeps_get fun s => ?_)
  split
  · exact keeps_bind (keeps_method _ (keeps_plain _)) fun _ => keeps_pure _
  · exact keeps_pure _

theorem keeps_roles (user : Str) : ∀ l, Keeps (addRolesForUser user l) := by
  intro l
  induction l with
  | nil => exact keeps_pure _
  | cons r rs ih =>
    exact keeps_bind (keeps_method _ (keeps_method _ (keeps_plain _))) fun _ =>
      keeps_bind ih fun _ => keeps_pure _

theorem keeps_permLoop (domain : List Str) : ∀ l, Keeps (implicitPermLoop domain l) := by
  intro l
  induction l with
  | nil => exact keeps_pure _
  | cons r rs ih =>
    have h1 : Keeps (getPermissionsForUser r) := keeps_method _ (keeps_plain _)
    have h2 : ∀ d, Keeps (getPermissionsForUserInDomain r d) :=
      fun d => keeps_method _ (keeps_plain _)
    rcases domain with _ | ⟨d, _ | ⟨d', ds⟩⟩
    · exact keeps_bind h1 fun _ => keeps_bind ih fun _ => keeps_pure _
    · exact keeps_bind (h2 d) fun _ => keeps_bind ih fun _ => keeps_pure _
    · exact keeps_bind h1 fun _ => keeps_bind ih fun _ => keeps_pure _

theorem keeps_usersLoop (lib : ExprLib) (perm : List Str) :
    ∀ l, Keeps (implicitUsersLoop lib perm l) := by
  intro l
  induction l with
  | nil => exact keeps_pure _
  | cons r rs ih =>
    exact keeps_bind (keeps_lift _) fun _ => keeps_bind (keeps_lift _) fun _ =>
      keeps_bind (keeps_method _ (keeps_plain _)) fun _ => keeps_bind ih fun _ => keeps_pure _

theorem run_keeps (lib : ExprLib) (c : Call) (hw : NotWatcher c) : Keeps (run lib c) := by
  cases c
  case setWatcher => exact hw.elim
  case addRolesForUser => exact keeps_bind (keeps_roles _ _) fun _ => keeps_pure _
  case deleteUser =>
    exact keeps_bind (keeps_bind (keeps_method _ (keeps_rebuild _ _)) fun _ =>
      keeps_bind (keeps_method _ (keeps_method _ (keeps_plain _))) fun _ => keeps_pure _)
      fun _ => keeps_pure _
  case deleteRole =>
    exact keeps_bind (keeps_bind (keeps_method _ (keeps_rebuild _ _)) fun _ =>
      keeps_bind (keeps_method _ (keeps_method _ (keeps_plain _))) fun _ => keeps_pure _)
      fun _ => keeps_pure _
  case initWithModelAndAdapter m a =>
    refine keeps_bind (keeps_bind (keeps_plain _) fun _ => keeps_bind (keeps_plain _) fun _ => ?_)
      fun _ => keeps_pure _
    cases a with
    | none => exact keeps_pure _
    | some ad =>
      simp only
      split
      · exact keeps_method _ (keeps_plain _)
      · exact keeps_pure _
  case getImplicitPermissionsForUser user domain =>
    refine keeps_bind (keeps_bind (keeps_plain _) fun roles => ?_) fun _ => keeps_pure _
    split
    · exact keeps_throw _
    · exact keeps_permLoop _ _
  case getImplicitUsersForPermission perm =>
    exact keeps_bind (keeps_bind (keeps_method _ (keeps_plain _)) fun _ =>
      keeps_bind (keeps_plain _) fun _ => keeps_bind (keeps_plain _) fun _ =>
      keeps_bind (keeps_usersLoop _ _ _) fun _ => keeps_pure _) fun _ => keeps_pure _
  all_goals first
    | exact keeps_bind (keeps_plain _) fun _ => keeps_pure _
    | exact keeps_bind (keeps_method _ (keeps_plain _)) fun _ => keeps_pure _
    | exact keeps_bind (keeps_method _ (keeps_method _ (keeps_plain _))) fun _ => keeps_pure _
    | exact keeps_bind (keeps_rebuild _ _) fun _ => keeps_pure _
    | exact keeps_bind (keeps_method _ (keeps_rebuild _ _)) fun _ => keeps_pure _

/-- C85 is violated: whatever is called afterwards, the watcher given to a synchronised enforcer is
told nothing. -/
theorem C85_fails (lib : ExprLib) (w : Watcher) (cs : List Call) (hcs : ∀ c ∈ cs, NotWatcher c)
    (s : SyncedEnforcer) : (runs lib (.setWatcher w :: cs) s).watcher = some w := by
  have h : ∀ cs : List Call, (∀ c ∈ cs, NotWatcher c) → ∀ s, (runs lib cs s).watcher = s.watcher := by
    intro cs
    induction cs with
    | nil => intro _ s; rfl
    | cons c cs ih =>
      intro hcs s
      exact (ih (fun c hc => hcs c (List.mem_cons_of_mem _ hc)) _).trans
        (run_keeps lib c (hcs c List.mem_cons_self) s)
  exact h cs hcs _

/-- A rule is added and the policy saved; the plain enforcer would have told the watcher twice. -/
example (lib : ExprLib) :
    (run lib (.addNamedPolicy c!"p" alice)
      (run lib (.setWatcher ⟨false, []⟩) ⟨acl [], none, none⟩).2).1 = .ok (.bool true) ∧
    (runs lib [.setWatcher ⟨false, []⟩, .addNamedPolicy c!"p" alice] ⟨acl [], none, none⟩).watcher =
      some ⟨false, []⟩ ∧
    (onPlain lib (.addNamedPolicy c!"p" alice)
      (onPlain lib (.setWatcher ⟨false, []⟩) (acl [])).2).2.watcher = some ⟨false, [.update]⟩ :=
  ⟨rfl, C85_fails lib _ [_] (by simp [NotWatcher]) _, rfl⟩

end SyncedProps
end Casbin
