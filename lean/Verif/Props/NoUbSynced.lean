import Verif.Props.NoUb
import Verif.Props.Synced

/-!
# C172 for the synchronised enforcer

A call of `SyncedEnforcer` that has what the same call of `Enforcer` needs has undefined behaviour exactly if
it is one of the calls that take the lock twice (C51).
-/

set_option linter.unusedSectionVars false

namespace Casbin
namespace Safe

open Enforcer
open SyncedProps (Blocks onPlain NotWatcher C51_fails C51_partial)

variable [IterOrder] {S : Shape} {lib : ExprLib}

/-- The call of `Enforcer` (Calls.lean) that a call stands for; none for `LoadModel` and
`InitWithModelAndAdapter`, which `Method` does not have, and for `SetWatcher`, which `SyncedEnforcer` has a member of its own for. -/
def asMethod : Call → Option Method
  | .loadModel _ => none
  | .initWithModelAndAdapter _ _ => none
  | .setWatcher _ => none
  | .clearPolicy => some .clearPolicy
  | .loadPolicy => some .loadPolicy
  | .updateWrapper => some .loadPolicy
  | .savePolicy => some .savePolicy
  | .buildRoleLinks => some .buildRoleLinks
  | .enforce vals => some (.ask [] vals)
  | .enforceMap vals => some (.askMap [] vals [])
  | .batchEnforce rs => some (.batch [] rs)
  | .batchEnforceWithMatcher m rs => some (.batch m rs)
  | .getAllSubjects => some (.allValues c!"p" 0)
  | .getAllNamedSubjects pt => some (.namedValues c!"p" pt 0)
  | .getAllObjects => some (.allValues c!"p" 1)
  | .getAllNamedObjects pt => some (.namedValues c!"p" pt 1)
  | .getAllActions => some (.allValues c!"p" 2)
  | .getAllNamedActions pt => some (.namedValues c!"p" pt 2)
  | .getAllRoles => some (.allValues c!"g" 1)
  | .getAllNamedRoles pt => some (.namedValues c!"g" pt 1)
  | .getNamedPolicy pt => some (.getPolicy c!"p" pt)
  | .getPolicy => some (.getPolicy c!"p" c!"p")
  | .getFilteredNamedPolicy pt i vs => some (.getFiltered c!"p" pt i vs)
  | .getFilteredPolicy i vs => some (.getFiltered c!"p" c!"p" i vs)
  | .getNamedGroupingPolicy pt => some (.getPolicy c!"g" pt)
  | .getGroupingPolicy => some (.getPolicy c!"g" c!"g")
  | .getFilteredNamedGroupingPolicy pt i vs => some (.getFiltered c!"g" pt i vs)
  | .getFilteredGroupingPolicy i vs => some (.getFiltered c!"g" c!"g" i vs)
  | .hasNamedPolicy pt r => some (.hasPolicy c!"p" pt r)
  | .hasPolicy r => some (.hasPolicy c!"p" c!"p" r)
  | .addNamedPolicy pt r => some (.edit (.add false pt r))
  | .addPolicy r => some (.edit (.add false c!"p" r))
  | .addNamedPolicies pt rs => some (.edit (.addMany false pt rs))
  | .addPolicies rs => some (.edit (.addMany false c!"p" rs))
  | .removeNamedPolicy pt r => some (.edit (.remove false pt r))
  | .removePolicy r => some (.edit (.remove false c!"p" r))
  | .updateNamedPolicy pt o n => some (.edit (.update false pt o n))
  | .updatePolicy o n => some (.edit (.update false c!"p" o n))
  | .updateNamedPolicies pt os ns => some (.edit (.updateMany pt os ns))
  | .updatePolicies os ns => some (.edit (.updateMany c!"p" os ns))
  | .removeNamedPolicies pt rs => some (.edit (.removeMany false pt rs))
  | .removePolicies rs => some (.edit (.removeMany false c!"p" rs))
  | .removeFilteredNamedPolicy pt i vs => some (.edit (.removeFiltered false pt i vs))
  | .removeFilteredPolicy i vs => some (.edit (.removeFiltered false c!"p" i vs))
  | .hasNamedGroupingPolicy pt r => some (.hasPolicy c!"g" pt r)
  | .hasGroupingPolicy r => some (.hasPolicy c!"g" c!"g" r)
  | .addNamedGroupingPolicy pt r => some (.edit (.add true pt r))
  | .addGroupingPolicy r => some (.edit (.add true c!"g" r))
  | .addNamedGroupingPolicies pt rs => some (.edit (.addMany true pt rs))
  | .addGroupingPolicies rs => some (.edit (.addMany true c!"g" rs))
  | .removeNamedGroupingPolicy pt r => some (.edit (.remove true pt r))
  | .removeGroupingPolicy r => some (.edit (.remove true c!"g" r))
  | .removeNamedGroupingPolicies pt rs => some (.edit (.removeMany true pt rs))
  | .removeGroupingPolicies rs => some (.edit (.removeMany true c!"g" rs))
  | .removeFilteredNamedGroupingPolicy pt i vs => some (.edit (.removeFiltered true pt i vs))
  | .removeFilteredGroupingPolicy i vs => some (.edit (.removeFiltered true c!"g" i vs))
  | .updateNamedGroupingPolicy pt o n => some (.edit (.update true pt o n))
  | .updateGroupingPolicy o n => some (.edit (.update true c!"g" o n))
  | .syncedEnforceEx m vs x | .enforceEx m vs x => some (.askEx m vs x)
  | .syncedEnforceExMap m vs x | .enforceExMap m vs x => some (.askMap m vs x)
  | .syncedEnforceWithMatcher m vs | .enforceWithMatcher m vs => some (.ask m vs)
  | .setModel m => some (.setModel m)
  | .setAdapter a => some (.setAdapter a)
  | .enableEnforce b => some (.enableEnforce b)
  | .enableAutoSave b => some (.enableAutoSave b)
  | .enableAutoBuild b => some (.enableAutoBuild b)
  | .enableAutoNotify b => some (.enableAutoNotify b)
  | .addNamedMatchingFunc f => some (.addMatchingFunc f)
  | .getRolesForUser n d => some (.roles n d)
  | .getUsersForRole n d => some (.users n d)
  | .hasRoleForUser n r => some (.hasRole n r)
  | .addRoleForUser u r => some (.edit (.add true c!"g" [u, r]))
  | .addRolesForUser u rs => some (.addRoles u rs)
  | .deleteRoleForUser u r => some (.edit (.remove true c!"g" [u, r]))
  | .deleteRolesForUser u => some (.edit (.removeFiltered true c!"g" 0 [u]))
  | .deleteUser u => some (.deleteUser u)
  | .deleteRole r => some (.deleteRole r)
  | .deletePermission perm => some (.edit (.removeFiltered false c!"p" 1 perm))
  | .addPermissionForUser u perm => some (.edit (.add false c!"p" (joinSlice u perm)))
  | .deletePermissionForUser u perm => some (.edit (.remove false c!"p" (joinSlice u perm)))
  | .deletePermissionsForUser u => some (.edit (.removeFiltered false c!"p" 0 [u]))
  | .getPermissionsForUser u => some (.getFiltered c!"p" c!"p" 0 [u])
  | .hasPermissionForUser u perm => some (.hasPolicy c!"p" c!"p" (joinSlice u perm))
  | .getPermissionsForUserInDomain u d => some (.getFiltered c!"p" c!"p" 0 [u, d])
  | .addRoleForUserInDomain u r d => some (.edit (.add true c!"g" [u, r, d]))
  | .deleteRoleForUserInDomain u r d => some (.edit (.remove true c!"g" [u, r, d]))
  | .getImplicitRolesForUser n d => some (.implicitRoles n d)
  | .getImplicitPermissionsForUser n d => some (.implicitPermissions n d)
  | .getImplicitUsersForPermission perm => some (.implicitUsers perm)

/-! ## Helpers -/

/-- The two leave the same state, and both or neither have undefined behaviour. -/
def Same {σ α β : Type} (f : M σ α) (g : M σ β) : Prop :=
  ∀ s, (f s).2 = (g s).2 ∧ ((∃ u, (f s).1 = .ub u) ↔ ∃ u, (g s).1 = .ub u)

section
variable {σ α β γ : Type}

omit [IterOrder] in
theorem same_refl (f : M σ α) : Same f f := fun _ => ⟨rfl, Iff.rfl⟩

omit [IterOrder] in
theorem Same.then {f : M σ α} {g : M σ β} (h : Same f g) (k : α → γ) : Same (f >>= fun a => pure (k a)) g := by
  intro s
  obtain ⟨h1, h2⟩ := h s
  rw [M.bind_run]
  rcases hf : f s with ⟨o, s'⟩
  rw [hf] at h1 h2
  cases o with
  | ok a =>
    refine ⟨h1, fun h => ?_, fun h => ?_⟩
    · obtain ⟨u, h⟩ := h; cases h
    · obtain ⟨u, h⟩ := h2.mpr h; cases h
  | throw e =>
    refine ⟨h1, fun h => ?_, fun h => ?_⟩
    · obtain ⟨u, h⟩ := h; cases h
    · obtain ⟨u, h⟩ := h2.mpr h; cases h
  | ub u => exact ⟨h1, ⟨fun _ => h2.mp ⟨u, rfl⟩, fun _ => ⟨u, rfl⟩⟩⟩

omit [IterOrder] in
theorem Same.symm {f : M σ α} {g : M σ β} (h : Same f g) : Same g f := fun s => ⟨(h s).1.symm, (h s).2.symm⟩

omit [IterOrder] in
theorem same_both (f : M σ α) (k : α → β) (l : α → γ) :
    Same (f >>= fun a => pure (k a)) (f >>= fun a => pure (l a)) :=
  (((same_refl f).then l).symm.then k)
end

theorem batch_nil (lib : ExprLib) : ∀ rs, Enforcer.batchEnforce lib rs = Enforcer.batchEnforceWithMatcher lib [] rs
  | [] => rfl
  | r :: rs => by
    unfold Enforcer.batchEnforce Enforcer.batchEnforceWithMatcher
    rw [batch_nil lib rs]
    rfl

theorem same_method (lib : ExprLib) {c : Call} {m : Method} (h : asMethod c = some m) :
    Same (onPlain lib c) (m.run lib) := by
  cases c
  case loadModel => cases h
  case initWithModelAndAdapter => cases h
  case setWatcher => cases h
  case enforceMap vals =>
    obtain rfl := Option.some.inj h
    exact ((((same_refl _).then _).then _).symm.then _).symm
  case batchEnforce rs =>
    obtain rfl := Option.some.inj h
    show Same (Enforcer.batchEnforce lib rs >>= _) _
    rw [batch_nil]
    exact same_both _ _ _
  all_goals
    obtain rfl := Option.some.inj h
    exact same_both _ _ _

/-! ## The theorems -/

/-- What a call needs of the enforcer, apart from the lock. -/
def SyncNeeds (S : Shape) (E : Enforcer) : Call → Prop
  | .setWatcher _ => True
  | .loadModel file => (∀ u, file ≠ .ub u) ∧ ∀ m, file = .ok m → Fresh S m
  | .initWithModelAndAdapter m a => Fresh S m ∧
    ∀ b, a = some b → Tame b ∧ (b.isFiltered = false → ∀ L n, Fine (MInv S L n) b.loadPolicy)
  | c => ∃ m, asMethod c = some m ∧ Needs S E m

theorem fine_plain (hlib : SafeLib lib) {E : Enforcer} (h : Good S E) {c : Call} (hw : NotWatcher c)
    (hc : SyncNeeds S E c) : (∀ u, (onPlain lib c E).1 ≠ .ub u) ∧ Good S (onPlain lib c E).2 := by
  have fin : ∀ {f : M Enforcer Unit}, ((∀ u, (f E).1 ≠ .ub u) ∧ Good S (f E).2) →
      (∀ u, ((f >>= fun _ => pure Ret.unit) E).1 ≠ .ub u) ∧ Good S ((f >>= fun _ => pure Ret.unit) E).2 := by
    intro f hf
    have hs := ((same_refl f).then (fun _ => Ret.unit)) E
    refine ⟨fun u hu => ?_, hs.1.symm ▸ hf.2⟩
    obtain ⟨u', hu'⟩ := hs.2.mp ⟨u, hu⟩
    exact hf.1 u' hu'
  have out : (∃ m, asMethod c = some m ∧ Needs S E m) →
      (∀ u, (onPlain lib c E).1 ≠ .ub u) ∧ Good S (onPlain lib c E).2 := by
    rintro ⟨m, hm, hn⟩
    have hs := same_method lib hm E
    refine ⟨fun u hu => ?_, hs.1.symm ▸ (C172_call hlib h hn).2⟩
    obtain ⟨u', hu'⟩ := hs.2.mp ⟨u, hu⟩
    exact (C172_call hlib h hn).1 u' hu'
  cases c
  case setWatcher => exact hw.elim
  case loadModel file => exact fin (C172_loadModel h hc.1 hc.2)
  case initWithModelAndAdapter m a => exact fin (C172_init h hc.1 hc.2)
  all_goals exact out hc

/-- C172 for one call of the synchronised enforcer, with the lock free: it has undefined behaviour exactly if
it takes the lock twice. -/
theorem C172_synced_exact (hlib : SafeLib lib) {s : SyncedEnforcer} (hs : s.held = none) (h : Good S s.base)
    {c : Call} (hc : SyncNeeds S s.base c) :
    (∃ u, (SyncedEnforcer.run lib c s).1 = .ub u) ↔ Blocks s.base c := by
  constructor
  · rintro ⟨u, hu⟩
    refine Classical.byContradiction fun hb => ?_
    by_cases hw : NotWatcher c
    · rw [C51_partial lib c s hs hb hw] at hu
      exact (fine_plain hlib h hw hc).1 u hu
    · cases c <;> first | exact hw trivial | (cases hu)
  · exact fun hb => ⟨_, C51_fails lib c s hs hb⟩

/-- A call that does not take the lock twice leaves the lock free and the enforcer in order. -/
theorem C172_synced_call (hlib : SafeLib lib) {s : SyncedEnforcer} (hs : s.held = none) (h : Good S s.base)
    {c : Call} (hc : SyncNeeds S s.base c) (hb : ¬ Blocks s.base c) :
    (∀ u, (SyncedEnforcer.run lib c s).1 ≠ .ub u) ∧ (SyncedEnforcer.run lib c s).2.held = none ∧
      Good S (SyncedEnforcer.run lib c s).2.base := by
  refine ⟨fun u hu => hb ((C172_synced_exact hlib hs h hc).mp ⟨u, hu⟩), ?_⟩
  by_cases hw : NotWatcher c
  · rw [C51_partial lib c s hs hb hw]
    exact ⟨hs, (fine_plain hlib h hw hc).2⟩
  · cases c <;> first | exact absurd trivial hw | exact ⟨hs, h⟩

/-- How each call of a history ends. -/
def syncAnswers (lib : ExprLib) : List Call → SyncedEnforcer → List (Outcome Ret)
  | [], _ => []
  | c :: cs, s => (SyncedEnforcer.run lib c s).1 :: syncAnswers lib cs (SyncedEnforcer.run lib c s).2

/-- Every call has what it needs when its turn comes, and none takes the lock twice. -/
def CarefulCalls (S : Shape) (lib : ExprLib) : SyncedEnforcer → List Call → Prop
  | _, [] => True
  | s, c :: cs => (SyncNeeds S s.base c ∧ ¬ Blocks s.base c) ∧
    CarefulCalls S lib (SyncedEnforcer.run lib c s).2 cs

/-- C172 for the synchronised enforcer, used from one thread. -/
theorem C172_synced_history (hlib : SafeLib lib) : ∀ (cs : List Call) {s : SyncedEnforcer}, s.held = none →
    Good S s.base → CarefulCalls S lib s cs → ∀ o ∈ syncAnswers lib cs s, ∀ u, o ≠ .ub u
  | [], _, _, _, _ => fun _ h => (by cases h)
  | c :: cs, s, hs, h, hc => by
    obtain ⟨h1, h2, h3⟩ := C172_synced_call hlib hs h hc.1.1 hc.1.2
    intro o ho
    rcases List.mem_cons.mp ho with rfl | ho
    · exact h1
    · exact C172_synced_history hlib cs h2 h3 hc.2 o ho

open Fixtures

/-- `AddNamedPolicy` is safe on the RBAC model, `AddPolicy` never returns. -/
example (s : SyncedEnforcer) (hs : s.held = none) (h : Good rbacShape s.base) :
    (∀ u, (SyncedEnforcer.run miniLib (.addNamedPolicy c!"p" alice) s).1 ≠ .ub u) ∧
    ∃ u, (SyncedEnforcer.run miniLib (.addPolicy alice) s).1 = .ub u := by
  have hn : Needs rbacShape s.base (.edit (.add false c!"p" alice)) := by
    simp [Needs, EditNeeds, Edit.secOf, rbacShape, alice]
  exact ⟨(C172_synced_call safe_miniLib hs h (c := .addNamedPolicy c!"p" alice) ⟨_, rfl, hn⟩ id).1,
    (C172_synced_exact safe_miniLib hs h (c := .addPolicy alice) ⟨_, rfl, hn⟩).mpr trivial⟩

/-- Model and adapter replaced on an enforcer in use, then a model file that cannot be read. -/
example (s : SyncedEnforcer) (hs : s.held = none) (h : Good rbacShape s.base) (e : Exn) :
    ∀ o ∈ syncAnswers miniLib
        [.initWithModelAndAdapter (rbacModel [alice] []) none, .loadModel (.throw e), .loadModel (.ok (rbacModel [] [])),
          .enforce [.str c!"alice", .str c!"data1", .str c!"read"]] s, ∀ u, o ≠ .ub u := by
  refine C172_synced_history safe_miniLib _ (S := rbacShape) hs h ⟨⟨⟨?_, by simp⟩, id⟩, ⟨⟨by simp, by simp⟩, id⟩,
    ⟨⟨by simp, fun m hm => ?_⟩, id⟩, ⟨⟨_, rfl, trivial⟩, id⟩, trivial⟩
  · exact fresh_rbac (by simp [alice]) (by simp)
  · obtain rfl := Outcome.ok.inj hm
    exact fresh_rbac (by simp) (by simp)

/-- A history that waits for no lock. -/
example (b : Str) :
    ∀ o ∈ syncAnswers miniLib
        [.addNamedPolicy c!"p" alice, .addNamedGroupingPolicy c!"g" [b, c!"alice"],
          .enforce [.str b, .str c!"data1", .str c!"read"], .getAllSubjects, .buildRoleLinks,
          .enableAutoBuild false, .addRolesForUser b []]
        ⟨(construct (rbacModel [] []) none).2, none, none⟩, ∀ u, o ≠ .ub u := by
  have hn := C172_new (S := rbacShape) (a := none)
    (fresh_rbac (P := []) (G := []) (by simp) (by simp)) (by simp)
  refine C172_synced_history safe_miniLib _ (S := rbacShape) rfl hn.2 ?_
  simp [CarefulCalls, SyncNeeds, asMethod, Blocks, Needs, EditNeeds, Edit.secOf, rbacShape, alice]

end Safe
end Casbin
