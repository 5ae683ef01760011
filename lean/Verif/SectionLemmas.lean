import Verif.Synced
import Verif.ConfigLemmas

/-!
# No locked method of the synchronised enforcer removes the section of the policies or of the groups
-/

set_option linter.unusedSectionVars false
set_option linter.unusedSimpArgs false
set_option linter.unusedVariables false

namespace Casbin

/-- The model has the sections `p` and `g`. -/
def Model.Full (m : Model) : Prop := m.has c!"p" = true ∧ m.has c!"g" = true

/-- The code keeps the property `I` of the state, however it ends. -/
def M.Keeps {σ α : Type} (I : σ → Prop) (f : M σ α) : Prop := ∀ s, I s → I (f s).2

namespace M

variable {σ α β : Type} {I : σ → Prop}

theorem keeps_pure (a : α) : Keeps I (pure a) := fun _ h => h
theorem keeps_get : Keeps I (get : M σ σ) := fun _ h => h
theorem keeps_throw (e : Exn) : Keeps I (throw e : M σ α) := fun _ h => h
theorem keeps_ub (u : UB) : Keeps I (ub u : M σ α) := fun _ h => h
theorem keeps_lift (o : Outcome α) : Keeps I (lift o : M σ α) := fun _ h => h
theorem keeps_modify {f : σ → σ} (h : ∀ s, I s → I (f s)) : Keeps I (modify f) := h
theorem keeps_bind {f : M σ α} {g : α → M σ β} (hf : Keeps I f) (hg : ∀ a, Keeps I (g a)) :
    Keeps I (f >>= g) := by
  intro s hs
  have := hf s hs
  rw [bind_run]
  rcases h : f s with ⟨o, s'⟩
  rw [h] at this
  cases o with
  | ok a => exact hg a s' this
  | throw e => exact this
  | ub u => exact this
theorem keeps_ite {c : Prop} [Decidable c] {f g : M σ α} (hf : Keeps I f) (hg : Keeps I g) :
    Keeps I (if c then f else g) := by split <;> assumption
theorem keeps_catchOnly (e : Exn) {f : M σ Unit} (hf : Keeps I f) : Keeps I (catchOnly e f) := by
  intro s hs
  have := hf s hs
  unfold catchOnly
  rcases h : f s with ⟨o, s'⟩
  rw [h] at this
  cases o with
  | ok a => exact this
  | ub u => exact this
  | throw e' => simp only; split <;> exact this

end M

namespace Model

open M

theorem has_set (m : Model) (s s' : Str) (am : UMap Str Assertion) (h : m.has s' = true) :
    UMap.has (m.set s am) s' = true := by
  rw [UMap.has_iff] at h ⊢
  rw [UMap.mem_keys_set]
  exact Or.inr h

theorem full_put {m : Model} (h : m.Full) (s t : Str) (a : Assertion) : (m.put s t a).Full := by
  unfold put
  split
  · exact ⟨has_set _ _ _ _ h.1, has_set _ _ _ _ h.2⟩
  · exact ⟨has_set _ _ _ _ h.1, has_set _ _ _ _ h.2⟩

theorem full_ensureSec {m : Model} (h : m.Full) (s : Str) : (m.ensureSec s).Full := by
  unfold ensureSec
  split
  · exact h
  · exact ⟨has_set _ _ _ _ h.1, has_set _ _ _ _ h.2⟩

theorem full_clearSec {m : Model} (h : m.Full) (s : Str) : (m.clearSec s).Full := by
  unfold clearSec
  split
  · exact ⟨has_set _ _ _ _ h.1, has_set _ _ _ _ h.2⟩
  · exact ⟨has_set _ _ _ _ h.1, has_set _ _ _ _ h.2⟩

theorem full_clearPolicy {m : Model} (h : m.Full) : m.clearPolicy.Full :=
  full_clearSec (full_clearSec h _) _

theorem full_at (s t : Str) : M.Keeps Full (at_ s t) := by
  intro m h; unfold at_; split <;> exact h

theorem full_setPolicy (s t : Str) (P : Policies) : M.Keeps Full (setPolicy s t P) := by
  intro m h; unfold setPolicy; split
  · exact full_put h _ _ _
  · exact h

variable [IterOrder]

theorem full_hasPolicy (s t : Str) (r : Rule) : M.Keeps Full (hasPolicy s t r) :=
  keeps_bind (full_at _ _) fun _ => keeps_pure _

theorem full_addPolicy (s t : Str) (r : Rule) : M.Keeps Full (addPolicy s t r) :=
  keeps_bind (full_hasPolicy _ _ _) fun _ => keeps_ite (keeps_pure _)
    (keeps_bind (full_at _ _) fun _ => keeps_bind (full_setPolicy _ _ _) fun _ => keeps_pure _)

theorem full_anyPresent (s t : Str) : ∀ rs, M.Keeps Full (anyPresent s t rs)
  | [] => keeps_pure _
  | _ :: rs => keeps_bind (full_hasPolicy _ _ _) fun _ =>
      keeps_ite (keeps_pure _) (full_anyPresent s t rs)

theorem full_emplaceAll (s t : Str) : ∀ rs, M.Keeps Full (emplaceAll s t rs)
  | [] => keeps_pure _
  | _ :: rs => keeps_bind (full_at _ _) fun _ => keeps_bind (full_setPolicy _ _ _) fun _ =>
      full_emplaceAll s t rs

theorem full_addPolicies (s t : Str) (rs : List Rule) : M.Keeps Full (addPolicies s t rs) :=
  keeps_bind (full_anyPresent _ _ _) fun _ => keeps_ite (keeps_pure _)
    (keeps_bind (full_emplaceAll _ _ _) fun _ => keeps_pure _)

theorem full_eraseRule (s t : Str) (r : Rule) : M.Keeps Full (eraseRule s t r) := by
  refine keeps_bind (full_at _ _) fun a => ?_
  split
  · exact keeps_bind (full_setPolicy _ _ _) fun _ => keeps_pure _
  · exact keeps_pure _

theorem full_updatePolicy (s t : Str) (o n : Rule) : M.Keeps Full (updatePolicy s t o n) :=
  keeps_bind (full_eraseRule _ _ _) fun _ => keeps_ite (keeps_pure _)
    (keeps_bind (full_hasPolicy _ _ _) fun _ => keeps_ite (keeps_pure _)
      (keeps_bind (full_at _ _) fun _ => keeps_bind (full_setPolicy _ _ _) fun _ => keeps_pure _))

theorem full_eraseAll (s t : Str) : ∀ rs, M.Keeps Full (eraseAll s t rs)
  | [] => keeps_pure _
  | _ :: rs => keeps_bind (full_eraseRule _ _ _) fun _ =>
      keeps_ite (keeps_pure _) (full_eraseAll s t rs)

theorem full_updatePolicies (s t : Str) (o n : List Rule) : M.Keeps Full (updatePolicies s t o n) :=
  keeps_bind (full_at _ _) fun _ => keeps_bind (full_eraseAll _ _ _) fun _ => keeps_ite (keeps_pure _)
    (keeps_bind (full_anyPresent _ _ _) fun _ => keeps_ite (keeps_pure _)
      (keeps_bind (full_emplaceAll _ _ _) fun _ => keeps_pure _))

theorem full_removeFiltered (s t : Str) (i : Nat) (vs : List Str) :
    M.Keeps Full (removeFilteredPolicy s t i vs) :=
  keeps_bind (full_at _ _) fun _ => keeps_bind (keeps_lift _) fun _ =>
    keeps_bind (full_setPolicy _ _ _) fun _ => keeps_pure _

/-! ### Reading methods -/

theorem same_at (s t : Str) (m : Model) : (at_ s t m).2 = m := by unfold at_; split <;> rfl

theorem same_bind {σ α β : Type} {f : M σ α} {g : α → M σ β} {s : σ} (hf : (f s).2 = s)
    (hg : ∀ a, (g a s).2 = s) : ((f >>= g) s).2 = s := by
  rw [bind_run]
  rcases h : f s with ⟨o, s'⟩
  rw [h] at hf
  simp only at hf
  subst hf
  cases o with
  | ok a => exact hg a
  | throw e => rfl
  | ub u => rfl

theorem same_getPolicy (s t : Str) (m : Model) : (getPolicy s t m).2 = m :=
  same_bind (same_at _ _ _) fun _ => rfl

theorem same_getFiltered (s t : Str) (i : Nat) (vs : List Str) (m : Model) :
    (getFilteredPolicy s t i vs m).2 = m :=
  same_bind (same_at _ _ _) fun _ => same_bind rfl fun _ => rfl

theorem same_hasPolicy (s t : Str) (r : Rule) (m : Model) : (hasPolicy s t r m).2 = m :=
  same_bind (same_at _ _ _) fun _ => rfl

theorem same_values (s t : Str) (i : Nat) (m : Model) : (getValuesForField s t i m).2 = m :=
  same_bind (same_at _ _ _) fun _ => same_bind rfl fun _ => rfl

theorem same_valuesAllTypes (s : Str) (i : Nat) (m : Model) :
    ∀ ts, (valuesAllTypes s i ts m).2 = m
  | [] => rfl
  | _ :: ts => same_bind (same_values _ _ _ _) fun _ => same_bind (same_valuesAllTypes s i m ts)
      fun _ => rfl

theorem same_valuesAll (s : Str) (i : Nat) (m : Model) (h : m.has s = true) :
    (getValuesForFieldAllTypes s i m).2 = m := by
  have he : m.ensureSec s = m := by unfold ensureSec; rw [if_pos h]
  refine same_bind (by simp [M.modify_run, he]) fun _ => same_bind rfl fun m' => ?_
  exact same_bind (same_valuesAllTypes _ _ _ _) fun _ => rfl

end Model

/-! ## Policy text and adapters -/

open M Model

theorem full_loadPolicyLine (l : Str) : M.Keeps Full (loadPolicyLine l) := by
  unfold loadPolicyLine
  refine keeps_ite (keeps_pure _) ?_
  split
  · exact keeps_ub _
  · exact keeps_bind (full_at _ _) fun _ => full_setPolicy _ _ _

theorem full_loadLines : ∀ ls, M.Keeps Full (loadLines ls)
  | [] => keeps_pure _
  | _ :: ls => keeps_bind (full_loadPolicyLine _) fun _ => full_loadLines ls

namespace Adapter

/-- An adapter supplied by the user does not remove the two sections when it loads. -/
def Mild (a : Adapter) : Prop :=
  match a.kind with
  | .custom _ _ _ load _ => M.Keeps Full load
  | _ => True

theorem mild_load {a : Adapter} (h : a.Mild) : M.Keeps Full a.loadPolicy := by
  unfold Mild at h
  unfold loadPolicy
  cases hk : a.kind with
  | string line =>
    simp only [loadText]
    exact keeps_ite (keeps_throw _) (full_loadLines _)
  | file path disk w b =>
    simp only
    refine keeps_ite (keeps_throw _) ?_
    cases disk with
    | none => exact keeps_pure _
    | some t => exact full_loadLines _
  | custom v f b load resp =>
    rw [hk] at h
    exact h

theorem mild_log {a : Adapter} (h : a.Mild) (l : List AdapterCall) : Mild { a with log := l } := h

theorem mild_edit (c : AdapterCall) : M.Keeps Mild (edit c) := by
  intro a h
  unfold Mild at h
  unfold edit
  cases hk : a.kind with
  | string line => cases c <;> simp [hk, Mild]
  | file path disk w b => simp [hk, Mild]
  | custom v f b load resp =>
    rw [hk] at h
    simpa [hk, Mild] using h

variable [IterOrder]

theorem mild_save (m : Model) : M.Keeps Mild (savePolicy m) := by
  intro a h
  unfold Mild at h
  unfold savePolicy
  cases hk : a.kind with
  | string line =>
    simp only [hk]
    split
    · simp [Mild, hk]
    · cases policyText m <;> simp [Mild, hk]
  | file path disk w b =>
    simp only [hk]
    split
    · simp [Mild, hk]
    · cases policyText m with
      | ok t => simp only; split <;> simp [Mild]
      | throw e => simp [Mild, hk]
      | ub u => simp [Mild, hk]
  | custom v f b load resp =>
    rw [hk] at h
    simpa [hk, Mild] using h

end Adapter

/-! ## The enforcer -/

namespace Enforcer

/-- The sections `p` and `g` exist, and loading does not remove them. -/
def Full (E : Enforcer) : Prop :=
  E.model.Full ∧ ∀ a, E.adapter = some a → a.Mild

theorem full_onModel {α : Type} {f : M Model α} (h : M.Keeps Model.Full f) :
    M.Keeps Full (onModel f) := fun E hE => ⟨h _ hE.1, hE.2⟩

theorem full_onRm {α : Type} (p : Nat) (f : M RM α) : M.Keeps Full (onRm p f) := fun _ hE => hE

theorem full_onAdapter {α : Type} {f : M Adapter α} (h : M.Keeps Adapter.Mild f) :
    M.Keeps Full (onAdapter f) := by
  intro E hE
  unfold onAdapter
  cases ha : E.adapter with
  | none => exact hE
  | some a =>
    refine ⟨hE.1, fun b hb => ?_⟩
    simp only [Option.some.injEq] at hb
    subst hb
    exact h _ (hE.2 a ha)

theorem full_clear : M.Keeps Full clearPolicy := full_onModel (keeps_modify fun _ => full_clearPolicy)

variable [IterOrder]

theorem full_buildIncremental (op : PolicyOp) (pt : Str) (rs : List Rule) :
    M.Keeps Full (buildIncremental op pt rs) := by
  refine keeps_bind keeps_get fun E => ?_
  split
  · exact keeps_ub _
  · exact keeps_bind (full_onModel (keeps_modify fun _ h => full_put h _ _ _)) fun _ => full_onRm _ _

theorem full_buildAll : ∀ ks, M.Keeps Full (buildAll ks)
  | [] => keeps_pure _
  | _ :: ks => by
    refine keeps_bind keeps_get fun E => ?_
    split
    · exact keeps_ub _
    · exact keeps_bind (full_onModel (keeps_modify fun _ h => full_put h _ _ _)) fun _ =>
        keeps_bind (full_onRm _ _) fun _ => full_buildAll ks

theorem full_buildRoleLinks : M.Keeps Full buildRoleLinks :=
  keeps_bind keeps_get fun _ => keeps_bind (full_onRm _ _) fun _ =>
    keeps_bind (full_onModel (keeps_modify fun _ h => full_ensureSec h _)) fun _ =>
    keeps_bind keeps_get fun _ => full_buildAll _

theorem full_loadPolicy : M.Keeps Full loadPolicy := by
  refine keeps_bind full_clear fun _ => ?_
  intro E hE
  rw [M.bind_run_ok (M.get_run E)]
  cases ha : E.adapter with
  | none => exact hE
  | some a =>
    exact keeps_bind (full_onAdapter (keeps_modify fun _ h => Adapter.mild_log h _)) (fun _ =>
      keeps_bind (full_onModel (Adapter.mild_load (hE.2 a ha))) fun _ => keeps_bind keeps_get fun _ =>
      keeps_ite full_buildRoleLinks (keeps_pure _)) E hE

theorem full_watcher (f : Enforcer → Option Watcher) :
    M.Keeps Full (M.modify fun E => { E with watcher := f E }) := fun _ hE => hE

theorem full_savePolicy : M.Keeps Full savePolicy := by
  refine keeps_bind keeps_get fun E => ?_
  split
  · exact keeps_ub _
  · refine keeps_ite (keeps_throw _) ?_
    exact keeps_bind (full_onModel (keeps_modify fun _ h => full_ensureSec (full_ensureSec h _) _))
      fun _ => keeps_bind keeps_get fun _ => keeps_bind (full_onAdapter (Adapter.mild_save _)) fun _ =>
      full_watcher _

theorem full_notify : M.Keeps Full notify := by
  refine keeps_modify fun E hE => ?_
  split <;> exact hE

theorem full_linkIfG (sec : Str) (op : PolicyOp) (pt : Str) (rs : List Rule) :
    M.Keeps Full (linkIfG sec op pt rs) := by
  unfold linkIfG
  exact keeps_ite (full_buildIncremental _ _ _) (keeps_pure _)

theorem full_autoSaveCall (c : AdapterCall) : M.Keeps Full (autoSaveCall c) := by
  refine keeps_bind keeps_get fun E => ?_
  split
  · exact keeps_ite (keeps_catchOnly _ (full_onAdapter (Adapter.mild_edit _))) (keeps_pure _)
  · exact keeps_pure _

theorem full_autoSaveBatch (c : AdapterCall) : M.Keeps Full (autoSaveBatch c) := by
  refine keeps_bind keeps_get fun E => ?_
  split
  · exact keeps_ite (keeps_ite (keeps_catchOnly _ (full_onAdapter (Adapter.mild_edit _)))
      (keeps_ub _)) (keeps_pure _)
  · exact keeps_pure _

theorem full_addPolicyI (s t : Str) (r : Rule) : M.Keeps Full (addPolicyI s t r) :=
  keeps_bind (full_onModel (full_addPolicy _ _ _)) fun _ => keeps_ite (keeps_pure _)
    (keeps_bind (full_linkIfG _ _ _ _) fun _ => keeps_bind (full_autoSaveCall _) fun _ =>
      keeps_bind full_notify fun _ => keeps_pure _)

theorem full_addPoliciesI (s t : Str) (rs : List Rule) : M.Keeps Full (addPoliciesI s t rs) :=
  keeps_bind (full_onModel (full_addPolicies _ _ _)) fun _ => keeps_ite (keeps_pure _)
    (keeps_bind (full_linkIfG _ _ _ _) fun _ => keeps_bind (full_autoSaveBatch _) fun _ =>
      keeps_bind full_notify fun _ => keeps_pure _)

theorem full_removePolicyI (s t : Str) (r : Rule) : M.Keeps Full (removePolicyI s t r) :=
  keeps_bind (full_onModel (full_eraseRule _ _ _)) fun _ => keeps_ite (keeps_pure _)
    (keeps_bind (full_linkIfG _ _ _ _) fun _ => keeps_bind (full_autoSaveCall _) fun _ =>
      keeps_bind full_notify fun _ => keeps_pure _)

theorem full_removePoliciesI (s t : Str) (rs : List Rule) : M.Keeps Full (removePoliciesI s t rs) :=
  keeps_bind (full_onModel (full_addPolicies _ _ _)) fun _ => keeps_ite (keeps_pure _)
    (keeps_bind (full_linkIfG _ _ _ _) fun _ => keeps_bind (full_autoSaveBatch _) fun _ =>
      keeps_bind full_notify fun _ => keeps_pure _)

theorem full_removeFilteredI (s t : Str) (i : Nat) (vs : List Str) :
    M.Keeps Full (removeFilteredI s t i vs) :=
  keeps_bind (full_onModel (full_removeFiltered _ _ _ _)) fun _ => keeps_ite (keeps_pure _)
    (keeps_bind (full_linkIfG _ _ _ _) fun _ => keeps_bind (full_autoSaveCall _) fun _ =>
      keeps_bind full_notify fun _ => keeps_pure _)

theorem full_updatePolicyI (s t : Str) (o n : Rule) : M.Keeps Full (updatePolicyI s t o n) :=
  keeps_bind (full_onModel (full_updatePolicy _ _ _ _)) fun _ => keeps_ite (keeps_pure _)
    (keeps_bind (full_linkIfG _ _ _ _) fun _ => keeps_bind (full_linkIfG _ _ _ _) fun _ =>
      keeps_bind full_notify fun _ => keeps_pure _)

theorem full_updatePoliciesI (s t : Str) (o n : List Rule) : M.Keeps Full (updatePoliciesI s t o n) :=
  keeps_bind (full_onModel (full_updatePolicies _ _ _ _)) fun _ => keeps_ite (keeps_pure _)
    (keeps_bind (full_linkIfG _ _ _ _) fun _ => keeps_bind (full_linkIfG _ _ _ _) fun _ =>
      keeps_bind full_notify fun _ => keeps_pure _)

theorem full_addNamedGrouping (pt : Str) (r : Rule) : M.Keeps Full (addNamedGroupingPolicy pt r) :=
  keeps_bind (full_addPolicyI _ _ _) fun _ => keeps_bind keeps_get fun _ => by
    split
    · exact keeps_bind (full_buildIncremental _ _ _) fun _ => keeps_pure _
    · exact keeps_pure _

theorem full_removeNamedGrouping (pt : Str) (r : Rule) :
    M.Keeps Full (removeNamedGroupingPolicy pt r) :=
  keeps_bind (full_removePolicyI _ _ _) fun _ => keeps_bind keeps_get fun _ => by
    split
    · exact keeps_bind full_buildRoleLinks fun _ => keeps_pure _
    · exact keeps_pure _

theorem full_removeFilteredNamedGrouping (pt : Str) (i : Nat) (vs : List Str) :
    M.Keeps Full (removeFilteredNamedGroupingPolicy pt i vs) :=
  keeps_bind (full_removeFilteredI _ _ _ _) fun _ => keeps_bind keeps_get fun _ => by
    split
    · exact keeps_bind full_buildRoleLinks fun _ => keeps_pure _
    · exact keeps_pure _

theorem full_runRequest (e : Rule) (f : M ReqSt Bool) : M.Keeps Full (runRequest e f) :=
  fun _ hE => hE

theorem full_enforceEx (lib : ExprLib) (m : Str) (vals : List ReqVal) (e : Rule) :
    M.Keeps Full (enforceEx lib m vals e) := by
  refine keeps_bind keeps_get fun E => ?_
  split
  · exact keeps_ub _
  · exact keeps_ite (keeps_pure _) (full_runRequest _ _)

theorem full_enforceExMap (lib : ExprLib) (m : Str) (vals : UMap Str ReqVal) (e : Rule) :
    M.Keeps Full (enforceExMap lib m vals e) := keeps_bind keeps_get fun _ => full_runRequest _ _

theorem full_enforceWithMatcher (lib : ExprLib) (m : Str) (vals : List ReqVal) :
    M.Keeps Full (enforceWithMatcher lib m vals) :=
  keeps_bind (full_enforceEx _ _ _ _) fun _ => keeps_pure _

theorem full_batchWith (lib : ExprLib) (m : Str) :
    ∀ rs, M.Keeps Full (batchEnforceWithMatcher lib m rs)
  | [] => keeps_pure _
  | _ :: rs => keeps_bind (full_enforceWithMatcher _ _ _) fun _ =>
      keeps_bind (full_batchWith lib m rs) fun _ => keeps_pure _

theorem full_batch (lib : ExprLib) : ∀ rs, M.Keeps Full (batchEnforce lib rs)
  | [] => keeps_pure _
  | _ :: rs => keeps_bind (full_enforceWithMatcher _ _ _) fun _ =>
      keeps_bind (full_batch lib rs) fun _ => keeps_pure _

/-- A reading method of the model, on the enforcer. -/
theorem same_onModel {α : Type} {f : M Model α} {E : Enforcer} (h : (f E.model).2 = E.model) :
    (onModel f E).2 = E := by
  simp only [onModel, h]

end Enforcer
end Casbin
