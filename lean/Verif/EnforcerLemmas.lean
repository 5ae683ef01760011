import Verif.Enforcer
import Verif.ModelLemmas

/-! # Lemmas about the enforcer object -/

set_option linter.unusedSectionVars false

namespace Casbin
namespace Enforcer

theorem onModel_run {α : Type} (f : M Model α) (E : Enforcer) :
    onModel f E = ((f E.model).1, { E with model := (f E.model).2 }) := rfl

/-- The adapter does not reject the call: there is none, auto-save is off, or it answers normally
or with `UnsupportedOperationException` (which the enforcer swallows). -/
def AdapterAccepts (E : Enforcer) (c : AdapterCall) : Prop :=
  ∀ a, E.adapter = some a → E.autoSave = true →
    (Adapter.edit c a).1 = .ok () ∨ (Adapter.edit c a).1 = .throw .unsupported

theorem adapterAccepts_none {E : Enforcer} {c : AdapterCall} (h : E.adapter = none) :
    E.AdapterAccepts c := by
  intro a ha; simp [h] at ha

/-- The state after a call of the adapter. -/
def afterAdapter (c : AdapterCall) (E : Enforcer) : Enforcer :=
  match E.adapter with
  | some a => if E.autoSave then { E with adapter := some (Adapter.edit c a).2 } else E
  | none => E

/-- The state after notifying the watcher. -/
def afterNotify (E : Enforcer) : Enforcer :=
  if E.autoNotify then
    { E with watcher := E.watcher.map fun w => { w with log := w.log ++ [.update] } }
  else E

theorem notify_run (E : Enforcer) : notify E = (.ok (), E.afterNotify) := rfl

theorem catchOnly_state {σ : Type} (e : Exn) (x : M σ Unit) (s : σ) :
    (M.catchOnly e x s).2 = (x s).2 := by
  unfold M.catchOnly
  rcases x s with ⟨o, s'⟩
  cases o with
  | ok u => rfl
  | ub u => rfl
  | throw e' => simp only []; split <;> rfl

theorem autoSaveCall_state (c : AdapterCall) (E : Enforcer) :
    (autoSaveCall c E).2 = E.afterAdapter c := by
  unfold autoSaveCall afterAdapter
  simp only [M.bind_run, M.get_run]
  cases ha : E.adapter with
  | none => rfl
  | some a =>
    by_cases hs : E.autoSave = true
    · simp only [if_pos hs, catchOnly_state, onAdapter, ha]
    · simp only [if_neg hs, M.pure_run]

theorem autoSaveCall_ok {c : AdapterCall} {E : Enforcer} (h : E.AdapterAccepts c) :
    autoSaveCall c E = (.ok (), E.afterAdapter c) := by
  refine Prod.ext ?_ (autoSaveCall_state c E)
  unfold autoSaveCall
  simp only [M.bind_run, M.get_run]
  cases ha : E.adapter with
  | none => rfl
  | some a =>
    cases hs : E.autoSave with
    | false => rfl
    | true =>
      simp only [if_true, M.catchOnly, onAdapter, ha]
      rcases h a ha hs with h1 | h1 <;> simp [h1]

/-- The state after a batch call of the adapter. -/
def afterBatch (c : AdapterCall) (E : Enforcer) : Enforcer :=
  match E.adapter with
  | some a => if E.autoSave ∧ a.isBatch then { E with adapter := some (Adapter.edit c a).2 } else E
  | none => E

/-- The adapter takes a batch call: additionally to `AdapterAccepts`, it is a `BatchAdapter`. -/
def BatchAccepts (E : Enforcer) (c : AdapterCall) : Prop :=
  E.AdapterAccepts c ∧ ∀ a, E.adapter = some a → E.autoSave = true → a.isBatch = true

theorem autoSaveBatch_state (c : AdapterCall) (E : Enforcer) :
    (autoSaveBatch c E).2 = E.afterBatch c := by
  unfold autoSaveBatch afterBatch
  simp only [M.bind_run, M.get_run]
  cases ha : E.adapter with
  | none => rfl
  | some a =>
    by_cases hs : E.autoSave = true
    · by_cases hb : a.isBatch = true
      · simp only [if_pos hs, if_pos hb, if_pos (And.intro hs hb), catchOnly_state, onAdapter, ha]
      · simp only [if_pos hs, if_neg hb, M.ub_run]
        rw [if_neg (fun h => hb h.2)]
    · simp only [if_neg hs, M.pure_run]
      rw [if_neg (fun h => hs h.1)]

theorem autoSaveBatch_ok {c : AdapterCall} {E : Enforcer} (h : E.BatchAccepts c) :
    autoSaveBatch c E = (.ok (), E.afterBatch c) := by
  refine Prod.ext ?_ (autoSaveBatch_state c E)
  unfold autoSaveBatch
  simp only [M.bind_run, M.get_run]
  cases ha : E.adapter with
  | none => rfl
  | some a =>
    cases hs : E.autoSave with
    | false => rfl
    | true =>
      simp only [if_true, M.catchOnly, onAdapter, ha, h.2 a ha hs]
      rcases h.1 a ha hs with h1 | h1 <;> simp [h1]

/-- Everything of an enforcer except adapter and watcher. -/
def SameCore (E E' : Enforcer) : Prop :=
  E'.model = E.model ∧ E'.heap = E.heap ∧ E'.rm = E.rm ∧ E'.eval = E.eval ∧
  E'.enabled = E.enabled ∧ E'.autoSave = E.autoSave ∧ E'.autoBuild = E.autoBuild ∧
  E'.autoNotify = E.autoNotify

theorem SameCore.refl (E : Enforcer) : SameCore E E := ⟨rfl, rfl, rfl, rfl, rfl, rfl, rfl, rfl⟩

theorem SameCore.trans {E E' E'' : Enforcer} (h : SameCore E E') (h' : SameCore E' E'') :
    SameCore E E'' := by
  obtain ⟨a1, a2, a3, a4, a5, a6, a7, a8⟩ := h
  obtain ⟨b1, b2, b3, b4, b5, b6, b7, b8⟩ := h'
  exact ⟨b1.trans a1, b2.trans a2, b3.trans a3, b4.trans a4, b5.trans a5, b6.trans a6,
    b7.trans a7, b8.trans a8⟩

theorem afterAdapter_core (c : AdapterCall) (E : Enforcer) : SameCore E (E.afterAdapter c) := by
  unfold afterAdapter
  cases E.adapter with
  | none => exact .refl E
  | some a => cases hs : E.autoSave <;> simp [SameCore, hs]

theorem afterBatch_core (c : AdapterCall) (E : Enforcer) : SameCore E (E.afterBatch c) := by
  unfold afterBatch
  cases E.adapter with
  | none => exact .refl E
  | some a =>
    simp only
    split
    · exact ⟨rfl, rfl, rfl, rfl, rfl, rfl, rfl, rfl⟩
    · exact .refl E

theorem afterNotify_core (E : Enforcer) : SameCore E E.afterNotify := by
  unfold afterNotify
  cases hs : E.autoNotify <;> simp [SameCore, hs]

/-- The end of a single edit: save, notify, return true. -/
theorem saveNotify_run (c : AdapterCall) (E : Enforcer) :
    (do autoSaveCall c; notify; pure true : M Enforcer Bool) E =
      match (autoSaveCall c E).1 with
      | .ok _ => (.ok true, (E.afterAdapter c).afterNotify)
      | .throw e => (.throw e, E.afterAdapter c)
      | .ub u => (.ub u, E.afterAdapter c) := by
  simp only [M.bind_run]
  have h2 := autoSaveCall_state c E
  cases h : autoSaveCall c E with
  | mk o E' =>
    rw [h] at h2
    simp only at h2
    subst h2
    cases o with
    | ok u => simp [notify_run]
    | throw e => rfl
    | ub u => rfl

theorem saveNotify_core (c : AdapterCall) (E : Enforcer) :
    SameCore E ((do autoSaveCall c; notify; pure true : M Enforcer Bool) E).2 := by
  rw [saveNotify_run]
  cases (autoSaveCall c E).1 with
  | ok u => exact (afterAdapter_core c E).trans (afterNotify_core _)
  | throw e => exact afterAdapter_core c E
  | ub u => exact afterAdapter_core c E

theorem batchNotify_run (c : AdapterCall) (E : Enforcer) :
    (do autoSaveBatch c; notify; pure true : M Enforcer Bool) E =
      match (autoSaveBatch c E).1 with
      | .ok _ => (.ok true, (E.afterBatch c).afterNotify)
      | .throw e => (.throw e, E.afterBatch c)
      | .ub u => (.ub u, E.afterBatch c) := by
  simp only [M.bind_run]
  have h2 := autoSaveBatch_state c E
  cases h : autoSaveBatch c E with
  | mk o E' =>
    rw [h] at h2
    simp only at h2
    subst h2
    cases o with
    | ok u => simp [notify_run]
    | throw e => rfl
    | ub u => rfl

theorem batchNotify_core (c : AdapterCall) (E : Enforcer) :
    SameCore E ((do autoSaveBatch c; notify; pure true : M Enforcer Bool) E).2 := by
  rw [batchNotify_run]
  cases (autoSaveBatch c E).1 with
  | ok u => exact (afterBatch_core c E).trans (afterNotify_core _)
  | throw e => exact afterBatch_core c E
  | ub u => exact afterBatch_core c E

variable [IterOrder]

theorem linkIfG_p (op : PolicyOp) (pt : Str) (rs : List Rule) (E : Enforcer) :
    linkIfG c!"p" op pt rs E = (.ok (), E) := by
  have : ¬ c!"p" = c!"g" := by decide
  simp [linkIfG, this]

/-! ## Runs of the internal editing functions on section `p` -/

theorem addPolicyI_p_similar {E : Enforcer} {pt : Str} {a : Assertion}
    (h : E.model.find c!"p" pt = some a) {r : Rule} (hs : a.policy.Similar r) :
    addPolicyI c!"p" pt r E = (.ok false, E) := by
  simp [addPolicyI, M.bind_run, onModel_run, Model.addPolicy_run h, hs]

theorem addPolicyI_p_new {E : Enforcer} {pt : Str} {a : Assertion}
    (h : E.model.find c!"p" pt = some a) {r : Rule} (hs : ¬ a.policy.Similar r) :
    addPolicyI c!"p" pt r E =
      (do autoSaveCall (.add c!"p" pt r); notify; pure true : M Enforcer Bool)
        { E with model := E.model.put c!"p" pt { a with policy := a.policy.emplace r } } := by
  simp only [addPolicyI, M.bind_run, onModel_run, Model.addPolicy_run h, hs, if_false,
    Bool.not_true, Bool.false_eq_true, linkIfG_p]

theorem addPoliciesI_p_similar {E : Enforcer} {pt : Str} {a : Assertion}
    (h : E.model.find c!"p" pt = some a) {rs : List Rule} (hs : ∃ r ∈ rs, a.policy.Similar r) :
    addPoliciesI c!"p" pt rs E = (.ok false, E) := by
  simp only [addPoliciesI, M.bind_run, onModel_run, Model.addPolicies_run h, if_pos hs,
    Bool.not_false, if_true, M.pure_run]

theorem addPoliciesI_p_new {E : Enforcer} {pt : Str} {a : Assertion}
    (h : E.model.find c!"p" pt = some a) {rs : List Rule} (hs : ¬ ∃ r ∈ rs, a.policy.Similar r) :
    addPoliciesI c!"p" pt rs E =
      (do autoSaveBatch (.addMany c!"p" pt rs); notify; pure true : M Enforcer Bool)
        { E with model :=
            E.model.put c!"p" pt { a with policy := Model.emplaceList a.policy rs } } := by
  simp only [addPoliciesI, M.bind_run, onModel_run, Model.addPolicies_run h, if_neg hs,
    Bool.not_true, Bool.false_eq_true, if_false, linkIfG_p]

theorem removePoliciesI_p_similar {E : Enforcer} {pt : Str} {a : Assertion}
    (h : E.model.find c!"p" pt = some a) {rs : List Rule} (hs : ∃ r ∈ rs, a.policy.Similar r) :
    removePoliciesI c!"p" pt rs E = (.ok false, E) := by
  simp only [removePoliciesI, M.bind_run, onModel_run, Model.addPolicies_run h, if_pos hs,
    Bool.not_false, if_true, M.pure_run]

theorem removePoliciesI_p_new {E : Enforcer} {pt : Str} {a : Assertion}
    (h : E.model.find c!"p" pt = some a) {rs : List Rule} (hs : ¬ ∃ r ∈ rs, a.policy.Similar r) :
    removePoliciesI c!"p" pt rs E =
      (do autoSaveBatch (.removeMany c!"p" pt rs); notify; pure true : M Enforcer Bool)
        { E with model :=
            E.model.put c!"p" pt { a with policy := Model.emplaceList a.policy rs } } := by
  simp only [removePoliciesI, M.bind_run, onModel_run, Model.addPolicies_run h, if_neg hs,
    Bool.not_true, Bool.false_eq_true, if_false, linkIfG_p]

theorem removePolicyI_p_none {E : Enforcer} {pt : Str} {a : Assertion}
    (h : E.model.find c!"p" pt = some a) {r : Rule}
    (hs : a.policy.eraseFirst (fun x => arrayEquals r x) = none) :
    removePolicyI c!"p" pt r E = (.ok false, E) := by
  simp [removePolicyI, Model.removePolicy, M.bind_run, onModel_run, Model.eraseRule_run h, hs]

theorem removePolicyI_p_some {E : Enforcer} {pt : Str} {a : Assertion}
    (h : E.model.find c!"p" pt = some a) {r : Rule} {P : Policies}
    (hs : a.policy.eraseFirst (fun x => arrayEquals r x) = some P) :
    removePolicyI c!"p" pt r E =
      (do autoSaveCall (.remove c!"p" pt r); notify; pure true : M Enforcer Bool)
        { E with model := E.model.put c!"p" pt { a with policy := P } } := by
  simp only [removePolicyI, Model.removePolicy, M.bind_run, onModel_run, Model.eraseRule_run h, hs,
    Bool.not_true, Bool.false_eq_true, if_false, linkIfG_p]

theorem eraseFirst_none_iff (P : Policies) (r : Rule) :
    P.eraseFirst (fun x => arrayEquals r x) = none ↔ ¬ P.Similar r := by
  rw [Policies.eraseFirst_none]
  unfold Policies.Similar
  constructor
  · rintro h ⟨s, hs, hp⟩
    have := h s hs
    rw [(arrayEquals_iff r s).mpr hp] at this
    cases this
  · intro h s hs
    by_contra hf
    exact h ⟨s, hs, (arrayEquals_iff r s).mp (by simpa using hf)⟩

end Enforcer
end Casbin
