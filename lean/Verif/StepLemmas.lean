import Verif.Calls

/-!
# What every call keeps

Flags, adapter and watcher of an enforcer under the calls of `Method`, whatever their outcome.
-/

set_option linter.unusedSectionVars false

namespace Casbin
namespace Enforcer

/-- The flags are kept; the adapter's log grows, with automatic saving switched off by loads and saves
only; the watcher's log grows, unless (`s = false`) nothing is saved and notifying is switched off. -/
structure Steps (s : Bool) (E E' : Enforcer) : Prop where
  flags : E'.enabled = E.enabled ∧ E'.autoSave = E.autoSave ∧ E'.autoBuild = E.autoBuild ∧
    E'.autoNotify = E.autoNotify
  noAdapter : E.adapter = none → E'.adapter = none
  adapter : ∀ a, E.adapter = some a → ∃ a' l, E'.adapter = some a' ∧ a'.log = a.log ++ l ∧
    (E.autoSave = false → ∀ c ∈ l, c = .load ∨ c = .save)
  noWatcher : E.watcher = none → E'.watcher = none
  watcher : ∀ w, E.watcher = some w → ∃ l, E'.watcher = some { w with log := w.log ++ l } ∧
    (s = false → E.autoNotify = false → l = [])

theorem Steps.refl (s : Bool) (E : Enforcer) : Steps s E E where
  flags := ⟨rfl, rfl, rfl, rfl⟩
  noAdapter h := h
  adapter a h := ⟨a, [], h, by simp, by simp⟩
  noWatcher h := h
  watcher w h := ⟨[], by simpa using h, by simp⟩

theorem Steps.trans {s : Bool} {E E' E'' : Enforcer} (h : Steps s E E') (h' : Steps s E' E'') :
    Steps s E E'' where
  flags := ⟨h'.flags.1.trans h.flags.1, h'.flags.2.1.trans h.flags.2.1,
    h'.flags.2.2.1.trans h.flags.2.2.1, h'.flags.2.2.2.trans h.flags.2.2.2⟩
  noAdapter h0 := h'.noAdapter (h.noAdapter h0)
  adapter a h0 := by
    obtain ⟨a1, l1, h1, e1, q1⟩ := h.adapter a h0
    obtain ⟨a2, l2, h2, e2, q2⟩ := h'.adapter a1 h1
    refine ⟨a2, l1 ++ l2, h2, by rw [e2, e1, List.append_assoc], fun hs c hc => ?_⟩
    rcases List.mem_append.mp hc with hc | hc
    · exact q1 hs c hc
    · exact q2 (h.flags.2.1.trans hs) c hc
  noWatcher h0 := h'.noWatcher (h.noWatcher h0)
  watcher w h0 := by
    obtain ⟨l1, h1, q1⟩ := h.watcher w h0
    obtain ⟨l2, h2, q2⟩ := h'.watcher _ h1
    refine ⟨l1 ++ l2, by simpa [List.append_assoc] using h2, fun hs hn => ?_⟩
    rw [q1 hs hn, q2 hs (h.flags.2.2.2.trans hn)]; rfl

/-- Only model, role managers and evaluator may differ. -/
theorem Steps.of_eq {s : Bool} {E E' : Enforcer} (h1 : E'.enabled = E.enabled)
    (h2 : E'.autoSave = E.autoSave) (h3 : E'.autoBuild = E.autoBuild)
    (h4 : E'.autoNotify = E.autoNotify) (ha : E'.adapter = E.adapter) (hw : E'.watcher = E.watcher) :
    Steps s E E' where
  flags := ⟨h1, h2, h3, h4⟩
  noAdapter h := ha.trans h
  adapter a h := ⟨a, [], ha.trans h, by simp, by simp⟩
  noWatcher h := hw.trans h
  watcher w h := ⟨[], by simpa using hw.trans h, by simp⟩

theorem Steps.of_link {s : Bool} {E E' : Enforcer} (h : LinkOnly E E') : Steps s E E' :=
  .of_eq h.2.2.2.2.2.1 h.2.2.2.2.2.2.1 h.2.2.2.2.2.2.2.1 h.2.2.2.2.2.2.2.2 h.2.2.1 h.2.2.2.1

/-- `Steps` for every start. -/
structure StepOk {α : Type} (s : Bool) (f : M Enforcer α) : Prop where
  run : ∀ E, Steps s E (f E).2

namespace StepOk

variable {α β : Type} {s : Bool}

theorem bind {f : M Enforcer α} {k : α → M Enforcer β} (h : StepOk s f) (hk : ∀ a, StepOk s (k a)) :
    StepOk s (f >>= k) := by
  constructor
  intro E
  rw [M.bind_run]
  have h1 := h.run E
  rcases he : f E with ⟨o, E'⟩
  rw [he] at h1
  cases o with
  | ok a => exact h1.trans ((hk a).run E')
  | throw e => exact h1
  | ub u => exact h1

theorem pure (a : α) : StepOk s (Pure.pure a : M Enforcer α) := ⟨fun E => .refl s E⟩
theorem lift (o : Outcome α) : StepOk s (M.lift o : M Enforcer α) := ⟨fun E => .refl s E⟩
theorem throw (e : Exn) : StepOk s (M.throw e : M Enforcer α) := ⟨fun E => .refl s E⟩
theorem ub (u : UB) : StepOk s (M.ub u : M Enforcer α) := ⟨fun E => .refl s E⟩
theorem get : StepOk s (M.get : M Enforcer Enforcer) := ⟨fun E => .refl s E⟩
theorem onModel (f : M Model α) : StepOk s (Enforcer.onModel f) :=
  ⟨fun _ => .of_eq rfl rfl rfl rfl rfl rfl⟩
theorem onRm (p : Nat) (f : M RM α) : StepOk s (Enforcer.onRm p f) :=
  ⟨fun _ => .of_eq rfl rfl rfl rfl rfl rfl⟩
theorem runRequest (x : Rule) (f : M ReqSt Bool) : StepOk s (Enforcer.runRequest x f) :=
  ⟨fun _ => .of_eq rfl rfl rfl rfl rfl rfl⟩
theorem of_link {f : M Enforcer α} (h : ∀ E, LinkOnly E (f E).2) : StepOk s f :=
  ⟨fun E => .of_link (h E)⟩
theorem ite {c : Prop} [Decidable c] {f g : M Enforcer α} (hf : StepOk s f) (hg : StepOk s g) :
    StepOk s (if c then f else g) := by split <;> assumption

end StepOk

variable {s : Bool}

theorem edit_log' (c : AdapterCall) (a : Adapter) : (Adapter.edit c a).2.log = a.log ++ [c] := by
  unfold Adapter.edit
  cases h : a.kind with
  | string l => cases c <;> rfl
  | file _ _ _ _ => rfl
  | custom _ _ _ _ _ => rfl

/-- The state after an adapter call whose log is known. -/
theorem steps_adapter {E : Enforcer} {a a' : Adapter} {c : AdapterCall} (ha : E.adapter = some a)
    (hl : a'.log = a.log ++ [c]) (hc : E.autoSave = false → c = .load ∨ c = .save) :
    Steps s E { E with adapter := some a' } where
  flags := ⟨rfl, rfl, rfl, rfl⟩
  noAdapter h := by rw [ha] at h; cases h
  adapter b hb := by
    rw [ha] at hb
    obtain rfl := Option.some.inj hb
    exact ⟨a', [c], rfl, hl, fun hs d hd => by rw [List.mem_singleton.mp hd]; exact hc hs⟩
  noWatcher h := h
  watcher w h := ⟨[], by simpa using h, by simp⟩

theorem steps_notify (E : Enforcer) (h : s = false → E.autoNotify = true) :
    Steps s E { E with watcher := E.watcher.map fun w => { w with log := w.log ++ [.update] } } where
  flags := ⟨rfl, rfl, rfl, rfl⟩
  noAdapter h := h
  adapter a h := ⟨a, [], h, by simp, by simp⟩
  noWatcher h := by simp [h]
  watcher w hw := ⟨[.update], by simp [hw], fun h1 h2 => by rw [h h1] at h2; cases h2⟩

variable [IterOrder]

theorem savePolicy_log (m : Model) (a : Adapter) :
    (Adapter.savePolicy m a).2.log = a.log ++ [.save] := by
  unfold Adapter.savePolicy
  simp only
  cases h : a.kind with
  | string l =>
    simp only
    split
    · rfl
    · cases policyText m <;> rfl
  | file p d w b =>
    simp only
    split
    · rfl
    · cases policyText m with
      | ok t => simp only; split <;> rfl
      | throw e => rfl
      | ub e => rfl
  | custom _ _ _ _ _ => rfl

theorem stepOk_linkIfG (sec : Str) (op : PolicyOp) (pt : Str) (rs : List Rule) :
    StepOk s (linkIfG sec op pt rs) := .of_link fun _ => linkIfG_linkOnly ..

theorem stepOk_autoSaveCall (c : AdapterCall) : StepOk s (autoSaveCall c) := by
  constructor
  intro E
  rw [autoSaveCall_state]
  unfold afterAdapter
  cases h : E.adapter with
  | none => exact .refl s E
  | some a =>
    simp only
    split
    · next hs => exact steps_adapter h (edit_log' c a) (fun h0 => by rw [hs] at h0; cases h0)
    · exact .refl s E

theorem stepOk_autoSaveBatch (c : AdapterCall) : StepOk s (autoSaveBatch c) := by
  constructor
  intro E
  rw [autoSaveBatch_state]
  unfold afterBatch
  cases h : E.adapter with
  | none => exact .refl s E
  | some a =>
    simp only
    split
    · next hs => exact steps_adapter h (edit_log' c a) (fun h0 => by rw [hs.1] at h0; cases h0)
    · exact .refl s E

theorem stepOk_notify : StepOk s notify := by
  constructor
  intro E
  unfold notify
  simp only [M.modify_run]
  split
  · next h => exact steps_notify E fun _ => h
  · exact .refl s E

theorem stepOk_addPolicyI (sec pt : Str) (r : Rule) : StepOk s (addPolicyI sec pt r) :=
  .bind (.onModel _) fun _ => .ite (.pure _) (.bind (stepOk_linkIfG ..) fun _ =>
    .bind (stepOk_autoSaveCall _) fun _ => .bind stepOk_notify fun _ => .pure _)

theorem stepOk_addPoliciesI (sec pt : Str) (rs : List Rule) : StepOk s (addPoliciesI sec pt rs) :=
  .bind (.onModel _) fun _ => .ite (.pure _) (.bind (stepOk_linkIfG ..) fun _ =>
    .bind (stepOk_autoSaveBatch _) fun _ => .bind stepOk_notify fun _ => .pure _)

theorem stepOk_removePolicyI (sec pt : Str) (r : Rule) : StepOk s (removePolicyI sec pt r) :=
  .bind (.onModel _) fun _ => .ite (.pure _) (.bind (stepOk_linkIfG ..) fun _ =>
    .bind (stepOk_autoSaveCall _) fun _ => .bind stepOk_notify fun _ => .pure _)

theorem stepOk_removePoliciesI (sec pt : Str) (rs : List Rule) :
    StepOk s (removePoliciesI sec pt rs) :=
  .bind (.onModel _) fun _ => .ite (.pure _) (.bind (stepOk_linkIfG ..) fun _ =>
    .bind (stepOk_autoSaveBatch _) fun _ => .bind stepOk_notify fun _ => .pure _)

theorem stepOk_removeFilteredI (sec pt : Str) (i : Nat) (vs : List Str) :
    StepOk s (removeFilteredI sec pt i vs) :=
  .bind (.onModel _) fun _ => .ite (.pure _) (.bind (stepOk_linkIfG ..) fun _ =>
    .bind (stepOk_autoSaveCall _) fun _ => .bind stepOk_notify fun _ => .pure _)

theorem stepOk_updatePolicyI (sec pt : Str) (o n : Rule) : StepOk s (updatePolicyI sec pt o n) :=
  .bind (.onModel _) fun _ => .ite (.pure _) (.bind (stepOk_linkIfG ..) fun _ =>
    .bind (stepOk_linkIfG ..) fun _ => .bind stepOk_notify fun _ => .pure _)

theorem stepOk_updatePoliciesI (sec pt : Str) (o n : List Rule) :
    StepOk s (updatePoliciesI sec pt o n) :=
  .bind (.onModel _) fun _ => .ite (.pure _) (.bind (stepOk_linkIfG ..) fun _ =>
    .bind (stepOk_linkIfG ..) fun _ => .bind stepOk_notify fun _ => .pure _)

/-- An edit followed by the automatic building of links. -/
theorem stepOk_thenLink {f : M Enforcer Bool} (hf : StepOk s f) {link : M Enforcer Unit}
    (hl : ∀ E, LinkOnly E (link E).2) : StepOk s (do
      let b ← f
      let E' ← M.get
      if E'.autoBuild then link else pure ()
      pure b : M Enforcer Bool) :=
  .bind hf fun _ => .bind .get fun _ => by
    split
    · exact StepOk.bind (.of_link hl) fun _ => .pure _
    · exact StepOk.bind (StepOk.pure ()) fun _ => .pure _

theorem stepOk_edit : ∀ e : Edit, StepOk s e.run
  | .add false .. => stepOk_addPolicyI ..
  | .add true .. => stepOk_thenLink (stepOk_addPolicyI ..) (fun _ => buildIncremental_linkOnly ..)
  | .addMany false .. => stepOk_addPoliciesI ..
  | .addMany true .. => stepOk_addPoliciesI ..
  | .remove false .. => stepOk_removePolicyI ..
  | .remove true .. => stepOk_thenLink (stepOk_removePolicyI ..) buildRoleLinks_linkOnly
  | .removeMany false .. => stepOk_removePoliciesI ..
  | .removeMany true .. => stepOk_removePoliciesI ..
  | .removeFiltered false .. => stepOk_removeFilteredI ..
  | .removeFiltered true .. => stepOk_thenLink (stepOk_removeFilteredI ..) buildRoleLinks_linkOnly
  | .update false .. => stepOk_updatePolicyI ..
  | .update true .. => stepOk_updatePolicyI ..
  | .updateMany .. => stepOk_updatePoliciesI ..

theorem stepOk_loadPolicy : StepOk s loadPolicy := by
  refine .bind (.onModel _) fun _ => ⟨?_⟩
  intro E
  simp only [M.bind_run, M.get_run]
  cases h : E.adapter with
  | none => exact .refl s E
  | some a =>
    simp only
    have h1 : Steps s E (onAdapter (M.modify fun a => { a with log := a.log ++ [AdapterCall.load] }) E).2 := by
      unfold onAdapter
      rw [h]
      exact steps_adapter h rfl (fun _ => .inl rfl)
    have h2 : (onAdapter (M.modify fun a => { a with log := a.log ++ [AdapterCall.load] }) E).1 = .ok () := by
      unfold onAdapter
      rw [h]
      rfl
    rcases he : onAdapter (M.modify fun a => { a with log := a.log ++ [AdapterCall.load] }) E with ⟨o, E'⟩
    rw [he] at h1 h2
    simp only at h2
    subst h2
    rw [M.bind_run, he]
    refine h1.trans ?_
    exact (StepOk.bind (.onModel _) fun _ => .bind .get fun _ =>
      .ite (.of_link buildRoleLinks_linkOnly) (.pure _)).run E'

theorem stepOk_savePolicy : StepOk true savePolicy := by
  constructor
  intro E
  unfold savePolicy
  simp only [M.bind_run, M.get_run]
  cases h : E.adapter with
  | none => exact .refl _ E
  | some a =>
    simp only
    split
    · exact .refl _ E
    · refine (StepOk.bind (.onModel _) fun _ => ⟨?_⟩).run E
      intro E1
      simp only [M.bind_run, M.get_run]
      have h1 : Steps true E1 (onAdapter (Adapter.savePolicy E1.model) E1).2 := by
        unfold onAdapter
        cases h1 : E1.adapter with
        | none => exact .refl _ _
        | some b => exact steps_adapter h1 (savePolicy_log _ _) (fun _ => .inr rfl)
      rcases he : onAdapter (Adapter.savePolicy E1.model) E1 with ⟨o, E2⟩
      rw [he] at h1
      cases o with
      | throw e => exact h1
      | ub u => exact h1
      | ok _ => exact h1.trans (steps_notify E2 (fun h => by cases h))

theorem stepOk_enforceEx (lib : ExprLib) (matcher : Str) (vals : List ReqVal) (x : Rule) :
    StepOk s (enforceEx lib matcher vals x) :=
  .bind .get fun _ => by
    split
    · exact .ub _
    · exact .ite (.pure _) (.runRequest _ _)

theorem stepOk_enforceExMap (lib : ExprLib) (matcher : Str) (vals : UMap Str ReqVal) (x : Rule) :
    StepOk s (enforceExMap lib matcher vals x) := .bind .get fun _ => .runRequest _ _

theorem stepOk_enforceWithMatcher (lib : ExprLib) (matcher : Str) (vals : List ReqVal) :
    StepOk s (enforceWithMatcher lib matcher vals) :=
  .bind (stepOk_enforceEx ..) fun _ => .pure _

theorem stepOk_batch (lib : ExprLib) (matcher : Str) :
    ∀ rs : List (List ReqVal), StepOk s (batchEnforceWithMatcher lib matcher rs)
  | [] => .pure _
  | _ :: rs => .bind (stepOk_enforceWithMatcher ..) fun _ => .bind (stepOk_batch lib matcher rs)
    fun _ => .pure _

theorem stepOk_onGRm {α : Type} (f : M RM α) : StepOk s (onGRm f) :=
  .bind .get fun _ => by
    split
    · exact .ub _
    · split
      · exact .ub _
      · exact .onRm _ _

theorem stepOk_addRolesForUser (user : Str) : ∀ rs : List Str, StepOk s (addRolesForUser user rs)
  | [] => .pure _
  | _ :: rs => .bind (stepOk_edit (.add true c!"g" _)) fun _ => .bind (stepOk_addRolesForUser user rs)
    fun _ => .pure _

theorem stepOk_implicitRoles (name : Str) (domain : List Str) :
    StepOk s (getImplicitRolesForUser name domain) := .bind .get fun _ => .onRm _ _

theorem stepOk_implicitPermLoop (domain : List Str) :
    ∀ rs : List Str, StepOk s (implicitPermLoop domain rs)
  | [] => .pure _
  | r :: rs => by
    unfold implicitPermLoop
    simp only
    split
    · exact .bind (.onModel _) fun _ => .bind (stepOk_implicitPermLoop _ rs) fun _ => .pure _
    · exact .bind (.onModel _) fun _ => .bind (stepOk_implicitPermLoop _ rs) fun _ => .pure _

theorem stepOk_implicitUsersLoop (lib : ExprLib) (perm : List Str) :
    ∀ ss : List Str, StepOk s (implicitUsersLoop lib perm ss)
  | [] => .pure _
  | _ :: ss => .bind (.lift _) fun _ => .bind (.lift _) fun _ =>
    .bind (stepOk_enforceWithMatcher ..) fun _ => .bind (stepOk_implicitUsersLoop lib perm ss)
      fun _ => .pure _

end Enforcer

open Enforcer in
/-- Every call but the switches and setters. -/
theorem Method.steps [IterOrder] (lib : ExprLib) {s : Bool} {c : Method}
    (h : match c with
      | .enableEnforce _ | .enableAutoSave _ | .enableAutoBuild _ | .enableAutoNotify _
      | .setAdapter _ | .setWatcher _ | .setModel _ => False
      | .savePolicy => s = true
      | _ => True) : StepOk s (c.run lib) := by
  cases c with
  | edit e => exact .bind (stepOk_edit e) fun _ => .pure _
  | loadPolicy => exact .bind stepOk_loadPolicy fun _ => .pure _
  | savePolicy => simp only at h; subst h; exact .bind stepOk_savePolicy fun _ => .pure _
  | clearPolicy => exact .bind (.onModel _) fun _ => .pure _
  | buildRoleLinks => exact .bind (.of_link buildRoleLinks_linkOnly) fun _ => .pure _
  | buildIncremental op pt rs => exact .bind (.of_link (fun _ => buildIncremental_linkOnly ..)) fun _ => .pure _
  | enableEnforce b => exact h.elim
  | enableAutoSave b => exact h.elim
  | enableAutoBuild b => exact h.elim
  | enableAutoNotify b => exact h.elim
  | setAdapter a => exact h.elim
  | setWatcher w => exact h.elim
  | setModel m => exact h.elim
  | addMatchingFunc f =>
    exact .bind (.bind .get fun _ => .bind (.onRm _ _) fun _ => .pure _) fun _ => .pure _
  | ask matcher vals => exact .bind (stepOk_enforceWithMatcher ..) fun _ => .pure _
  | askEx matcher vals ex => exact .bind (stepOk_enforceEx ..) fun _ => .pure _
  | askMap matcher vals ex => exact .bind (stepOk_enforceExMap ..) fun _ => .pure _
  | batch matcher rs => exact .bind (stepOk_batch ..) fun _ => .pure _
  | allValues sec i => exact .bind (.onModel _) fun _ => .pure _
  | namedValues sec pt i => exact .bind (.onModel _) fun _ => .pure _
  | getPolicy sec pt => exact .bind (.onModel _) fun _ => .pure _
  | getFiltered sec pt i vs => exact .bind (.onModel _) fun _ => .pure _
  | hasPolicy sec pt r => exact .bind (.onModel _) fun _ => .pure _
  | roles name domain => exact .bind (stepOk_onGRm _) fun _ => .pure _
  | users name domain => exact .bind (stepOk_onGRm _) fun _ => .pure _
  | hasRole name role => exact .bind (.bind (stepOk_onGRm _) fun _ => .pure _) fun _ => .pure _
  | addRoles user rs => exact .bind (stepOk_addRolesForUser ..) fun _ => .pure _
  | deleteUser user =>
    exact .bind (.bind (stepOk_edit (.removeFiltered true c!"g" _ _)) fun _ =>
      .bind (stepOk_removeFilteredI ..) fun _ => .pure _) fun _ => .pure _
  | deleteRole role =>
    exact .bind (.bind (stepOk_edit (.removeFiltered true c!"g" _ _)) fun _ =>
      .bind (stepOk_removeFilteredI ..) fun _ => .pure _) fun _ => .pure _
  | implicitRoles name domain => exact .bind (stepOk_implicitRoles ..) fun _ => .pure _
  | implicitPermissions name domain =>
    exact .bind (.bind (stepOk_implicitRoles ..) fun _ =>
      .ite (.throw _) (stepOk_implicitPermLoop ..)) fun _ => .pure _
  | implicitUsers perm =>
    exact .bind (.bind (.onModel _) fun _ => .bind (.onModel _) fun _ => .bind (.onModel _) fun _ =>
      .bind (stepOk_implicitUsersLoop ..) fun _ => .pure _) fun _ => .pure _

end Casbin
