import Verif.SafeRequest

/-!
# Methods of the enforcer without undefined behaviour
-/

set_option linter.unusedSectionVars false

namespace Casbin
namespace Safe

open Enforcer

/-- The adapter of a user has no undefined behaviour itself (its `LoadPolicy` apart). -/
def Tame (a : Adapter) : Prop :=
  match a.kind with
  | .custom _ _ _ _ resp => ∀ c u, resp c ≠ .ub u
  | _ => True

/-- With automatic saving the adapter, if there is one, takes batches of rules. -/
def BatchOk (E : Enforcer) : Prop := E.autoSave = true → ∀ a, E.adapter = some a → a.isBatch = true

/-- The role type `g` has its role manager: `BuildRoleLinks` or an edit of `g` has been there. -/
def Linked (E : Enforcer) : Prop := ∃ a p, E.model.find c!"g" c!"g" = some a ∧ a.rm = some p

/-- An enforcer of the shape `S` with `n` role managers. -/
structure Inv (S : Shape) (L B : Prop) (n : Nat) (E : Enforcer) : Prop where
  heap : HeapOk n E.heap
  rm : E.rm < n
  model : MInv S L n E.model
  eval : ∀ ev, E.eval = some ev → EvOk n ev
  adapter : ∀ a, E.adapter = some a → Tame a
  batch : B → BatchOk E

variable {S : Shape} {L B : Prop} {n : Nat} {α : Type}

theorem fine_onModel {f : M Model α} (hf : Fine (MInv S L n) f) : Fine (Inv S L B n) (onModel f) :=
  fun E h => ⟨(hf E.model h.model).1, h.heap, h.rm, (hf E.model h.model).2, h.eval, h.adapter, h.batch⟩

theorem fine_onRm {p : Nat} (hp : p < n) {f : M RM α} (hf : Fine Shut f) :
    Fine (Inv S L B n) (onRm p f) :=
  fun E h => ⟨(fine_onHeap hp hf E.heap h.heap).1, (fine_onHeap hp hf E.heap h.heap).2, h.rm, h.model, h.eval,
    h.adapter, h.batch⟩

theorem fine_runRequest {f : M ReqSt Bool} (hf : Fine (ReqOk n) f) (x : Rule) :
    Fine (Inv S L B n) (runRequest x f) := by
  intro E h
  have hs : ReqOk n { ev := E.evaluator, heap := E.heap, explain := x } := by
    refine ⟨?_, h.heap⟩
    show EvOk n (Enforcer.evaluator E)
    unfold Enforcer.evaluator
    cases he : E.eval with
    | none => exact evOk_new
    | some ev => exact h.eval ev he
  have h1 := hf _ hs
  refine ⟨noUb_map h1.1, h1.2.2, h.rm, h.model, fun ev hev => ?_, h.adapter, h.batch⟩
  obtain rfl := Option.some.inj hev
  exact h1.2.1

variable [IterOrder]

theorem inv_putRm {E : Enforcer} (h : Inv S L B n E) {k : Str} {a : Assertion}
    (hf : E.model.find c!"g" k = some a) :
    Inv S L B n { E with model := E.model.put c!"g" k { a with rm := some E.rm } } :=
  ⟨h.heap, h.rm, h.model.put hf rfl (h.model.wide _ _ a hf) (.inr ⟨E.rm, rfl, h.rm⟩), h.eval, h.adapter, h.batch⟩

theorem fine_buildIncremental (op : PolicyOp) {pt : Str} (hd : S.defined c!"g" pt) (rs : List Rule) :
    Fine (Inv S L B n) (buildIncremental op pt rs) := by
  intro E h
  unfold buildIncremental
  rw [M.bind_run, M.get_run]
  dsimp only
  cases hf : E.model.find c!"g" pt with
  | none => exact absurd hf (h.model.defs _ _ hd)
  | some a => exact fine_onRm h.rm (fine_buildLinks _ _ _) _ (inv_putRm h hf)

theorem find_putRm {m : Model} {k : Str} {a : Assertion} {q : Option Nat} {ks : List Str}
    (h : ∀ k ∈ ks, m.find c!"g" k ≠ none) : ∀ k' ∈ ks, (m.put c!"g" k { a with rm := q }).find c!"g" k' ≠ none := by
  intro k' hk'
  rw [Model.find_put]
  split
  · simp
  · exact h k' hk'

theorem buildAll_fine : ∀ (ks : List Str) (E : Enforcer), Inv S L B n E →
    (∀ k ∈ ks, E.model.find c!"g" k ≠ none) → (∀ u, (buildAll ks E).1 ≠ .ub u) ∧ Inv S L B n (buildAll ks E).2
  | [], _, h, _ => ⟨fun u h => by simp [buildAll] at h, h⟩
  | k :: ks, E, h, hk => by
    unfold buildAll
    rw [M.bind_run, M.get_run]
    dsimp only
    cases hf : E.model.find c!"g" k with
    | none => exact absurd hf (hk k List.mem_cons_self)
    | some a =>
      have h1 := inv_putRm h hf
      have h2 := fine_onRm (S := S) (L := L) (B := B) h.rm (fine_buildLinks a.value .add a.policy.iterate) _ h1
      rcases hr : onRm E.rm (Assertion.buildLinks a.value .add a.policy.iterate)
        { E with model := E.model.put c!"g" k { a with rm := some E.rm } } with ⟨o, E'⟩
      have hm : E'.model = E.model.put c!"g" k { a with rm := some E.rm } := by
        have := congrArg (fun x => x.2.model) hr
        exact this.symm
      rw [hr] at h2
      have hgoal : ((onModel (M.modify fun m => m.put c!"g" k { a with rm := some E.rm }) >>= fun _ =>
          onRm E.rm (Assertion.buildLinks a.value .add a.policy.iterate) >>= fun _ => buildAll ks) E) =
          (onRm E.rm (Assertion.buildLinks a.value .add a.policy.iterate) >>= fun _ => buildAll ks)
            { E with model := E.model.put c!"g" k { a with rm := some E.rm } } := rfl
      show (∀ u, ((onModel (M.modify fun m => m.put c!"g" k { a with rm := some E.rm }) >>= fun _ =>
          onRm E.rm (Assertion.buildLinks a.value .add a.policy.iterate) >>= fun _ => buildAll ks) E).1 ≠ .ub u) ∧
        Inv S L B n ((onModel (M.modify fun m => m.put c!"g" k { a with rm := some E.rm }) >>= fun _ =>
          onRm E.rm (Assertion.buildLinks a.value .add a.policy.iterate) >>= fun _ => buildAll ks) E).2
      rw [hgoal, M.bind_run, hr]
      cases o with
      | throw e => exact ⟨fun u h => by simp at h, h2.2⟩
      | ub u => exact absurd rfl (h2.1 u)
      | ok _ =>
        refine buildAll_fine ks E' h2.2 ?_
        rw [hm]
        exact find_putRm fun k' h' => hk k' (List.mem_cons_of_mem _ h')

theorem fine_buildRoleLinks : Fine (Inv S L B n) buildRoleLinks := by
  unfold buildRoleLinks
  refine .get fun E0 h0 => .bind (fine_onRm h0.rm fine_clear) fun _ =>
    .bind (fine_onModel (.modify fun m h => h.ensureSec _)) fun _ E h => ?_
  rw [M.bind_run, M.get_run]
  refine buildAll_fine _ E h fun k hk => ?_
  have := (UMap.get_isSome_iff _ _).mpr ((IterOrder.iter_perm _).mem_iff.mp hk)
  rw [Model.find_secMap] at this
  intro h0
  rw [h0] at this
  cases this

/-! ## The adapter -/

theorem tame_edit {a : Adapter} (h : Tame a) (c : AdapterCall) :
    (∀ u, (Adapter.edit c a).1 ≠ .ub u) ∧ Tame (Adapter.edit c a).2 ∧
      (Adapter.edit c a).2.isBatch = a.isBatch := by
  unfold Adapter.edit
  simp only
  unfold Tame at h
  unfold Tame Adapter.isBatch
  cases hk : a.kind with
  | string l =>
    cases c <;> simp
  | file p d w b => simp
  | custom v f b l resp =>
    rw [hk] at h
    exact ⟨h c, h, rfl⟩

theorem tame_save {a : Adapter} (h : Tame a) (m : Model) :
    (∀ u, (Adapter.savePolicy m a).1 ≠ .ub u) ∧ Tame (Adapter.savePolicy m a).2 ∧
      (Adapter.savePolicy m a).2.isBatch = a.isBatch := by
  have hrules : ∀ (pt : Str) (rs : List Rule) u, saveRules pt rs ≠ .ub u := by
    intro pt rs
    induction rs with
    | nil => intro u h; cases h
    | cons r rs ih =>
      refine noUb_bind (fun u h => ?_) fun _ _ => noUb_bind ih fun _ _ u h => by cases h
      unfold arrayToString at h
      simp only at h
      split at h <;> cases h
  have hasrt : ∀ (l : List (Str × Assertion)) u, saveAssertions l ≠ .ub u := by
    intro l
    induction l with
    | nil => intro u h; cases h
    | cons x l ih =>
      obtain ⟨pt, a⟩ := x
      exact noUb_bind (hrules _ _) fun _ _ => noUb_bind ih fun _ _ u h => by cases h
  have ht : ∀ u, policyText m ≠ .ub u :=
    noUb_bind (hasrt _) fun _ _ => noUb_bind (hasrt _) fun _ _ u h => by cases h
  unfold Adapter.savePolicy
  simp only
  unfold Tame at h
  unfold Tame Adapter.isBatch
  cases hk : a.kind with
  | string l =>
    simp only
    split
    · simp
    · cases hp : policyText m with
      | ok t => simp
      | throw e => simp
      | ub u => exact absurd hp (ht u)
  | file p d w b =>
    simp only
    split
    · simp
    · cases hp : policyText m with
      | ok t => simp only; split <;> simp
      | throw e => simp
      | ub u => exact absurd hp (ht u)
  | custom v f b l resp =>
    rw [hk] at h
    exact ⟨h _, h, rfl⟩

theorem fine_onAdapter {f : M Adapter α} {E : Enforcer} (h : Inv S L B n E) (hE : E.adapter ≠ none)
    (hf : ∀ a, Tame a → (∀ u, (f a).1 ≠ .ub u) ∧ Tame (f a).2 ∧ (f a).2.isBatch = a.isBatch) :
    (∀ u, (onAdapter f E).1 ≠ .ub u) ∧ Inv S L B n (onAdapter f E).2 := by
  unfold onAdapter
  cases ha : E.adapter with
  | none => exact absurd ha hE
  | some a =>
    obtain ⟨h1, h2, h3⟩ := hf a (h.adapter a ha)
    refine ⟨h1, h.heap, h.rm, h.model, h.eval, fun b hb => ?_, fun hB hs b hb => ?_⟩
    · obtain rfl := Option.some.inj hb; exact h2
    · obtain rfl := Option.some.inj hb; rw [h3]; exact h.batch hB hs a ha

theorem fine_catch {f : M Enforcer Unit} {E : Enforcer} (e : Exn)
    (hf : (∀ u, (f E).1 ≠ .ub u) ∧ Inv S L B n (f E).2) :
    (∀ u, (M.catchOnly e f E).1 ≠ .ub u) ∧ Inv S L B n (M.catchOnly e f E).2 := by
  unfold M.catchOnly
  rcases hr : f E with ⟨o, E'⟩
  rw [hr] at hf
  cases o with
  | ok _ => exact hf
  | ub u => exact absurd rfl (hf.1 u)
  | throw e' =>
    simp only
    split
    · exact ⟨fun u h => by simp at h, hf.2⟩
    · exact ⟨fun u h => by simp at h, hf.2⟩

theorem fine_autoSaveCall (c : AdapterCall) : Fine (Inv S L B n) (autoSaveCall c) := by
  intro E h
  unfold autoSaveCall
  rw [M.bind_run, M.get_run]
  dsimp only
  cases ha : E.adapter with
  | none => exact ⟨fun u h => by simp at h, h⟩
  | some a =>
    simp only
    split
    · exact fine_catch _ (fine_onAdapter h (by rw [ha]; simp) fun a ht => tame_edit ht c)
    · exact ⟨fun u h => by simp at h, h⟩

theorem fine_autoSaveBatch (hB : B) (c : AdapterCall) : Fine (Inv S L B n) (autoSaveBatch c) := by
  intro E h
  unfold autoSaveBatch
  rw [M.bind_run, M.get_run]
  dsimp only
  cases ha : E.adapter with
  | none => exact ⟨fun u h => by simp at h, h⟩
  | some a =>
    simp only
    split
    · next hs =>
      rw [if_pos (h.batch hB hs a ha)]
      exact fine_catch _ (fine_onAdapter h (by rw [ha]; simp) fun a ht => tame_edit ht c)
    · exact ⟨fun u h => by simp at h, h⟩

theorem fine_notify : Fine (Inv S L B n) notify :=
  .modify fun E h => by
    split
    · exact ⟨h.heap, h.rm, h.model, h.eval, h.adapter, h.batch⟩
    · exact h

/-! ## Edits -/

theorem fine_linkIfG {s t : Str} (hd : S.defined s t) (op : PolicyOp) (rs : List Rule) :
    Fine (Inv S L B n) (linkIfG s op t rs) :=
  .ite (fun h => fine_buildIncremental op (h ▸ hd) rs) fun _ => .pure _

variable {s t : Str}

theorem fine_addI (hd : S.defined s t) {r : Rule} (hr : S.width s t ≤ r.length) :
    Fine (Inv S L B n) (addPolicyI s t r) :=
  .bind (fine_onModel (fine_addPolicy hd hr)) fun _ => .ite (fun _ => .pure _) fun _ =>
    .bind (fine_linkIfG hd _ _) fun _ => .bind (fine_autoSaveCall _) fun _ => .bind fine_notify fun _ => .pure _

theorem fine_addManyI (hB : B) (hd : S.defined s t) {rs : List Rule} (hr : ∀ r ∈ rs, S.width s t ≤ r.length) :
    Fine (Inv S L B n) (addPoliciesI s t rs) :=
  .bind (fine_onModel (fine_addPolicies hd hr)) fun _ => .ite (fun _ => .pure _) fun _ =>
    .bind (fine_linkIfG hd _ _) fun _ => .bind (fine_autoSaveBatch hB _) fun _ => .bind fine_notify fun _ => .pure _

theorem fine_removeI (hd : S.defined s t) (r : Rule) : Fine (Inv S L B n) (removePolicyI s t r) :=
  .bind (fine_onModel (fine_eraseRule hd r)) fun _ => .ite (fun _ => .pure _) fun _ =>
    .bind (fine_linkIfG hd _ _) fun _ => .bind (fine_autoSaveCall _) fun _ => .bind fine_notify fun _ => .pure _

theorem fine_removeManyI (hB : B) (hd : S.defined s t) {rs : List Rule} (hr : ∀ r ∈ rs, S.width s t ≤ r.length) :
    Fine (Inv S L B n) (removePoliciesI s t rs) :=
  .bind (fine_onModel (fine_addPolicies hd hr)) fun _ => .ite (fun _ => .pure _) fun _ =>
    .bind (fine_linkIfG hd _ _) fun _ => .bind (fine_autoSaveBatch hB _) fun _ => .bind fine_notify fun _ => .pure _

theorem fine_removeFilteredI (hd : S.defined s t) {i : Nat} {vs : List Str} (hv : Fits (S.width s t) i vs) :
    Fine (Inv S L B n) (removeFilteredI s t i vs) :=
  .bind (fine_onModel (fine_removeFiltered hd hv)) fun _ => .ite (fun _ => .pure _) fun _ =>
    .bind (fine_linkIfG hd _ _) fun _ => .bind (fine_autoSaveCall _) fun _ => .bind fine_notify fun _ => .pure _

theorem fine_updateI (hd : S.defined s t) (o : Rule) {r : Rule} (hr : S.width s t ≤ r.length) :
    Fine (Inv S L B n) (updatePolicyI s t o r) :=
  .bind (fine_onModel (fine_updatePolicy hd o hr)) fun _ => .ite (fun _ => .pure _) fun _ =>
    .bind (fine_linkIfG hd _ _) fun _ => .bind (fine_linkIfG hd _ _) fun _ => .bind fine_notify fun _ => .pure _

theorem fine_updateManyI (hd : S.defined s t) (os : List Rule) {rs : List Rule}
    (hr : ∀ r ∈ rs, S.width s t ≤ r.length) : Fine (Inv S L B n) (updatePoliciesI s t os rs) :=
  .bind (fine_onModel (fine_updatePolicies hd os hr)) fun _ => .ite (fun _ => .pure _) fun _ =>
    .bind (fine_linkIfG hd _ _) fun _ => .bind (fine_linkIfG hd _ _) fun _ => .bind fine_notify fun _ => .pure _

theorem fine_thenLink {f : M Enforcer Bool} (hf : Fine (Inv S L B n) f) {link : M Enforcer Unit}
    (hl : Fine (Inv S L B n) link) : Fine (Inv S L B n) (do
      let b ← f
      let E' ← M.get
      if E'.autoBuild then link else pure ()
      pure b : M Enforcer Bool) :=
  .bind hf fun _ => .get fun _ _ => by
    split
    · exact .bind hl fun _ => .pure _
    · exact .bind (.pure ()) fun _ => .pure _

/-- What an edit needs: its policy type is defined; rules that come in have the length; the filter
reaches no further than the rules; a batch goes to an adapter that takes batches. -/
def EditNeeds (S : Shape) (E : Enforcer) : Edit → Prop
  | .add g pt r => S.defined (Edit.secOf g) pt ∧ S.width (Edit.secOf g) pt ≤ r.length
  | .addMany g pt rs | .removeMany g pt rs =>
    S.defined (Edit.secOf g) pt ∧ (∀ r ∈ rs, S.width (Edit.secOf g) pt ≤ r.length) ∧ BatchOk E
  | .remove g pt _ => S.defined (Edit.secOf g) pt
  | .removeFiltered g pt i vs => S.defined (Edit.secOf g) pt ∧ Fits (S.width (Edit.secOf g) pt) i vs
  | .update g pt _ r => S.defined (Edit.secOf g) pt ∧ S.width (Edit.secOf g) pt ≤ r.length
  | .updateMany pt _ rs => S.defined c!"p" pt ∧ ∀ r ∈ rs, S.width c!"p" pt ≤ r.length

theorem fine_edit {E : Enforcer} : ∀ {e : Edit}, EditNeeds S E e → Fine (Inv S L (BatchOk E) n) e.run
  | .add false .., h => fine_addI h.1 h.2
  | .add true .., h => fine_thenLink (fine_addI h.1 h.2) (fine_buildIncremental _ h.1 _)
  | .addMany false .., h => fine_addManyI h.2.2 h.1 h.2.1
  | .addMany true .., h => fine_addManyI h.2.2 h.1 h.2.1
  | .remove false .., h => fine_removeI h _
  | .remove true .., h => fine_thenLink (fine_removeI h _) fine_buildRoleLinks
  | .removeMany false .., h => fine_removeManyI h.2.2 h.1 h.2.1
  | .removeMany true .., h => fine_removeManyI h.2.2 h.1 h.2.1
  | .removeFiltered false .., h => fine_removeFilteredI h.1 h.2
  | .removeFiltered true .., h => fine_thenLink (fine_removeFilteredI h.1 h.2) fine_buildRoleLinks
  | .update false .., h => fine_updateI h.1 _ h.2
  | .update true .., h => fine_updateI h.1 _ h.2
  | .updateMany .., h => fine_updateManyI h.1 _ h.2

/-! ## Requests and queries -/

variable {lib : ExprLib}

theorem fine_enforceEx (hlib : SafeLib lib) (ha : S.asked) (matcher : Str) (vals : List ReqVal) (x : Rule) :
    Fine (Inv S L B n) (enforceEx lib matcher vals x) :=
  .get fun E h => by
    obtain ⟨⟨r, h1, h2⟩, -⟩ := h.model.asks ha
    rw [h1]
    exact .ite (fun _ => .pure _) fun _ => fine_runRequest
      (.bind (fine_onEv (fine_pushRequest vals h2)) fun _ => fine_mEnforce hlib h.model ha _ _) x

theorem fine_enforceExMap (hlib : SafeLib lib) (ha : S.asked) (matcher : Str) {vals : UMap Str ReqVal}
    (hv : ∀ xv ∈ vals, xv.2 = .json ∨ Evaluator.validSymbol (c!"r." ++ xv.1) = true) (x : Rule) :
    Fine (Inv S L B n) (enforceExMap lib matcher vals x) :=
  .get fun _ h => fine_runRequest (.bind (fine_onEv (fine_pushMap fun xv hx =>
    hv xv ((IterOrder.iter_perm _).mem_iff.mp hx))) fun _ => fine_mEnforce hlib h.model ha _ _) x

theorem fine_ask (hlib : SafeLib lib) (ha : S.asked) (matcher : Str) (vals : List ReqVal) :
    Fine (Inv S L B n) (enforceWithMatcher lib matcher vals) :=
  .bind (fine_enforceEx hlib ha _ _ _) fun _ => .pure _

theorem fine_batch (hlib : SafeLib lib) (ha : S.asked) (matcher : Str) :
    ∀ rs : List (List ReqVal), Fine (Inv S L B n) (batchEnforceWithMatcher lib matcher rs)
  | [] => .pure _
  | _ :: rs => .bind (fine_ask hlib ha _ _) fun _ => .bind (fine_batch hlib ha matcher rs) fun _ => .pure _

theorem fine_onGRm (hL : L) {f : M RM α} (hf : Fine Shut f) : Fine (Inv S L B n) (onGRm f) :=
  .get fun _ h => by
    obtain ⟨a, p, h1, h2⟩ := h.model.linked hL
    rw [h1]
    simp only [h2]
    exact fine_onRm (h.model.found h1 h2) hf

theorem fine_addRoles (hd : S.defined c!"g" c!"g") (hw : S.width c!"g" c!"g" ≤ 2) (user : Str) :
    ∀ rs : List Str, Fine (Inv S L B n) (addRolesForUser user rs)
  | [] => .pure _
  | r :: rs => .bind (fine_thenLink (fine_addI (r := [user, r]) hd hw) (fine_buildIncremental _ hd _)) fun _ =>
    .bind (fine_addRoles hd hw user rs) fun _ => .pure _

theorem fine_implicitRoles (name : Str) (d : List Str) :
    Fine (Inv S L B n) (getImplicitRolesForUser name d) :=
  .get fun _ h => fine_onRm h.rm (fine_implicit name d)

theorem fine_implicitPermLoop (hd : S.defined c!"p" c!"p") {d : List Str} (hw : d.length < S.width c!"p" c!"p") :
    ∀ rs : List Str, Fine (Inv S L B n) (implicitPermLoop d rs)
  | [] => .pure _
  | r :: rs => by
    have ih : Fine (Inv S L B n) (implicitPermLoop d rs) := fine_implicitPermLoop hd hw rs
    unfold implicitPermLoop
    simp only
    split
    · refine .bind (fine_onModel (fine_getFiltered hd fun j v hj _ => ?_)) fun _ => .bind ih fun _ => .pure _
      have := (List.getElem?_eq_some_iff.mp hj).1
      simp only [List.length_cons, List.length_nil] at this hw
      omega
    · refine .bind (fine_onModel (fine_getFiltered hd fun j v hj _ => ?_)) fun _ => .bind ih fun _ => .pure _
      have := (List.getElem?_eq_some_iff.mp hj).1
      simp only [List.length_cons, List.length_nil] at this hw
      omega

theorem fine_implicitUsersLoop (hlib : SafeLib lib) (ha : S.asked) {perm : List Str} (hp : 2 ≤ perm.length) :
    ∀ ss : List Str, Fine (Inv S L B n) (implicitUsersLoop lib perm ss)
  | [] => .pure _
  | _ :: ss => .bind (.lift (noUb_vecAt (by omega))) fun _ => .bind (.lift (noUb_vecAt (by omega))) fun _ =>
    .bind (fine_ask hlib ha _ _) fun _ => .bind (fine_implicitUsersLoop hlib ha hp ss) fun _ => .pure _

/-! ## All calls -/

/-- A model of the shape `S` that no enforcer has used. -/
def Fresh (S : Shape) (m : Model) : Prop :=
  m.Unused ∧ (∀ s t, S.defined s t → m.find s t ≠ none) ∧
  (∀ s t a, m.find s t = some a → ∀ r ∈ a.policy.items, S.width s t ≤ r.length) ∧ (S.asked → Askable m)

theorem Fresh.inv {m : Model} (h : Fresh S m) (n : Nat) : MInv S False n m :=
  ⟨h.2.1, h.2.2.1, h.2.2.2, False.elim, fun sm hsm ta hta p hp => by rw [h.1 sm hsm ta hta] at hp; cases hp⟩

/-- What a call needs in order to be safe. -/
def Needs (S : Shape) (E : Enforcer) : Method → Prop
  | .edit e => EditNeeds S E e
  | .loadPolicy => ∃ a, E.adapter = some a ∧ ∀ L n, Fine (MInv S L n) a.loadPolicy
  | .savePolicy => E.adapter ≠ none
  | .buildIncremental _ pt _ => S.defined c!"g" pt
  | .setAdapter a => Tame a
  | .setModel m => Fresh S m
  | .ask .. | .askEx .. | .batch .. => S.asked
  | .askMap _ vals _ =>
    S.asked ∧ ∀ xv ∈ vals, xv.2 = .json ∨ Evaluator.validSymbol (c!"r." ++ xv.1) = true
  | .allValues sec i => ∀ t, i < S.width sec t
  | .namedValues sec pt i => S.defined sec pt ∧ i < S.width sec pt
  | .getPolicy sec pt | .hasPolicy sec pt _ => S.defined sec pt
  | .getFiltered sec pt i vs => S.defined sec pt ∧ Fits (S.width sec pt) i vs
  | .roles .. | .users .. | .hasRole .. => Linked E
  | .addRoles .. => S.defined c!"g" c!"g" ∧ S.width c!"g" c!"g" ≤ 2
  | .deleteUser u => (S.defined c!"g" c!"g" ∧ Fits (S.width c!"g" c!"g") 0 [u]) ∧
    S.defined c!"p" c!"p" ∧ Fits (S.width c!"p" c!"p") 0 [u]
  | .deleteRole r => (S.defined c!"g" c!"g" ∧ Fits (S.width c!"g" c!"g") 1 [r]) ∧
    S.defined c!"p" c!"p" ∧ Fits (S.width c!"p" c!"p") 0 [r]
  | .implicitPermissions _ d => S.defined c!"p" c!"p" ∧ (d.length ≤ 1 → d.length < S.width c!"p" c!"p")
  | .implicitUsers perm => S.asked ∧ (∀ t, 0 < S.width c!"p" t) ∧ (∀ t, 1 < S.width c!"g" t) ∧ 2 ≤ perm.length
  | _ => True

theorem loadPolicy_run {E : Enforcer} {a : Adapter} (ha : E.adapter = some a) :
    Enforcer.loadPolicy E = (onModel a.loadPolicy >>= fun _ => M.get >>= fun E =>
      if E.autoBuild then buildRoleLinks else pure ())
      { E with model := E.model.clearPolicy, adapter := some { a with log := a.log ++ [.load] } } := by
  unfold Enforcer.loadPolicy
  rw [M.bind_run]
  show (match E.adapter with
    | none => M.ub .nullDeref
    | some a => (do
      onAdapter (M.modify fun a => { a with log := a.log ++ [AdapterCall.load] })
      onModel a.loadPolicy
      let E ← M.get
      if E.autoBuild then buildRoleLinks else pure () : M Enforcer Unit))
    { E with model := E.model.clearPolicy } = _
  rw [ha]
  simp only
  rw [M.bind_run]
  unfold onAdapter
  rfl

theorem Inv.atLoad {E : Enforcer} (h : Inv S L B n E) {a : Adapter} (ha : E.adapter = some a) :
    Inv S L B n { E with model := E.model.clearPolicy,
                         adapter := some { a with log := a.log ++ [.load] } } := by
  refine ⟨h.heap, h.rm, h.model.clearPolicy, h.eval, fun b hb => ?_, fun hB hs b hb => ?_⟩
  · obtain rfl := Option.some.inj hb
    exact h.adapter a ha
  · obtain rfl := Option.some.inj hb
    exact h.batch hB hs a ha

theorem fine_loadPolicy {E : Enforcer} (h : Inv S L B n E)
    (hl : ∃ a, E.adapter = some a ∧ ∀ L n, Fine (MInv S L n) a.loadPolicy) :
    (∀ u, (Enforcer.loadPolicy E).1 ≠ .ub u) ∧ Inv S L B n (Enforcer.loadPolicy E).2 := by
  obtain ⟨a, ha, hf⟩ := hl
  rw [loadPolicy_run ha]
  exact (Fine.bind (fine_onModel (hf L n)) fun _ => .get fun _ _ => .ite (fun _ => fine_buildRoleLinks)
    fun _ => .pure _) _ (h.atLoad ha)

theorem fine_savePolicy {E : Enforcer} (h : Inv S L B n E) (ha : E.adapter ≠ none) :
    (∀ u, (Enforcer.savePolicy E).1 ≠ .ub u) ∧ Inv S L B n (Enforcer.savePolicy E).2 := by
  unfold Enforcer.savePolicy
  rw [M.bind_run, M.get_run]
  dsimp only
  cases hk : E.adapter with
  | none => exact absurd hk ha
  | some a =>
    simp only
    split
    · exact ⟨fun u h => by simp [M.throw] at h, h⟩
    · have h1 : Inv S L B n { E with model := (E.model.ensureSec c!"p").ensureSec c!"g" } :=
        ⟨h.heap, h.rm, (h.model.ensureSec _).ensureSec _, h.eval, h.adapter, h.batch⟩
      have h2 := fine_onAdapter h1 (f := Adapter.savePolicy ((E.model.ensureSec c!"p").ensureSec c!"g")) ha
        fun a ht => tame_save ht _
      have e : ((onModel (M.modify fun m => (m.ensureSec c!"p").ensureSec c!"g") >>= fun _ => M.get >>= fun E =>
          onAdapter (Adapter.savePolicy E.model) >>= fun _ => M.modify fun E =>
            { E with watcher := E.watcher.map fun w => { w with log := w.log ++ [.update] } }) E) =
          (onAdapter (Adapter.savePolicy ((E.model.ensureSec c!"p").ensureSec c!"g")) >>= fun _ => M.modify fun E =>
            { E with watcher := E.watcher.map fun w => { w with log := w.log ++ [.update] } })
            { E with model := (E.model.ensureSec c!"p").ensureSec c!"g" } := rfl
      rw [e, M.bind_run]
      rcases hr : onAdapter (Adapter.savePolicy ((E.model.ensureSec c!"p").ensureSec c!"g"))
        { E with model := (E.model.ensureSec c!"p").ensureSec c!"g" } with ⟨o, E'⟩
      rw [hr] at h2
      cases o with
      | throw e => exact ⟨fun u h => by simp at h, h2.2⟩
      | ub u => exact absurd rfl (h2.1 u)
      | ok _ => exact ⟨fun u h => by simp at h, h2.2.heap, h2.2.rm, h2.2.model, h2.2.eval, h2.2.adapter, h2.2.batch⟩

theorem Inv.change {E E' : Enforcer} (h : Inv S L B n E) {L' B' : Prop} (h1 : E'.heap = E.heap) (h2 : E'.rm = E.rm)
    (h3 : E'.model = E.model) (h4 : E'.eval = E.eval) (h5 : ∀ a, E'.adapter = some a → Tame a)
    (hL : L' → Linked E') (hB : B' → BatchOk E') : Inv S L' B' n E' where
  heap := h1 ▸ h.heap
  rm := h2 ▸ h.rm
  model := ⟨h3 ▸ h.model.defs, h3 ▸ h.model.wide, h3 ▸ h.model.asks, hL, h3 ▸ h.model.ptr⟩
  eval := h4 ▸ h.eval
  adapter := h5
  batch := hB

/-- The calls that are not setters. -/
theorem fine_call (hlib : SafeLib lib) {E : Enforcer} {c : Method} (hn : Needs S E c)
    (hc : match c with
      | .loadPolicy | .savePolicy | .enableAutoSave _ | .setAdapter _ | .setModel _ => False
      | _ => True) : Fine (Inv S (Linked E) (BatchOk E) n) (c.run lib) := by
  have fin : ∀ {β : Type} {f : M Enforcer β} (g : β → Answer), Fine (Inv S (Linked E) (BatchOk E) n) f →
      Fine (Inv S (Linked E) (BatchOk E) n) (f >>= fun a => pure (g a)) := fun g h => h.bind fun _ => .pure _
  have sw : ∀ f : Enforcer → Enforcer, (∀ E, (f E).heap = E.heap ∧ (f E).rm = E.rm ∧ (f E).model = E.model ∧
      (f E).eval = E.eval ∧ (f E).adapter = E.adapter ∧ (f E).autoSave = E.autoSave) →
      Fine (Inv S (Linked E) (BatchOk E) n) (M.modify f) := fun f hf => .modify fun E' h => by
    obtain ⟨h1, h2, h3, h4, h5, h6⟩ := hf E'
    exact h.change h1 h2 h3 h4 (h5 ▸ h.adapter)
      (fun hl => by unfold Linked; rw [h3]; exact h.model.linked hl)
      (fun hb => by unfold BatchOk; rw [h5, h6]; exact h.batch hb)
  cases c with
  | edit e => exact fin _ (fine_edit hn)
  | loadPolicy => exact hc.elim
  | savePolicy => exact hc.elim
  | clearPolicy => exact fin _ (fine_onModel (.modify fun _ h => h.clearPolicy))
  | buildRoleLinks => exact fin _ fine_buildRoleLinks
  | buildIncremental op pt rs => exact fin _ (fine_buildIncremental op hn rs)
  | enableEnforce b => exact fin _ (sw _ fun _ => ⟨rfl, rfl, rfl, rfl, rfl, rfl⟩)
  | enableAutoSave b => exact hc.elim
  | enableAutoBuild b => exact fin _ (sw _ fun _ => ⟨rfl, rfl, rfl, rfl, rfl, rfl⟩)
  | enableAutoNotify b => exact fin _ (sw _ fun _ => ⟨rfl, rfl, rfl, rfl, rfl, rfl⟩)
  | setAdapter a => exact hc.elim
  | setWatcher w => exact fin _ (sw _ fun _ => ⟨rfl, rfl, rfl, rfl, rfl, rfl⟩)
  | setModel m => exact hc.elim
  | addMatchingFunc f =>
    exact fin _ (.get fun _ h => .bind (fine_onRm h.rm (.modify fun _ h => h)) fun _ => .pure _)
  | ask matcher vals => exact fin _ (fine_ask hlib hn _ _)
  | askEx matcher vals ex => exact fin _ (fine_enforceEx hlib hn _ _ _)
  | askMap matcher vals ex => exact fin _ (fine_enforceExMap hlib hn.1 _ hn.2 _)
  | batch matcher rs => exact fin _ (fine_batch hlib hn _ _)
  | allValues sec i => exact fin _ (fine_onModel (fine_allValues hn))
  | namedValues sec pt i => exact fin _ (fine_onModel (fine_values hn.1 hn.2))
  | getPolicy sec pt => exact fin _ (fine_onModel (fine_getPolicy hn))
  | getFiltered sec pt i vs => exact fin _ (fine_onModel (fine_getFiltered hn.1 hn.2))
  | hasPolicy sec pt r => exact fin _ (fine_onModel (fine_hasPolicy hn r))
  | roles name domain => exact fin _ (fine_onGRm hn (fine_getRoles _ _))
  | users name domain => exact fin _ (fine_onGRm hn (fine_getUsers _ _))
  | hasRole name role => exact fin _ (.bind (fine_onGRm hn (fine_getRoles _ _)) fun _ => .pure _)
  | addRoles user rs => exact fin _ (fine_addRoles hn.1 hn.2 user rs)
  | deleteUser user =>
    exact fin _ (.bind (fine_thenLink (fine_removeFilteredI hn.1.1 hn.1.2) fine_buildRoleLinks) fun _ =>
      .bind (fine_removeFilteredI hn.2.1 hn.2.2) fun _ => .pure _)
  | deleteRole role =>
    exact fin _ (.bind (fine_thenLink (fine_removeFilteredI hn.1.1 hn.1.2) fine_buildRoleLinks) fun _ =>
      .bind (fine_removeFilteredI hn.2.1 hn.2.2) fun _ => .pure _)
  | implicitRoles name domain => exact fin _ (fine_implicitRoles _ _)
  | implicitPermissions name domain =>
    exact fin _ (.bind (fine_implicitRoles _ _) fun _ => .ite (fun _ => .throw _) fun h =>
      fine_implicitPermLoop hn.1 (hn.2 (by omega)) _)
  | implicitUsers perm =>
    exact fin _ (.bind (fine_onModel (fine_allValues hn.2.1)) fun _ =>
      .bind (fine_onModel (fine_allValues hn.2.2.1)) fun _ =>
      .bind (fine_onModel (fine_allValues fun t => Nat.lt_of_succ_lt (hn.2.2.1 t))) fun _ =>
      .bind (fine_implicitUsersLoop hlib hn.1 hn.2.2.2 _) fun _ => .pure _)

theorem Inv.weaken {E : Enforcer} (h : Inv S L B n E) : Inv S False False n E :=
  ⟨h.heap, h.rm, h.model.weaken (Nat.le_refl _), h.eval, h.adapter, False.elim⟩

theorem Inv.own {E : Enforcer} (h : Inv S L B n E) : Inv S (Linked E) (BatchOk E) n E :=
  h.change rfl rfl rfl rfl h.adapter id id

/-- No undefined behaviour, the shape again, and `g` has its role manager unless the model is replaced. -/
theorem call_ok (hlib : SafeLib lib) {E : Enforcer} (h : Inv S L B n E) {c : Method} (hn : Needs S E c) :
    (∀ u, (c.run lib E).1 ≠ .ub u) ∧ (∃ n', Inv S False False n' (c.run lib E).2) ∧
      (Linked E → (∀ m, c ≠ .setModel m) → Linked (c.run lib E).2) := by
  have fin : ∀ {β : Type} {f : M Enforcer β} (g : β → Answer),
      ((∀ u, (f E).1 ≠ .ub u) ∧ Inv S (Linked E) (BatchOk E) n (f E).2) →
      (∀ u, ((f >>= fun a => pure (g a)) E).1 ≠ .ub u) ∧
        Inv S (Linked E) (BatchOk E) n ((f >>= fun a => pure (g a)) E).2 := by
    intro β f g hf
    rw [M.bind_run]
    rcases hr : f E with ⟨o, E'⟩
    rw [hr] at hf
    cases o with
    | ok a => exact ⟨fun u h => by simp at h, hf.2⟩
    | throw e => exact ⟨fun u h => by simp at h, hf.2⟩
    | ub u => exact absurd rfl (hf.1 u)
  have out : ((∀ u, (c.run lib E).1 ≠ .ub u) ∧ Inv S (Linked E) (BatchOk E) n (c.run lib E).2) →
      (∀ u, (c.run lib E).1 ≠ .ub u) ∧ (∃ n', Inv S False False n' (c.run lib E).2) ∧
      (Linked E → (∀ m, c ≠ .setModel m) → Linked (c.run lib E).2) :=
    fun h => ⟨h.1, ⟨n, h.2.weaken⟩, fun hl _ => h.2.model.linked hl⟩
  cases c with
  | loadPolicy => exact out (fin _ (fine_loadPolicy h.own hn))
  | savePolicy => exact out (fin _ (fine_savePolicy h.own hn))
  | enableAutoSave b =>
    exact ⟨fun u h => (by cases h), ⟨n, h.change rfl rfl rfl rfl h.adapter False.elim False.elim⟩, fun hl _ => hl⟩
  | setAdapter a =>
    exact ⟨fun u h => (by cases h), ⟨n, h.change rfl rfl rfl rfl
      (fun b hb => by obtain rfl := Option.some.inj hb; exact hn) False.elim False.elim⟩, fun hl _ => hl⟩
  | setModel m =>
    refine ⟨fun u h => (by cases h), ⟨n + 1, ?_⟩, fun _ h => absurd rfl (h m)⟩
    rw [Method.setModel_run]
    refine ⟨⟨by simp [h.heap.1], fun rm hrm => ?_⟩, by simp [h.heap.1], hn.inv _, fun ev hev => (by cases hev),
      h.adapter, False.elim⟩
    rcases List.mem_append.mp hrm with h' | h'
    · exact h.heap.2 rm h'
    · obtain rfl := List.mem_singleton.mp h'
      intro a b hb
      simp [RM.new, RM.direct] at hb
  | _ => exact out (fine_call hlib hn trivial E h.own)

end Safe
end Casbin
