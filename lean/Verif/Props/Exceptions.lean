import Verif.Props.Store

/-!
# C154: editing calls that raise an exception

The internal methods change the rules first and hand the change on to the adapter afterwards
(internal_api.cpp 33–55 and the same lines of the other methods), so an adapter that rejects the call
rejects it too late.
-/

set_option linter.unusedSectionVars false

namespace Casbin
namespace ExceptionProps

open Enforcer Fixtures StoreProps PolicyProps

variable [IterOrder]

/-! ## What is claimed -/

/-- The adapter of the enforcer answers the call with an exception, and not with the one that says that
the method is not implemented. -/
def Rejects (E : Enforcer) (c : AdapterCall) (x : Exn) : Prop :=
  ∃ a, E.adapter = some a ∧ E.autoSave = true ∧ (Adapter.edit c a).1 = .throw x ∧ x ≠ .unsupported

/-- The calls whose rules are handed on as a batch, which takes an adapter that has the batch methods. -/
def Batch : Edit → Prop
  | .addMany _ _ _ | .removeMany _ _ _ => True
  | _ => False

/-! ## Helpers -/

/-- The saving step of a call. -/
def saveOf : Edit → M Enforcer Unit
  | .add g pt r => autoSaveCall (.add (Edit.secOf g) pt r)
  | .addMany g pt rs => autoSaveBatch (.addMany (Edit.secOf g) pt rs)
  | .remove g pt r => autoSaveCall (.remove (Edit.secOf g) pt r)
  | .removeMany g pt rs => autoSaveBatch (.removeMany (Edit.secOf g) pt rs)
  | .removeFiltered g pt i vs => autoSaveCall (.removeFiltered (Edit.secOf g) pt i vs)
  | .update _ _ _ _ => pure ()
  | .updateMany _ _ _ => pure ()

/-- What follows the change of the rules. -/
def rest (save : M Enforcer Unit) (E : Enforcer) : Outcome Bool × Model → Outcome Bool × Enforcer
  | (.ok true, m) =>
    match save { E with model := m } with
    | (.ok _, E') => (.ok true, E'.afterNotify)
    | (.throw x, E') => (.throw x, E')
    | (.ub u, E') => (.ub u, E')
  | (.ok false, m) => (.ok false, { E with model := m })
  | (.throw x, m) => (.throw x, { E with model := m })
  | (.ub u, m) => (.ub u, { E with model := m })

theorem rest_shape (op : M Model Bool) (x : PolicyOp) (pt : Str) (l : List Rule)
    (save : M Enforcer Unit) (E : Enforcer) :
    (do
      let a ← onModel op
      if !a then pure false
      else do
        linkIfG c!"p" x pt l
        save
        notify
        pure true : M Enforcer Bool) E = rest save E (op E.model) := by
  simp only [M.bind_run, onModel_run]
  rcases op E.model with ⟨o, m⟩
  cases o with
  | throw e => rfl
  | ub u => rfl
  | ok b =>
    cases b with
    | false => rfl
    | true =>
      simp only [Bool.not_true, Bool.false_eq_true, if_false, M.bind_run, linkIfG_p, rest]
      rcases save { E with model := m } with ⟨o, E'⟩
      cases o <;> rfl

theorem run_p (e : Edit) (hg : e.target.1 = c!"p") (E : Enforcer) :
    e.run E = rest (saveOf e) E (e.onStore E.model) := by
  have hgp : ∀ g : Bool, Edit.secOf g = c!"p" → g = false := by decide
  cases e with
  | add g pt r =>
    obtain rfl := hgp g hg
    exact rest_shape ..
  | addMany g pt rs =>
    obtain rfl := hgp g hg
    exact rest_shape ..
  | remove g pt r =>
    obtain rfl := hgp g hg
    exact rest_shape ..
  | removeMany g pt rs =>
    obtain rfl := hgp g hg
    exact rest_shape ..
  | removeFiltered g pt i vs =>
    obtain rfl := hgp g hg
    simp only [Edit.run, removeFilteredNamedPolicy, removeFilteredI, Edit.onStore, M.bind_run,
      onModel_run, Edit.secOf, Bool.false_eq_true, if_false, saveOf]
    rcases Model.removeFilteredPolicy c!"p" pt i vs E.model with ⟨o, m⟩
    cases o with
    | throw e => rfl
    | ub u => rfl
    | ok b =>
      obtain ⟨b, l⟩ := b
      cases b with
      | false => rfl
      | true =>
        simp only [Bool.not_true, Bool.false_eq_true, if_false, M.bind_run, linkIfG_p, M.pure_run, rest]
        rcases autoSaveCall (.removeFiltered c!"p" pt i vs) { E with model := m } with ⟨o, E'⟩
        cases o <;> rfl
  | update g pt o n =>
    obtain rfl := hgp g hg
    show updatePolicyI c!"p" pt o n E = rest _ E (Model.updatePolicy c!"p" pt o n E.model)
    rw [updatePolicyI_p_run]
    rcases Model.updatePolicy c!"p" pt o n E.model with ⟨x, m⟩
    cases x with
    | throw e => rfl
    | ub e => rfl
    | ok b => cases b <;> rfl
  | updateMany pt o n =>
    show updatePoliciesI c!"p" pt o n E = rest _ E (Model.updatePolicies c!"p" pt o n E.model)
    rw [updatePoliciesI_p_run]
    rcases Model.updatePolicies c!"p" pt o n E.model with ⟨x, m⟩
    cases x with
    | throw e => rfl
    | ub e => rfl
    | ok b => cases b <;> rfl

theorem call_throws (c : AdapterCall) (E : Enforcer) (x : Exn) :
    (autoSaveCall c E).1 = .throw x ↔ Rejects E c x := by
  unfold autoSaveCall Rejects
  simp only [M.bind_run, M.get_run]
  cases ha : E.adapter with
  | none => simp
  | some a =>
    by_cases hs : E.autoSave = true
    · simp only [hs, if_true, M.catchOnly, onAdapter, ha, Option.some.injEq, true_and,
        exists_eq_left']
      rcases hr : Adapter.edit c a with ⟨o, a'⟩
      cases o with
      | ok u => simp
      | ub u => simp
      | throw y =>
        by_cases hy : y = .unsupported
        · subst hy
          simp only [if_true, Outcome.throw.injEq]
          constructor
          · intro h; simp at h
          · rintro ⟨h1, h2⟩; exact absurd h1.symm h2
        · simp only [hy, if_false, Outcome.throw.injEq]
          constructor
          · rintro rfl; exact ⟨rfl, hy⟩
          · exact fun h => h.1
    · simp [hs]

theorem batch_throws (c : AdapterCall) (E : Enforcer) (x : Exn) :
    (autoSaveBatch c E).1 = .throw x ↔
      Rejects E c x ∧ ∀ a, E.adapter = some a → a.isBatch = true := by
  have h := call_throws c E x
  unfold autoSaveCall at h
  unfold autoSaveBatch
  simp only [M.bind_run, M.get_run] at h ⊢
  cases ha : E.adapter with
  | none => rw [ha] at h; simpa using h
  | some a =>
    rw [ha] at h
    simp only [Option.some.injEq, forall_eq'] at h ⊢
    by_cases hs : E.autoSave = true
    · simp only [hs, if_true] at h ⊢
      by_cases hb : a.isBatch = true
      · simpa [hb] using h
      · simp [hb, M.ub]
    · simp only [hs, Bool.false_eq_true, if_false] at h ⊢
      simp [← h]

/-- The saving step raises an exception. -/
theorem save_throws (e : Edit) (E : Enforcer) (x : Exn) :
    (saveOf e E).1 = .throw x ↔ (∃ c, e.call = some c ∧ Rejects E c x) ∧
      (Batch e → ∀ a, E.adapter = some a → a.isBatch = true) := by
  cases e <;> simp [saveOf, Edit.call, Batch, call_throws, batch_throws]

theorem call_state (c : AdapterCall) {E : Enforcer} {x : Exn} (h : Rejects E c x) :
    ∃ a, E.adapter = some a ∧
      (autoSaveCall c E).2 = { E with adapter := some { a with log := a.log ++ [c] } } := by
  obtain ⟨a, ha, hs, hx, hu⟩ := h
  refine ⟨a, ha, ?_⟩
  rw [autoSaveCall_state]
  unfold afterAdapter
  simp only [ha, hs, if_true]
  have : (Adapter.edit c a).2 = { a with log := a.log ++ [c] } := by
    unfold Adapter.edit at hx ⊢
    cases hk : a.kind with
    | string l => cases c <;> simp_all
    | file p l s w => simp
    | custom v f b l r => simp
  rw [this]

theorem save_state (e : Edit) (E : Enforcer) {x : Exn} (h : (saveOf e E).1 = .throw x) :
    ∃ c a, e.call = some c ∧ E.adapter = some a ∧
      (saveOf e E).2 = { E with adapter := some { a with log := a.log ++ [c] } } := by
  have hb : ∀ c, (∀ a, E.adapter = some a → a.isBatch = true) → autoSaveBatch c E = autoSaveCall c E := by
    intro c hb
    unfold autoSaveBatch autoSaveCall
    simp only [M.bind_run, M.get_run]
    cases ha : E.adapter with
    | none => rfl
    | some a => simp [hb a ha]
  have h' := (save_throws e E x).mp h
  obtain ⟨⟨c, hc, hr⟩, hbt⟩ := h'
  obtain ⟨a, ha, hst⟩ := call_state c hr
  refine ⟨c, a, hc, ha, ?_⟩
  cases e <;> simp only [Edit.call, Option.some.injEq, reduceCtorEq] at hc <;> subst hc <;>
    simp only [saveOf]
  · exact hst
  · rw [hb _ (hbt trivial)]; exact hst
  · exact hst
  · rw [hb _ (hbt trivial)]; exact hst
  · exact hst

omit [IterOrder] in
/-- The reference raises nothing. -/
theorem reference_ok (e : Edit) (rs : List Rule) (x : Exn) : (reference e rs).1 ≠ .throw x := by
  cases e <;> simp only [reference] <;> (try split) <;> simp

theorem thrown {e : Edit} {E : Enforcer} {rs : List Rule} {x : Exn} (h : Holds E e.target rs)
    (hg : e.target.1 = c!"p") :
    (e.run E).1 = .throw x ↔ (reference e rs).1 = .ok true ∧
      (saveOf e { E with model := (e.onStore E.model).2 }).1 = .throw x := by
  obtain ⟨a, ha, hp⟩ := h
  have hs := onStore_exact e ha hp
  rw [run_p e hg E]
  have hne := reference_ok e rs
  rcases ho : e.onStore E.model with ⟨o, m⟩
  have ho1 : (reference e rs).1 = o := by rw [ho] at hs; exact (Prod.mk.inj hs).1.symm
  rw [ho1] at hne ⊢
  cases o with
  | throw y => exact absurd rfl (hne y)
  | ub u => simp [rest]
  | ok b =>
    cases b with
    | false => simp [rest]
    | true =>
      simp only [rest, true_and]
      rcases saveOf e { E with model := m } with ⟨o, E'⟩
      cases o <;> simp

theorem rejects_model {E : Enforcer} {m : Model} {c : AdapterCall} {x : Exn} :
    Rejects { E with model := m } c x ↔ Rejects E c x := Iff.rfl

/-! ## C154 -/

/-- C154, when: a call about policy rules raises an exception exactly when it has changed the rules as
asked and the adapter then rejects the call it is handed. -/
theorem C154_when {e : Edit} {E : Enforcer} {rs : List Rule} (h : Holds E e.target rs)
    (hg : e.target.1 = c!"p") (x : Exn) :
    (e.run E).1 = .throw x ↔
      (reference e rs).1 = .ok true ∧ (∃ c, e.call = some c ∧ Rejects E c x) ∧
        (Batch e → ∀ a, E.adapter = some a → a.isBatch = true) := by
  rw [thrown h hg, save_throws]
  rfl

/-- C154, what is left behind: the rules are those of a call that succeeded, the adapter has been asked
once, and nothing else is different; in particular no watcher has been told. -/
theorem C154_left {e : Edit} {E : Enforcer} {rs : List Rule} (h : Holds E e.target rs)
    (hg : e.target.1 = c!"p") {x : Exn} (hx : (e.run E).1 = .throw x) :
    Holds (e.run E).2 e.target (reference e rs).2 ∧
    ∃ c a m, e.call = some c ∧ E.adapter = some a ∧
      (e.run E).2 = { E with model := m, adapter := some { a with log := a.log ++ [c] } } := by
  refine ⟨(C150_call e h).1, ?_⟩
  have ht := (thrown h hg).mp hx
  obtain ⟨c, a, hc, ha, hst⟩ := save_state e _ ht.2
  refine ⟨c, a, (e.onStore E.model).2, hc, ha, ?_⟩
  rw [run_p e hg E] at hx ⊢
  rcases ho : e.onStore E.model with ⟨o, m⟩
  rw [ho] at ht hst hx
  obtain ⟨a', ha', hp'⟩ := h
  have hs := onStore_exact e ha' hp'
  rw [ho] at hs
  obtain rfl : o = .ok true := (Prod.mk.inj hs).1.trans ht.1
  simp only [rest]
  rcases hsv : saveOf e { E with model := m } with ⟨o', E'⟩
  rw [hsv] at ht hst
  obtain ⟨_, rfl⟩ := ht
  exact hst

/-- The call is made again: an added rule is there, a filter matches no rule. -/
def Idle : Edit → Prop
  | .add _ _ _ => True
  | .addMany _ _ ns | .removeMany _ _ ns => ns ≠ []
  | .removeFiltered _ _ _ _ => True
  | _ => False

omit [IterOrder] in
theorem idle_again {e : Edit} {rs : List Rule} (hi : Idle e) (h : (reference e rs).1 = .ok true) :
    reference e (reference e rs).2 = (.ok false, (reference e rs).2) := by
  have key : ∀ ns : List Rule, ns ≠ [] → (appendNew ns rs).1 = true →
      appendNew ns (appendNew ns rs).2 = (false, (appendNew ns rs).2) := by
    intro ns hns h
    cases ns with
    | nil => exact absurd rfl hns
    | cons n ns =>
      unfold appendNew at h ⊢
      by_cases hc : ∃ k ∈ n :: ns, ∃ s ∈ rs, k.Perm s
      · rw [if_pos hc] at h; cases h
      · rw [if_neg hc, if_pos ⟨n, by simp, n, by simp, .refl _⟩]
  cases e with
  | add g pt r =>
    simp only [reference, Outcome.ok.injEq] at h ⊢
    rw [key [r] (by simp) h]
  | addMany g pt ns =>
    simp only [reference, Outcome.ok.injEq] at h ⊢
    rw [key ns hi h]
  | removeMany g pt ns =>
    simp only [reference, Outcome.ok.injEq] at h ⊢
    rw [key ns hi h]
  | removeFiltered g pt i vs =>
    have hc : ¬ ∃ r ∈ rs, Short r i vs := by
      intro hc
      simp only [reference, if_pos hc] at h
      cases h
    have hr : reference (.removeFiltered g pt i vs) rs = (.ok (decide (∃ r ∈ rs, Model.FilterMatch r i vs)),
        rs.filter fun r => ¬ Model.FilterMatch r i vs) := by
      simp only [reference, if_neg hc]
    rw [hr]
    have h2 : ¬ ∃ r ∈ rs.filter (fun r => ¬ Model.FilterMatch r i vs), Short r i vs := by
      rintro ⟨r, hr, hs⟩; exact hc ⟨r, (List.mem_filter.mp hr).1, hs⟩
    have h3 : ¬ ∃ r ∈ rs.filter (fun r => ¬ Model.FilterMatch r i vs), Model.FilterMatch r i vs := by
      rintro ⟨r, hr, hs⟩
      have := (List.mem_filter.mp hr).2
      simp only [hs, not_true_eq_false, decide_false, Bool.false_eq_true] at this
    simp only [reference, if_neg h2, decide_eq_false h3, List.filter_filter, Bool.and_self]
  | remove g pt r => exact absurd hi id
  | update g pt o n => exact absurd hi id
  | updateMany pt o n => exact absurd hi id

/-- C154, no second chance: made again after the exception, a call that adds rules, or removes those that
match a filter, answers `false`, changes nothing and does not ask the adapter: what the adapter has
missed it does not get by repeating the call. -/
theorem C154_again {e : Edit} {E : Enforcer} {rs : List Rule} (h : Holds E e.target rs)
    (hg : e.target.1 = c!"p") (hi : Idle e) {x : Exn} (hx : (e.run E).1 = .throw x) :
    e.run (e.run E).2 = (.ok false, (e.run E).2) := by
  have ht := (C154_when h hg x).mp hx
  obtain ⟨a, ha, hp⟩ := (C150_call e h).1
  rw [run_p e hg (e.run E).2, onStore_exact e ha hp, idle_again hi ht.1]
  simp only [rest]
  rw [← hp, Model.put_self _ _ _ _ ha]

/-! ### Grouping rules -/

/-- What `Assertion::BuildRoleLinks` wants of the grouping rules (assertion.cpp 58–68). -/
def LongEnough (m : Model) : Prop :=
  ∀ t a, m.find c!"g" t = some a →
    2 ≤ a.value.count '_' ∧ ∀ r ∈ a.policy.items, a.value.count '_' ≤ r.length

theorem linkRules_long {op : PolicyOp} {n : Nat} (rs : List Rule) : ∀ {rm : RM},
    (Assertion.linkRules op n rs rm).1 = .ok () → ∀ r ∈ rs, n ≤ r.length := by
  induction rs with
  | nil => intro rm _ r hr; cases hr
  | cons r rs ih =>
    intro rm h
    simp only [Assertion.linkRules] at h
    by_cases hl : r.length < n
    · rw [if_pos hl] at h; cases h
    · rw [if_neg hl] at h
      have h2 : ∃ rm', (Assertion.linkRules op n rs rm').1 = .ok () := by
        simp only [M.bind_run, M.lift_run] at h
        split at h <;> try cases h
        split at h <;> try cases h
        cases op <;> simp only [M.bind_run] at h <;> split at h <;>
          first | exact ⟨_, h⟩ | cases h
      obtain ⟨rm', h2⟩ := h2
      intro x hx
      rcases List.mem_cons.mp hx with rfl | hx
      · omega
      · exact ih h2 x hx

omit [IterOrder] in
theorem countChar_eq (c : Char) (s : Str) : countChar c s = s.count c := rfl

theorem onRm_ok {α : Type} {p : Nat} {f : M RM α} {E : Enforcer} {x : α} (h : (onRm p f E).1 = .ok x) :
    ∃ rm, (f rm).1 = .ok x := by
  unfold onRm onHeap at h
  cases hp : E.heap[p]? with
  | none => rw [hp] at h; cases h
  | some rm => rw [hp] at h; exact ⟨rm, h⟩

theorem buildAll_long (ks : List Str) : ∀ {E : Enforcer}, (buildAll ks E).1 = .ok () →
    ∀ t ∈ ks, ∀ a, E.model.find c!"g" t = some a →
      2 ≤ a.value.count '_' ∧ ∀ r ∈ a.policy.items, a.value.count '_' ≤ r.length := by
  induction ks with
  | nil => intro E _ t ht; cases ht
  | cons k ks ih =>
    intro E h
    simp only [buildAll, M.bind_run, M.get_run] at h
    cases hf : E.model.find c!"g" k with
    | none => rw [hf] at h; cases h
    | some b =>
      rw [hf] at h
      simp only [M.bind_run, onModel_run, M.modify_run] at h
      rcases hb : onRm E.rm (Assertion.buildLinks b.value .add b.policy.iterate)
        { E with model := E.model.put c!"g" k { b with rm := some E.rm } } with ⟨o, E1⟩
      rw [hb] at h
      cases o with
      | throw x => cases h
      | ub x => cases h
      | ok u =>
        simp only at h
        obtain ⟨rm, hrm⟩ := onRm_ok (x := u) (by rw [hb])
        have hb1 : 2 ≤ b.value.count '_' ∧ ∀ r ∈ b.policy.items, b.value.count '_' ≤ r.length := by
          unfold Assertion.buildLinks at hrm
          rw [countChar_eq] at hrm
          by_cases h2 : b.value.count '_' < 2
          · rw [if_pos h2] at hrm; cases hrm
          · rw [if_neg h2] at hrm
            exact ⟨by omega, fun r hr => linkRules_long _ hrm r ((Policies.mem_iterate ..).mpr hr)⟩
        have hm : E1.model = E.model.put c!"g" k { b with rm := some E.rm } := by
          have := congrArg (fun z => z.2.model) hb
          exact this.symm
        intro t ht a ha
        by_cases htk : t = k
        · subst htk
          rw [hf] at ha
          cases ha
          exact hb1
        · have ht' : t ∈ ks := (List.mem_cons.mp ht).resolve_left htk
          refine ih h t ht' a ?_
          rw [hm, Model.find_put_ne _ _ (by rintro ⟨_, h⟩; exact htk h.symm)]
          exact ha

theorem buildRoleLinks_long {E : Enforcer} (h : (buildRoleLinks E).1 = .ok ()) : LongEnough E.model := by
  unfold buildRoleLinks at h
  simp only [M.bind_run, M.get_run] at h
  rcases hc : onRm E.rm (M.modify RM.clear) E with ⟨o, E1⟩
  rw [hc] at h
  cases o with
  | throw x => cases h
  | ub x => cases h
  | ok u =>
    simp only [onModel_run, M.modify_run] at h
    have hm : E1.model = E.model := by
      have := congrArg (fun z => z.2.model) hc
      exact this.symm
    intro t a ha
    have hf : (E1.model.ensureSec c!"g").find c!"g" t = some a := by
      rw [Model.find_ensureSec, hm]; exact ha
    refine buildAll_long _ h t ?_ a hf
    rw [IterOrder.mem_iter]
    refine UMap.mem_keys_of_get (v := a) ?_
    rw [Model.find_secMap]; exact hf

omit [IterOrder] in
theorem longEnough_congr {m m' : Model} (h : m.SameRules m') (hl : LongEnough m) : LongEnough m' := by
  intro t a ha
  have := h c!"g" t
  rw [ha] at this
  cases hb : m.find c!"g" t with
  | none => rw [hb] at this; simp at this
  | some b =>
    rw [hb] at this
    simp only [Option.map_some, Option.some.injEq, Assertion.strip, Assertion.mk.injEq] at this
    have hb := hl t b hb
    rw [this.2.1, this.2.2.2.1]
    exact hb

theorem thenBuild_long {x : M Enforcer Bool} {E : Enforcer} {b : Bool}
    (h : ((do
      let b ← x
      let E' ← M.get
      if E'.autoBuild then buildRoleLinks else pure ()
      pure b : M Enforcer Bool) E).1 = .ok b)
    (ha : (x E).2.autoBuild = true) :
    LongEnough ((do
      let b ← x
      let E' ← M.get
      if E'.autoBuild then buildRoleLinks else pure ()
      pure b : M Enforcer Bool) E).2.model := by
  simp only [M.bind_run, M.get_run] at h ⊢
  rcases hx : x E with ⟨o, E1⟩
  rw [hx] at h ha
  cases o with
  | throw e => cases h
  | ub e => cases h
  | ok c =>
    simp only at ha
    simp only [ha, if_true, M.bind_run] at h ⊢
    have hl := (buildRoleLinks_linkOnly E1).1
    rcases hb : buildRoleLinks E1 with ⟨o, E2⟩
    rw [hb] at h hl
    cases o with
    | throw e => cases h
    | ub e => cases h
    | ok u => exact longEnough_congr hl (buildRoleLinks_long (by rw [hb]))

/-- C154, a grouping rule with too few values: adding it raises an exception, the rule is stored, and
neither the adapter nor the watcher hears of it. -/
theorem C154_short {E : Enforcer} {pt : Str} {rs : List Rule} {a : Assertion} {r : Rule} {rm : RM}
    (hrm : E.heap[E.rm]? = some rm) (hf : E.model.find c!"g" pt = some a) (hp : a.policy = .vector rs)
    (hnew : ∀ s ∈ rs, ¬ r.Perm s) (hr : r.length < a.value.count '_') :
    (addNamedGroupingPolicy pt r E).1 = .throw .illegalArgument ∧
    Holds (addNamedGroupingPolicy pt r E).2 (c!"g", pt) (rs ++ [r]) ∧
    (addNamedGroupingPolicy pt r E).2.adapter = E.adapter ∧
    (addNamedGroupingPolicy pt r E).2.watcher = E.watcher := by
  have hn : appendNew [r] rs = (true, rs ++ [r]) := by
    unfold appendNew
    rw [if_neg]
    rintro ⟨n, hn, s, hs, hns⟩
    rw [List.mem_singleton] at hn
    subst hn
    exact hnew s hs hns
  have hH := (C150_call (.add true pt r) (E := E) (rs := rs) ⟨a, hf, hp⟩).1
  have hrun : ∃ E1, buildIncremental .add pt [r] { E with model := (E.model.put c!"g" pt
      { a with policy := .vector (rs ++ [r]) }) } = (.throw .illegalArgument, E1) ∧
      E1.adapter = E.adapter ∧ E1.watcher = E.watcher := by
    have hbl : ∀ rm, Assertion.buildLinks a.value .add [r] rm = (.throw .illegalArgument, rm) := by
      intro rm
      unfold Assertion.buildLinks
      rw [countChar_eq]
      split
      · rfl
      · simp only [Assertion.linkRules, if_pos hr]; rfl
    have hlo := buildIncremental_linkOnly .add pt [r] { E with model := (E.model.put c!"g" pt
      { a with policy := .vector (rs ++ [r]) }) }
    refine ⟨_, Prod.ext ?_ rfl, hlo.2.2.1, hlo.2.2.2.1⟩
    simp only [buildIncremental, M.bind_run, M.get_run, Model.find_put_self, onModel_run, M.modify_run]
    simp only [onRm, onHeap, hrm, hbl]
  obtain ⟨E1, h1, h2, h3⟩ := hrun
  have : addNamedGroupingPolicy pt r E = (.throw .illegalArgument, E1) := by
    have hadd := addOne_exact (m := E.model) (s := c!"g") (t := pt) hf hp r
    rw [hn] at hadd
    simp only [addNamedGroupingPolicy, addPolicyI, M.bind_run, onModel_run, hadd, Bool.not_true,
      Bool.false_eq_true, if_false, linkIfG, if_true, h1]
  refine ⟨by rw [this], ?_, by rw [this]; exact h2, by rw [this]; exact h3⟩
  have h' : (reference (.add true pt r) rs).2 = rs ++ [r] := by simp only [reference, hn]
  rw [h'] at hH
  exact hH

/-- C154, and then: as long as a stored grouping rule has too few values, no call that rebuilds the roles
returns: `BuildRoleLinks`, and with automatic building `LoadPolicy` and the calls that remove grouping
rules, whatever rule they are asked to remove. -/
theorem C154_blocked {E : Enforcer} :
    ((buildRoleLinks E).1 = .ok () → LongEnough (buildRoleLinks E).2.model) ∧
    (E.autoBuild = true →
      ((loadPolicy E).1 = .ok () → LongEnough (loadPolicy E).2.model) ∧
      (∀ pt r b, (removeNamedGroupingPolicy pt r E).1 = .ok b →
        LongEnough (removeNamedGroupingPolicy pt r E).2.model) ∧
      (∀ pt i vs b, (removeFilteredNamedGroupingPolicy pt i vs E).1 = .ok b →
        LongEnough (removeFilteredNamedGroupingPolicy pt i vs E).2.model)) := by
  refine ⟨fun h => longEnough_congr (buildRoleLinks_linkOnly E).1 (buildRoleLinks_long h), fun ha => ⟨?_, ?_, ?_⟩⟩
  · intro h
    have hb : ∀ E1 : Enforcer, (buildRoleLinks E1).1 = .ok () → LongEnough (buildRoleLinks E1).2.model :=
      fun E1 h => longEnough_congr (buildRoleLinks_linkOnly E1).1 (buildRoleLinks_long h)
    unfold loadPolicy clearPolicy at h ⊢
    simp only [M.bind_run, M.get_run, onModel_run, M.modify_run] at h ⊢
    cases had : E.adapter with
    | none => rw [had] at h; cases h
    | some ad =>
      rw [had] at h
      simp only [M.bind_run, onAdapter, M.modify_run, onModel_run, M.get_run] at h ⊢
      rcases hl : ad.loadPolicy E.model.clearPolicy with ⟨o, m⟩
      rw [hl] at h
      cases o with
      | throw x => cases h
      | ub x => cases h
      | ok u =>
        simp only [ha, if_true] at h ⊢
        exact hb _ h
  · intro pt r b h
    exact thenBuild_long h ((removePolicyI_did c!"g" pt r E).rest.2.2.2.2.1.trans ha)
  · intro pt i vs b h
    exact thenBuild_long h ((removeFilteredI_did true pt i vs E).rest.2.2.2.2.1.trans ha)

/-! ### The claim itself -/

/-- An adapter that answers every call with an exception. -/
def broken : Adapter := ⟨.custom true false true (pure ()) (fun _ => .throw .external), []⟩

/-- The rules of `alice`, with the adapter that fails. -/
def atRisk : Enforcer := { acl [alice] with adapter := some broken }

/-- C154 as it stands (an editing call that raises an exception leaves the rules as they were) fails: an
added rule is there, a removed one is gone. -/
theorem C154_fails :
    ∃ (E : Enforcer) (x : Exn), Holds E (c!"p", c!"p") [alice] ∧
      ((Edit.add false c!"p" bob).run E).1 = .throw x ∧
      Holds ((Edit.add false c!"p" bob).run E).2 (c!"p", c!"p") [alice, bob] ∧
      ((Edit.remove false c!"p" alice).run E).1 = .throw x ∧
      Holds ((Edit.remove false c!"p" alice).run E).2 (c!"p", c!"p") [] := by
  have hH : Holds atRisk (c!"p", c!"p") [alice] := ⟨_, rfl, rfl⟩
  refine ⟨atRisk, .external, hH, ?_, ?_, ?_, ?_⟩
  · exact (C154_when (e := .add false c!"p" bob) hH rfl .external).mpr
      ⟨by decide +kernel, ⟨_, rfl, _, rfl, rfl, rfl, by decide⟩, fun h => absurd h id⟩
  · exact (C150_call (.add false c!"p" bob) hH).1
  · exact (C154_when (e := .remove false c!"p" alice) hH rfl .external).mpr
      ⟨by decide +kernel, ⟨_, rfl, _, rfl, rfl, rfl, by decide⟩, fun h => absurd h id⟩
  · exact (C150_call (.remove false c!"p" alice) hH).1

/-- C154 where it holds: nothing is raised, so nothing is lost, in calls about policy rules of an enforcer
without an adapter, with automatic saving off, or with an adapter that rejects nothing; and never by the
calls that update policy rules. -/
theorem C154_partial {e : Edit} {E : Enforcer} {rs : List Rule} (h : Holds E e.target rs)
    (hg : e.target.1 = c!"p")
    (hok : E.adapter = none ∨ E.autoSave = false ∨ e.call = none ∨
      ∀ a c x, E.adapter = some a → e.call = some c → (Adapter.edit c a).1 = .throw x → x = .unsupported)
    (x : Exn) : (e.run E).1 ≠ .throw x := by
  intro hx
  obtain ⟨_, ⟨c, hc, a, ha, hs, hr, hu⟩, _⟩ := (C154_when h hg x).mp hx
  rcases hok with h | h | h | h
  · rw [h] at ha; cases ha
  · rw [h] at hs; cases hs
  · rw [h] at hc; cases hc
  · exact hu (h a c x ha hc hr)

/-! ### Examples -/

/-- The hypotheses of the theorems are met, and repeating the call does not help. -/
example : (Edit.add false c!"p" bob).run ((Edit.add false c!"p" bob).run atRisk).2 =
    (.ok false, ((Edit.add false c!"p" bob).run atRisk).2) :=
  C154_again (e := .add false c!"p" bob) (E := atRisk) (rs := [alice]) (x := .external) ⟨_, rfl, rfl⟩ rfl trivial
    ((C154_when (e := .add false c!"p" bob) (rs := [alice]) ⟨_, rfl, rfl⟩ rfl .external).mpr
      ⟨by decide +kernel, ⟨_, rfl, _, rfl, rfl, rfl, by decide⟩, fun h => absurd h id⟩)

example : ∃ c a m, (Edit.removeFiltered false c!"p" 1 [c!"data1"]).call = some c ∧
    atRisk.adapter = some a ∧ ((Edit.removeFiltered false c!"p" 1 [c!"data1"]).run atRisk).2 =
      { atRisk with model := m, adapter := some { a with log := a.log ++ [c] } } :=
  (C154_left (e := .removeFiltered false c!"p" 1 [c!"data1"]) (E := atRisk) (rs := [alice])
    (x := .external) ⟨_, rfl, rfl⟩ rfl
    ((C154_when (rs := [alice]) ⟨_, rfl, rfl⟩ rfl .external).mpr
      ⟨by decide +kernel, ⟨_, rfl, _, rfl, rfl, rfl, by decide⟩, fun h => absurd h id⟩)).2

example : (addNamedGroupingPolicy c!"g" [c!"alice"] (rbac [] [])).1 = .throw .illegalArgument :=
  (C154_short (E := rbac [] []) (rs := []) (rm := RM.new 10) rfl rfl rfl (by simp) (by decide)).1

/-- The rule with too few values is stored, and another one cannot be removed without an exception. -/
example : ∀ b, (removeNamedGroupingPolicy c!"g" [c!"bob", c!"staff"]
    (rbac [] [[c!"alice"], [c!"bob", c!"staff"]])).1 ≠ .ok b := by
  intro b hb
  have h := (C154_blocked (E := rbac [] [[c!"alice"], [c!"bob", c!"staff"]])).2 rfl |>.2.1 _ _ b hb
  obtain ⟨a, ha, hp⟩ := (C150_call (.remove true c!"g" [c!"bob", c!"staff"])
    (E := rbac [] [[c!"alice"], [c!"bob", c!"staff"]]) (rs := [[c!"alice"], [c!"bob", c!"staff"]])
    ⟨_, rfl, rfl⟩).1
  have h' := h c!"g" a ha
  have hl : (reference (.remove true c!"g" [c!"bob", c!"staff"]) [[c!"alice"], [c!"bob", c!"staff"]]).2 =
    [[c!"alice"]] := by decide +kernel
  rw [hp, hl] at h'
  have := h'.2 [c!"alice"] (List.mem_singleton.mpr rfl)
  have := h'.1
  simp at *
  omega

end ExceptionProps
end Casbin
