import Verif.EnforcerLemmas

/-! # What the editing calls change -/

set_option linter.unusedSectionVars false

namespace Casbin

/-- An assertion without its role manager pointer. -/
def Assertion.strip (a : Assertion) : Assertion := { a with rm := none }

namespace Model

/-- Two models with the same definitions and the same rules (role manager pointers apart). -/
def SameRules (m m' : Model) : Prop :=
  ∀ s t, (m'.find s t).map Assertion.strip = (m.find s t).map Assertion.strip

theorem SameRules.refl (m : Model) : SameRules m m := fun _ _ => rfl

theorem SameRules.trans {m m' m'' : Model} (h : SameRules m m') (h' : SameRules m' m'') :
    SameRules m m'' := fun s t => (h' s t).trans (h s t)

theorem SameRules.some {m m' : Model} (h : SameRules m m') {s t : Str} {a : Assertion}
    (ha : m.find s t = some a) : ∃ p, m'.find s t = some { a with rm := p } := by
  have h1 := h s t
  rw [ha] at h1
  cases hb : m'.find s t with
  | none => simp [hb] at h1
  | some b =>
    simp only [hb, Option.map_some, Option.some.injEq, Assertion.strip, Assertion.mk.injEq,
      and_true] at h1
    refine ⟨b.rm, ?_⟩
    obtain ⟨h1, h2, h3, h4⟩ := h1
    rw [← h1, ← h2, ← h3, ← h4]

theorem SameRules.none {m m' : Model} (h : SameRules m m') {s t : Str}
    (ha : m.find s t = none) : m'.find s t = none := by
  have h1 := h s t
  rw [ha] at h1
  simpa using h1

theorem sameRules_putRm {m : Model} {s t : Str} {a : Assertion} (h : m.find s t = some a)
    (p : Option Nat) : SameRules m (m.put s t { a with rm := p }) := by
  intro s' t'
  rw [find_put]
  split
  · rename_i he
    obtain ⟨rfl, rfl⟩ := he
    rw [h]; rfl
  · rfl

theorem sameRules_ensureSec (m : Model) (s : Str) : SameRules m (m.ensureSec s) := by
  intro s' t'; rw [find_ensureSec]

/-- `m'` is `m` with at most the rules of one policy type replaced. -/
def EditedAt (s t : Str) (m m' : Model) : Prop :=
  m' = m ∨ ∃ a P, m.find s t = some a ∧ m' = m.put s t { a with policy := P }

theorem EditedAt.refl (s t : Str) (m : Model) : EditedAt s t m m := .inl rfl

theorem EditedAt.trans {s t : Str} {m m' m'' : Model} (h : EditedAt s t m m')
    (h' : EditedAt s t m' m'') : EditedAt s t m m'' := by
  rcases h with rfl | ⟨a, P, ha, rfl⟩
  · exact h'
  · rcases h' with rfl | ⟨b, Q, hb, rfl⟩
    · exact .inr ⟨a, P, ha, rfl⟩
    · rw [find_put_self] at hb
      cases hb
      exact .inr ⟨a, Q, ha, by rw [put_put]⟩

variable [IterOrder]

theorem hasPolicy_state (s t : Str) (r : Rule) (m : Model) : (hasPolicy s t r m).2 = m := by
  cases h : m.find s t with
  | none => simp [hasPolicy, M.bind_run, at_none h]
  | some a => simp [hasPolicy_run h]

theorem hasPolicy_none {m : Model} {s t : Str} (h : m.find s t = none) (r : Rule) :
    hasPolicy s t r m = (.ub .nullDeref, m) := by simp [hasPolicy, M.bind_run, at_none h]

theorem addPolicy_edited (s t : Str) (r : Rule) (m : Model) :
    EditedAt s t m (addPolicy s t r m).2 := by
  cases h : m.find s t with
  | none => simp [addPolicy, M.bind_run, hasPolicy_none h, EditedAt]
  | some a =>
    rw [addPolicy_run h]
    split
    · exact .refl ..
    · exact .inr ⟨a, _, h, rfl⟩

theorem addPolicies_edited (s t : Str) (rs : List Rule) (m : Model) :
    EditedAt s t m (addPolicies s t rs m).2 := by
  cases h : m.find s t with
  | none =>
    cases rs with
    | nil => exact .inl rfl
    | cons r rs =>
      simp [addPolicies, anyPresent, M.bind_run, hasPolicy_none h, EditedAt]
  | some a =>
    rw [addPolicies_run h]
    split
    · exact .refl ..
    · exact .inr ⟨a, _, h, rfl⟩

theorem eraseRule_edited (s t : Str) (r : Rule) (m : Model) :
    EditedAt s t m (eraseRule s t r m).2 := by
  cases h : m.find s t with
  | none => simp [eraseRule, M.bind_run, at_none h, EditedAt]
  | some a =>
    rw [eraseRule_run h]
    cases a.policy.eraseFirst (fun x => arrayEquals r x) with
    | none => exact .refl ..
    | some P => exact .inr ⟨a, _, h, rfl⟩

theorem eraseAll_edited (s t : Str) (rs : List Rule) : ∀ m, EditedAt s t m (eraseAll s t rs m).2 := by
  induction rs with
  | nil => intro m; exact .refl ..
  | cons r rs ih =>
    intro m
    have h := eraseRule_edited s t r m
    simp only [eraseAll, M.bind_run]
    rcases he : eraseRule s t r m with ⟨o, m'⟩
    rw [he] at h
    cases o with
    | ok b =>
      cases b with
      | true => exact h.trans (ih m')
      | false => exact h
    | throw e => exact h
    | ub u => exact h

theorem updatePolicy_edited (s t : Str) (o n : Rule) (m : Model) :
    EditedAt s t m (updatePolicy s t o n m).2 := by
  have h := eraseRule_edited s t o m
  simp only [updatePolicy, M.bind_run]
  rcases he : eraseRule s t o m with ⟨x, m'⟩
  rw [he] at h
  cases x with
  | throw e => exact h
  | ub u => exact h
  | ok b =>
    cases b with
    | false => exact h
    | true => exact h.trans (addPolicy_edited s t n m')

theorem updatePolicies_edited (s t : Str) (o n : List Rule) (m : Model) :
    EditedAt s t m (updatePolicies s t o n m).2 := by
  cases hf : m.find s t with
  | none => simp [updatePolicies, M.bind_run, at_none hf, EditedAt]
  | some a =>
    have h := eraseAll_edited s t o m
    simp only [updatePolicies, M.bind_run, at_run hf]
    rcases he : eraseAll s t o m with ⟨x, m'⟩
    rw [he] at h
    cases x with
    | throw e => exact h
    | ub u => exact h
    | ok b =>
      cases b with
      | false => exact h
      | true => exact h.trans (addPolicies_edited s t n m')

theorem removeFilteredPolicy_edited (s t : Str) (i : Nat) (vs : List Str) (m : Model) :
    EditedAt s t m (removeFilteredPolicy s t i vs m).2 := by
  cases hf : m.find s t with
  | none => simp [removeFilteredPolicy, M.bind_run, at_none hf, EditedAt]
  | some a =>
    simp only [removeFilteredPolicy, M.bind_run, at_run hf, M.lift_run]
    cases partitionFilter i vs a.policy.iterate with
    | throw e => exact .refl ..
    | ub e => exact .refl ..
    | ok yn =>
      simp only [setPolicy_run hf]
      exact .inr ⟨a, _, hf, rfl⟩

end Model

namespace Enforcer

/-- At most the role links and the role manager pointers of the grouping types differ. -/
def LinkOnly (E E' : Enforcer) : Prop :=
  E.model.SameRules E'.model ∧ E'.rm = E.rm ∧ E'.adapter = E.adapter ∧ E'.watcher = E.watcher ∧
  E'.eval = E.eval ∧ E'.enabled = E.enabled ∧ E'.autoSave = E.autoSave ∧
  E'.autoBuild = E.autoBuild ∧ E'.autoNotify = E.autoNotify

theorem LinkOnly.refl (E : Enforcer) : LinkOnly E E :=
  ⟨.refl _, rfl, rfl, rfl, rfl, rfl, rfl, rfl, rfl⟩

theorem LinkOnly.trans {E E' E'' : Enforcer} (h : LinkOnly E E') (h' : LinkOnly E' E'') :
    LinkOnly E E'' := by
  obtain ⟨a1, a2, a3, a4, a5, a6, a7, a8, a9⟩ := h
  obtain ⟨b1, b2, b3, b4, b5, b6, b7, b8, b9⟩ := h'
  exact ⟨a1.trans b1, b2.trans a2, b3.trans a3, b4.trans a4, b5.trans a5, b6.trans a6,
    b7.trans a7, b8.trans a8, b9.trans a9⟩

theorem linkOnly_bind {α β : Type} {x : M Enforcer α} {f : α → M Enforcer β} {E : Enforcer}
    (hx : LinkOnly E (x E).2) (hf : ∀ a E', LinkOnly E E' → LinkOnly E (f a E').2) :
    LinkOnly E ((x >>= f) E).2 := by
  rw [M.bind_run]
  rcases he : x E with ⟨o, E'⟩
  rw [he] at hx
  cases o with
  | ok a => exact hf a E' hx
  | throw e => exact hx
  | ub u => exact hx

theorem linkOnly_onRm {α : Type} (p : Nat) (f : M RM α) (E : Enforcer) :
    LinkOnly E (onRm p f E).2 := ⟨.refl _, rfl, rfl, rfl, rfl, rfl, rfl, rfl, rfl⟩

variable [IterOrder]

theorem buildIncremental_linkOnly (op : PolicyOp) (pt : Str) (rs : List Rule) (E : Enforcer) :
    LinkOnly E (buildIncremental op pt rs E).2 := by
  simp only [buildIncremental, M.bind_run, M.get_run]
  cases h : E.model.find c!"g" pt with
  | none => exact .refl E
  | some a =>
    simp only [M.bind_run, onModel_run, M.modify_run]
    refine LinkOnly.trans ?_ (linkOnly_onRm _ _ _)
    exact ⟨Model.sameRules_putRm h _, rfl, rfl, rfl, rfl, rfl, rfl, rfl, rfl⟩

theorem linkIfG_linkOnly (sec : Str) (op : PolicyOp) (pt : Str) (rs : List Rule) (E : Enforcer) :
    LinkOnly E (linkIfG sec op pt rs E).2 := by
  unfold linkIfG
  split
  · exact buildIncremental_linkOnly ..
  · exact .refl E

theorem buildAll_linkOnly (ks : List Str) : ∀ E, LinkOnly E (buildAll ks E).2 := by
  induction ks with
  | nil => intro E; exact .refl E
  | cons k ks ih =>
    intro E
    simp only [buildAll, M.bind_run, M.get_run]
    cases h : E.model.find c!"g" k with
    | none => exact .refl E
    | some a =>
      simp only []
      refine linkOnly_bind ?_ ?_
      · exact ⟨Model.sameRules_putRm h _, rfl, rfl, rfl, rfl, rfl, rfl, rfl, rfl⟩
      · intro _ E' h'
        refine h'.trans (linkOnly_bind (linkOnly_onRm ..) ?_)
        intro _ E'' h''
        exact h''.trans (ih E'')

theorem buildRoleLinks_linkOnly (E : Enforcer) : LinkOnly E (buildRoleLinks E).2 := by
  unfold buildRoleLinks
  refine linkOnly_bind (.refl E) ?_
  intro a E' h'
  refine h'.trans (linkOnly_bind (linkOnly_onRm ..) ?_)
  intro _ E'' h''
  refine h''.trans (linkOnly_bind
    ⟨Model.sameRules_ensureSec _ _, rfl, rfl, rfl, rfl, rfl, rfl, rfl, rfl⟩ ?_)
  intro _ E₃ h₃
  refine h₃.trans (linkOnly_bind (.refl E₃) ?_)
  intro _ E₄ h₄
  exact h₄.trans (buildAll_linkOnly _ E₄)

/-- A policy-editing call of the management API; `g = true` are the grouping methods. (There is no
`UpdateGroupingPolicies`.) -/
inductive Edit
  | add (g : Bool) (pt : Str) (r : Rule)
  | addMany (g : Bool) (pt : Str) (rs : List Rule)
  | remove (g : Bool) (pt : Str) (r : Rule)
  | removeMany (g : Bool) (pt : Str) (rs : List Rule)
  | removeFiltered (g : Bool) (pt : Str) (i : Nat) (vs : List Str)
  | update (g : Bool) (pt : Str) (o n : Rule)
  | updateMany (pt : Str) (o n : List Rule)
  deriving DecidableEq, Repr

namespace Edit

/-- The API method. -/
def run : Edit → M Enforcer Bool
  | add false pt r => addNamedPolicy pt r
  | add true pt r => addNamedGroupingPolicy pt r
  | addMany false pt rs => addNamedPolicies pt rs
  | addMany true pt rs => addNamedGroupingPolicies pt rs
  | remove false pt r => removeNamedPolicy pt r
  | remove true pt r => removeNamedGroupingPolicy pt r
  | removeMany false pt rs => removeNamedPolicies pt rs
  | removeMany true pt rs => removeNamedGroupingPolicies pt rs
  | removeFiltered false pt i vs => removeFilteredNamedPolicy pt i vs
  | removeFiltered true pt i vs => removeFilteredNamedGroupingPolicy pt i vs
  | update false pt o n => updateNamedPolicy pt o n
  | update true pt o n => updateNamedGroupingPolicy pt o n
  | updateMany pt o n => updateNamedPolicies pt o n

/-- The section of a call. -/
def secOf (g : Bool) : Str := if g then c!"g" else c!"p"

/-- Section and policy type the call is about. -/
def target : Edit → Str × Str
  | add g pt _ | addMany g pt _ | remove g pt _ | removeMany g pt _ | removeFiltered g pt _ _
  | update g pt _ _ => (secOf g, pt)
  | updateMany pt _ _ => (c!"p", pt)

/-- The method of the model that the call runs. -/
def onStore : Edit → M Model Bool
  | add g pt r => Model.addPolicy (secOf g) pt r
  | addMany g pt rs => Model.addPolicies (secOf g) pt rs
  | remove g pt r => Model.removePolicy (secOf g) pt r
  | removeMany g pt rs => Model.addPolicies (secOf g) pt rs
  | removeFiltered g pt i vs => do
    let r ← Model.removeFilteredPolicy (secOf g) pt i vs
    pure r.1
  | update g pt o n => Model.updatePolicy (secOf g) pt o n
  | updateMany pt o n => Model.updatePolicies c!"p" pt o n

theorem onStore_edited (e : Edit) (m : Model) : m.EditedAt e.target.1 e.target.2 (e.onStore m).2 := by
  cases e with
  | add g pt r => exact Model.addPolicy_edited ..
  | addMany g pt rs => exact Model.addPolicies_edited ..
  | remove g pt r => exact Model.eraseRule_edited ..
  | removeMany g pt rs => exact Model.addPolicies_edited ..
  | removeFiltered g pt i vs =>
    have h := Model.removeFilteredPolicy_edited (secOf g) pt i vs m
    simp only [onStore, M.bind_run]
    rcases hr : Model.removeFilteredPolicy (secOf g) pt i vs m with ⟨o, m'⟩
    rw [hr] at h
    cases o with
    | ok b => exact h
    | throw b => exact h
    | ub b => exact h
  | update g pt o n => exact Model.updatePolicy_edited ..
  | updateMany pt o n => exact Model.updatePolicies_edited ..

/-- The adapter call made by a successful call (none by the update methods). -/
def call : Edit → Option AdapterCall
  | add g pt r => some (.add (secOf g) pt r)
  | addMany g pt rs => some (.addMany (secOf g) pt rs)
  | remove g pt r => some (.remove (secOf g) pt r)
  | removeMany g pt rs => some (.removeMany (secOf g) pt rs)
  | removeFiltered g pt i vs => some (.removeFiltered (secOf g) pt i vs)
  | update _ _ _ _ => none
  | updateMany _ _ _ => none

end Edit

/-- The adapter after the call of an edit. -/
def savedAdapter (E : Enforcer) : Option AdapterCall → Option Adapter
  | none => E.adapter
  | some c => E.adapter.map fun a => if E.autoSave then (Adapter.edit c a).2 else a

/-- The watcher after a notification. -/
def notifiedWatcher (E : Enforcer) : Option Watcher :=
  if E.autoNotify then E.watcher.map fun w => { w with log := w.log ++ [.update] } else E.watcher

/-- How the result `R` of an editing call relates to the result `s` of the method of the model. -/
structure Did (E : Enforcer) (s : Outcome Bool × Model) (c : Option AdapterCall)
    (R : Outcome Bool × Enforcer) : Prop where
  rules : s.2.SameRules R.2.model
  rest : R.2.rm = E.rm ∧ R.2.eval = E.eval ∧ R.2.enabled = E.enabled ∧ R.2.autoSave = E.autoSave ∧
    R.2.autoBuild = E.autoBuild ∧ R.2.autoNotify = E.autoNotify
  result : ∀ b, R.1 = .ok b → s.1 = .ok b
  failed : R.1 = .ok false → R.2.adapter = E.adapter ∧ R.2.watcher = E.watcher
  done : R.1 = .ok true → R.2.adapter = E.savedAdapter c ∧ R.2.watcher = E.notifiedWatcher

/-- A saving step: changes only the adapter, and if it returns the adapter got the call. -/
def SaveStep (save : M Enforcer Unit) (c : Option AdapterCall) : Prop :=
  ∀ E, SameCore E (save E).2 ∧ (save E).2.watcher = E.watcher ∧
    ((save E).1 = .ok () → (save E).2.adapter = E.savedAdapter c)

theorem saveStep_none : SaveStep (pure ()) none := fun E => ⟨.refl E, rfl, fun _ => rfl⟩

theorem saveStep_call (c : AdapterCall) : SaveStep (autoSaveCall c) (some c) := by
  intro E
  rw [autoSaveCall_state]
  refine ⟨afterAdapter_core c E, ?_, fun _ => ?_⟩
  · unfold afterAdapter; cases E.adapter <;> simp only []; split <;> rfl
  · unfold afterAdapter savedAdapter
    cases h : E.adapter with
    | none => simp [h]
    | some a => simp only [Option.map_some]; split <;> simp [h]

theorem saveStep_batch (c : AdapterCall) : SaveStep (autoSaveBatch c) (some c) := by
  intro E
  refine ⟨by rw [autoSaveBatch_state]; exact afterBatch_core c E, ?_, fun hok => ?_⟩
  · rw [autoSaveBatch_state]
    unfold afterBatch; cases E.adapter <;> simp only []; split <;> rfl
  · rw [autoSaveBatch_state]
    unfold afterBatch savedAdapter
    cases h : E.adapter with
    | none => simp [h]
    | some a =>
      simp only [Option.map_some]
      by_cases hs : E.autoSave = true
      · by_cases hb : a.isBatch = true
        · rw [if_pos ⟨hs, hb⟩, if_pos hs]
        · exfalso
          simp [autoSaveBatch, M.bind_run, h, hs, hb] at hok
      · rw [if_neg (fun hh => hs hh.1), if_neg hs, h]

theorem did_generic {α : Type} (op : M Model α) (test : α → Bool) (link : α → M Enforcer Unit)
    (save : M Enforcer Unit) (c : Option AdapterCall)
    (hl : ∀ a E, LinkOnly E (link a E).2) (hs : SaveStep save c) (E : Enforcer) :
    Did E ((op E.model).1.map test, (op E.model).2) c
      ((do
        let a ← onModel op
        if !(test a) then pure false
        else do
          link a
          save
          notify
          pure true : M Enforcer Bool) E) := by
  simp only [M.bind_run, onModel_run]
  rcases ho : op E.model with ⟨o, m'⟩
  cases o with
  | throw e => exact ⟨.refl _, ⟨rfl, rfl, rfl, rfl, rfl, rfl⟩, by simp, by simp, by simp⟩
  | ub u => exact ⟨.refl _, ⟨rfl, rfl, rfl, rfl, rfl, rfl⟩, by simp, by simp, by simp⟩
  | ok a =>
    simp only [Outcome.map_ok]
    cases ht : test a with
    | false =>
      refine ⟨.refl _, ⟨rfl, rfl, rfl, rfl, rfl, rfl⟩, ?_, ?_, ?_⟩ <;> simp
    | true =>
      simp only [Bool.not_true, Bool.false_eq_true, if_false, M.bind_run]
      have h1 := hl a { E with model := m' }
      rcases hl1 : link a { E with model := m' } with ⟨o1, E1⟩
      rw [hl1] at h1
      obtain ⟨a1, a2, a3, a4, a5, a6, a7, a8, a9⟩ := h1
      cases o1 with
      | throw e => exact ⟨a1, ⟨a2, a5, a6, a7, a8, a9⟩, by simp, by simp, by simp⟩
      | ub e => exact ⟨a1, ⟨a2, a5, a6, a7, a8, a9⟩, by simp, by simp, by simp⟩
      | ok _ =>
        simp only []
        obtain ⟨⟨b1, b2, b3, b4, b5, b6, b7, b8⟩, bw, bs⟩ := hs E1
        rcases hs1 : save E1 with ⟨o2, E2⟩
        rw [hs1] at b1 b2 b3 b4 b5 b6 b7 b8 bw bs
        simp only at b1 b2 b3 b4 b5 b6 b7 b8 bw bs a2 a3 a4 a5 a6 a7 a8 a9
        have hrules : m'.SameRules E2.model := by rw [b1]; exact a1
        have hrest : E2.rm = E.rm ∧ E2.eval = E.eval ∧ E2.enabled = E.enabled ∧
            E2.autoSave = E.autoSave ∧ E2.autoBuild = E.autoBuild ∧
            E2.autoNotify = E.autoNotify :=
          ⟨b3.trans a2, b4.trans a5, b5.trans a6, b6.trans a7, b7.trans a8, b8.trans a9⟩
        cases o2 with
        | throw e => exact ⟨hrules, hrest, by simp, by simp, by simp⟩
        | ub e => exact ⟨hrules, hrest, by simp, by simp, by simp⟩
        | ok _ =>
          simp only [notify_run, M.pure_run]
          obtain ⟨c1, c2, c3, c4, c5, c6, c7, c8⟩ := afterNotify_core E2
          obtain ⟨r1, r2, r3, r4, r5, r6⟩ := hrest
          refine ⟨by rw [c1]; exact hrules,
            ⟨c3.trans r1, c4.trans r2, c5.trans r3, c6.trans r4, c7.trans r5, c8.trans r6⟩,
            by simp, by simp, fun _ => ⟨?_, ?_⟩⟩
          · have hb := bs rfl
            have : E2.afterNotify.adapter = E2.adapter := by
              unfold afterNotify; split <;> rfl
            rw [this, hb]
            unfold savedAdapter
            rw [a3, a7]
          · unfold afterNotify notifiedWatcher
            rw [r6]
            split
            · simp only [bw, a4]
            · rw [bw, a4]

theorem Did.thenLink {E : Enforcer} {s : Outcome Bool × Model} {c : Option AdapterCall}
    {x : M Enforcer Bool} (h : Did E s c (x E)) (link : M Enforcer Unit)
    (hl : ∀ E, LinkOnly E (link E).2) :
    Did E s c ((do
      let b ← x
      let E' ← M.get
      if E'.autoBuild then link else pure ()
      pure b : M Enforcer Bool) E) := by
  simp only [M.bind_run, M.get_run]
  rcases hx : x E with ⟨o, E1⟩
  rw [hx] at h
  cases o with
  | throw e => exact ⟨h.rules, h.rest, by simp, by simp, by simp⟩
  | ub e => exact ⟨h.rules, h.rest, by simp, by simp, by simp⟩
  | ok b =>
    simp only []
    split
    · obtain ⟨a1, a2, a3, a4, a5, a6, a7, a8, a9⟩ := hl E1
      rcases hl1 : link E1 with ⟨o1, E2⟩
      rw [hl1] at a1 a2 a3 a4 a5 a6 a7 a8 a9
      simp only at a1 a2 a3 a4 a5 a6 a7 a8 a9
      obtain ⟨r1, r2, r3, r4, r5, r6⟩ := h.rest
      have hr : E2.rm = E.rm ∧ E2.eval = E.eval ∧ E2.enabled = E.enabled ∧
            E2.autoSave = E.autoSave ∧ E2.autoBuild = E.autoBuild ∧
            E2.autoNotify = E.autoNotify :=
        ⟨a2.trans r1, a5.trans r2, a6.trans r3, a7.trans r4, a8.trans r5, a9.trans r6⟩
      have hrules := h.rules.trans a1
      simp only [M.bind_run, hl1]
      cases o1 with
      | throw e => exact ⟨hrules, hr, by simp, by simp, by simp⟩
      | ub e => exact ⟨hrules, hr, by simp, by simp, by simp⟩
      | ok _ =>
        refine ⟨hrules, hr, h.result, ?_, ?_⟩
        · intro hb
          obtain ⟨f1, f2⟩ := h.failed hb
          exact ⟨a3.trans f1, a4.trans f2⟩
        · intro hb
          obtain ⟨f1, f2⟩ := h.done hb
          exact ⟨a3.trans f1, a4.trans f2⟩
    · exact ⟨h.rules, h.rest, h.result, h.failed, h.done⟩

theorem outcome_map_id (o : Outcome Bool) : o.map (fun b => b) = o := by cases o <;> rfl

/-- The shape of `did_generic` for methods of the model that return a bool. -/
theorem did_bool (op : M Model Bool) (link : M Enforcer Unit) (save : M Enforcer Unit)
    (c : Option AdapterCall) (hl : ∀ E, LinkOnly E (link E).2) (hs : SaveStep save c)
    (E : Enforcer) :
    Did E (op E.model) c
      ((do
        let a ← onModel op
        if !a then pure false
        else do
          link
          save
          notify
          pure true : M Enforcer Bool) E) := by
  have h := did_generic op (fun b => b) (fun _ => link) save c (fun _ => hl) hs E
  rw [outcome_map_id] at h
  exact h

theorem addPolicyI_did (sec pt : Str) (r : Rule) (E : Enforcer) :
    Did E (Model.addPolicy sec pt r E.model) (some (.add sec pt r)) (addPolicyI sec pt r E) :=
  did_bool _ _ _ _ (fun _ => linkIfG_linkOnly ..) (saveStep_call _) E

theorem addPoliciesI_did (sec pt : Str) (rs : List Rule) (E : Enforcer) :
    Did E (Model.addPolicies sec pt rs E.model) (some (.addMany sec pt rs))
      (addPoliciesI sec pt rs E) :=
  did_bool _ _ _ _ (fun _ => linkIfG_linkOnly ..) (saveStep_batch _) E

theorem removePolicyI_did (sec pt : Str) (r : Rule) (E : Enforcer) :
    Did E (Model.removePolicy sec pt r E.model) (some (.remove sec pt r))
      (removePolicyI sec pt r E) :=
  did_bool _ _ _ _ (fun _ => linkIfG_linkOnly ..) (saveStep_call _) E

theorem removePoliciesI_did (sec pt : Str) (rs : List Rule) (E : Enforcer) :
    Did E (Model.addPolicies sec pt rs E.model) (some (.removeMany sec pt rs))
      (removePoliciesI sec pt rs E) :=
  did_bool _ _ _ _ (fun _ => linkIfG_linkOnly ..) (saveStep_batch _) E

theorem onStore_removeFiltered (g : Bool) (pt : Str) (i : Nat) (vs : List Str) (m : Model) :
    (Edit.removeFiltered g pt i vs).onStore m =
      ((Model.removeFilteredPolicy (Edit.secOf g) pt i vs m).1.map Prod.fst,
       (Model.removeFilteredPolicy (Edit.secOf g) pt i vs m).2) := by
  simp only [Edit.onStore, M.bind_run]
  rcases Model.removeFilteredPolicy (Edit.secOf g) pt i vs m with ⟨o, m'⟩
  cases o <;> rfl

theorem removeFilteredI_did (g : Bool) (pt : Str) (i : Nat) (vs : List Str) (E : Enforcer) :
    Did E ((Edit.removeFiltered g pt i vs).onStore E.model)
      (some (.removeFiltered (Edit.secOf g) pt i vs)) (removeFilteredI (Edit.secOf g) pt i vs E) := by
  have h := did_generic (Model.removeFilteredPolicy (Edit.secOf g) pt i vs) Prod.fst
    (fun a => linkIfG (Edit.secOf g) .remove pt a.2) _ _ (fun _ _ => linkIfG_linkOnly ..)
    (saveStep_call (.removeFiltered (Edit.secOf g) pt i vs)) E
  rw [onStore_removeFiltered]
  exact h

theorem twoLinks_linkOnly (x y : M Enforcer Unit) (hx : ∀ E, LinkOnly E (x E).2)
    (hy : ∀ E, LinkOnly E (y E).2) (E : Enforcer) :
    LinkOnly E ((do x; y : M Enforcer Unit) E).2 :=
  linkOnly_bind (hx E) fun _ E' h => h.trans (hy E')

theorem updateShape (op : M Model Bool) (x y : M Enforcer Unit) (E : Enforcer) :
    (do
      let a ← onModel op
      if !a then pure false
      else do
        x
        y
        notify
        pure true : M Enforcer Bool) E =
    (do
      let a ← onModel op
      if !a then pure false
      else do
        (do x; y : M Enforcer Unit)
        pure ()
        notify
        pure true : M Enforcer Bool) E := by
  simp only [M.bind_run]
  rcases onModel op E with ⟨o, E1⟩
  cases o with
  | throw e => rfl
  | ub u => rfl
  | ok a =>
    cases a with
    | false => rfl
    | true =>
      simp only [Bool.not_true, Bool.false_eq_true, if_false, M.bind_run, M.pure_run]
      rcases x E1 with ⟨o1, E2⟩
      cases o1 with
      | throw e => rfl
      | ub u => rfl
      | ok a =>
        simp only []

theorem updatePolicyI_did (sec pt : Str) (o n : Rule) (E : Enforcer) :
    Did E (Model.updatePolicy sec pt o n E.model) none (updatePolicyI sec pt o n E) := by
  unfold updatePolicyI
  rw [updateShape]
  exact did_bool _ _ _ _ (twoLinks_linkOnly _ _ (fun _ => linkIfG_linkOnly ..)
    (fun _ => linkIfG_linkOnly ..)) saveStep_none E

theorem updatePoliciesI_did (sec pt : Str) (o n : List Rule) (E : Enforcer) :
    Did E (Model.updatePolicies sec pt o n E.model) none (updatePoliciesI sec pt o n E) := by
  unfold updatePoliciesI
  rw [updateShape]
  exact did_bool _ _ _ _ (twoLinks_linkOnly _ _ (fun _ => linkIfG_linkOnly ..)
    (fun _ => linkIfG_linkOnly ..)) saveStep_none E

/-- Every editing call does what its method of the model does, and tells adapter and watcher. -/
theorem Edit.did (e : Edit) (E : Enforcer) : Did E (e.onStore E.model) e.call (e.run E) := by
  cases e with
  | add g pt r =>
    cases g with
    | false => exact addPolicyI_did ..
    | true => exact (addPolicyI_did c!"g" pt r E).thenLink _ (fun _ => buildIncremental_linkOnly ..)
  | addMany g pt rs => cases g <;> exact addPoliciesI_did ..
  | remove g pt r =>
    cases g with
    | false => exact removePolicyI_did ..
    | true => exact (removePolicyI_did c!"g" pt r E).thenLink _ buildRoleLinks_linkOnly
  | removeMany g pt rs => cases g <;> exact removePoliciesI_did ..
  | removeFiltered g pt i vs =>
    cases g with
    | false => exact removeFilteredI_did ..
    | true => exact (removeFilteredI_did true pt i vs E).thenLink _ buildRoleLinks_linkOnly
  | update g pt o n => cases g <;> exact updatePolicyI_did ..
  | updateMany pt o n => exact updatePoliciesI_did ..

end Enforcer
end Casbin
