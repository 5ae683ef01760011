import Verif.EditLemmas
import Verif.Fixtures

/-!
# C26–C34, C36–C38: the policy store through the management API

`Stored E sec pt rs` says that the rules of a policy type are `rs`, in this order. The theorems
speak about the calls of `Enforcer` and about the stored rules only.
-/

set_option linter.unusedSectionVars false

namespace Casbin
namespace PolicyProps

open Enforcer Fixtures
open Model (FilterMatch LongEnough)

variable [IterOrder]

/-- The rules stored for a policy type. -/
def Stored (E : Enforcer) (sec pt : Str) (rs : List Rule) : Prop :=
  ∃ a, E.model.find sec pt = some a ∧ a.policy.items = rs

/-- The rules are kept in a vector. -/
def InVector (E : Enforcer) (sec pt : Str) : Prop :=
  ∃ a, E.model.find sec pt = some a ∧ a.policy.hash = false

/-- No stored rule is a proper rearrangement of the values of `r`. -/
def NoMixup (rs : List Rule) (r : Rule) : Prop := ∀ s ∈ rs, s.Perm r → s = r

instance (rs : List Rule) (r : Rule) : Decidable (NoMixup rs r) :=
  inferInstanceAs (Decidable (∀ s ∈ rs, s.Perm r → s = r))

/-- Everything an edit of `(sec, pt)` must not touch: other policy types, definitions, flags. -/
def OthersKept (E E' : Enforcer) (sec pt : Str) : Prop :=
  (∀ s t rs, (s, t) ≠ (sec, pt) → (Stored E' s t rs ↔ Stored E s t rs)) ∧
  (∀ s t, (E'.model.find s t).map (fun a => (a.key, a.value, a.tokens)) =
          (E.model.find s t).map (fun a => (a.key, a.value, a.tokens))) ∧
  E'.enabled = E.enabled ∧ E'.autoSave = E.autoSave ∧ E'.autoBuild = E.autoBuild ∧
  E'.autoNotify = E.autoNotify

/-! ## Helpers -/

theorem similar_iff {P : Policies} {r : Rule} (h : NoMixup P.items r) :
    P.Similar r ↔ r ∈ P.items := by
  constructor
  · rintro ⟨s, hs, hp⟩
    rwa [← h s hs hp.symm]
  · exact Policies.Similar.of_mem

theorem stored_of_sameRules {m : Model} {E : Enforcer} {sec pt : Str} {a : Assertion}
    (h : m.SameRules E.model) (hf : m.find sec pt = some a) : Stored E sec pt a.policy.items := by
  obtain ⟨p, hp⟩ := h.some hf
  exact ⟨_, hp, rfl⟩

theorem find_of_sameRules_iff {m m' : Model} (h : m.SameRules m') (s t : Str) (rs : List Rule) :
    (∃ a, m'.find s t = some a ∧ a.policy.items = rs) ↔
    (∃ a, m.find s t = some a ∧ a.policy.items = rs) := by
  constructor
  · rintro ⟨a, ha, hr⟩
    cases hm : m.find s t with
    | none => rw [h.none hm] at ha; cases ha
    | some b =>
      obtain ⟨p, hp⟩ := h.some hm
      rw [hp] at ha
      cases ha
      exact ⟨b, rfl, hr⟩
  · rintro ⟨a, ha, hr⟩
    obtain ⟨p, hp⟩ := h.some ha
    exact ⟨_, hp, hr⟩

theorem defs_of_sameRules {m m' : Model} (h : m.SameRules m') (s t : Str) :
    (m'.find s t).map (fun a => (a.key, a.value, a.tokens)) =
    (m.find s t).map (fun a => (a.key, a.value, a.tokens)) := by
  cases hm : m.find s t with
  | none => rw [h.none hm]
  | some b => obtain ⟨p, hp⟩ := h.some hm; rw [hp]; rfl

theorem othersKept_of_did {E : Enforcer} {s : Outcome Bool × Model} {c : Option AdapterCall}
    {R : Outcome Bool × Enforcer} {sec pt : Str} (h : Did E s c R)
    (he : E.model.EditedAt sec pt s.2) : OthersKept E R.2 sec pt := by
  refine ⟨?_, ?_, h.rest.2.2.1, h.rest.2.2.2.1, h.rest.2.2.2.2.1, h.rest.2.2.2.2.2⟩
  · intro s' t' rs hne
    refine (find_of_sameRules_iff h.rules s' t' rs).trans ?_
    rcases he with he | ⟨a, P, ha, he⟩
    · rw [he]; rfl
    · rw [he, Model.find_put_ne]
      · rfl
      · rintro ⟨rfl, rfl⟩; exact hne rfl
  · intro s' t'
    refine (defs_of_sameRules h.rules s' t').trans ?_
    rcases he with he | ⟨a, P, ha, he⟩
    · rw [he]
    · rw [he, Model.find_put]
      split
      · rename_i heq
        obtain ⟨rfl, rfl⟩ := heq
        rw [ha]; rfl
      · rfl

/-! ## C26 -/

/-- What `HasNamedPolicy` computes: is a rule with the same values *in some order* stored? -/
theorem hasNamedPolicy_run {E : Enforcer} {pt : Str} {rs : List Rule} (h : Stored E c!"p" pt rs)
    (r : Rule) : hasNamedPolicy pt r E = (.ok (decide (∃ s ∈ rs, r.Perm s)), E) := by
  obtain ⟨a, ha, rfl⟩ := h
  simp only [hasNamedPolicy, onModel_run, Model.hasPolicy_run ha]
  rfl

/-- C26 restricted to rules of which no other arrangement of the same values is stored. Missing:
that condition; without it the claim is false (`C26_hasPolicy_fails`). -/
theorem C26_hasPolicy_partial {E : Enforcer} {pt : Str} {rs : List Rule}
    (h : Stored E c!"p" pt rs) {r : Rule} (hm : NoMixup rs r) :
    hasNamedPolicy pt r E = (.ok (decide (r ∈ rs)), E) := by
  rw [hasNamedPolicy_run h]
  have : (∃ s ∈ rs, r.Perm s) ↔ r ∈ rs :=
    ⟨fun ⟨s, hs, hp⟩ => by rwa [← hm s hs hp.symm], fun hr => ⟨r, hr, .refl r⟩⟩
  simp only [this]

example : hasNamedPolicy c!"p" carol (acl [alice, bob]) = (.ok (decide (carol ∈ [alice, bob])),
    acl [alice, bob]) :=
  C26_hasPolicy_partial (rs := [alice, bob]) ⟨_, rfl, rfl⟩ (by decide)

/-- The values in other positions count as the same rule. -/
theorem C26_hasPolicy_fails : ∃ (E : Enforcer) (rs : List Rule) (r : Rule),
    Stored E c!"p" c!"p" rs ∧ r ∉ rs ∧ hasPolicy r E = (.ok true, E) :=
  ⟨acl [alice], [alice], aliceSwapped, ⟨_, rfl, rfl⟩, by decide, by
    rw [Enforcer.hasPolicy, hasNamedPolicy_run (rs := [alice]) ⟨_, rfl, rfl⟩]
    simp only [Prod.mk.injEq, Outcome.ok.injEq, decide_eq_true_eq, and_true]
    decide⟩

/-! ## C27 -/

/-- C27 restricted to rules of which no other arrangement is stored (otherwise false,
`C27_addPolicy_fails`) and adapters that do not reject the call. -/
theorem C27_addPolicy_partial {E : Enforcer} {pt : Str} {rs : List Rule}
    (h : Stored E c!"p" pt rs) {r : Rule} (hm : NoMixup rs r) :
    (r ∈ rs → addNamedPolicy pt r E = (.ok false, E)) ∧
    (r ∉ rs → (E.AdapterAccepts (.add c!"p" pt r) → (addNamedPolicy pt r E).1 = .ok true) ∧
      Stored (addNamedPolicy pt r E).2 c!"p" pt (rs ++ [r]) ∧
      OthersKept E (addNamedPolicy pt r E).2 c!"p" pt) := by
  obtain ⟨a, ha, rfl⟩ := h
  constructor
  · intro hr
    exact addPolicyI_p_similar ha (Policies.Similar.of_mem hr)
  · intro hr
    have hs : ¬ a.policy.Similar r := fun hs => hr ((similar_iff hm).mp hs)
    have hrun := addPolicyI_p_new ha hs
    refine ⟨?_, ?_, othersKept_of_did (addPolicyI_did ..) (Model.addPolicy_edited ..)⟩
    · intro hacc
      rw [addNamedPolicy, hrun, saveNotify_run, autoSaveCall_ok]
      intro b hb hs'
      exact hacc b hb hs'
    · have hd := (addPolicyI_did c!"p" pt r E).rules
      rw [Model.addPolicy_run ha, if_neg hs] at hd
      have := stored_of_sameRules hd (Model.find_put_self ..)
      rw [Policies.emplace_items_of_not_mem hr] at this
      exact this

example : (addNamedPolicy c!"p" carol (acl [alice, bob])).1 = .ok true ∧
    Stored (addNamedPolicy c!"p" carol (acl [alice, bob])).2 c!"p" c!"p" [alice, bob, carol] :=
  have h := (C27_addPolicy_partial (E := acl [alice, bob]) (rs := [alice, bob]) (pt := c!"p")
    (r := carol) ⟨_, rfl, rfl⟩ (by decide)).2 (by decide)
  ⟨h.1 (adapterAccepts_none rfl), h.2.1⟩

/-- A rule that is not stored is refused because another arrangement of its values is stored. -/
theorem C27_addPolicy_fails : ∃ (E : Enforcer) (rs : List Rule) (r : Rule),
    Stored E c!"p" c!"p" rs ∧ r ∉ rs ∧ addPolicy r E = (.ok false, E) :=
  ⟨acl [alice], [alice], aliceSwapped, ⟨_, rfl, rfl⟩, by decide,
    addPolicyI_p_similar (a := asrt c!"p" c!"sub, obj, act" [c!"p_sub", c!"p_obj", c!"p_act"]
      (.vector [alice])) rfl (by decide)⟩

/-- The rule stays stored when the adapter rejects the call, although the caller sees an
exception. -/
theorem C27_rejected_fails : ∃ (E : Enforcer) (r : Rule), Stored E c!"p" c!"p" [] ∧
    (addPolicy r E).1 = .throw .external ∧ Stored (addPolicy r E).2 c!"p" c!"p" [r] := by
  refine ⟨{ acl [] with adapter := some { niceAdapter with
    kind := .custom true false true (pure ()) (fun _ => .throw .external) } }, alice,
    ⟨_, rfl, rfl⟩, ?_, ?_⟩
  · rw [Enforcer.addPolicy, addNamedPolicy, addPolicyI_p_new (a := asrt c!"p" c!"sub, obj, act"
      [c!"p_sub", c!"p_obj", c!"p_act"] (.vector [])) rfl (by decide)]
    rfl
  · rw [Enforcer.addPolicy, addNamedPolicy, addPolicyI_p_new (a := asrt c!"p" c!"sub, obj, act"
      [c!"p_sub", c!"p_obj", c!"p_act"] (.vector [])) rfl (by decide)]
    exact ⟨_, rfl, rfl⟩

/-! ## C28 -/

theorem eraseFirst_exact {P : Policies} {r : Rule} (hm : NoMixup P.items r) (hr : r ∈ P.items) :
    P.eraseFirst (fun x => arrayEquals r x) = some { P with items := P.items.erase r } := by
  cases he : P.eraseFirst (fun x => arrayEquals r x) with
  | none => exact absurd (Policies.Similar.of_mem hr) ((eraseFirst_none_iff P r).mp he)
  | some Q =>
    unfold Policies.eraseFirst at he
    have heq : ∀ x ∈ P.items, arrayEquals r x = true → x = r := fun x hx hxe =>
      hm x hx ((arrayEquals_iff r x).mp hxe).symm
    split at he
    · cases hf : (IterOrder.iter P.items).find? (fun x => arrayEquals r x) with
      | none => simp [hf] at he
      | some x =>
        have := heq x (IterOrder.mem_iter.mp (List.mem_of_find?_eq_some hf)) (List.find?_some hf)
        subst this
        simpa [hf] using he.symm
    · split at he
      · rw [← he]
        congr 2
        rw [List.erase_eq_eraseP]
        clear he hm hr
        generalize P.items = l at heq
        induction l with
        | nil => rfl
        | cons x l ih =>
          have ih' := ih fun y hy => heq y (List.mem_cons_of_mem _ hy)
          by_cases hx : arrayEquals r x = true
          · have hxr := heq x (List.mem_cons_self ..) hx
            subst hxr
            simp [hx]
          · have hne : ¬ (x == r) = true := by
              intro hc
              have := eq_of_beq hc
              subst this
              exact hx ((arrayEquals_iff x x).mpr (.refl x))
            have hne' : ¬ (r == x) = true := by
              intro hc
              have := eq_of_beq hc
              subst this
              exact hx ((arrayEquals_iff r r).mpr (.refl r))
            rw [List.eraseP_cons_of_neg hx, List.eraseP_cons_of_neg hne', ih']
      · cases he

/-- C28 restricted to rules of which no other arrangement is stored (otherwise false,
`C28_removePolicy_fails`). `List.erase` deletes the first copy and keeps the order. -/
theorem C28_removePolicy_partial {E : Enforcer} {pt : Str} {rs : List Rule}
    (h : Stored E c!"p" pt rs) {r : Rule} (hm : NoMixup rs r) :
    (r ∉ rs → removeNamedPolicy pt r E = (.ok false, E)) ∧
    (r ∈ rs → (E.AdapterAccepts (.remove c!"p" pt r) → (removeNamedPolicy pt r E).1 = .ok true) ∧
      Stored (removeNamedPolicy pt r E).2 c!"p" pt (rs.erase r) ∧
      OthersKept E (removeNamedPolicy pt r E).2 c!"p" pt) := by
  obtain ⟨a, ha, rfl⟩ := h
  constructor
  · intro hr
    refine removePolicyI_p_none ha ((eraseFirst_none_iff _ _).mpr ?_)
    exact fun hs => hr ((similar_iff hm).mp hs)
  · intro hr
    have hE := eraseFirst_exact hm hr
    refine ⟨?_, ?_, othersKept_of_did (removePolicyI_did ..) (Model.eraseRule_edited ..)⟩
    · intro hacc
      rw [removeNamedPolicy, removePolicyI_p_some ha hE, saveNotify_run, autoSaveCall_ok]
      intro b hb hs'
      exact hacc b hb hs'
    · have hd := (removePolicyI_did c!"p" pt r E).rules
      rw [Model.removePolicy, Model.eraseRule_run ha, hE] at hd
      exact stored_of_sameRules hd (Model.find_put_self ..)

example : Stored (removeNamedPolicy c!"p" bob (acl [alice, bob, carol])).2 c!"p" c!"p"
    [alice, carol] :=
  ((C28_removePolicy_partial (E := acl [alice, bob, carol]) (rs := [alice, bob, carol])
    (pt := c!"p") (r := bob) ⟨_, rfl, rfl⟩ (by decide)).2 (by decide)).2.1

/-- Removing a rule that is not stored deletes a stored rule with the same values in other
positions. -/
theorem C28_removePolicy_fails : ∃ (E : Enforcer) (rs : List Rule) (r : Rule),
    Stored E c!"p" c!"p" rs ∧ r ∉ rs ∧ (removePolicy r E).1 = .ok true ∧
    Stored (removePolicy r E).2 c!"p" c!"p" [] := by
  refine ⟨acl [alice], [alice], aliceSwapped, ⟨_, rfl, rfl⟩, by decide, ?_, ?_⟩ <;>
  · rw [Enforcer.removePolicy, removeNamedPolicy, removePolicyI_p_some (a := asrt c!"p"
      c!"sub, obj, act" [c!"p_sub", c!"p_obj", c!"p_act"] (.vector [alice])) rfl
      (P := .vector []) (by rfl)]
    first | rfl | exact ⟨_, rfl, rfl⟩

/-! ## C29 -/

/-- The rules of a batch are pairwise different. -/
def BatchNodup : Edit → Prop
  | .addMany _ _ rs => rs.Nodup
  | .removeMany _ _ rs => rs.Nodup
  | .updateMany _ _ n => n.Nodup
  | _ => True

/-- Every policy type holds each rule at most once. -/
def NoDuplicates (m : Model) : Prop := ∀ s t a, m.find s t = some a → a.policy.items.Nodup

/-- Run a sequence of editing calls; the caller catches exceptions and goes on. -/
def runEdits (E : Enforcer) (es : List Edit) : Enforcer := es.foldl (fun E e => (e.run E).2) E

theorem nodup_emplace {P : Policies} {r : Rule} (h : P.items.Nodup) (hr : r ∉ P.items) :
    (P.emplace r).items.Nodup := by
  rw [Policies.emplace_items_of_not_mem hr, List.nodup_append]
  refine ⟨h, List.nodup_singleton _, ?_⟩
  rintro x hx y hy rfl
  rw [List.mem_singleton] at hy
  exact hr (hy ▸ hx)

theorem nodup_emplaceList (rs : List Rule) : ∀ {P : Policies}, P.items.Nodup → rs.Nodup →
    (∀ r ∈ rs, r ∉ P.items) → (Model.emplaceList P rs).items.Nodup := by
  induction rs with
  | nil => intro P h _ _; exact h
  | cons r rs ih =>
    intro P h hn hd
    rw [Model.emplaceList, List.foldl_cons]
    rw [List.nodup_cons] at hn
    refine ih (nodup_emplace h (hd r (List.mem_cons_self ..))) hn.2 ?_
    intro x hx hmem
    rw [Policies.mem_emplace] at hmem
    rcases hmem with hmem | rfl
    · exact hd x (List.mem_cons_of_mem _ hx) hmem
    · exact hn.1 hx

theorem noDuplicates_put {m : Model} {s t : Str} {a : Assertion} {P : Policies}
    (h : NoDuplicates m) (hP : P.items.Nodup) : NoDuplicates (m.put s t { a with policy := P }) := by
  intro s' t' b hb
  rw [Model.find_put] at hb
  split at hb
  · cases hb; exact hP
  · exact h s' t' b hb

theorem noDuplicates_add {m : Model} (h : NoDuplicates m) (s t : Str) (r : Rule) :
    NoDuplicates (Model.addPolicy s t r m).2 := by
  cases hf : m.find s t with
  | none => simpa [Model.addPolicy, M.bind_run, Model.hasPolicy_none hf] using h
  | some a =>
    rw [Model.addPolicy_run hf]
    split
    · exact h
    · rename_i hs
      exact noDuplicates_put h (nodup_emplace (h s t a hf) (fun hm => hs (.of_mem hm)))

theorem noDuplicates_addMany {m : Model} (h : NoDuplicates m) (s t : Str) {rs : List Rule}
    (hn : rs.Nodup) : NoDuplicates (Model.addPolicies s t rs m).2 := by
  cases hf : m.find s t with
  | none =>
    rcases Model.addPolicies_edited s t rs m with he | ⟨a, P, ha, _⟩
    · rw [he]; exact h
    · rw [hf] at ha; cases ha
  | some a =>
    rw [Model.addPolicies_run hf]
    split
    · exact h
    · rename_i hs
      exact noDuplicates_put h (nodup_emplaceList rs (h s t a hf) hn
        (fun r hr hm => hs ⟨r, hr, .of_mem hm⟩))

theorem noDuplicates_erase {m : Model} (h : NoDuplicates m) (s t : Str) (r : Rule) :
    NoDuplicates (Model.eraseRule s t r m).2 := by
  cases hf : m.find s t with
  | none => simpa [Model.eraseRule, M.bind_run, Model.at_none hf] using h
  | some a =>
    rw [Model.eraseRule_run hf]
    cases he : a.policy.eraseFirst (fun x => arrayEquals r x) with
    | none => exact h
    | some P =>
      obtain ⟨pre, x, post, h1, rfl, _, _⟩ := Policies.eraseFirst_some he
      refine noDuplicates_put h ?_
      have := h s t a hf
      rw [h1] at this
      exact this.sublist (List.Sublist.append_left (List.sublist_cons_self ..) _)

theorem noDuplicates_eraseAll (s t : Str) (rs : List Rule) : ∀ {m : Model}, NoDuplicates m →
    NoDuplicates (Model.eraseAll s t rs m).2 := by
  induction rs with
  | nil => intro m h; exact h
  | cons r rs ih =>
    intro m h
    have h1 := noDuplicates_erase h s t r
    simp only [Model.eraseAll, M.bind_run]
    rcases he : Model.eraseRule s t r m with ⟨o, m'⟩
    rw [he] at h1
    cases o with
    | throw e => exact h1
    | ub e => exact h1
    | ok b => cases b with
      | false => exact h1
      | true => exact ih h1

theorem noDuplicates_onStore {m : Model} (h : NoDuplicates m) (e : Edit) (hb : BatchNodup e) :
    NoDuplicates (e.onStore m).2 := by
  cases e with
  | add g pt r => exact noDuplicates_add h _ _ _
  | addMany g pt rs => exact noDuplicates_addMany h _ _ hb
  | remove g pt r => exact noDuplicates_erase h _ _ _
  | removeMany g pt rs => exact noDuplicates_addMany h _ _ hb
  | removeFiltered g pt i vs =>
    rw [onStore_removeFiltered]
    show NoDuplicates (Model.removeFilteredPolicy (Edit.secOf g) pt i vs m).2
    cases hf : m.find (Edit.secOf g) pt with
    | none => simpa [Model.removeFilteredPolicy, M.bind_run, Model.at_none hf] using h
    | some a =>
      simp only [Model.removeFilteredPolicy, M.bind_run, Model.at_run hf, M.lift_run]
      cases hp : Model.partitionFilter i vs a.policy.iterate with
      | throw e => exact h
      | ub e => exact h
      | ok yn =>
        simp only [Model.setPolicy_run hf]
        refine noDuplicates_put h ?_
        obtain ⟨_, hsub⟩ := Model.partitionFilter_split i vs _ yn.1 yn.2 hp
        exact ((Policies.iterate_perm a.policy).nodup_iff.mpr (h _ _ a hf)).sublist hsub
  | update g pt o n =>
    have h1 := noDuplicates_erase h (Edit.secOf g) pt o
    show NoDuplicates (Model.updatePolicy (Edit.secOf g) pt o n m).2
    simp only [Model.updatePolicy, M.bind_run]
    rcases he : Model.eraseRule (Edit.secOf g) pt o m with ⟨x, m'⟩
    rw [he] at h1
    cases x with
    | throw e => exact h1
    | ub e => exact h1
    | ok b => cases b with
      | false => exact h1
      | true => exact noDuplicates_add h1 _ _ _
  | updateMany pt o n =>
    show NoDuplicates (Model.updatePolicies c!"p" pt o n m).2
    cases hf : m.find c!"p" pt with
    | none => simpa [Model.updatePolicies, M.bind_run, Model.at_none hf] using h
    | some a =>
      have h1 := noDuplicates_eraseAll c!"p" pt o h
      simp only [Model.updatePolicies, M.bind_run, Model.at_run hf]
      rcases he : Model.eraseAll c!"p" pt o m with ⟨x, m'⟩
      rw [he] at h1
      cases x with
      | throw e => exact h1
      | ub e => exact h1
      | ok b => cases b with
        | false => exact h1
        | true => exact noDuplicates_addMany h1 _ _ hb

theorem noDuplicates_sameRules {m m' : Model} (h : NoDuplicates m) (hs : m.SameRules m') :
    NoDuplicates m' := by
  intro s t a ha
  obtain ⟨b, hb, hi⟩ := (find_of_sameRules_iff hs s t a.policy.items).mp ⟨a, ha, rfl⟩
  rw [← hi]; exact h s t b hb

theorem noDuplicates_of_all {m : Model}
    (h : ∀ sm ∈ m, ∀ ta ∈ sm.2, ta.2.policy.items.Nodup) : NoDuplicates m := by
  intro s t a ha
  unfold Model.find at ha
  cases hs : m.get s with
  | none => simp [hs] at ha
  | some am =>
    simp only [hs] at ha
    exact h _ (UMap.mem_of_get hs) _ (UMap.mem_of_get ha)

/-- C29 for histories in which no single batch repeats a rule. Missing: batches with repetitions,
which do create duplicates (`C29_noDuplicates_fails`). -/
theorem C29_noDuplicates_partial (es : List Edit) : ∀ (E : Enforcer), NoDuplicates E.model →
    (∀ e ∈ es, BatchNodup e) → NoDuplicates (runEdits E es).model := by
  induction es with
  | nil => intro E h _; exact h
  | cons e es ih =>
    intro E h hb
    refine ih (e.run E).2 ?_ (fun e' he' => hb e' (List.mem_cons_of_mem _ he'))
    exact noDuplicates_sameRules (noDuplicates_onStore h e (hb e (List.mem_cons_self ..)))
      (e.did E).rules

example : NoDuplicates (runEdits (rbac [alice] [])
    [.add false c!"p" bob, .addMany true c!"g" [[c!"a", c!"b"], [c!"b", c!"c"]],
     .update false c!"p" bob alice, .remove false c!"p" carol]).model :=
  C29_noDuplicates_partial _ _ (noDuplicates_of_all (by decide)) (by simp [BatchNodup])

/-- A batch that contains the same rule twice stores it twice. -/
theorem C29_noDuplicates_fails : ∃ (E : Enforcer) (r : Rule), Stored E c!"p" c!"p" [] ∧
    (addPolicies [r, r] E).1 = .ok true ∧ Stored (addPolicies [r, r] E).2 c!"p" c!"p" [r, r] := by
  refine ⟨acl [], alice, ⟨_, rfl, rfl⟩, ?_, ?_⟩ <;>
  · rw [Enforcer.addPolicies, addNamedPolicies, addPoliciesI_p_new (a := asrt c!"p"
      c!"sub, obj, act" [c!"p_sub", c!"p_obj", c!"p_act"] (.vector [])) rfl (by decide)]
    first | rfl | exact ⟨_, rfl, rfl⟩

/-! ## C30 -/

/-- C30 restricted to batches no rule of which has another arrangement stored (otherwise false,
`C30_addPolicies_fails`), adapters that take batches (`C30_addPolicies_adapter_fails`) and do not
reject the call. In a vector the rules are appended in order. -/
theorem C30_addPolicies_partial {E : Enforcer} {pt : Str} {rs : List Rule}
    (h : Stored E c!"p" pt rs) {batch : List Rule} (hm : ∀ r ∈ batch, NoMixup rs r) :
    ((∃ r ∈ batch, r ∈ rs) → addNamedPolicies pt batch E = (.ok false, E)) ∧
    ((∀ r ∈ batch, r ∉ rs) →
      (E.BatchAccepts (.addMany c!"p" pt batch) → (addNamedPolicies pt batch E).1 = .ok true) ∧
      (∃ rs', Stored (addNamedPolicies pt batch E).2 c!"p" pt rs' ∧
        (∀ x, x ∈ rs' ↔ x ∈ rs ∨ x ∈ batch) ∧
        (InVector E c!"p" pt → rs' = rs ++ batch)) ∧
      OthersKept E (addNamedPolicies pt batch E).2 c!"p" pt) := by
  obtain ⟨a, ha, rfl⟩ := h
  constructor
  · rintro ⟨r, hr, hr'⟩
    exact addPoliciesI_p_similar ha ⟨r, hr, .of_mem hr'⟩
  · intro hr
    have hs : ¬ ∃ r ∈ batch, a.policy.Similar r := by
      rintro ⟨r, hrb, hs⟩
      exact hr r hrb ((similar_iff (hm r hrb)).mp hs)
    refine ⟨?_, ?_, othersKept_of_did (addPoliciesI_did ..) (Model.addPolicies_edited ..)⟩
    · intro hacc
      rw [addNamedPolicies, addPoliciesI_p_new ha hs, batchNotify_run, autoSaveBatch_ok]
      exact ⟨fun b hb hs' => hacc.1 b hb hs', fun b hb hs' => hacc.2 b hb hs'⟩
    · have hd := (addPoliciesI_did c!"p" pt batch E).rules
      rw [Model.addPolicies_run ha, if_neg hs] at hd
      refine ⟨_, stored_of_sameRules hd (Model.find_put_self ..), ?_, ?_⟩
      · intro x; exact Model.mem_emplaceList ..
      · rintro ⟨b, hb, hv⟩
        rw [ha] at hb
        cases hb
        show (Model.emplaceList a.policy batch).items = _
        rw [Model.emplaceList_vector hv]

example : Stored (addNamedPolicies c!"p" [bob, carol] (acl [alice])).2 c!"p" c!"p"
    [alice, bob, carol] := by
  obtain ⟨rs', h1, _, h3⟩ := ((C30_addPolicies_partial (E := acl [alice]) (rs := [alice])
    (pt := c!"p") (batch := [bob, carol]) ⟨_, rfl, rfl⟩ (by decide)).2 (by decide)).2.1
  rw [h3 ⟨_, rfl, rfl⟩] at h1
  exact h1

/-- A batch of rules none of which is stored is refused. -/
theorem C30_addPolicies_fails : ∃ (E : Enforcer) (rs batch : List Rule),
    Stored E c!"p" c!"p" rs ∧ (∀ r ∈ batch, r ∉ rs) ∧ addPolicies batch E = (.ok false, E) :=
  ⟨acl [alice], [alice], [bob, aliceSwapped], ⟨_, rfl, rfl⟩, by decide,
    addPoliciesI_p_similar (a := asrt c!"p" c!"sub, obj, act" [c!"p_sub", c!"p_obj", c!"p_act"]
      (.vector [alice])) rfl (by decide)⟩

/-- With an adapter that is not a batch adapter (such as `FileAdapter`) and auto-save on, the batch
methods dereference a null pointer after the rules have been added. -/
theorem C30_addPolicies_adapter_fails : ∃ (E : Enforcer) (batch : List Rule),
    (addPolicies batch E).1 = .ub .nullDeref ∧ Stored (addPolicies batch E).2 c!"p" c!"p" batch := by
  refine ⟨{ acl [] with adapter := some (Adapter.mk (.file c!"policy.csv" (some []) true false)
    []) }, [alice], ?_, ?_⟩ <;>
  · rw [Enforcer.addPolicies, addNamedPolicies, addPoliciesI_p_new (a := asrt c!"p"
      c!"sub, obj, act" [c!"p_sub", c!"p_obj", c!"p_act"] (.vector [])) rfl (by decide)]
    first | rfl | exact ⟨_, rfl, rfl⟩

/-- The same with a `StringAdapter`, which is no batch adapter either. -/
theorem C30_addPolicies_string_fails (line : Str) :
    (addPolicies [alice] { acl [] with adapter := some (.string line) }).1 = .ub .nullDeref := by
  rw [Enforcer.addPolicies, addNamedPolicies, addPoliciesI_p_new (a := asrt c!"p"
      c!"sub, obj, act" [c!"p_sub", c!"p_obj", c!"p_act"] (.vector [])) rfl (by decide)]
  rfl

/-! ## C31 -/

/-- The part of C31 that holds: when some but not all rules of the batch are stored the call
returns false and changes nothing. Missing: everything else (`C31_removePolicies_fails`). -/
theorem C31_removePolicies_partial {E : Enforcer} {pt : Str} {rs : List Rule}
    (h : Stored E c!"p" pt rs) {batch : List Rule} (h1 : ∃ r ∈ batch, r ∈ rs) :
    removeNamedPolicies pt batch E = (.ok false, E) := by
  obtain ⟨a, ha, rfl⟩ := h
  obtain ⟨r, hr, hr'⟩ := h1
  exact removePoliciesI_p_similar ha ⟨r, hr, .of_mem hr'⟩

example : removeNamedPolicies c!"p" [alice, carol] (acl [alice, bob]) =
    (.ok false, acl [alice, bob]) :=
  C31_removePolicies_partial (rs := [alice, bob]) ⟨_, rfl, rfl⟩ ⟨alice, by decide, by decide⟩

/-- `RemovePolicies` never removes anything: stored rules are kept and the answer is false; rules
that are not stored are *added* and the answer is true. -/
theorem C31_removePolicies_fails {E : Enforcer} {pt : Str} {rs : List Rule}
    (h : Stored E c!"p" pt rs) (batch : List Rule) :
    (batch ≠ [] → (∀ r ∈ batch, r ∈ rs) → removeNamedPolicies pt batch E = (.ok false, E)) ∧
    (∃ rs', Stored (removeNamedPolicies pt batch E).2 c!"p" pt rs' ∧ ∀ x ∈ rs, x ∈ rs') ∧
    ((∀ r ∈ batch, ∀ s ∈ rs, ¬ r.Perm s) → E.BatchAccepts (.removeMany c!"p" pt batch) →
      (removeNamedPolicies pt batch E).1 = .ok true ∧
      ∃ rs', Stored (removeNamedPolicies pt batch E).2 c!"p" pt rs' ∧ ∀ r ∈ batch, r ∈ rs') := by
  obtain ⟨a, ha, rfl⟩ := h
  refine ⟨?_, ?_, ?_⟩
  · intro hne hall
    cases batch with
    | nil => exact absurd rfl hne
    | cons r batch =>
      exact removePoliciesI_p_similar ha
        ⟨r, List.mem_cons_self .., .of_mem (hall r (List.mem_cons_self ..))⟩
  · have hd := (removePoliciesI_did c!"p" pt batch E).rules
    rw [Model.addPolicies_run ha] at hd
    split at hd
    · exact ⟨_, stored_of_sameRules hd ha, fun x hx => hx⟩
    · exact ⟨_, stored_of_sameRules hd (Model.find_put_self ..), fun x hx =>
        (Model.mem_emplaceList ..).mpr (.inl hx)⟩
  · intro hn hacc
    have hs : ¬ ∃ r ∈ batch, a.policy.Similar r := by
      rintro ⟨r, hrb, s, hs, hp⟩
      exact hn r hrb s hs hp
    constructor
    · rw [removeNamedPolicies, removePoliciesI_p_new ha hs, batchNotify_run, autoSaveBatch_ok]
      exact ⟨fun b hb hs' => hacc.1 b hb hs', fun b hb hs' => hacc.2 b hb hs'⟩
    · have hd := (removePoliciesI_did c!"p" pt batch E).rules
      rw [Model.addPolicies_run ha, if_neg hs] at hd
      exact ⟨_, stored_of_sameRules hd (Model.find_put_self ..), fun x hx =>
        (Model.mem_emplaceList ..).mpr (.inr hx)⟩

example : Stored (acl [alice]) c!"p" c!"p" [alice] ∧
    (removeNamedPolicies c!"p" [bob] (acl [alice])).1 = .ok true :=
  ⟨⟨_, rfl, rfl⟩, ((C31_removePolicies_fails (E := acl [alice]) (rs := [alice]) (pt := c!"p")
    ⟨_, rfl, rfl⟩ [bob]).2.2 (by decide) ⟨adapterAccepts_none rfl, by simp [acl, enforcer]⟩).1⟩

/-! ## C32 -/

theorem updatePolicy_run {m : Model} {s t : Str} {a : Assertion} (h : m.find s t = some a)
    (o n : Rule) : Model.updatePolicy s t o n m =
      match a.policy.eraseFirst (fun x => arrayEquals o x) with
      | none => (.ok false, m)
      | some P =>
        if P.Similar n then (.ok false, m.put s t { a with policy := P })
        else (.ok true, m.put s t { a with policy := P.emplace n }) := by
  simp only [Model.updatePolicy, M.bind_run, Model.eraseRule_run h]
  cases a.policy.eraseFirst (fun x => arrayEquals o x) with
  | none => rfl
  | some P =>
    simp only [Bool.not_true, Bool.false_eq_true, if_false]
    have h' := Model.addPolicy_run (Model.find_put_self m s t { a with policy := P }) n
    rw [Model.put_put] at h'
    rw [← h']
    rfl

theorem updatePolicyI_p_run (pt : Str) (o n : Rule) (E : Enforcer) :
    updatePolicyI c!"p" pt o n E =
      match Model.updatePolicy c!"p" pt o n E.model with
      | (.ok true, m) => (.ok true, { E with model := m }.afterNotify)
      | (x, m) => (x, { E with model := m }) := by
  simp only [updatePolicyI, M.bind_run, onModel_run]
  rcases Model.updatePolicy c!"p" pt o n E.model with ⟨x, m⟩
  cases x with
  | throw e => rfl
  | ub e => rfl
  | ok b =>
    cases b with
    | false => rfl
    | true => simp [M.bind_run, linkIfG_p, notify_run]

/-- C32 for `UpdatePolicy`, restricted to: no other arrangement of either rule is stored, and the
new rule is not stored already. The new rule goes to the end. Missing: when the new rule is already
stored the old one is deleted and the call reports failure (`C32_update_fails`). -/
theorem C32_update_partial {E : Enforcer} {pt : Str} {rs : List Rule}
    (h : Stored E c!"p" pt rs) {o n : Rule} (ho : NoMixup rs o) (hn : NoMixup rs n) :
    (o ∉ rs → updateNamedPolicy pt o n E = (.ok false, E)) ∧
    (o ∈ rs → n ∉ rs → (updateNamedPolicy pt o n E).1 = .ok true ∧
      Stored (updateNamedPolicy pt o n E).2 c!"p" pt (rs.erase o ++ [n]) ∧
      OthersKept E (updateNamedPolicy pt o n E).2 c!"p" pt) := by
  obtain ⟨a, ha, rfl⟩ := h
  constructor
  · intro hr
    have he : a.policy.eraseFirst (fun x => arrayEquals o x) = none :=
      (eraseFirst_none_iff _ _).mpr fun hs => hr ((similar_iff ho).mp hs)
    rw [updateNamedPolicy, updatePolicyI_p_run, updatePolicy_run ha, he]
  · intro hr hnr
    have he := eraseFirst_exact ho hr
    have hn' : n ∉ a.policy.items.erase o := fun hx => hnr (List.mem_of_mem_erase hx)
    have hs : ¬ Policies.Similar { a.policy with items := a.policy.items.erase o } n := by
      rintro ⟨x, hx, hp⟩
      have := hn x (List.mem_of_mem_erase hx) hp.symm
      exact hnr (this ▸ List.mem_of_mem_erase hx)
    refine ⟨?_, ?_, othersKept_of_did (updatePolicyI_did ..) (Model.updatePolicy_edited ..)⟩
    · rw [updateNamedPolicy, updatePolicyI_p_run, updatePolicy_run ha, he]
      simp only [if_neg hs]
    · have hd := (updatePolicyI_did c!"p" pt o n E).rules
      rw [updatePolicy_run ha, he] at hd
      simp only [if_neg hs] at hd
      have := stored_of_sameRules hd (Model.find_put_self ..)
      rw [Policies.emplace_items_of_not_mem hn'] at this
      exact this

example : Stored (updateNamedPolicy c!"p" alice carol (acl [alice, bob])).2 c!"p" c!"p"
    [bob, carol] :=
  ((C32_update_partial (E := acl [alice, bob]) (rs := [alice, bob]) (pt := c!"p") (o := alice)
    (n := carol) ⟨_, rfl, rfl⟩ (by decide) (by decide)).2 (by decide) (by decide)).2.1

/-- The update is not atomic: it returns false and has deleted the old rule. -/
theorem C32_update_fails : ∃ (E : Enforcer) (rs : List Rule) (o n : Rule),
    Stored E c!"p" c!"p" rs ∧ o ∈ rs ∧ (updatePolicy o n E).1 = .ok false ∧
    Stored (updatePolicy o n E).2 c!"p" c!"p" (rs.erase o) := by
  refine ⟨acl [alice, bob], [alice, bob], alice, bob, ⟨_, rfl, rfl⟩, by decide, ?_, ?_⟩
  all_goals
    rw [Enforcer.updatePolicy, updateNamedPolicy, updatePolicyI_p_run, updatePolicy_run
      (a := asrt c!"p" c!"sub, obj, act" [c!"p_sub", c!"p_obj", c!"p_act"] (.vector [alice, bob]))
      rfl, show (asrt c!"p" c!"sub, obj, act" [c!"p_sub", c!"p_obj", c!"p_act"]
        (.vector [alice, bob])).policy.eraseFirst (fun x => arrayEquals alice x) =
        some (.vector [bob]) from rfl]
    simp only []
    rw [if_pos (by decide)]
  exact ⟨_, rfl, rfl⟩

theorem updatePolicies_run {m : Model} {s t : Str} {a : Assertion} (h : m.find s t = some a)
    (o n : List Rule) : Model.updatePolicies s t o n m =
      match Model.eraseAll s t o m with
      | (.ok true, m') => Model.addPolicies s t n m'
      | (x, m') => (x, m') := by
  simp only [Model.updatePolicies, M.bind_run, Model.at_run h]
  rcases Model.eraseAll s t o m with ⟨x, m'⟩
  cases x with
  | throw e => rfl
  | ub e => rfl
  | ok b => cases b <;> rfl

theorem updatePoliciesI_p_run (pt : Str) (o n : List Rule) (E : Enforcer) :
    updatePoliciesI c!"p" pt o n E =
      match Model.updatePolicies c!"p" pt o n E.model with
      | (.ok true, m) => (.ok true, { E with model := m }.afterNotify)
      | (x, m) => (x, { E with model := m }) := by
  simp only [updatePoliciesI, M.bind_run, onModel_run]
  rcases Model.updatePolicies c!"p" pt o n E.model with ⟨x, m⟩
  cases x with
  | throw e => rfl
  | ub e => rfl
  | ok b =>
    cases b with
    | false => rfl
    | true => simp [M.bind_run, linkIfG_p, notify_run]

/-- Deleting a list of rules one after the other. -/
def eraseEach (rs : List Rule) (os : List Rule) : List Rule := os.foldl List.erase rs

theorem mem_of_mem_eraseEach {x : Rule} (os : List Rule) : ∀ {rs : List Rule},
    x ∈ eraseEach rs os → x ∈ rs := by
  induction os with
  | nil => intro rs h; exact h
  | cons o os ih =>
    intro rs h
    exact List.mem_of_mem_erase (ih (rs := rs.erase o) h)

theorem eraseAll_exact {s t : Str} (os : List Rule) : ∀ {m : Model} {a : Assertion},
    m.find s t = some a → (∀ o ∈ os, NoMixup a.policy.items o) → os.Nodup →
    (∀ o ∈ os, o ∈ a.policy.items) →
    Model.eraseAll s t os m = (.ok true,
      m.put s t { a with policy := { a.policy with items := eraseEach a.policy.items os } }) := by
  induction os with
  | nil =>
    intro m a h _ _ _
    exact Prod.ext rfl (Model.put_self _ _ _ _ h).symm
  | cons o os ih =>
    intro m a h hm hd hin
    rw [List.nodup_cons] at hd
    have he := eraseFirst_exact (hm o (List.mem_cons_self ..)) (hin o (List.mem_cons_self ..))
    simp only [Model.eraseAll, M.bind_run, Model.eraseRule_run h, he, Bool.not_true,
      Bool.false_eq_true, if_false]
    rw [ih (Model.find_put_self ..) ?_ hd.2 ?_, Model.put_put]
    · rfl
    · intro x hx y hy hp
      exact hm x (List.mem_cons_of_mem _ hx) y (List.mem_of_mem_erase hy) hp
    · intro x hx
      have hne : x ≠ o := fun he => hd.1 (he ▸ hx)
      exact (List.mem_erase_of_ne hne).mpr (hin x (List.mem_cons_of_mem _ hx))

/-- C32 for `UpdatePolicies`, restricted to: all old rules are stored and different, none of the
new rules is stored, and no other arrangement of any of them is. Missing: the other cases, in
which the call is not atomic (`C32_updateMany_fails`). -/
theorem C32_updateMany_partial {E : Enforcer} {pt : Str} {rs : List Rule}
    (h : Stored E c!"p" pt rs) {os ns : List Rule} (hmo : ∀ o ∈ os, NoMixup rs o)
    (hmn : ∀ n ∈ ns, NoMixup rs n) (hd : os.Nodup) (ho : ∀ o ∈ os, o ∈ rs)
    (hn : ∀ n ∈ ns, n ∉ rs) :
    (updateNamedPolicies pt os ns E).1 = .ok true ∧
    (∃ rs', Stored (updateNamedPolicies pt os ns E).2 c!"p" pt rs' ∧
      (∀ x, x ∈ rs' ↔ x ∈ eraseEach rs os ∨ x ∈ ns) ∧
      (InVector E c!"p" pt → rs' = eraseEach rs os ++ ns)) ∧
    OthersKept E (updateNamedPolicies pt os ns E).2 c!"p" pt := by
  obtain ⟨a, ha, rfl⟩ := h
  have hs : ¬ ∃ r ∈ ns, Policies.Similar
      { a.policy with items := eraseEach a.policy.items os } r := by
    rintro ⟨r, hr, x, hx, hp⟩
    have hx' := mem_of_mem_eraseEach os hx
    exact hn r hr (hmn r hr x hx' hp.symm ▸ hx')
  have hrun : Model.updatePolicies c!"p" pt os ns E.model = (.ok true, E.model.put c!"p" pt
      { a with policy := Model.emplaceList (Policies.mk a.policy.hash
        (eraseEach a.policy.items os)) ns }) := by
    rw [updatePolicies_run ha, eraseAll_exact os ha hmo hd ho]
    simp only [Model.addPolicies_run (Model.find_put_self ..), Model.put_put]
    rw [if_neg hs]
  refine ⟨?_, ?_, othersKept_of_did (updatePoliciesI_did ..) (Model.updatePolicies_edited ..)⟩
  · rw [updateNamedPolicies, updatePoliciesI_p_run, hrun]
  · have hd := (updatePoliciesI_did c!"p" pt os ns E).rules
    rw [hrun] at hd
    refine ⟨_, stored_of_sameRules hd (Model.find_put_self ..), ?_, ?_⟩
    · intro x; exact Model.mem_emplaceList ..
    · rintro ⟨b, hb, hv⟩
      rw [ha] at hb
      cases hb
      show (Model.emplaceList { a.policy with items := eraseEach a.policy.items os } ns).items = _
      rw [Model.emplaceList_vector]
      exact hv

example : (updateNamedPolicies c!"p" [alice] [carol] (acl [alice, bob])).1 = .ok true :=
  (C32_updateMany_partial (E := acl [alice, bob]) (rs := [alice, bob]) (pt := c!"p")
    (os := [alice]) (ns := [carol]) ⟨_, rfl, rfl⟩ (by decide) (by decide) (by decide) (by decide)
    (by decide)).1

/-- The second old rule is not stored: the call returns false but the first one has been
deleted. -/
theorem C32_updateMany_fails : ∃ (E : Enforcer) (rs os ns : List Rule),
    Stored E c!"p" c!"p" rs ∧ (updatePolicies os ns E).1 = .ok false ∧
    ∃ rs', Stored (updatePolicies os ns E).2 c!"p" c!"p" rs' ∧ rs' ≠ rs := by
  refine ⟨acl [alice, bob], [alice, bob], [alice, carol], [], ⟨_, rfl, rfl⟩, ?_, [bob], ?_,
    by decide⟩ <;>
  first | rfl | exact ⟨_, rfl, rfl⟩

/-! ## C33 -/

/-- C33 in full, for every filter and every policy whose rules are long enough for it. The rules
are compared in the order in which the container visits them (the order of the rules, for a
vector); afterwards the policy is a vector. `FilterMatch`: every non-empty filter value equals the
field of the rule at its position. -/
theorem C33_filtered {E : Enforcer} {pt : Str} {rs : List Rule} (h : Stored E c!"p" pt rs)
    {i : Nat} {vs : List Str} (hl : ∀ r ∈ rs, LongEnough r i vs) :
    ∃ seq : List Rule, seq.Perm rs ∧ (InVector E c!"p" pt → seq = rs) ∧
      getFilteredNamedPolicy pt i vs E =
        (.ok (.vector (seq.filter fun r => FilterMatch r i vs)), E) ∧
      Stored (removeFilteredNamedPolicy pt i vs E).2 c!"p" pt
        (seq.filter fun r => ¬ FilterMatch r i vs) ∧
      OthersKept E (removeFilteredNamedPolicy pt i vs E).2 c!"p" pt ∧
      (E.AdapterAccepts (.removeFiltered c!"p" pt i vs) →
        (removeFilteredNamedPolicy pt i vs E).1 = .ok (decide (∃ r ∈ rs, FilterMatch r i vs))) := by
  obtain ⟨a, ha, rfl⟩ := h
  have hrun := Model.removeFilteredPolicy_run ha i vs hl
  refine ⟨a.policy.iterate, Policies.iterate_perm _, ?_, ?_, ?_, ?_, ?_⟩
  · rintro ⟨b, hb, hv⟩
    rw [ha] at hb; cases hb
    exact Policies.iterate_of_vector hv
  · rw [getFilteredNamedPolicy, onModel_run, Model.getFilteredPolicy_run ha i vs hl]
  · have hd := (removeFilteredI_did false pt i vs E).rules
    rw [onStore_removeFiltered, show Edit.secOf false = c!"p" from rfl, hrun] at hd
    have := stored_of_sameRules hd (Model.find_put_self ..)
    simp only [decide_not]
    exact this
  · exact othersKept_of_did (removeFilteredI_did false pt i vs E)
      (Edit.onStore_edited (.removeFiltered false pt i vs) E.model)
  · intro hacc
    simp only [removeFilteredNamedPolicy, removeFilteredI, M.bind_run, onModel_run, hrun]
    by_cases hex : ∃ r ∈ a.policy.items, FilterMatch r i vs
    · have : (!(a.policy.iterate.filter (fun r => decide (FilterMatch r i vs))).isEmpty) = true := by
        obtain ⟨r, hr, hm⟩ := hex
        simp only [Bool.not_eq_true', List.isEmpty_eq_false_iff]
        exact List.ne_nil_of_mem (a := r)
          (List.mem_filter.mpr ⟨(Policies.mem_iterate ..).mpr hr, by simpa using hm⟩)
      simp only [this, hex, decide_true, Bool.not_true, Bool.false_eq_true, if_false, M.bind_run,
        linkIfG_p]
      rw [autoSaveCall_ok]
      · rfl
      · intro b hb hs'; exact hacc b hb hs'
    · have : (!(a.policy.iterate.filter (fun r => decide (FilterMatch r i vs))).isEmpty) = false := by
        simp only [Bool.not_eq_false', List.isEmpty_iff, List.filter_eq_nil_iff]
        intro r hr hm
        exact hex ⟨r, (Policies.mem_iterate ..).mp hr, by simpa using hm⟩
      simp only [this, hex, decide_false, Bool.not_false, if_true, M.pure_run]

example : (removeFilteredNamedPolicy c!"p" 1 [c!"data1", []] (acl [alice, bob, carol])).1 =
    .ok true := by
  obtain ⟨seq, _, _, _, _, _, h⟩ := C33_filtered (E := acl [alice, bob, carol]) (pt := c!"p")
    (rs := [alice, bob, carol]) (i := 1) (vs := [c!"data1", []]) ⟨_, rfl, rfl⟩ (by
      intro r hr j v hj hv
      have hj2 : j < 2 := by
        have := List.getElem?_eq_some_iff.mp hj
        exact this.1
      have : r.length = 3 := by
        revert r; decide
      omega)
  rw [h (adapterAccepts_none rfl)]
  rfl

/-- An empty filter (all values empty) removes every rule. -/
theorem C33_empty_filter {E : Enforcer} {pt : Str} {rs : List Rule} (h : Stored E c!"p" pt rs)
    (i n : Nat) :
    Stored (removeFilteredNamedPolicy pt i (List.replicate n []) E).2 c!"p" pt [] := by
  have hv : ∀ (j : Nat) (v : Str), (List.replicate n ([] : Str))[j]? = some v → v = [] := by
    intro j v hj
    exact List.eq_of_mem_replicate (List.mem_of_getElem? hj)
  obtain ⟨seq, _, _, _, h1, _⟩ := C33_filtered (i := i) (vs := List.replicate n []) h (by
    intro r _ j v hj hne; exact absurd (hv j v hj) hne)
  have : seq.filter (fun r => ¬ FilterMatch r i (List.replicate n [])) = [] := by
    rw [List.filter_eq_nil_iff]
    intro r _ hc
    simp only [decide_not, Bool.not_eq_true', decide_eq_false_iff_not] at hc
    exact hc (fun j v hj hne => absurd (hv j v hj) hne)
  exact this ▸ h1

/-! ## C34 -/

/-- C34 for policies whose rules are long enough. Missing: the others, for which the code reads
beyond the end of the rule (`C34_filter_fails`, `C34_getAll_fails`). -/
theorem C34_safe_partial {E : Enforcer} {pt : Str} {rs : List Rule} (h : Stored E c!"p" pt rs)
    {i : Nat} {vs : List Str} (hl : ∀ r ∈ rs, LongEnough r i vs) :
    (getFilteredNamedPolicy pt i vs E).1.Safe ∧
    (E.AdapterAccepts (.removeFiltered c!"p" pt i vs) →
      (removeFilteredNamedPolicy pt i vs E).1.Safe) := by
  obtain ⟨seq, _, _, h1, _, _, h2⟩ := C33_filtered h hl
  refine ⟨by rw [h1]; trivial, fun hacc => by rw [h2 hacc]; trivial⟩

/-- A filter reaching beyond the end of a rule. -/
theorem C34_filter_fails : ∃ (E : Enforcer) (rs : List Rule), Stored E c!"p" c!"p" rs ∧
    (∀ r ∈ rs, r.length = 3) ∧ (getFilteredPolicy 3 [c!"x"] E).1 = .ub .outOfBounds ∧
    (removeFilteredPolicy 2 [c!"read", c!"x"] E).1 = .ub .outOfBounds :=
  ⟨acl [alice], [alice], ⟨_, rfl, rfl⟩, by decide, by rfl, by rfl⟩

/-- A rule that is shorter than the column asked for. -/
theorem C34_getAll_fails : letI := insertionOrder
    ∃ (E : Enforcer), Stored E c!"p" c!"p" [[c!"alice"]] ∧
      getAllNamedObjects c!"p" E = (.ub .outOfBounds, E) ∧
      (getAllObjects E).1 = .ub .outOfBounds :=
  letI := insertionOrder
  ⟨acl [[c!"alice"]], ⟨_, rfl, rfl⟩, by rfl, by rfl⟩

/-! ## C36 -/

/-- `l` lists the values of column `i` of the rules, each once. -/
def Lists (l : List Str) (rs : List Rule) (i : Nat) : Prop :=
  l.Nodup ∧ ∀ x, x ∈ l ↔ ∃ r ∈ rs, r[i]? = some x

/-- C36 for the methods that name a policy type. -/
theorem C36_getAllNamed {E : Enforcer} {pt : Str} {rs : List Rule} (h : Stored E c!"p" pt rs) :
    ((∀ r ∈ rs, 0 < r.length) → ∃ l, getAllNamedSubjects pt E = (.ok l, E) ∧ Lists l rs 0) ∧
    ((∀ r ∈ rs, 1 < r.length) → ∃ l, getAllNamedObjects pt E = (.ok l, E) ∧ Lists l rs 1) ∧
    ((∀ r ∈ rs, 2 < r.length) → ∃ l, getAllNamedActions pt E = (.ok l, E) ∧ Lists l rs 2) := by
  obtain ⟨a, ha, rfl⟩ := h
  have key : ∀ i, (∀ r ∈ a.policy.items, i < r.length) →
      ∃ l, onModel (Model.getValuesForField c!"p" pt i) E = (.ok l, E) ∧
        Lists l a.policy.items i := by
    intro i hl
    obtain ⟨l, h1, h2, h3⟩ := Model.getValuesForField_run ha i hl
    exact ⟨l, by rw [onModel_run, h1], h2, h3⟩
  exact ⟨key 0, key 1, key 2⟩

theorem C36_getAllNamedRoles {E : Enforcer} {pt : Str} {rs : List Rule}
    (h : Stored E c!"g" pt rs) (hl : ∀ r ∈ rs, 1 < r.length) :
    ∃ l, getAllNamedRoles pt E = (.ok l, E) ∧ Lists l rs 1 := by
  obtain ⟨a, ha, rfl⟩ := h
  obtain ⟨l, h1, h2, h3⟩ := Model.getValuesForField_run ha 1 hl
  exact ⟨l, by rw [getAllNamedRoles, onModel_run, h1], h2, h3⟩

example : ∃ l, getAllNamedObjects c!"p" (acl [alice, bob, carol]) =
    (.ok l, acl [alice, bob, carol]) ∧ Lists l [alice, bob, carol] 1 :=
  (C36_getAllNamed (rs := [alice, bob, carol]) ⟨_, rfl, rfl⟩).2.1 (by decide)

/-- The values of a column over all policy types of a section. -/
def ListsAll (l : List Str) (E : Enforcer) (sec : Str) (i : Nat) : Prop :=
  l.Nodup ∧ ∀ x, x ∈ l ↔ ∃ pt rs, Stored E sec pt rs ∧ ∃ r ∈ rs, r[i]? = some x

/-- C36 for the methods over all policy types, in full. Nothing observable changes. -/
theorem C36_getAll (E : Enforcer) :
    (∀ i : Fin 3, (∀ pt rs, Stored E c!"p" pt rs → ∀ r ∈ rs, i.val < r.length) →
      ∃ l E', [getAllSubjects, getAllObjects, getAllActions][i] E = (.ok l, E') ∧
        ListsAll l E c!"p" i ∧ E.model.SameRules E'.model) ∧
    ((∀ pt rs, Stored E c!"g" pt rs → ∀ r ∈ rs, 1 < r.length) →
      ∃ l E', getAllRoles E = (.ok l, E') ∧ ListsAll l E c!"g" 1 ∧
        E.model.SameRules E'.model) := by
  have key : ∀ sec i, (∀ pt rs, Stored E sec pt rs → ∀ r ∈ rs, i < r.length) →
      ∃ l E', onModel (Model.getValuesForFieldAllTypes sec i) E = (.ok l, E') ∧
        ListsAll l E sec i ∧ E.model.SameRules E'.model := by
    intro sec i hl
    obtain ⟨l, h1, h2, h3⟩ := Model.getValuesForFieldAllTypes_run E.model sec i
      (fun t a ha r hr => hl t _ ⟨a, ha, rfl⟩ r hr)
    refine ⟨l, _, by rw [onModel_run, h1], ⟨h2, ?_⟩, Model.sameRules_ensureSec _ _⟩
    intro x
    rw [h3]
    constructor
    · rintro ⟨t, a, ha, hr⟩
      exact ⟨t, _, ⟨a, ha, rfl⟩, hr⟩
    · rintro ⟨t, rs, ⟨a, ha, rfl⟩, hr⟩
      exact ⟨t, a, ha, hr⟩
  refine ⟨?_, key c!"g" 1⟩
  intro i
  match i with
  | ⟨0, _⟩ => exact key c!"p" 0
  | ⟨1, _⟩ => exact key c!"p" 1
  | ⟨2, _⟩ => exact key c!"p" 2

example : letI := insertionOrder
    (getAllRoles (rbac [] [[c!"alice", c!"admin"], [c!"bob", c!"admin"], [c!"bob", c!"ops"]])).1 =
    .ok [c!"admin", c!"ops"] := by decide

/-! ## C37 -/

/-- C37 in full: whatever an editing call returns or throws, it leaves every other policy type, all
definitions and the switches alone. -/
theorem C37_frame (e : Edit) (E : Enforcer) :
    OthersKept E (e.run E).2 e.target.1 e.target.2 :=
  othersKept_of_did (e.did E) (e.onStore_edited E.model)

/-- C37 for histories: a policy type that is not the target of any of the calls keeps its rules. -/
theorem C37_history (es : List Edit) (sec pt : Str) (hne : ∀ e ∈ es, e.target ≠ (sec, pt)) :
    ∀ (E : Enforcer) (rs : List Rule), Stored E sec pt rs → Stored (runEdits E es) sec pt rs := by
  induction es with
  | nil => intro E rs h; exact h
  | cons e es ih =>
    intro E rs h
    refine ih (fun e' he' => hne e' (List.mem_cons_of_mem _ he')) (e.run E).2 rs ?_
    exact ((C37_frame e E).1 sec pt rs (Ne.symm (hne e (List.mem_cons_self ..)))).mpr h

example : Stored (runEdits (rbac [alice] []) [.add true c!"g" [c!"a", c!"b"],
    .removeFiltered true c!"g" 0 []]) c!"p" c!"p" [alice] :=
  C37_history _ _ _ (by decide) _ _ ⟨_, rfl, rfl⟩

/-! ## C38 -/

/-- Every call naming an undefined policy type dereferences a null pointer (batches: when they are
not empty). -/
theorem C38_unknown_fails {E : Enforcer} {pt : Str} (h : E.model.find c!"p" pt = none) (r : Rule)
    (rs : List Rule) (i : Nat) (vs : List Str) :
    (hasNamedPolicy pt r E).1 = .ub .nullDeref ∧
    (addNamedPolicy pt r E).1 = .ub .nullDeref ∧
    (addNamedPolicies pt (r :: rs) E).1 = .ub .nullDeref ∧
    (removeNamedPolicy pt r E).1 = .ub .nullDeref ∧
    (removeNamedPolicies pt (r :: rs) E).1 = .ub .nullDeref ∧
    (removeFilteredNamedPolicy pt i vs E).1 = .ub .nullDeref ∧
    (updateNamedPolicy pt r r E).1 = .ub .nullDeref ∧
    (getNamedPolicy pt E).1 = .ub .nullDeref ∧
    (getFilteredNamedPolicy pt i vs E).1 = .ub .nullDeref ∧
    (getAllNamedSubjects pt E).1 = .ub .nullDeref := by
  refine ⟨?_, ?_, ?_, ?_, ?_, ?_, ?_, ?_, ?_, ?_⟩ <;>
  simp [hasNamedPolicy, addNamedPolicy, addPolicyI, addNamedPolicies, addPoliciesI,
    removeNamedPolicy, removePolicyI, removeNamedPolicies, removePoliciesI,
    removeFilteredNamedPolicy, removeFilteredI, updateNamedPolicy, updatePolicyI, getNamedPolicy,
    getFilteredNamedPolicy, getAllNamedSubjects, onModel_run, M.bind_run, Model.hasPolicy,
    Model.addPolicy, Model.addPolicies, Model.anyPresent, Model.removePolicy, Model.eraseRule,
    Model.removeFilteredPolicy, Model.updatePolicy, Model.getPolicy, Model.getFilteredPolicy,
    Model.getValuesForField, Model.at_none h]

example : (acl []).model.find c!"p" c!"p2" = none := rfl

/-- The part of C38 that holds: the queries over all policy types of a section are safe for a
section the model does not define, and answer the empty list. Missing: all calls that name an
undefined policy type (`C38_unknown_fails`). -/
theorem C38_unknown_partial {E : Enforcer} (h : ∀ pt, E.model.find c!"g" pt = none) :
    ∃ E', getAllRoles E = (.ok [], E') ∧ E.model.SameRules E'.model := by
  obtain ⟨l, E', h1, ⟨_, h2⟩, h3⟩ := (C36_getAll E).2 (by
    rintro pt rs ⟨a, ha, _⟩; rw [h pt] at ha; cases ha)
  have : l = [] := by
    rw [List.eq_nil_iff_forall_not_mem]
    intro x hx
    obtain ⟨pt, rs, ⟨a, ha, _⟩, _⟩ := (h2 x).mp hx
    rw [h pt] at ha; cases ha
  exact ⟨E', this ▸ h1, h3⟩

example : ∃ E', getAllRoles (acl [alice]) = (.ok [], E') ∧
    (acl [alice]).model.SameRules E'.model :=
  C38_unknown_partial (fun _ => rfl)

end PolicyProps
end Casbin
