import Verif.Props.Permissions

/-!
# C126: grouping rules are tested, listed and edited like policy rules
# C127: the short calls are about the types `p` and `g`

The rules of a grouping type after a call do not depend on whether the call returns: links that cannot
be made and adapters that reject the call show as exceptions, after the rules were changed.
-/

namespace Casbin
namespace RbacProps

open Enforcer RoleProps LinkProps PolicyProps DecisionProps Fixtures
open Model (FilterMatch LongEnough)

variable [IterOrder]

/-- A rule has a value for each place of the role definition. -/
def HasPlaces (E : Enforcer) (pt : Str) (r : Rule) : Prop :=
  ∀ a, E.model.find c!"g" pt = some a → countChar '_' a.value ≤ r.length

/-! ## Looking -/

/-- C126, `HasNamedGroupingPolicy` and the three listings. Missing: rules of which another arrangement
is stored (`C126_mixup_fails`). -/
theorem C126_look_partial {E : Enforcer} {pt : Str} {rs : List Rule} (h : Stored E c!"g" pt rs) :
    (∀ r, NoMixup rs r → hasNamedGroupingPolicy pt r E = (.ok (decide (r ∈ rs)), E)) ∧
    (∃ P, getNamedGroupingPolicy pt E = (.ok P, E) ∧ P.items = rs) ∧
    (∀ i vs, (∀ r ∈ rs, LongEnough r i vs) → ∃ P, getFilteredNamedGroupingPolicy pt i vs E = (.ok P, E) ∧
      P.items.Perm (rs.filter fun r => FilterMatch r i vs) ∧
      (InVector E c!"g" pt → P.items = rs.filter fun r => FilterMatch r i vs)) := by
  obtain ⟨a, ha, rfl⟩ := h
  refine ⟨?_, ?_, ?_⟩
  · intro r hm
    have : (∃ s ∈ a.policy.items, r.Perm s) ↔ r ∈ a.policy.items :=
      ⟨fun ⟨s, hs, hp⟩ => by rwa [← hm s hs hp.symm], fun hr => ⟨r, hr, .refl r⟩⟩
    simp only [hasNamedGroupingPolicy, onModel_run, Model.hasPolicy_run ha]
    congr 2
    exact decide_eq_decide.mpr this
  · refine ⟨a.policy, ?_, rfl⟩
    simp only [getNamedGroupingPolicy, onModel_run, Model.getPolicy, M.bind_run, Model.at_run ha]
    rfl
  · intro i vs hl
    refine ⟨.vector (a.policy.iterate.filter fun r => FilterMatch r i vs), ?_, ?_, ?_⟩
    · rw [getFilteredNamedGroupingPolicy, onModel_run, Model.getFilteredPolicy_run ha i vs hl]
    · exact (Policies.iterate_perm _).filter _
    · rintro ⟨b, hb, hv⟩
      rw [ha] at hb; cases hb
      show (a.policy.iterate.filter _) = _
      rw [Policies.iterate_of_vector hv]

/-! ## Editing -/

theorem stored_put {E R : Enforcer} {s t : Str} {a : Assertion} {P : Policies} {m : Model}
    (hm : m = E.model.put s t { a with policy := P }) (h : m.SameRules R.model) :
    Stored R s t P.items := by
  subst hm
  exact stored_of_sameRules h (Model.find_put_self ..)

/-- C126, `AddNamedGroupingPolicy`. Missing as in `C126_look_partial` (`C126_mixup_fails`). -/
theorem C126_add_partial {E : Enforcer} {pt : Str} {rs : List Rule} (h : Stored E c!"g" pt rs)
    {r : Rule} (hm : NoMixup rs r) :
    Stored (addNamedGroupingPolicy pt r E).2 c!"g" pt (if r ∈ rs then rs else rs ++ [r]) ∧
    OthersKept E (addNamedGroupingPolicy pt r E).2 c!"g" pt ∧
    (∀ b, (addNamedGroupingPolicy pt r E).1 = .ok b → b = decide (r ∉ rs)) ∧
    (∀ lvl, Mirrors lvl E → E.autoBuild = true → HasPlaces E pt r →
      E.AdapterAccepts (.add c!"g" pt r) →
      (addNamedGroupingPolicy pt r E).1 = .ok (decide (r ∉ rs))) := by
  obtain ⟨a, ha, rfl⟩ := h
  have hd := (Edit.add true pt r).did E
  have hrun := Model.addPolicy_run ha r
  have hsim := similar_iff (P := a.policy) hm
  refine ⟨?_, othersKept_of_did hd (Edit.onStore_edited (.add true pt r) E.model), ?_, ?_⟩
  · have hr := hd.rules
    have e : (Edit.add true pt r).onStore E.model = _ := hrun
    rw [e] at hr
    by_cases hmem : r ∈ a.policy.items
    · rw [if_pos hmem]
      rw [if_pos (hsim.mpr hmem)] at hr
      exact stored_of_sameRules hr ha
    · rw [if_neg hmem]
      rw [if_neg (mt hsim.mp hmem)] at hr
      have := stored_put (E := E) rfl hr
      rwa [Policies.emplace_items_of_not_mem hmem] at this
  · intro b hb
    have e : (Edit.add true pt r).onStore E.model = _ := hrun
    have := hd.result b hb
    rw [e] at this
    by_cases hmem : r ∈ a.policy.items
    · rw [if_pos (hsim.mpr hmem)] at this
      cases this; simp [hmem]
    · rw [if_neg (mt hsim.mp hmem)] at this
      cases this; simp [hmem]
  · intro lvl hM hauto hpl hacc
    obtain ⟨R, h1, _⟩ := addG_ok hM hauto ha (hpl a ha) hacc
    rw [h1]
    simp only [hsim]

/-- Adding a batch of new grouping rules returns normally. -/
theorem addManyG_ok {lvl : Nat} {E : Enforcer} (hm : Mirrors lvl E) {pt : Str} {a : Assertion}
    (ha : E.model.find c!"g" pt = some a) {batch : List Rule}
    (hno : ¬ ∃ r ∈ batch, a.policy.Similar r) (hlen : ∀ r ∈ batch, countChar '_' a.value ≤ r.length)
    (hacc : E.BatchAccepts (.addMany c!"g" pt batch)) :
    (addNamedGroupingPolicies pt batch E).1 = .ok true := by
  have hrun := Model.addPolicies_run ha batch
  rw [if_neg hno] at hrun
  generalize hm' : E.model.put c!"g" pt { a with policy := Model.emplaceList a.policy batch } = m' at hrun
  have ha' : m'.find c!"g" pt = some { a with policy := Model.emplaceList a.policy batch } := by
    rw [← hm']; exact Model.find_put_self ..
  obtain ⟨E1, k1, k2, _⟩ := buildIncremental_rmIs (E := { E with model := m' })
    (hm.links.of_heap rfl rfl) ha' (hm.groups pt a ha).1 batch hlen
  have hacc1 : E1.BatchAccepts (.addMany c!"g" pt batch) := by
    refine ⟨fun b hb hs => hacc.1 b (k2.2.2.1 ▸ hb) (k2.2.2.2.2.2.2.1 ▸ hs), fun b hb hs => ?_⟩
    exact hacc.2 b (k2.2.2.1 ▸ hb) (k2.2.2.2.2.2.2.1 ▸ hs)
  rw [← linkIfG_g] at k1
  simp only [addNamedGroupingPolicies, addPoliciesI, M.bind_run, onModel_run, hrun, Bool.not_true,
    Bool.false_eq_true, if_false, k1, autoSaveBatch_ok hacc1, notify_run, M.pure_run]

/-- Replacing a grouping rule returns normally. -/
theorem updateG_ok {lvl : Nat} {E : Enforcer} (hm : Mirrors lvl E) {pt : Str} {a : Assertion}
    (ha : E.model.find c!"g" pt = some a) {o n : Rule} {P : Policies}
    (hrun : Model.updatePolicy c!"g" pt o n E.model = (.ok true, E.model.put c!"g" pt { a with policy := P }))
    (ho : o ∈ a.policy.items) (hlen : countChar '_' a.value ≤ n.length) :
    (updateNamedGroupingPolicy pt o n E).1 = .ok true := by
  have hn := (hm.groups pt a ha).1
  generalize hm' : E.model.put c!"g" pt { a with policy := P } = m' at hrun
  have ha' : m'.find c!"g" pt = some { a with policy := P } := by
    rw [← hm']; exact Model.find_put_self ..
  obtain ⟨E1, k1, k2, k3⟩ := buildIncremental_rmIs_remove (E := { E with model := m' })
    (hm.links.of_heap rfl rfl) ha' hn [o]
    (by simpa using (hm.groups pt a ha).2 o ho)
    (by
      intro r hr x y hl
      rw [List.mem_singleton] at hr; subst hr
      exact ⟨pt, a, ha, r, ho, hl⟩)
  obtain ⟨p, hp⟩ := k2.1.some ha'
  obtain ⟨E2, q1, q2, _⟩ := buildIncremental_rmIs k3 hp hn [n] (by simpa using hlen)
  rw [← linkIfG_g] at k1 q1
  simp only [updateNamedGroupingPolicy, updatePolicyI, M.bind_run, onModel_run, hrun, Bool.not_true,
    Bool.false_eq_true, if_false, k1, q1, notify_run, M.pure_run]

/-- C126, `AddNamedGroupingPolicies`: all of the batch or nothing. -/
theorem C126_addMany_partial {E : Enforcer} {pt : Str} {rs : List Rule} (h : Stored E c!"g" pt rs)
    {batch : List Rule} (hm : ∀ r ∈ batch, NoMixup rs r) :
    ((∃ r ∈ batch, r ∈ rs) → addNamedGroupingPolicies pt batch E = (.ok false, E)) ∧
    ((∀ r ∈ batch, r ∉ rs) →
      (∃ rs', Stored (addNamedGroupingPolicies pt batch E).2 c!"g" pt rs' ∧
        (∀ x, x ∈ rs' ↔ x ∈ rs ∨ x ∈ batch) ∧ (InVector E c!"g" pt → rs' = rs ++ batch)) ∧
      OthersKept E (addNamedGroupingPolicies pt batch E).2 c!"g" pt ∧
      (∀ b, (addNamedGroupingPolicies pt batch E).1 = .ok b → b = true) ∧
      (∀ lvl, Mirrors lvl E → (∀ r ∈ batch, HasPlaces E pt r) →
        E.BatchAccepts (.addMany c!"g" pt batch) →
        (addNamedGroupingPolicies pt batch E).1 = .ok true)) := by
  obtain ⟨a, ha, rfl⟩ := h
  have hd := (Edit.addMany true pt batch).did E
  have hrun : (Edit.addMany true pt batch).onStore E.model = _ := Model.addPolicies_run ha batch
  have hsim : (∃ r ∈ batch, a.policy.Similar r) ↔ ∃ r ∈ batch, r ∈ a.policy.items :=
    ⟨fun ⟨r, hr, hs⟩ => ⟨r, hr, (similar_iff (hm r hr)).mp hs⟩,
     fun ⟨r, hr, hs⟩ => ⟨r, hr, (similar_iff (hm r hr)).mpr hs⟩⟩
  constructor
  · intro hex
    have e : Model.addPolicies c!"g" pt batch E.model = (.ok false, E.model) := by
      rw [Model.addPolicies_run ha, if_pos (hsim.mpr hex)]
    exact inner_false e
  · intro hno
    have hne : ¬ ∃ r ∈ batch, a.policy.Similar r := fun hx => by
      obtain ⟨r, hr, hs⟩ := hsim.mp hx; exact hno r hr hs
    rw [if_neg hne] at hrun
    rw [hrun] at hd
    refine ⟨⟨_, stored_put (E := E) rfl hd.rules, ?_, ?_⟩, ?_, ?_, fun lvl hM hpl hacc =>
      addManyG_ok hM ha hne (fun r hr => hpl r hr a ha) hacc⟩
    · intro x; exact Model.mem_emplaceList ..
    · rintro ⟨b, hb, hv⟩
      rw [ha] at hb; cases hb
      rw [Model.emplaceList_vector hv]
    · have := Edit.onStore_edited (.addMany true pt batch) E.model
      rw [hrun] at this
      exact othersKept_of_did hd this
    · intro b hb
      have := hd.result b hb
      cases this; rfl

/-- C126, `RemoveNamedGroupingPolicy`. Missing as above (`C40_fails`). -/
theorem C126_remove_partial {E : Enforcer} {pt : Str} {rs : List Rule} (h : Stored E c!"g" pt rs)
    {r : Rule} (hm : NoMixup rs r) :
    Stored (removeNamedGroupingPolicy pt r E).2 c!"g" pt (rs.erase r) ∧
    OthersKept E (removeNamedGroupingPolicy pt r E).2 c!"g" pt ∧
    (∀ b, (removeNamedGroupingPolicy pt r E).1 = .ok b → b = decide (r ∈ rs)) ∧
    (∀ lvl, Mirrors lvl E → E.autoBuild = true → HasPlaces E pt r →
      E.AdapterAccepts (.remove c!"g" pt r) →
      (removeNamedGroupingPolicy pt r E).1 = .ok (decide (r ∈ rs))) := by
  obtain ⟨a, ha, rfl⟩ := h
  have hd := (Edit.remove true pt r).did E
  have hrun : (Edit.remove true pt r).onStore E.model = _ := Model.eraseRule_run ha r
  have hsim := similar_iff (P := a.policy) hm
  refine ⟨?_, othersKept_of_did hd (Edit.onStore_edited (.remove true pt r) E.model), ?_, ?_⟩
  · have hr := hd.rules
    rw [hrun] at hr
    by_cases hmem : r ∈ a.policy.items
    · rw [eraseFirst_exact hm hmem] at hr
      exact stored_put (E := E) rfl hr
    · rw [(eraseFirst_none_iff _ _).mpr (mt hsim.mp hmem)] at hr
      rw [List.erase_of_not_mem hmem]
      exact stored_of_sameRules hr ha
  · intro b hb
    have := hd.result b hb
    rw [hrun] at this
    by_cases hmem : r ∈ a.policy.items
    · rw [eraseFirst_exact hm hmem] at this
      cases this; simp [hmem]
    · rw [(eraseFirst_none_iff _ _).mpr (mt hsim.mp hmem)] at this
      cases this; simp [hmem]
  · intro lvl hM hauto hpl hacc
    obtain ⟨R, h1, _⟩ := removeG_ok hM hauto ha (hpl a ha) hacc
    rw [h1]
    simp only [hsim]

/-- C126, `RemoveFilteredNamedGroupingPolicy`: exactly the rules that match the filter go. -/
theorem C126_removeFiltered {E : Enforcer} {pt : Str} {rs : List Rule} (h : Stored E c!"g" pt rs)
    {i : Nat} {vs : List Str} (hl : ∀ r ∈ rs, LongEnough r i vs) :
    (∃ rs', Stored (removeFilteredNamedGroupingPolicy pt i vs E).2 c!"g" pt rs' ∧
      rs'.Perm (rs.filter fun r => ¬ FilterMatch r i vs) ∧
      (InVector E c!"g" pt → rs' = rs.filter fun r => ¬ FilterMatch r i vs)) ∧
    OthersKept E (removeFilteredNamedGroupingPolicy pt i vs E).2 c!"g" pt ∧
    (∀ b, (removeFilteredNamedGroupingPolicy pt i vs E).1 = .ok b →
      b = decide (∃ r ∈ rs, FilterMatch r i vs)) ∧
    (∀ lvl, Mirrors lvl E → E.autoBuild = true → E.AdapterAccepts (.removeFiltered c!"g" pt i vs) →
      (removeFilteredNamedGroupingPolicy pt i vs E).1 = .ok (decide (∃ r ∈ rs, FilterMatch r i vs))) := by
  obtain ⟨a, ha, rfl⟩ := h
  have hd := (Edit.removeFiltered true pt i vs).did E
  have hed := Edit.onStore_edited (.removeFiltered true pt i vs) E.model
  have hrun := Model.removeFilteredPolicy_run ha i vs hl
  rw [onStore_removeFiltered, show Edit.secOf true = c!"g" from rfl, hrun] at hd
  rw [onStore_removeFiltered, show Edit.secOf true = c!"g" from rfl, hrun] at hed
  refine ⟨⟨_, stored_of_sameRules hd.rules (Model.find_put_self ..), ?_, ?_⟩,
    othersKept_of_did hd hed, ?_, ?_⟩
  · simp only [decide_not]
    exact (Policies.iterate_perm _).filter _
  · rintro ⟨b, hb, hv⟩
    rw [ha] at hb; cases hb
    simp only [decide_not]
    show (a.policy.iterate.filter _) = _
    rw [Policies.iterate_of_vector hv]
  · intro b hb
    have := hd.result b hb
    have this := Outcome.ok.inj this
    rw [← this]
    by_cases hex : ∃ r ∈ a.policy.items, FilterMatch r i vs
    · obtain ⟨r, hr, hm⟩ := hex
      have e : decide (∃ r ∈ a.policy.items, FilterMatch r i vs) = true := by
        simpa using ⟨r, hr, hm⟩
      rw [e]
      simp only [Bool.not_eq_true', List.isEmpty_eq_false_iff]
      exact List.ne_nil_of_mem (a := r)
        (List.mem_filter.mpr ⟨(Policies.mem_iterate ..).mpr hr, by simpa using hm⟩)
    · have e : decide (∃ r ∈ a.policy.items, FilterMatch r i vs) = false := by simpa using hex
      rw [e]
      simp only [Bool.not_eq_false', List.isEmpty_iff, List.filter_eq_nil_iff]
      intro r hr hm
      exact hex ⟨r, (Policies.mem_iterate ..).mp hr, by simpa using hm⟩
  · intro lvl hM hauto hacc
    obtain ⟨R, h1, _⟩ := removeFilteredG_ok hM hauto ha hl hacc
    rw [h1]

/-- C126, `UpdateNamedGroupingPolicy`. Missing as above, and a new rule that is stored already, for
which the old one goes and the answer is `false` (`C126_update_fails`). -/
theorem C126_update_partial {E : Enforcer} {pt : Str} {rs : List Rule} (h : Stored E c!"g" pt rs)
    {o n : Rule} (ho : NoMixup rs o) (hn : NoMixup rs n) :
    (o ∉ rs → updateNamedGroupingPolicy pt o n E = (.ok false, E)) ∧
    (o ∈ rs → n ∉ rs →
      Stored (updateNamedGroupingPolicy pt o n E).2 c!"g" pt (rs.erase o ++ [n]) ∧
      OthersKept E (updateNamedGroupingPolicy pt o n E).2 c!"g" pt ∧
      (∀ b, (updateNamedGroupingPolicy pt o n E).1 = .ok b → b = true) ∧
      (∀ lvl, Mirrors lvl E → HasPlaces E pt n → (updateNamedGroupingPolicy pt o n E).1 = .ok true)) := by
  obtain ⟨a, ha, rfl⟩ := h
  have hd := (Edit.update true pt o n).did E
  have hrun : (Edit.update true pt o n).onStore E.model = _ := updatePolicy_run ha o n
  constructor
  · intro hmem
    have he := (eraseFirst_none_iff a.policy o).mpr (mt (similar_iff ho).mp hmem)
    have e : Model.updatePolicy c!"g" pt o n E.model = (.ok false, E.model) := by
      rw [updatePolicy_run ha, he]
    exact inner_false e
  · intro hmem hnew
    have hns : ¬ Policies.Similar { a.policy with items := a.policy.items.erase o } n := by
      rintro ⟨x, hx, hp⟩
      have hx' := List.mem_of_mem_erase hx
      exact hnew (hn x hx' hp.symm ▸ hx')
    rw [eraseFirst_exact ho hmem] at hrun
    simp only at hrun
    rw [if_neg hns] at hrun
    have hrun' : Model.updatePolicy c!"g" pt o n E.model = _ := hrun
    rw [hrun] at hd
    refine ⟨?_, ?_, ?_, fun lvl hM hpl => updateG_ok hM ha hrun' hmem (hpl a ha)⟩
    · have := stored_put (E := E) rfl hd.rules
      rwa [Policies.emplace_items_of_not_mem (P := { a.policy with items := a.policy.items.erase o })
        (fun hx => hnew (List.mem_of_mem_erase hx))] at this
    · have := Edit.onStore_edited (.update true pt o n) E.model
      rw [hrun] at this
      exact othersKept_of_did hd this
    · intro b hb
      have := hd.result b hb
      cases this; rfl

/-- C126, `RemoveNamedGroupingPolicies`, is violated by every batch: no rule goes; a batch of stored
rules is answered `false`, and rules that are not stored are added. -/
theorem C126_removeMany_fails {E : Enforcer} {pt : Str} {rs : List Rule} (h : Stored E c!"g" pt rs)
    (batch : List Rule) :
    (batch ≠ [] → (∀ r ∈ batch, r ∈ rs) → removeNamedGroupingPolicies pt batch E = (.ok false, E)) ∧
    (∃ rs', Stored (removeNamedGroupingPolicies pt batch E).2 c!"g" pt rs' ∧ (∀ x ∈ rs, x ∈ rs') ∧
      ((∀ r ∈ batch, ∀ s ∈ rs, ¬ r.Perm s) → ∀ r ∈ batch, r ∈ rs')) := by
  obtain ⟨a, ha, rfl⟩ := h
  have hd := (Edit.removeMany true pt batch).did E
  have hrun : (Edit.removeMany true pt batch).onStore E.model = _ := Model.addPolicies_run ha batch
  rw [hrun] at hd
  constructor
  · intro hne hall
    obtain ⟨r, hr⟩ := List.exists_mem_of_ne_nil _ hne
    have e : Model.addPolicies c!"g" pt batch E.model = (.ok false, E.model) := by
      rw [Model.addPolicies_run ha, if_pos ⟨r, hr, .of_mem (hall r hr)⟩]
    exact inner_false e
  · by_cases hs : ∃ r ∈ batch, a.policy.Similar r
    · rw [if_pos hs] at hd
      refine ⟨_, stored_of_sameRules hd.rules ha, fun x hx => hx, fun hno r hr => ?_⟩
      obtain ⟨r', hr', s, hs', hp⟩ := hs
      exact absurd hp (hno r' hr' s hs')
    · rw [if_neg hs] at hd
      refine ⟨_, stored_put (E := E) rfl hd.rules, ?_, ?_⟩
      · intro x hx; exact (Model.mem_emplaceList ..).mpr (.inl hx)
      · intro _ r hr; exact (Model.mem_emplaceList ..).mpr (.inr hr)

/-! ## Examples and violations -/

/-- `Mirrors` and `HasPlaces` hold for the enforcer `team`. -/
theorem hasPlaces_team {r : Rule} (h : 2 ≤ r.length) : HasPlaces team c!"g" r := by
  intro a ha
  obtain ⟨b, hb⟩ := (buildRoleLinks_linkOnly
    (rbac [alice, bob] [[c!"alice", c!"admin"], [c!"bob", c!"admin"]])).1.some
    (s := c!"g") (t := c!"g") rfl
  have : team.model.find c!"g" c!"g" = _ := hb
  rw [this] at ha
  cases ha
  exact h

example : hasNamedGroupingPolicy c!"g" [c!"bob", c!"admin"] team = (.ok true, team) ∧
    (addNamedGroupingPolicy c!"g" [c!"carol", c!"admin"] team).1 = .ok true ∧
    (removeNamedGroupingPolicy c!"g" [c!"bob", c!"admin"] team).1 = .ok true ∧
    (updateNamedGroupingPolicy c!"g" [c!"bob", c!"admin"] [c!"bob", c!"staff"] team).1 = .ok true ∧
    (addNamedGroupingPolicies c!"g" [[c!"carol", c!"admin"], [c!"dan", c!"staff"]] team).1 = .ok true :=
  ⟨(C126_look_partial stored_team.2).1 _ (by decide),
   (C126_add_partial stored_team.2 (by decide)).2.2.2 10 mirrors_team flags_team.1
    (hasPlaces_team (by decide)) (adapterAccepts_none flags_team.2),
   (C126_remove_partial stored_team.2 (by decide)).2.2.2 10 mirrors_team flags_team.1
    (hasPlaces_team (by decide)) (adapterAccepts_none flags_team.2),
   ((C126_update_partial stored_team.2 (by decide) (by decide)).2 (by decide) (by decide)).2.2.2 10
    mirrors_team (hasPlaces_team (by decide)),
   ((C126_addMany_partial stored_team.2 (by decide)).2 (by decide)).2.2.2 10 mirrors_team
    (fun r hr => hasPlaces_team (by revert r; decide))
    ⟨adapterAccepts_none flags_team.2, fun a ha => by rw [flags_team.2] at ha; cases ha⟩⟩

omit [IterOrder] in
theorem stored_of_map {E : Enforcer} {s t : Str} {rs : List Rule}
    (h : (E.model.find s t).map (fun a => a.policy.items) = some rs) : Stored E s t rs := by
  cases ha : E.model.find s t with
  | none => rw [ha] at h; cases h
  | some a => rw [ha] at h; exact ⟨a, ha, by simpa using h⟩

omit [IterOrder] in
/-- C126 fails for the other arrangement of a stored rule: it counts as stored, and it cannot be added. -/
theorem C126_mixup_fails : letI := insertionOrder
    ∃ (E : Enforcer) (rs : List Rule) (r : Rule), Stored E c!"g" c!"g" rs ∧ r ∉ rs ∧
      (hasGroupingPolicy r E).1 = .ok true ∧
      (addGroupingPolicy r E).1 = .ok false ∧ Stored (addGroupingPolicy r E).2 c!"g" c!"g" rs :=
  ⟨rbac [] [[c!"alice", c!"admin"]], [[c!"alice", c!"admin"]], [c!"admin", c!"alice"], ⟨_, rfl, rfl⟩,
    by decide, by decide +kernel, by decide +kernel, stored_of_map (by decide +kernel)⟩

omit [IterOrder] in
/-- C126 fails for replacing a rule by one that is stored: the answer is `false` and the old rule is
gone. -/
theorem C126_update_fails : letI := insertionOrder
    ∃ (E : Enforcer) (rs : List Rule) (o n : Rule), Stored E c!"g" c!"g" rs ∧ o ∈ rs ∧
      (updateGroupingPolicy o n E).1 = .ok false ∧
      Stored (updateGroupingPolicy o n E).2 c!"g" c!"g" (rs.erase o) :=
  ⟨rbac [] [[c!"alice", c!"admin"], [c!"bob", c!"root"]], [[c!"alice", c!"admin"], [c!"bob", c!"root"]],
    [c!"alice", c!"admin"], [c!"bob", c!"root"], ⟨_, rfl, rfl⟩, by decide, by decide +kernel,
    stored_of_map (by decide +kernel)⟩

/-! ## C127 -/

/-- C127 for policy rules: the calls without the name of a type test, list and edit exactly the rules of
type `p`. Missing: the cases in which the calls with a name do something else (C26–C32). -/
theorem C127_policy_partial {E : Enforcer} {rs : List Rule} (h : Stored E c!"p" c!"p" rs) :
    (∃ P, getPolicy E = (.ok P, E) ∧ P.items = rs) ∧
    (∀ i vs, (∀ r ∈ rs, LongEnough r i vs) → ∃ P rs', getFilteredPolicy i vs E = (.ok P, E) ∧
      P.items.Perm (rs.filter fun r => FilterMatch r i vs) ∧
      Stored (removeFilteredPolicy i vs E).2 c!"p" c!"p" rs' ∧
      rs'.Perm (rs.filter fun r => ¬ FilterMatch r i vs) ∧
      OthersKept E (removeFilteredPolicy i vs E).2 c!"p" c!"p") ∧
    (∀ r, NoMixup rs r →
      hasPolicy r E = (.ok (decide (r ∈ rs)), E) ∧
      Stored (addPolicy r E).2 c!"p" c!"p" (if r ∈ rs then rs else rs ++ [r]) ∧
      OthersKept E (addPolicy r E).2 c!"p" c!"p" ∧
      Stored (removePolicy r E).2 c!"p" c!"p" (rs.erase r) ∧
      OthersKept E (removePolicy r E).2 c!"p" c!"p") ∧
    (∀ batch, (∀ r ∈ batch, NoMixup rs r) → (∀ r ∈ batch, r ∉ rs) →
      (∃ rs', Stored (addPolicies batch E).2 c!"p" c!"p" rs' ∧ ∀ x, x ∈ rs' ↔ x ∈ rs ∨ x ∈ batch) ∧
      OthersKept E (addPolicies batch E).2 c!"p" c!"p") ∧
    (∀ o n, NoMixup rs o → NoMixup rs n → o ∈ rs → n ∉ rs →
      Stored (updatePolicy o n E).2 c!"p" c!"p" (rs.erase o ++ [n]) ∧
      OthersKept E (updatePolicy o n E).2 c!"p" c!"p") ∧
    (∀ os ns, (∀ o ∈ os, NoMixup rs o) → (∀ n ∈ ns, NoMixup rs n) → os.Nodup → (∀ o ∈ os, o ∈ rs) →
      (∀ n ∈ ns, n ∉ rs) →
      (∃ rs', Stored (updatePolicies os ns E).2 c!"p" c!"p" rs' ∧
        ∀ x, x ∈ rs' ↔ x ∈ eraseEach rs os ∨ x ∈ ns) ∧
      OthersKept E (updatePolicies os ns E).2 c!"p" c!"p") := by
  refine ⟨?_, ?_, ?_, ?_, ?_, ?_⟩
  · obtain ⟨a, ha, rfl⟩ := h
    refine ⟨a.policy, ?_, rfl⟩
    simp only [getPolicy, getNamedPolicy, onModel_run, Model.getPolicy, M.bind_run, Model.at_run ha]
    rfl
  · intro i vs hl
    obtain ⟨seq, h1, _, h3, h4, h5, _⟩ := C33_filtered h hl
    exact ⟨_, _, h3, h1.filter _, h4, h1.filter _, h5⟩
  · intro r hm
    have hadd := C27_addPolicy_partial h hm
    have hrem := C28_removePolicy_partial h hm
    have hself : OthersKept E E c!"p" c!"p" :=
      ⟨fun _ _ _ _ => Iff.rfl, fun _ _ => rfl, rfl, rfl, rfl, rfl⟩
    refine ⟨C26_hasPolicy_partial h hm, ?_, ?_, ?_, ?_⟩
    · by_cases hr : r ∈ rs
      · rw [if_pos hr]
        have e : addPolicy r E = (.ok false, E) := hadd.1 hr
        rw [e]; exact h
      · rw [if_neg hr]; exact (hadd.2 hr).2.1
    · by_cases hr : r ∈ rs
      · have e : addPolicy r E = (.ok false, E) := hadd.1 hr
        rw [e]; exact hself
      · exact (hadd.2 hr).2.2
    · by_cases hr : r ∈ rs
      · exact (hrem.2 hr).2.1
      · have e : removePolicy r E = (.ok false, E) := hrem.1 hr
        rw [e, List.erase_of_not_mem hr]; exact h
    · by_cases hr : r ∈ rs
      · exact (hrem.2 hr).2.2
      · have e : removePolicy r E = (.ok false, E) := hrem.1 hr
        rw [e]; exact hself
  · intro batch hm hno
    obtain ⟨_, ⟨rs', h1, h2, _⟩, h3⟩ := (C30_addPolicies_partial h hm).2 hno
    exact ⟨⟨rs', h1, h2⟩, h3⟩
  · intro o n ho hn h1 h2
    exact ((C32_update_partial h ho hn).2 h1 h2).2
  · intro os ns h1 h2 h3 h4 h5
    obtain ⟨_, ⟨rs', g1, g2, _⟩, g3⟩ := C32_updateMany_partial h h1 h2 h3 h4 h5
    exact ⟨⟨rs', g1, g2⟩, g3⟩

/-- C127 for grouping rules: the calls without the name of a type test, list and edit exactly the rules
of type `g`. Missing as in C126. -/
theorem C127_grouping_partial {E : Enforcer} {rs : List Rule} (h : Stored E c!"g" c!"g" rs) :
    (∃ P, getGroupingPolicy E = (.ok P, E) ∧ P.items = rs) ∧
    (∀ i vs, (∀ r ∈ rs, LongEnough r i vs) → ∃ P rs', getFilteredGroupingPolicy i vs E = (.ok P, E) ∧
      P.items.Perm (rs.filter fun r => FilterMatch r i vs) ∧
      Stored (removeFilteredGroupingPolicy i vs E).2 c!"g" c!"g" rs' ∧
      rs'.Perm (rs.filter fun r => ¬ FilterMatch r i vs) ∧
      OthersKept E (removeFilteredGroupingPolicy i vs E).2 c!"g" c!"g") ∧
    (∀ r, NoMixup rs r →
      hasGroupingPolicy r E = (.ok (decide (r ∈ rs)), E) ∧
      Stored (addGroupingPolicy r E).2 c!"g" c!"g" (if r ∈ rs then rs else rs ++ [r]) ∧
      OthersKept E (addGroupingPolicy r E).2 c!"g" c!"g" ∧
      Stored (removeGroupingPolicy r E).2 c!"g" c!"g" (rs.erase r) ∧
      OthersKept E (removeGroupingPolicy r E).2 c!"g" c!"g") ∧
    (∀ batch, (∀ r ∈ batch, NoMixup rs r) → (∀ r ∈ batch, r ∉ rs) →
      (∃ rs', Stored (addGroupingPolicies batch E).2 c!"g" c!"g" rs' ∧
        ∀ x, x ∈ rs' ↔ x ∈ rs ∨ x ∈ batch) ∧
      OthersKept E (addGroupingPolicies batch E).2 c!"g" c!"g") ∧
    (∀ o n, NoMixup rs o → NoMixup rs n → o ∈ rs → n ∉ rs →
      Stored (updateGroupingPolicy o n E).2 c!"g" c!"g" (rs.erase o ++ [n]) ∧
      OthersKept E (updateGroupingPolicy o n E).2 c!"g" c!"g") := by
  refine ⟨(C126_look_partial h).2.1, ?_, ?_, ?_, ?_⟩
  · intro i vs hl
    obtain ⟨P, h1, h2, _⟩ := (C126_look_partial h).2.2 i vs hl
    obtain ⟨⟨rs', h3, h4, _⟩, h5, _⟩ := C126_removeFiltered h hl
    exact ⟨P, rs', h1, h2, h3, h4, h5⟩
  · intro r hm
    obtain ⟨h1, h2, _⟩ := C126_add_partial h hm
    obtain ⟨h3, h4, _⟩ := C126_remove_partial h hm
    exact ⟨(C126_look_partial h).1 r hm, h1, h2, h3, h4⟩
  · intro batch hm hno
    obtain ⟨⟨rs', h1, h2, _⟩, h3, _⟩ := (C126_addMany_partial h hm).2 hno
    exact ⟨⟨rs', h1, h2⟩, h3⟩
  · intro o n ho hn h1 h2
    have := (C126_update_partial h ho hn).2 h1 h2
    exact ⟨this.1, this.2.1⟩

example : Stored (addPolicy carol team).2 c!"p" c!"p" [alice, bob, carol] ∧
    Stored (addGroupingPolicy [c!"carol", c!"admin"] team).2 c!"g" c!"g"
      [[c!"alice", c!"admin"], [c!"bob", c!"admin"], [c!"carol", c!"admin"]] :=
  ⟨((C127_policy_partial stored_team.1).2.2.1 carol (by decide)).2.1,
   ((C127_grouping_partial stored_team.2).2.2.1 [c!"carol", c!"admin"] (by decide)).2.1⟩

/-- C127 fails for `RemovePolicies` and `RemoveGroupingPolicies`: they add. -/
theorem C127_remove_fails {E : Enforcer} {ps gs : List Rule} (hp : Stored E c!"p" c!"p" ps)
    (hg : Stored E c!"g" c!"g" gs) (batch : List Rule) :
    (∃ rs', Stored (removePolicies batch E).2 c!"p" c!"p" rs' ∧ ∀ x ∈ ps, x ∈ rs') ∧
    (∃ rs', Stored (removeGroupingPolicies batch E).2 c!"g" c!"g" rs' ∧ ∀ x ∈ gs, x ∈ rs') := by
  refine ⟨(C31_removePolicies_fails hp batch).2.1, ?_⟩
  obtain ⟨rs', h1, h2, _⟩ := (C126_removeMany_fails hg batch).2
  exact ⟨rs', h1, h2⟩

end RbacProps
end Casbin
