import Verif.Props.Links
import Verif.Props.Policy

/-!
# C156: the editing calls that name the section

`addPolicy(sec, p_type, rule)` and the five calls like it (internal_api.cpp) are public
(include/casbin/enforcer.h 265–271). For policy rules they are the calls of the management API; here
they are used for grouping rules, where `AddNamedGroupingPolicy`, `RemoveNamedGroupingPolicy` and
`RemoveFilteredNamedGroupingPolicy` do more and there is no other way to update several rules. The
property: after a call that returns, the role links are those of the stored grouping rules.
-/

namespace Casbin
namespace SectionProps

open Enforcer LinkProps PolicyProps Fixtures

/-! ## What is claimed -/

/-- The links that the rules `rs` stand for under a role definition with `n` places. -/
def Links (n : Nat) (rs : List Rule) (x y : Str) : Prop := ∃ r ∈ rs, LinkOf n r x y

/-! ## Helpers -/

/-- The links of the role manager are those of one set only. -/
theorem rmIs_unique {lvl : Nat} {E : Enforcer} {S T : Str → Str → Prop} (h : RmIs lvl E S)
    (h' : RmIs lvl E T) (x y : Str) : S x y ↔ T x y := by
  obtain ⟨rm, h1, _, h3⟩ := h
  obtain ⟨rm', h1', _, h3'⟩ := h'
  have : rm = rm' := Option.some.inj (h1.here.symm.trans h1'.here)
  subst this
  rw [← h3, h3']

/-- When the rules are well shaped, to mirror is to have the links of the stored rules. -/
theorem mirrors_iff {lvl : Nat} {E : Enforcer} {S : Str → Str → Prop} (hg : GroupsOk E.model)
    (h : RmIs lvl E S) : Mirrors lvl E ↔ ∀ x y, S x y ↔ StoredLinks E.model x y :=
  ⟨fun hm => rmIs_unique h hm.links, fun hs => ⟨hg, h.congr hs⟩⟩

variable [IterOrder]

/-! ## C156 -/

/-- C156, adding: `addPolicy("g", …)` keeps rules and links together, also when a rearrangement of the
rule is stored, for which `AddNamedGroupingPolicy` does not (`C23_add_fails`). -/
theorem C156_add {lvl : Nat} {E : Enforcer} (hm : Mirrors lvl E) {pt : Str} {r : Rule}
    (hl : ∀ a, E.model.find c!"g" pt = some a → countChar '_' a.value ≤ r.length) {b : Bool}
    {R : Enforcer} (h : addPolicyI c!"g" pt r E = (.ok b, R)) : Mirrors lvl R := by
  obtain ⟨m', e1, e2, e3⟩ := edit_shape_bool _ _ _ _ (saveStep_call _) E b R h
  obtain ⟨a, ha⟩ := find_of_ok e1 (fun hn => addPolicy_none hn r)
  have hlen := hl a ha
  have hn := (hm.groups pt a ha).1
  rw [Model.addPolicy_run ha] at e1
  by_cases hs : a.policy.Similar r
  · rw [if_pos hs] at e1
    simp only [Prod.mk.injEq, Outcome.ok.injEq] at e1
    obtain ⟨rfl, rfl⟩ := e1
    rw [e2 rfl]
    exact hm
  · rw [if_neg hs] at e1
    simp only [Prod.mk.injEq, Outcome.ok.injEq] at e1
    obtain ⟨rfl, rfl⟩ := e1
    obtain ⟨E2, g1, hc⟩ := e3 rfl
    rw [linkIfG_g] at g1
    obtain ⟨E3, k1, k2, k3⟩ := buildIncremental_rmIs 
      (E := { E with model := (E.model.put c!"g" pt { a with policy := (a.policy.emplace r) }) })
      (hm.links.of_heap rfl rfl) (Model.find_put_self ..) hn [r] (by simpa using hlen)
    rw [k1] at g1
    cases g1
    refine mirrors_core ⟨groupsOk_congr k2.1 (groupsOk_put hm.groups ha ?_), k3.congr ?_⟩ hc
    · intro s hs'
      rcases (Policies.mem_emplace _ _ _).mp hs' with h | rfl
      · exact .inl h
      · exact .inr hlen
    · intro x y
      rw [storedLinks_congr k2.1, storedLinks_put, storedLinks_split ha]
      simp only [Policies.mem_emplace, List.mem_singleton, exists_eq_left]
      constructor
      · rintro ((⟨s, h, hl'⟩ | h) | h)
        · exact .inl ⟨s, .inl h, hl'⟩
        · exact .inr h
        · exact .inl ⟨r, .inr rfl, h⟩
      · rintro (⟨s, h | rfl, hl'⟩ | h)
        · exact .inl (.inl ⟨s, h, hl'⟩)
        · exact .inr hl'
        · exact .inl (.inr h)

/-- C156, removing: `removePolicy("g", …)` of a stored rule takes the rule away and none of the links
(internal_api.cpp 87–90 build the links of the rule once more). -/
theorem C156_remove {lvl : Nat} {E : Enforcer} (hm : Mirrors lvl E) {pt : Str} {r : Rule}
    {a : Assertion} (ha : E.model.find c!"g" pt = some a) (hr : r ∈ a.policy.items) {R : Enforcer}
    (h : removePolicyI c!"g" pt r E = (.ok true, R)) :
    RmIs lvl R (StoredLinks E.model) ∧ ∃ s ∈ a.policy.items, s.Perm r ∧
      ∃ b, R.model.find c!"g" pt = some b ∧ b.policy.items.Perm (a.policy.items.erase s) := by
  obtain ⟨m', e1, _, e3⟩ := edit_shape_bool _ _ _ _ (saveStep_call _) E true R h
  have hn := (hm.groups pt a ha).1
  have hlen := (hm.groups pt a ha).2 r hr
  rw [Model.removePolicy, Model.eraseRule_run ha] at e1
  cases hx : a.policy.eraseFirst (fun x => arrayEquals r x) with
  | none => simp [hx] at e1
  | some P =>
    simp only [hx, Prod.mk.injEq, true_and] at e1
    subst e1
    obtain ⟨E2, g1, hc⟩ := e3 rfl
    rw [linkIfG_g] at g1
    obtain ⟨E3, k1, k2, k3⟩ := buildIncremental_rmIs 
      (E := { E with model := (E.model.put c!"g" pt { a with policy := (P) }) })
      (hm.links.of_heap rfl rfl) (Model.find_put_self ..) hn [r] (by simpa using hlen)
    rw [k1] at g1
    cases g1
    constructor
    · refine RmIs.of_heap (k3.congr ?_) hc.2.1 hc.2.2.1
      intro x y
      simp only [List.mem_singleton, exists_eq_left]
      exact ⟨fun h => h.elim id fun hl => ⟨pt, a, ha, r, hr, hl⟩, .inl⟩
    · obtain ⟨pre, s, post, q1, q2, q3, _⟩ := Policies.eraseFirst_some hx
      obtain ⟨p, hp⟩ := k2.1.some (Model.find_put_self ..)
      refine ⟨s, by rw [q1]; simp, ((arrayEquals_iff r s).mp q3).symm, _, by rw [hc.1]; exact hp, ?_⟩
      rw [q2, q1]
      have : (s :: (pre ++ post)).Perm (pre ++ s :: post) := List.perm_middle.symm
      exact (List.perm_cons_erase (l := pre ++ s :: post) (a := s) (by simp)).symm.trans
        this.symm |>.cons_inv.symm

/-- So whoever had a role by the removed rule has it still: the grouping function answers as before. -/
theorem C156_remove_fails {lvl : Nat} {E : Enforcer} (hm : Mirrors lvl E) {pt : Str} {r : Rule}
    {a : Assertion} (ha : E.model.find c!"g" pt = some a) (hr : r ∈ a.policy.items) {R : Enforcer}
    (h : removePolicyI c!"g" pt r E = (.ok true, R)) (lib : ExprLib) (u v : Str) :
    gHolds lib R u v = gHolds lib E u v := by
  obtain ⟨rm, h1, h2, h3⟩ := (C156_remove hm ha hr h).1
  obtain ⟨rm', h1', h2', h3'⟩ := hm.links
  obtain ⟨b, e1, e2⟩ := gHolds_eq lib R rm h1 u v
  obtain ⟨b', e1', e2'⟩ := gHolds_eq lib E rm' h1' u v
  have : b = b' := by
    rw [Bool.eq_iff_iff, e2, e2', h2, h2']
    constructor
    · rintro ⟨n, hn, hp⟩
      exact ⟨n, hn, hp.congr fun x y => by rw [h3, h3']⟩
    · rintro ⟨n, hn, hp⟩
      exact ⟨n, hn, hp.congr fun x y => by rw [h3, h3']⟩
  rw [e1, e1', this]

/-- C156, removing by a filter: `removeFilteredPolicy("g", …)` takes away the links of the removed
rules, and so the links are those of the remaining rules just if no remaining rule gives one of them.
Missing: rules too short for the filter. (`RemoveFilteredNamedGroupingPolicy` builds all links anew afterwards.) -/
theorem C156_filtered_partial {lvl : Nat} {E : Enforcer} (hm : Mirrors lvl E) {pt : Str} {a : Assertion}
    (ha : E.model.find c!"g" pt = some a) {i : Nat} {vs : List Str}
    (hl : ∀ r ∈ a.policy.items, Model.LongEnough r i vs) {R : Enforcer}
    (h : removeFilteredI c!"g" pt i vs E = (.ok true, R)) :
    let gone := a.policy.items.filter fun r => decide (Model.FilterMatch r i vs)
    RmIs lvl R (fun x y => StoredLinks E.model x y ∧ ¬ Links (countChar '_' a.value) gone x y) ∧
    (Mirrors lvl R ↔
      ∀ x y, Links (countChar '_' a.value) gone x y → ¬ StoredLinks R.model x y) := by
  intro gone
  obtain ⟨x, m', e1, e0, e2, e3⟩ := edit_shape (Model.removeFilteredPolicy c!"g" pt i vs) Prod.fst
    (fun a => linkIfG c!"g" .remove pt a.2) _ _ (saveStep_call (.removeFiltered c!"g" pt i vs)) E true
    R h
  have hn := (hm.groups pt a ha).1
  rw [Model.removeFilteredPolicy_run ha i vs hl] at e1
  simp only [Prod.mk.injEq, Outcome.ok.injEq] at e1
  obtain ⟨rfl, rfl⟩ := e1
  obtain ⟨E2, g1, hc⟩ := e3 e0.symm
  rw [linkIfG_g] at g1
  have hmem : ∀ r, r ∈ a.policy.iterate.filter (fun r => decide (Model.FilterMatch r i vs)) ↔
      r ∈ gone := by
    intro r
    simp only [gone, List.mem_filter, Policies.mem_iterate]
  obtain ⟨E3, k1, k2, k3⟩ := buildIncremental_rmIs_remove 
      (E := { E with model := (E.model.put c!"g" pt { a with policy := (Policies.vector
      (a.policy.iterate.filter fun r => !decide (Model.FilterMatch r i vs))) }) })
    (hm.links.of_heap rfl rfl) (Model.find_put_self ..) hn
    (a.policy.iterate.filter (fun r => decide (Model.FilterMatch r i vs)))
    (fun r hr => (hm.groups pt a ha).2 r ((Policies.mem_iterate _ _).mp (List.mem_filter.mp hr).1))
    (fun r hr x y hxy => ⟨pt, a, ha, r,
      (Policies.mem_iterate _ _).mp (List.mem_filter.mp hr).1, hxy⟩)
  rw [k1] at g1
  cases g1
  have hlinks : RmIs lvl R (fun x y => StoredLinks E.model x y ∧
      ¬ Links (countChar '_' a.value) gone x y) := by
    refine RmIs.of_heap (k3.congr ?_) hc.2.1 hc.2.2.1
    intro x y
    simp only [hmem]
    rfl
  have hstored : ∀ x y, StoredLinks E.model x y ↔
      StoredLinks R.model x y ∨ Links (countChar '_' a.value) gone x y := by
    intro x y
    rw [hc.1, storedLinks_congr k2.1, storedLinks_put, storedLinks_split ha]
    simp only [Policies.vector, List.mem_filter, Policies.mem_iterate, Links, gone]
    constructor
    · rintro (⟨r, hr, hl⟩ | h)
      · by_cases hf : Model.FilterMatch r i vs
        · exact .inr ⟨r, ⟨hr, by simp [hf]⟩, hl⟩
        · exact .inl (.inl ⟨r, ⟨hr, by simp [hf]⟩, hl⟩)
      · exact .inl (.inr h)
    · rintro ((⟨r, hr, hl⟩ | h) | ⟨r, hr, hl⟩)
      · exact .inl ⟨r, hr.1, hl⟩
      · exact .inr h
      · exact .inl ⟨r, hr.1, hl⟩
  have hg : GroupsOk R.model := by
    rw [hc.1]
    refine groupsOk_congr k2.1 (groupsOk_put hm.groups ha ?_)
    intro r hr
    simp only [Policies.vector, List.mem_filter, Policies.mem_iterate] at hr
    exact .inl hr.1
  refine ⟨hlinks, (mirrors_iff hg hlinks).trans ?_⟩
  constructor
  · intro hs x y hgo hst
    exact ((hs x y).mpr hst).2 hgo
  · intro hs x y
    rw [hstored]
    constructor
    · rintro ⟨h1 | h1, h2⟩
      · exact h1
      · exact absurd h1 h2
    · intro h1
      exact ⟨.inl h1, fun h2 => hs x y h2 h1⟩

/-- C156, updating: `updatePolicies("g", …)` of stored rules takes away the links of the old rules and
then adds those of the new ones, and so the links are those of the rules stored afterwards just if
every link that an old rule and a rule stored afterwards have in common is one of a new rule. Missing:
old rules that are not stored or of which a rearrangement is. -/
theorem C156_update_partial {lvl : Nat} {E : Enforcer} (hm : Mirrors lvl E) {pt : Str} {a : Assertion}
    (ha : E.model.find c!"g" pt = some a) {os ns : List Rule}
    (hmo : ∀ o ∈ os, NoMixup a.policy.items o) (hd : os.Nodup) (ho : ∀ o ∈ os, o ∈ a.policy.items)
    (hnl : ∀ n ∈ ns, countChar '_' a.value ≤ n.length) {R : Enforcer}
    (h : updatePoliciesI c!"g" pt os ns E = (.ok true, R)) :
    let k := countChar '_' a.value
    RmIs lvl R (fun x y => (StoredLinks E.model x y ∧ ¬ Links k os x y) ∨ Links k ns x y) ∧
    (Mirrors lvl R ↔ ∀ x y, Links k os x y → StoredLinks R.model x y → Links k ns x y) := by
  intro k
  unfold updatePoliciesI at h
  rw [updateShape] at h
  obtain ⟨m', e1, _, e3⟩ := edit_shape_bool _ _ _ _ saveStep_none E true R h
  have hn := (hm.groups pt a ha).1
  rw [updatePolicies_run ha, eraseAll_exact os ha hmo hd ho] at e1
  simp only [Model.addPolicies_run (Model.find_put_self ..), Model.put_put] at e1
  split at e1
  · simp at e1
  simp only [Prod.mk.injEq, true_and] at e1
  subst e1
  obtain ⟨E1, g1, hc⟩ := e3 rfl
  simp only [M.bind_run, linkIfG_g] at g1
  obtain ⟨E2, k1, k2, k3⟩ := buildIncremental_rmIs_remove 
      (E := { E with model := (E.model.put c!"g" pt { a with policy := (Model.emplaceList
      { a.policy with items := eraseEach a.policy.items os } ns) }) })
    (hm.links.of_heap rfl rfl) (Model.find_put_self ..) hn os
    (fun o h => (hm.groups pt a ha).2 o (ho o h))
    (fun o h x y hxy => ⟨pt, a, ha, o, ho o h, hxy⟩)
  rw [k1] at g1
  simp only [] at g1
  obtain ⟨p, hp⟩ := k2.1.some (Model.find_put_self ..)
  obtain ⟨E3, l1, l2, l3⟩ := buildIncremental_rmIs k3 hp hn ns hnl
  rw [l1] at g1
  cases g1
  have hrules := k2.1.trans l2.1
  have hlinks : RmIs lvl R (fun x y => (StoredLinks E.model x y ∧ ¬ Links k os x y) ∨ Links k ns x y) :=
    RmIs.of_heap l3 hc.2.1 hc.2.2.1
  have herase : ∀ r, r ∈ a.policy.items → r ∈ eraseEach a.policy.items os ∨ r ∈ os := by
    have : ∀ (os : List Rule) (l : List Rule) (r : Rule), r ∈ l → r ∈ eraseEach l os ∨ r ∈ os := by
      intro os
      induction os with
      | nil => intro l r hr; exact .inl hr
      | cons o os ih =>
        intro l r hr
        by_cases he : r = o
        · exact .inr (by simp [he])
        · rcases ih (l.erase o) r ((List.mem_erase_of_ne he).mpr hr) with h | h
          · exact .inl h
          · exact .inr (List.mem_cons_of_mem _ h)
    intro r hr
    exact this os _ r hr
  have hstored : ∀ x y, (StoredLinks E.model x y ∨ Links k ns x y) ↔
      (StoredLinks R.model x y ∨ Links k os x y) := by
    intro x y
    rw [hc.1, storedLinks_congr hrules, storedLinks_put, storedLinks_split ha]
    simp only [Model.mem_emplaceList]
    constructor
    · rintro ((⟨r, hr, hl⟩ | h) | ⟨r, hr, hl⟩)
      · rcases herase r hr with h | h
        · exact .inl (.inl ⟨r, .inl h, hl⟩)
        · exact .inr ⟨r, h, hl⟩
      · exact .inl (.inr h)
      · exact .inl (.inl ⟨r, .inr hr, hl⟩)
    · rintro ((⟨r, hr | hr, hl⟩ | h) | ⟨r, hr, hl⟩)
      · exact .inl (.inl ⟨r, mem_of_mem_eraseEach os hr, hl⟩)
      · exact .inr ⟨r, hr, hl⟩
      · exact .inl (.inr h)
      · exact .inl (.inl ⟨r, ho r hr, hl⟩)
  have hnew : ∀ x y, Links k ns x y → StoredLinks R.model x y := by
    rintro x y ⟨r, hr, hl⟩
    rw [hc.1, storedLinks_congr hrules, storedLinks_put]
    exact .inl ⟨r, (Model.mem_emplaceList ..).mpr (.inr hr), hl⟩
  have hg : GroupsOk R.model := by
    rw [hc.1]
    refine groupsOk_congr hrules (groupsOk_put hm.groups ha ?_)
    intro r hr
    rcases (Model.mem_emplaceList ..).mp hr with h | h
    · exact .inl (mem_of_mem_eraseEach os h)
    · exact .inr (hnl r h)
  refine ⟨hlinks, (mirrors_iff hg hlinks).trans ?_⟩
  constructor
  · intro hs x y h1 h2
    rcases (hs x y).mpr h2 with h | h
    · exact absurd h1 h.2
    · exact h
  · intro hs x y
    have h1 := hstored x y
    have h2 := hs x y
    have h3 := hnew x y
    by_cases h4 : Links k os x y <;> by_cases h5 : Links k ns x y <;> simp only [h4, h5] at * <;> tauto

/-! ## Examples -/

omit [IterOrder] in
/-- C156 fails for removing, seen in a decision: Alice keeps the role after the rule is gone. -/
example : letI := insertionOrder
    let E := (buildRoleLinks (rbac [] [[c!"alice", c!"admin"]])).2
    let R := removePolicyI c!"g" c!"g" [c!"alice", c!"admin"] E
    R.1 = .ok true ∧ (R.2.model.find c!"g" c!"g").map (·.policy.items) = some [] ∧
      gHolds noLib R.2 c!"alice" c!"admin" = .ok (.num 1) := by
  decide +kernel

omit [IterOrder] in
/-- C156 fails for a filter when a remaining rule gives the same link: Alice loses the role of a stored
rule. -/
theorem C156_filtered_fails : letI := insertionOrder
    let E := (buildRoleLinks (rbac [] [[c!"alice", c!"admin", c!"a"], [c!"alice", c!"admin", c!"b"]])).2
    let R := removeFilteredI c!"g" c!"g" 2 [c!"a"] E
    R.1 = .ok true ∧
      (R.2.model.find c!"g" c!"g").map (·.policy.items) = some [[c!"alice", c!"admin", c!"b"]] ∧
      gHolds noLib E c!"alice" c!"admin" = .ok (.num 1) ∧
      gHolds noLib R.2 c!"alice" c!"admin" = .ok (.num 0) := by
  decide +kernel

omit [IterOrder] in
/-- The same for updating. -/
theorem C156_update_fails : letI := insertionOrder
    let E := (buildRoleLinks (rbac [] [[c!"alice", c!"admin", c!"a"], [c!"alice", c!"admin", c!"b"]])).2
    let R := updatePoliciesI c!"g" c!"g" [[c!"alice", c!"admin", c!"a"]] [[c!"bob", c!"root"]] E
    R.1 = .ok true ∧ (R.2.model.find c!"g" c!"g").map (·.policy.items) =
      some [[c!"alice", c!"admin", c!"b"], [c!"bob", c!"root"]] ∧
      gHolds noLib E c!"alice" c!"admin" = .ok (.num 1) ∧
      gHolds noLib R.2 c!"alice" c!"admin" = .ok (.num 0) := by
  decide +kernel

omit [IterOrder] in
/-- A state with links, for the examples. -/
theorem mirrors_rbac (G : List Rule) (hG : ∀ r ∈ G, 2 ≤ r.length) : letI := insertionOrder
    Mirrors 10 (buildRoleLinks (rbac [] G)).2 :=
  letI := insertionOrder
  mirrors_rebuilt _ ⟨RM.new 10, rfl, rfl, rfl⟩ (groupsOk_rbac _ _ hG)

omit [IterOrder] in
theorem run_of_fst {x : Outcome Bool × Enforcer} {o : Outcome Bool} (h : x.1 = o) : x = (o, x.2) :=
  Prod.ext h rfl

omit [IterOrder] in
/-- Non-vacuity of `C156_add`: the other arrangement of a stored rule. -/
example : letI := insertionOrder
    let E := (buildRoleLinks (rbac [] [[c!"alice", c!"admin"]])).2
    Mirrors 10 (addPolicyI c!"g" c!"g" [c!"admin", c!"alice"] E).2 :=
  letI := insertionOrder
  C156_add (pt := c!"g") (r := [c!"admin", c!"alice"]) (b := false)
    (mirrors_rbac [[c!"alice", c!"admin"]] (by decide)) (by
      intro a ha
      have : a.value = c!"_, _" := by
        have h : ((buildRoleLinks (rbac [] [[c!"alice", c!"admin"]])).2.model.find c!"g" c!"g").map
          (·.value) = some c!"_, _" := by decide +kernel
        rw [ha] at h
        exact Option.some.inj h
      rw [this]; decide) (run_of_fst (by decide +kernel))

omit [IterOrder] in
/-- Non-vacuity of `C156_remove` and `C156_remove_fails`: for all names, after the removal above. -/
example (u v : Str) : letI := insertionOrder
    let E := (buildRoleLinks (rbac [] [[c!"alice", c!"admin"]])).2
    gHolds noLib (removePolicyI c!"g" c!"g" [c!"alice", c!"admin"] E).2 u v = gHolds noLib E u v :=
  let _ := insertionOrder
  C156_remove_fails (a := { asrt c!"g" c!"_, _" [] (.vector [[c!"alice", c!"admin"]]) with rm := some 0 })
    (mirrors_rbac [[c!"alice", c!"admin"]] (by decide)) (pt := c!"g") (by decide +kernel)
    (r := [c!"alice", c!"admin"]) (by decide) (run_of_fst (by decide +kernel)) _ _ _

omit [IterOrder] in
/-- Non-vacuity of `C156_filtered_partial`: two rules, one goes, and the links are those of the other. -/
example : letI := insertionOrder
    let E := (buildRoleLinks (rbac [] [[c!"alice", c!"admin"], [c!"bob", c!"root"]])).2
    Mirrors 10 (removeFilteredI c!"g" c!"g" 0 [c!"alice"] E).2 := by
  let _ := insertionOrder
  refine (C156_filtered_partial (a := { asrt c!"g" c!"_, _" []
    (.vector [[c!"alice", c!"admin"], [c!"bob", c!"root"]]) with rm := some 0 }) (pt := c!"g")
    (mirrors_rbac [[c!"alice", c!"admin"], [c!"bob", c!"root"]] (by decide)) (by decide +kernel)
    (i := 0) (vs := [c!"alice"]) (by
      intro r hr
      rw [Model.longEnough_cons]
      exact ⟨fun _ => by revert r; decide, by intro j v h; simp at h⟩)
    (R := (removeFilteredI c!"g" c!"g" 0 [c!"alice"]
      (buildRoleLinks (rbac [] [[c!"alice", c!"admin"], [c!"bob", c!"root"]])).2).2)
    (run_of_fst (by decide +kernel))).2.mpr ?_
  have hm : (removeFilteredI c!"g" c!"g" 0 [c!"alice"]
      (buildRoleLinks (rbac [] [[c!"alice", c!"admin"], [c!"bob", c!"root"]])).2).2.model =
      (rbacModel [] [[c!"bob", c!"root"]]).put c!"g" c!"g"
        { asrt c!"g" c!"_, _" [] (.vector [[c!"bob", c!"root"]]) with rm := some 0 } := by
    decide +kernel
  have hf : [[c!"alice", c!"admin"], [c!"bob", c!"root"]].filter
      (fun r => decide (Model.FilterMatch r 0 [c!"alice"])) = [[c!"alice", c!"admin"]] := by
    decide +kernel
  rintro x y ⟨r, hr, hl⟩ hs
  rw [hm, storedLinks_congr (sameRules_rbac _ _), storedLinks_rbac] at hs
  change r ∈ [[c!"alice", c!"admin"], [c!"bob", c!"root"]].filter _ at hr
  rw [hf, List.mem_singleton] at hr
  subst hr
  obtain ⟨s, h1, rest, h2⟩ := hs
  rw [List.mem_singleton.mp h1] at h2
  rcases hl with ⟨_, a, b, rest', h3, rfl, rfl⟩ | ⟨h, _⟩
  · simp at h2 h3
    have := h2.1.trans h3.1.symm
    revert this
    decide
  · exact absurd h (by decide)

omit [IterOrder] in
/-- Non-vacuity of `C156_update_partial`: the old rule and a new one have a link in common. -/
example : letI := insertionOrder
    let E := (buildRoleLinks (rbac [] [[c!"alice", c!"admin"], [c!"bob", c!"root"]])).2
    Mirrors 10 (updatePoliciesI c!"g" c!"g" [[c!"alice", c!"admin"]] [[c!"alice", c!"admin", c!"x"]] E).2 := by
  let _ := insertionOrder
  refine (C156_update_partial (a := { asrt c!"g" c!"_, _" []
    (.vector [[c!"alice", c!"admin"], [c!"bob", c!"root"]]) with rm := some 0 }) (pt := c!"g")
    (mirrors_rbac [[c!"alice", c!"admin"], [c!"bob", c!"root"]] (by decide)) (by decide +kernel)
    (os := [[c!"alice", c!"admin"]]) (ns := [[c!"alice", c!"admin", c!"x"]])
    (by decide +kernel) (by decide) (by decide +kernel) (by decide +kernel)
    (run_of_fst (by decide +kernel))).2.mpr ?_
  rintro x y ⟨r, hr, hl⟩ _
  refine ⟨_, List.mem_singleton.mpr rfl, ?_⟩
  rw [List.mem_singleton.mp hr] at hl
  rcases hl with ⟨h, a, b, rest, h3, rfl, rfl⟩ | ⟨h, _⟩
  · simp only [List.cons.injEq] at h3
    obtain ⟨rfl, rfl, _⟩ := h3
    exact .inl ⟨h, _, _, [c!"x"], rfl, rfl, rfl⟩
  · exact absurd h (by decide)

end SectionProps
end Casbin
