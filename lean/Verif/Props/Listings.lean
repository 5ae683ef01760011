import Verif.Props.Grouping

/-!
# C128: the listings of roles, users and permissions are those of the stored rules
-/

namespace Casbin
namespace RbacProps

open Enforcer RoleProps LinkProps PolicyProps DecisionProps Fixtures
open Model (FilterMatch LongEnough)

variable [IterOrder]

/-! ## Roles and users -/

omit [IterOrder] in
theorem onGRm_mirrors {lvl : Nat} {E : Enforcer} (hm : Mirrors lvl E)
    {a : Assertion} (ha : E.model.find c!"g" c!"g" = some a) (hw : Wired E c!"g") :
    ∃ rm, RmOk E rm ∧ (∀ x y, rm.Edge x y ↔ StoredLinks E.model x y) ∧
      ∀ {α : Type} (f : M RM α) (o : Outcome α), f rm = (o, rm) → onGRm f E = (o, E) := by
  obtain ⟨rm, h1, _, h3⟩ := hm.links
  have hset : E.heap.set E.rm rm = E.heap := by
    obtain ⟨g1, g2⟩ := List.getElem?_eq_some_iff.mp h1.here
    rw [← g2]; exact List.set_getElem_self g1
  refine ⟨rm, h1, h3, ?_⟩
  intro α f o hf
  simp only [onGRm, M.bind_run, M.get_run, ha, hw a ha]
  rw [onRm_run h1.here, hf, hset]

/-- `GetUsers` of a role manager without pattern function, when every user of the role is in the
domain asked for. -/
theorem getUsers_plain {rm : RM} (hwf : rm.WF) (hp : rm.pattern = none) (D : List Str)
    (q : Str → Str) (hq : ∀ n, RM.qualify D n = .ok (q n)) (r : Str)
    (hdom : ∀ x, rm.Edge x (q r) → ∃ n, x = q n) :
    (∃ us, RM.getUsers r D rm = (.ok us, rm) ∧ ∀ u, u ∈ us ↔ rm.Edge (q u) (q r)) ∨
    (RM.getUsers r D rm = (.throw .rbac, rm) ∧ ∀ x, ¬ rm.Edge x (q r)) := by
  simp only [RM.getUsers, M.bind_run, M.lift_run, hq, M.get_run]
  by_cases hk : q r ∈ rm.roles.keys
  · left
    have e1 := (RM.hasRole_none rm (q r) hp).mpr hk
    simp only [e1, Bool.not_true, Bool.false_eq_true, if_false, M.lift_run]
    have key : ∀ x, x ∈ (IterOrder.iter rm.roles.keys).filter
        (fun u => decide (q r ∈ RM.direct rm.roles u)) ↔ rm.Edge x (q r) := by
      intro x
      simp only [List.mem_filter, decide_eq_true_eq, IterOrder.mem_iter]
      constructor
      · exact And.right
      · intro he
        refine ⟨?_, he⟩
        unfold RM.Edge RM.direct at he
        cases hg : rm.roles.get x with
        | none => rw [hg] at he; simp at he
        | some l => exact UMap.mem_keys_of_get hg
    obtain ⟨ns, h1, h2⟩ := stripAll_qualified D q hq _ (fun x hx => hdom x ((key x).mp hx))
    refine ⟨ns, by rw [h1], ?_⟩
    intro u
    rw [← key, h2, List.mem_map]
    constructor
    · intro h; exact ⟨u, h, rfl⟩
    · rintro ⟨r', h, e⟩; rwa [← qualify_fun_inj hq e]
  · right
    have e1 : rm.hasRole (q r) = false := by
      have := mt (RM.hasRole_none rm (q r) hp).mp hk
      simpa using this
    simp only [e1, Bool.not_false, if_true, M.throw_run, true_and]
    exact fun x hl => hk (hwf.closed _ _ hl)

/-- C128, `GetRolesForUser` and `GetUsersForRole` without domains: the roles listed for a user and the
users listed for a role are the pairs stored. A role nobody has may be unknown, which is an exception. -/
theorem C128_roles {lvl : Nat} {E : Enforcer} (hm : Mirrors lvl E) {rs : List Rule}
    (h : TwoPlace E rs) (hw : Wired E c!"g") :
    (∀ u, ∃ ns, getRolesForUser u [] E = (.ok ns, E) ∧ ∀ r, r ∈ ns ↔ [u, r] ∈ rs) ∧
    (∀ r, (∃ us, getUsersForRole r [] E = (.ok us, E) ∧ ∀ u, u ∈ us ↔ [u, r] ∈ rs) ∨
      (getUsersForRole r [] E = (.throw .rbac, E) ∧ ∀ u, [u, r] ∉ rs)) := by
  obtain ⟨a, ha, _⟩ := h.stored
  obtain ⟨rm, h1, h2, h3⟩ := onGRm_mirrors hm ha hw
  refine ⟨?_, ?_⟩
  · intro u
    obtain ⟨ns, k1, k2⟩ := RM.getRoles_plain h1.nopat u
    exact ⟨ns, h3 _ _ k1, fun r => by rw [k2, h2, twoPlace_links h]⟩
  · intro r
    rcases getUsers_plain h1.wf h1.nopat [] id (fun n => rfl) r (fun x _ => ⟨x, rfl⟩) with
      ⟨us, k1, k2⟩ | ⟨k1, k2⟩
    · exact .inl ⟨us, h3 _ _ k1, fun u => by rw [k2, h2]; exact twoPlace_links h u r⟩
    · exact .inr ⟨h3 _ _ k1, fun u hu => k2 u ((h2 _ _).mpr ((twoPlace_links h u r).mpr hu))⟩

omit [IterOrder] in
theorem threePlace_source {E : Enforcer} {rs : List Rule} (h : ThreePlace E rs) {d : Str}
    (hd : ':' ∉ d) {x y : Str} (hl : StoredLinks E.model x (d ++ c!"::" ++ y)) :
    ∃ n, x = d ++ c!"::" ++ n := by
  obtain ⟨a, ha, hi, hv⟩ := h.stored
  obtain ⟨t, b, hb, r, hr, hl⟩ := hl
  cases h.only t b hb
  rw [ha] at hb; cases hb
  rcases hl with ⟨h2, _⟩ | ⟨_, p, q, d', rest, rfl, h4, h5⟩
  · omega
  · rw [hi] at hr
    obtain ⟨x', y', d'', h7, h6⟩ := h.triples _ hr
    simp only [List.cons.injEq] at h7
    obtain ⟨rfl, rfl, rfl, rfl⟩ := h7
    obtain ⟨rfl, rfl⟩ := prefix_inj hd h6 h5
    exact ⟨p, h4⟩

/-- C128, `GetRolesForUserInDomain` and `GetUsersForRoleInDomain`. Missing: domains with a colon
(`C91_colon_fails`). -/
theorem C128_domain_partial {lvl : Nat} {E : Enforcer} (hm : Mirrors lvl E) {rs : List Rule}
    (h : ThreePlace E rs) (hw : Wired E c!"g") {d : Str} (hd : ':' ∉ d) :
    (∀ u, ∃ ns, getRolesForUser u [d] E = (.ok ns, E) ∧ ∀ r, r ∈ ns ↔ [u, r, d] ∈ rs) ∧
    (∀ r, (∃ us, getUsersForRole r [d] E = (.ok us, E) ∧ ∀ u, u ∈ us ↔ [u, r, d] ∈ rs) ∨
      (getUsersForRole r [d] E = (.throw .rbac, E) ∧ ∀ u, [u, r, d] ∉ rs)) := by
  obtain ⟨a, ha, _⟩ := h.stored
  obtain ⟨rm, h1, h2, h3⟩ := onGRm_mirrors hm ha hw
  have hone : ∀ u r, StoredLinks E.model (d ++ c!"::" ++ u) (d ++ c!"::" ++ r) ↔ [u, r, d] ∈ rs := by
    intro u r
    rw [threePlace_links h hd]
    constructor
    · rintro ⟨y, e, hr⟩; simp only [List.append_cancel_left_eq] at e; rwa [e]
    · intro hr; exact ⟨r, rfl, hr⟩
  refine ⟨getRoles_threePlace hm h hw hd, ?_⟩
  intro r
  rcases getUsers_plain h1.wf h1.nopat [d] (fun n => d ++ c!"::" ++ n) (fun n => rfl) r
    (fun x hx => threePlace_source h hd ((h2 _ _).mp hx)) with ⟨us, k1, k2⟩ | ⟨k1, k2⟩
  · exact .inl ⟨us, h3 _ _ k1, fun u => by rw [k2, h2, hone]⟩
  · exact .inr ⟨h3 _ _ k1, fun u hu => k2 _ ((h2 _ _).mpr ((hone u r).mpr hu))⟩

/-- Both answers of `GetUsersForRole`. -/
example : (∃ us, getUsersForRole c!"admin" [] team = (.ok us, team) ∧ c!"alice" ∈ us ∧ c!"carol" ∉ us) ∧
    (∃ ns, getRolesForUser c!"bob" [] team = (.ok ns, team) ∧ ∀ r, r ∈ ns ↔ r = c!"admin") := by
  obtain ⟨h1, h2⟩ := C128_roles mirrors_team twoPlace_team wired_team
  refine ⟨?_, ?_⟩
  · rcases h2 c!"admin" with ⟨us, k1, k2⟩ | ⟨_, k2⟩
    · exact ⟨us, k1, (k2 _).mpr (by decide), fun h => absurd ((k2 _).mp h) (by decide)⟩
    · exact absurd (k2 c!"alice") (by decide)
  · obtain ⟨ns, k1, k2⟩ := h1 c!"bob"
    refine ⟨ns, k1, fun r => (k2 r).trans ?_⟩
    simp
example : (letI := insertionOrder; getUsersForRole c!"nobody" [] team).1 = .throw .rbac := by
  decide +kernel

example : ∃ us, getUsersForRole c!"admin" [c!"d1"]
      (domains [[c!"alice", c!"admin", c!"d1"], [c!"bob", c!"admin", c!"d2"]]) = (.ok us,
      domains [[c!"alice", c!"admin", c!"d1"], [c!"bob", c!"admin", c!"d2"]]) ∧
    ∀ u, u ∈ us ↔ u = c!"alice" := by
  obtain ⟨g1, g2, g3, g4, g5⟩ := domains_ok
    [[c!"alice", c!"admin", c!"d1"], [c!"bob", c!"admin", c!"d2"]] (by
      intro r hr
      rcases List.mem_pair.mp hr with rfl | rfl
      · exact ⟨_, _, _, rfl, by decide⟩
      · exact ⟨_, _, _, rfl, by decide⟩)
  obtain ⟨_, h⟩ := C128_domain_partial g1 g5 g2 (d := c!"d1") (by decide)
  rcases h c!"admin" with ⟨us, k1, k2⟩ | ⟨_, k2⟩
  · refine ⟨us, k1, fun u => (k2 u).trans ?_⟩
    simp
  · exact absurd (k2 c!"alice") (by decide)

/-! ## Permissions -/

omit [IterOrder] in
theorem filterMatch_two {r : Rule} {u d : Str} (hu : u ≠ []) (hd : d ≠ []) :
    FilterMatch r 0 [u, d] ↔ r[0]? = some u ∧ r[1]? = some d := by
  constructor
  · intro h; exact ⟨by simpa using h 0 u rfl hu, by simpa using h 1 d rfl hd⟩
  · rintro ⟨h1, h2⟩ j v hj _
    match j with
    | 0 => cases hj; exact h1
    | 1 => cases hj; exact h2
    | j + 2 => simp at hj

/-- C128, `GetPermissionsForUser`: exactly the stored rules whose first value is the user. Missing: the
user without a name, for whom every rule is listed (`C128_permissions_fails`). -/
theorem C128_permissions_partial {E : Enforcer} {rs : List Rule} (h : Stored E c!"p" c!"p" rs)
    (hl : ∀ r ∈ rs, 1 ≤ r.length) {u : Str} (hu : u ≠ []) :
    ∃ P, getPermissionsForUser u E = (.ok P, E) ∧
      P.items.Perm (rs.filter fun r => r[0]? = some u) := by
  obtain ⟨seq, h1, _, h3, _⟩ := C33_filtered h (i := 0) (vs := [u]) (by
    intro r hr j v hj _
    cases j with
    | zero => have := hl r hr; omega
    | succ j => simp at hj)
  refine ⟨_, h3, ?_⟩
  simp only [filterMatch_one hu]
  exact h1.filter _

/-- C128, `GetPermissionsForUserInDomain`: exactly the stored rules whose first value is the user and
whose second is the domain. Missing: empty texts, which stand for every value
(`C128_permissions_fails`). -/
theorem C128_permissionsInDomain_partial {E : Enforcer} {rs : List Rule} (h : Stored E c!"p" c!"p" rs)
    (hl : ∀ r ∈ rs, 2 ≤ r.length) {u d : Str} (hu : u ≠ []) (hd : d ≠ []) :
    ∃ P, getPermissionsForUserInDomain u d E = (.ok P, E) ∧
      P.items.Perm (rs.filter fun r => r[0]? = some u ∧ r[1]? = some d) := by
  obtain ⟨seq, h1, _, h3, _⟩ := C33_filtered h (i := 0) (vs := [u, d]) (by
    intro r hr j v hj _
    have := hl r hr
    match j with
    | 0 => omega
    | 1 => omega
    | j + 2 => simp at hj)
  refine ⟨_, h3, ?_⟩
  simp only [filterMatch_two hu hd]
  exact h1.filter _

example : ∃ P, getPermissionsForUser c!"alice" team = (.ok P, team) ∧ P.items.Perm [alice] :=
  C128_permissions_partial stored_team.1 (by decide) (by decide)
example : ∃ P, getPermissionsForUserInDomain c!"bob" c!"data2" team = (.ok P, team) ∧
    P.items.Perm [bob] :=
  C128_permissionsInDomain_partial stored_team.1 (by decide) (by decide) (by decide)

/-- C128 fails for a user without a name: the permissions of everybody are listed. -/
theorem C128_permissions_fails {E : Enforcer} {rs : List Rule} (h : Stored E c!"p" c!"p" rs) :
    ∃ P, getPermissionsForUser [] E = (.ok P, E) ∧ P.items.Perm rs := by
  obtain ⟨seq, h1, _, h3, _⟩ := C33_filtered h (i := 0) (vs := [[]]) (by
    intro r hr j v hj hv
    cases j with
    | zero => cases hj; exact absurd rfl hv
    | succ j => simp at hj)
  refine ⟨_, h3, ?_⟩
  have : (seq.filter fun r => FilterMatch r 0 [[]]) = seq := by
    rw [List.filter_eq_self]
    intro r _
    simp only [decide_eq_true_eq]
    intro j v hj hv
    cases j with
    | zero => cases hj; exact absurd rfl hv
    | succ j => simp at hj
  rw [this]; exact h1

end RbacProps
end Casbin
