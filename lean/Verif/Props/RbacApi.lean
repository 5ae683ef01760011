import Verif.RbacLemmas
import Verif.Fixtures

/-!
# C35, C39–C41: the RBAC API

`Stored E sec pt rs`: the rules of a policy type. `Mirrors lvl E`: the role manager holds exactly the
links of the stored grouping rules. `StoredLinks`: those links. `Path R n x y`: `n` steps.
-/

namespace Casbin
namespace RbacProps

open RM (Path)
open Enforcer RoleProps LinkProps PolicyProps DecisionProps Fixtures

variable [IterOrder]

/-! ## C35 -/

/-- The rule is about the user. -/
def About (u : Str) (r : Rule) : Prop := r[0]? = some u

instance (u : Str) (r : Rule) : Decidable (About u r) :=
  inferInstanceAs (Decidable (r[0]? = some u))

omit [IterOrder] in
theorem filterMatch_one {u : Str} (hu : u ≠ []) (i : Nat) (r : Rule) :
    Model.FilterMatch r i [u] ↔ r[i]? = some u := by
  constructor
  · intro h; exact h 0 u rfl hu
  · intro h j v hj _
    match j with
    | 0 => simp only [List.getElem?_cons_zero, Option.some.injEq] at hj; subst hj; exact h
    | j + 1 => simp at hj

theorem longEnough_one {u : Str} {i : Nat} {r : Rule} (h : i < r.length) :
    Model.LongEnough r i [u] := by
  rw [Model.longEnough_cons]
  exact ⟨fun _ => h, fun j v hj => by simp at hj⟩

/-- What is left after deleting the rules with `u` at position `i`: the other rules, in the same
order if they are kept in a vector. -/
def LeftOver (E E' : Enforcer) (sec pt : Str) (i : Nat) (u : Str) (rs : List Rule) : Prop :=
  ∃ rs', Stored E' sec pt rs' ∧ rs'.Perm (rs.filter fun r => ¬ r[i]? = some u) ∧
    (InVector E sec pt → rs' = rs.filter fun r => ¬ r[i]? = some u)

theorem leftOver_g {E : Enforcer} {pt : Str} {rs : List Rule} (h : Stored E c!"g" pt rs)
    {i : Nat} {u : Str} (hu : u ≠ []) (hl : ∀ r ∈ rs, i < r.length) :
    LeftOver E (removeFilteredNamedGroupingPolicy pt i [u] E).2 c!"g" pt i u rs ∧
    OthersKept E (removeFilteredNamedGroupingPolicy pt i [u] E).2 c!"g" pt := by
  obtain ⟨a, ha, rfl⟩ := h
  have hd := (Edit.removeFiltered true pt i [u]).did E
  have hrun := Model.removeFilteredPolicy_run ha i [u] (fun r hr => longEnough_one (hl r hr))
  refine ⟨?_, othersKept_of_did hd (Edit.onStore_edited (.removeFiltered true pt i [u]) E.model)⟩
  have hr := hd.rules
  rw [onStore_removeFiltered, show Edit.secOf true = c!"g" from rfl, hrun] at hr
  have hst := stored_of_sameRules hr (Model.find_put_self ..)
  have hfun : (fun r : Rule => !decide (Model.FilterMatch r i [u])) =
      fun r => decide (¬ r[i]? = some u) := by
    funext r
    rw [decide_not]
    congr 1
    exact decide_eq_decide.mpr (filterMatch_one hu i r)
  rw [hfun] at hst
  refine ⟨_, hst, (Policies.iterate_perm _).filter _, ?_⟩
  rintro ⟨b, hb, hv⟩
  rw [ha] at hb; cases hb
  simp only [Policies.vector, Policies.iterate_of_vector hv]

theorem leftOver_p {E : Enforcer} {pt : Str} {rs : List Rule} (h : Stored E c!"p" pt rs)
    {i : Nat} {u : Str} (hu : u ≠ []) (hl : ∀ r ∈ rs, i < r.length) :
    LeftOver E (removeFilteredNamedPolicy pt i [u] E).2 c!"p" pt i u rs ∧
    OthersKept E (removeFilteredNamedPolicy pt i [u] E).2 c!"p" pt ∧
    (E.AdapterAccepts (.removeFiltered c!"p" pt i [u]) →
      (removeFilteredNamedPolicy pt i [u] E).1 = .ok (decide (∃ r ∈ rs, r[i]? = some u))) := by
  obtain ⟨seq, h1, h2, _, h4, h5, h6⟩ := C33_filtered h (i := i) (vs := [u])
    (fun r hr => longEnough_one (hl r hr))
  have hfun : (fun r : Rule => decide (¬ Model.FilterMatch r i [u])) =
      fun r => decide (¬ r[i]? = some u) := by
    funext r
    exact decide_eq_decide.mpr (not_congr (filterMatch_one hu i r))
  rw [hfun] at h4
  refine ⟨⟨_, h4, h1.filter _, fun hv => by rw [h2 hv]⟩, h5, ?_⟩
  intro hacc
  rw [h6 hacc]
  congr 1
  refine decide_eq_decide.mpr ?_
  simp only [filterMatch_one hu]

/-- C35 for `DeletePermissionsForUser`: for a non-empty name, exactly the rules of type `p` about
the user go. Missing from the property: the empty name (`C35_fails`), the other policy types
(`C35_types_fails`), and rules without values, for which the behaviour is undefined. -/
theorem C35_deletePermissionsForUser_partial {E : Enforcer} {rs : List Rule}
    (h : Stored E c!"p" c!"p" rs) {u : Str} (hu : u ≠ []) (hl : ∀ r ∈ rs, 0 < r.length) :
    LeftOver E (deletePermissionsForUser u E).2 c!"p" c!"p" 0 u rs ∧
    OthersKept E (deletePermissionsForUser u E).2 c!"p" c!"p" ∧
    (E.AdapterAccepts (.removeFiltered c!"p" c!"p" 0 [u]) →
      (deletePermissionsForUser u E).1 = .ok (decide (∃ r ∈ rs, About u r))) :=
  leftOver_p h hu hl

/-- C35 for `DeleteRolesForUser`; the same restrictions. The call returns normally if the links
mirror the rules. -/
theorem C35_deleteRolesForUser_partial {E : Enforcer} {rs : List Rule}
    (h : Stored E c!"g" c!"g" rs) {u : Str} (hu : u ≠ []) (hl : ∀ r ∈ rs, 0 < r.length) :
    LeftOver E (deleteRolesForUser u E).2 c!"g" c!"g" 0 u rs ∧
    OthersKept E (deleteRolesForUser u E).2 c!"g" c!"g" ∧
    (∀ lvl, Mirrors lvl E → E.autoBuild = true →
      E.AdapterAccepts (.removeFiltered c!"g" c!"g" 0 [u]) →
      (deleteRolesForUser u E).1 = .ok (decide (∃ r ∈ rs, About u r)) ∧
      Mirrors lvl (deleteRolesForUser u E).2) := by
  refine ⟨(leftOver_g h hu hl).1, (leftOver_g h hu hl).2, ?_⟩
  intro lvl hm hauto hacc
  obtain ⟨a, ha, rfl⟩ := h
  obtain ⟨R, h1, _⟩ := removeFilteredG_ok hm hauto ha (i := 0) (vs := [u])
    (fun r hr => longEnough_one (hl r hr)) hacc
  have h1' : deleteRolesForUser u E = _ := h1
  refine ⟨?_, ?_⟩
  · rw [h1']
    simp only
    congr 1
    refine decide_eq_decide.mpr ?_
    simp only [filterMatch_one hu, About]
  · rw [h1']
    exact removeFiltered_step hm hauto h1

/-- C35 for `DeleteUser`; the same restrictions. Exactly the rules of types `p` and `g` about the
user go, and the result says whether there were any. -/
theorem C35_deleteUser_partial {lvl : Nat} {E : Enforcer} {ps gs : List Rule}
    (hp : Stored E c!"p" c!"p" ps) (hg : Stored E c!"g" c!"g" gs) {u : Str} (hu : u ≠ [])
    (hlp : ∀ r ∈ ps, 0 < r.length) (hm : Mirrors lvl E) (hauto : E.autoBuild = true)
    (hacc1 : E.AdapterAccepts (.removeFiltered c!"g" c!"g" 0 [u]))
    (hacc2 : E.AdapterAccepts (.removeFiltered c!"p" c!"p" 0 [u])) :
    (deleteUser u E).1 = .ok (decide (∃ r ∈ gs ++ ps, About u r)) ∧
    LeftOver E (deleteUser u E).2 c!"p" c!"p" 0 u ps ∧
    LeftOver E (deleteUser u E).2 c!"g" c!"g" 0 u gs ∧
    (∀ s t rs, (s, t) ≠ (c!"p", c!"p") → (s, t) ≠ (c!"g", c!"g") →
      (Stored (deleteUser u E).2 s t rs ↔ Stored E s t rs)) := by
  have hlg : ∀ r ∈ gs, 0 < r.length := by
    obtain ⟨a, ha, rfl⟩ := hg
    intro r hr
    have h1 := (hm.groups _ a ha).2 r hr
    have h2 := (hm.groups _ a ha).1
    rcases h2 with h2 | h2 <;> omega
  obtain ⟨g1, g2, g3⟩ := C35_deleteRolesForUser_partial hg hu hlg
  obtain ⟨g3, _⟩ := g3 lvl hm hauto hacc1
  have hd := (Edit.removeFiltered true c!"g" 0 [u]).did E
  rcases hR : removeFilteredGroupingPolicy 0 [u] E with ⟨oR, R⟩
  have hR1 : deleteRolesForUser u E = (oR, R) := hR
  have hR2 : (Edit.removeFiltered true c!"g" 0 [u]).run E = (oR, R) := hR
  rw [hR1] at g1 g2 g3
  rw [hR2] at hd
  simp only at g1 g2 g3
  subst g3
  have haccR : R.AdapterAccepts (.removeFiltered c!"p" c!"p" 0 [u]) := by
    refine accepts_after (c := .removeFiltered c!"g" c!"g" 0 [u]) hacc2 ?_ hd.rest.2.2.2.1
      (by simp)
    cases hb : decide (∃ r ∈ gs, About u r) with
    | false => left; exact (hd.failed (by simp only [hb])).1
    | true => right; exact (hd.done (by simp only [hb])).1
  have hpR : Stored R c!"p" c!"p" ps := (g2.1 _ _ _ (by decide)).mpr hp
  obtain ⟨p1, p2, p3⟩ := leftOver_p hpR hu hlp
  have p3 := p3 haccR
  rcases hS : removeFilteredPolicy 0 [u] R with ⟨oS, S⟩
  have hS1 : removeFilteredNamedPolicy c!"p" 0 [u] R = (oS, S) := hS
  rw [hS1] at p1 p2 p3
  simp only at p1 p2 p3
  subst p3
  have hrun : deleteUser u E = (.ok (decide (∃ r ∈ gs, About u r) ||
      decide (∃ r ∈ ps, r[0]? = some u)), S) := by
    simp only [deleteUser, M.bind_run, hR, hS, M.pure_run]
  rw [hrun]
  have hvec : ∀ s t, InVector E s t → (s, t) ≠ (c!"g", c!"g") → InVector R s t := by
    rintro s t ⟨a, ha, hv⟩ hne
    have hed := Edit.onStore_edited (.removeFiltered true c!"g" 0 [u]) E.model
    have hf : ((Edit.removeFiltered true c!"g" 0 [u]).onStore E.model).2.find s t = some a := by
      rcases hed with he | ⟨b, P, _, he⟩
      · rw [he]; exact ha
      · rw [he, Model.find_put_ne]
        · exact ha
        · rintro ⟨h1, h2⟩; exact hne (by rw [← h1, ← h2]; rfl)
    obtain ⟨p, hp⟩ := hd.rules.some hf
    exact ⟨_, hp, hv⟩
  refine ⟨?_, ?_, ?_, ?_⟩
  · simp only
    congr 1
    rw [← Bool.decide_or]
    refine decide_eq_decide.mpr ?_
    simp only [List.mem_append, About]
    constructor
    · rintro (⟨r, h1, h2⟩ | ⟨r, h1, h2⟩)
      · exact ⟨r, .inl h1, h2⟩
      · exact ⟨r, .inr h1, h2⟩
    · rintro ⟨r, h1 | h1, h2⟩
      · exact .inl ⟨r, h1, h2⟩
      · exact .inr ⟨r, h1, h2⟩
  · obtain ⟨rs', q1, q2, q3⟩ := p1
    exact ⟨rs', q1, q2, fun hv => q3 (hvec _ _ hv (by decide))⟩
  · obtain ⟨rs', q1, q2, q3⟩ := g1
    exact ⟨rs', (p2.1 _ _ _ (by decide)).mpr q1, q2, q3⟩
  · intro s t rs h1 h2
    exact (p2.1 s t rs h1).trans (g2.1 s t rs h2)

/-- An enforcer with the rules of `alice` and `bob` and their roles, links built. -/
def team : Enforcer :=
  (buildRoleLinks (rbac [alice, bob] [[c!"alice", c!"admin"], [c!"bob", c!"admin"]])).2

omit [IterOrder] in
theorem noPat_rbac (P G : List Rule) : NoPat 10 (rbac P G) := ⟨RM.new 10, rfl, rfl, rfl⟩

theorem mirrors_team : Mirrors 10 team :=
  mirrors_rebuilt _ (noPat_rbac _ _) (groupsOk_rbac _ _ (by decide))

theorem stored_team : Stored team c!"p" c!"p" [alice, bob] ∧
    Stored team c!"g" c!"g" [[c!"alice", c!"admin"], [c!"bob", c!"admin"]] := by
  have h := (buildRoleLinks_linkOnly
    (rbac [alice, bob] [[c!"alice", c!"admin"], [c!"bob", c!"admin"]])).1
  exact ⟨stored_of_sameRules h (a := asrt c!"p" c!"sub, obj, act"
      [c!"p_sub", c!"p_obj", c!"p_act"] (.vector [alice, bob])) rfl,
    stored_of_sameRules h (a := asrt c!"g" c!"_, _" []
      (.vector [[c!"alice", c!"admin"], [c!"bob", c!"admin"]])) rfl⟩

theorem flags_team : team.autoBuild = true ∧ team.adapter = none := by
  have h := buildRoleLinks_linkOnly
    (rbac [alice, bob] [[c!"alice", c!"admin"], [c!"bob", c!"admin"]])
  exact ⟨h.2.2.2.2.2.2.2.1, h.2.2.1⟩

example : (deleteUser c!"alice" team).1 = .ok true ∧
    LeftOver team (deleteUser c!"alice" team).2 c!"p" c!"p" 0 c!"alice" [alice, bob] := by
  have h := C35_deleteUser_partial stored_team.1 stored_team.2 (u := c!"alice") (by decide)
    (by decide) mirrors_team flags_team.1 (adapterAccepts_none flags_team.2)
    (adapterAccepts_none flags_team.2)
  exact ⟨h.1, h.2.1⟩

/-- C35 fails for the empty name: every rule and every role goes. -/
theorem C35_fails : ∃ E : Enforcer, Stored E c!"p" c!"p" [alice] ∧
    Stored E c!"g" c!"g" [[c!"bob", c!"admin"]] ∧
    (deletePermissionsForUser [] E).1 = .ok true ∧
    Stored (deletePermissionsForUser [] E).2 c!"p" c!"p" [] ∧
    Stored (deleteRolesForUser [] E).2 c!"g" c!"g" [] := by
  refine ⟨rbac [alice] [[c!"bob", c!"admin"]], ⟨_, rfl, rfl⟩, ⟨_, rfl, rfl⟩, ?_, ?_, ?_⟩
  · obtain ⟨_, _, _, _, _, _, h6⟩ := C33_filtered (E := rbac [alice] [[c!"bob", c!"admin"]])
      (pt := c!"p") (rs := [alice]) ⟨_, rfl, rfl⟩ (i := 0) (vs := [[]]) (by
        intro r _ j v hj hv
        match j with
        | 0 => simp at hj; exact absurd hj hv
        | j + 1 => simp at hj)
    exact h6 (adapterAccepts_none rfl)
  · obtain ⟨seq, h1, _, _, h4, _, _⟩ := C33_filtered (E := rbac [alice] [[c!"bob", c!"admin"]])
      (pt := c!"p") (rs := [alice]) ⟨_, rfl, rfl⟩ (i := 0) (vs := [[]]) (by
        intro r _ j v hj hv
        match j with
        | 0 => simp at hj; exact absurd hj hv
        | j + 1 => simp at hj)
    have : seq = [alice] := List.perm_singleton.mp h1
    subst this
    exact h4
  · have hd := (Edit.removeFiltered true c!"g" 0 [[]]).did (rbac [alice] [[c!"bob", c!"admin"]])
    have hr := hd.rules
    rw [onStore_removeFiltered, show Edit.secOf true = c!"g" from rfl,
      Model.removeFilteredPolicy_run (a := asrt c!"g" c!"_, _" [] (.vector [[c!"bob", c!"admin"]]))
        rfl 0 [[]] (by
        intro r _ j v hj hv
        match j with
        | 0 => simp at hj; exact absurd hj hv
        | j + 1 => simp at hj)] at hr
    simp only at hr
    exact stored_of_sameRules hr (Model.find_put_self ..)

/-- C35 fails for other policy types: the rules of `p2` about the user stay. -/
theorem C35_types_fails : ∃ E : Enforcer, Stored E c!"p" c!"p2" [alice] ∧
    Stored (deletePermissionsForUser c!"alice" E).2 c!"p" c!"p2" [alice] := by
  let m : Model := [(c!"p", [(c!"p", asrt c!"p" c!"sub, obj, act" [] (.vector [])),
    (c!"p2", asrt c!"p2" c!"sub, obj, act" [] (.vector [alice]))])]
  have h : Stored (enforcer m) c!"p" c!"p2" [alice] := ⟨_, rfl, rfl⟩
  refine ⟨enforcer m, h, ?_⟩
  have h2 := (C35_deletePermissionsForUser_partial (E := enforcer m) (rs := []) ⟨_, rfl, rfl⟩
    (u := c!"alice") (by decide) (by simp)).2.1
  exact (h2.1 _ _ _ (by decide)).mpr h

/-! ## C39 -/

/-- C39, from the list of implicit roles. Each rule is listed as often as it is stored. -/
theorem implicitPermissions_run {E : Enforcer} {rs : List Rule} (h : Stored E c!"p" c!"p" rs)
    {D : List Str} (hD : D.length ≤ 1) (hDne : ∀ d ∈ D, d ≠ [])
    (hl : ∀ r ∈ rs, D.length < r.length) {u : Str} (hu : u ≠ []) {roles : List Str}
    (hroles : getImplicitRolesForUser u D E = (.ok roles, E)) (hnd : roles.Nodup)
    (hun : u ∉ roles) (hne : ∀ x ∈ roles, x ≠ []) :
    ∃ res, getImplicitPermissionsForUser u D E = (.ok res, E) ∧ ∀ r, res.count r =
      if (r[0]? = some u ∨ ∃ x ∈ roles, r[0]? = some x) ∧ (∀ d ∈ D, r[1]? = some d)
      then rs.count r else 0 := by
  obtain ⟨res, h1, h2⟩ := implicitPermLoop_run h hD hDne hl (u :: roles)
    (List.nodup_cons.mpr ⟨hun, hnd⟩) (by
      intro x hx
      rcases List.mem_cons.mp hx with rfl | hx
      · exact hu
      · exact hne x hx)
  refine ⟨res, ?_, ?_⟩
  · simp only [getImplicitPermissionsForUser, M.bind_run, hroles]
    rw [if_neg (by omega), h1]
  · intro r
    rw [h2]
    simp only [List.mem_cons, exists_eq_or_imp]

omit [IterOrder] in
theorem count_cases {r : Rule} {res : List Rule} {n : Nat} {A B : Prop} [Decidable A]
    (h : res.count r = if A then n else 0) (hAB : A ↔ B) :
    (B → res.count r = n) ∧ (¬ B → r ∉ res) := by
  constructor
  · intro hB; rw [h, if_pos (hAB.mpr hB)]
  · intro hB; rw [if_neg (fun hA => hB (hAB.mp hA))] at h; exact List.count_eq_zero.mp h

/-- The subject of the rule is the user or can be reached from it. -/
def Inherits (R : Str → Str → Prop) (u : Str) (r : Rule) : Prop :=
  ∃ x n, r[0]? = some x ∧ Path R n u x

/-- C39 without a domain, for every role graph without a pattern function: the rules of type `p`
whose subject is the user or reachable from it by role links, each as often as it is stored. Missing
from the property: empty names of users and roles (`C39_fails`). -/
theorem C39_implicitPermissions_partial {E : Enforcer} {rm : RM} (hrm : RmOk E rm)
    {rs : List Rule} (h : Stored E c!"p" c!"p" rs) (hl : ∀ r ∈ rs, 0 < r.length) {u : Str}
    (hu : u ≠ []) (hne : ∀ n, ¬ Path rm.Edge n u []) :
    ∃ res, getImplicitPermissionsForUser u [] E = (.ok res, E) ∧ ∀ r,
      (Inherits rm.Edge u r → res.count r = rs.count r) ∧ (¬ Inherits rm.Edge u r → r ∉ res) := by
  obtain ⟨roles, h1, h2, h3⟩ := C21_any_state E rm hrm u
  obtain ⟨res, h4, h5⟩ := implicitPermissions_run h (D := []) (by simp) (by simp) hl hu h1 h2
    (fun hm => ((h3 u).mp hm).1 rfl)
    (fun x hx => by
      obtain ⟨_, n, hp⟩ := (h3 x).mp hx
      rintro rfl
      exact hne _ hp)
  refine ⟨res, h4, ?_⟩
  intro r
  refine count_cases (h5 r) ?_
  simp only [List.not_mem_nil, false_imp_iff, implies_true, and_true]
  constructor
  · rintro (h | ⟨x, hx, h⟩)
    · exact ⟨u, 0, h, .nil _⟩
    · obtain ⟨_, n, hp⟩ := (h3 x).mp hx
      exact ⟨x, n + 1, h, hp⟩
  · rintro ⟨x, n, h, hp⟩
    by_cases hxu : x = u
    · subst hxu; exact .inl h
    · right
      cases hp with
      | nil => exact absurd rfl hxu
      | cons e p => exact ⟨x, (h3 x).mpr ⟨hxu, _, .cons e p⟩, h⟩

/-- C39 within a domain, for the tidy histories of C19. -/
theorem C39_domain_partial (lvl : Nat) (cs : List Call) (ht : Tidy cs) {E : Enforcer}
    (hE : E.heap[E.rm]? = some (runCalls (RM.new lvl) cs)) {d u : Str} (hd : ':' ∉ d) (hdne : d ≠ [])
    (hu : u ≠ []) {rs : List Rule} (h : Stored E c!"p" c!"p" rs) (hl : ∀ r ∈ rs, 1 < r.length)
    (hne : ∀ n, ¬ Path (fun a b => LinkSet cs.reverse (d ++ c!"::" ++ a) (d ++ c!"::" ++ b)) n u []) :
    ∃ res, getImplicitPermissionsForUser u [d] E = (.ok res, E) ∧ ∀ r,
      let InDomain := r[1]? = some d ∧
        Inherits (fun a b => LinkSet cs.reverse (d ++ c!"::" ++ a) (d ++ c!"::" ++ b)) u r
      (InDomain → res.count r = rs.count r) ∧ (¬ InDomain → r ∉ res) := by
  obtain ⟨roles, h1, h2, h3⟩ := C21_domain_partial lvl cs ht E hE d u hd
  obtain ⟨res, h4, h5⟩ := implicitPermissions_run h (D := [d]) (by simp) (by simpa using hdne)
    (by simpa using hl) hu h1 h2
    (fun hm => ((h3 u).mp hm).1 rfl)
    (fun x hx => by
      obtain ⟨_, n, hp⟩ := (h3 x).mp hx
      rintro rfl
      exact hne _ hp)
  refine ⟨res, h4, ?_⟩
  intro r
  refine count_cases (h5 r) ?_
  simp only [List.mem_singleton, forall_eq]
  constructor
  · rintro ⟨h | ⟨x, hx, h⟩, hd⟩
    · exact ⟨hd, u, 0, h, .nil _⟩
    · obtain ⟨_, n, hp⟩ := (h3 x).mp hx
      exact ⟨hd, x, n + 1, h, hp⟩
  · rintro ⟨hd, x, n, h, hp⟩
    refine ⟨?_, hd⟩
    by_cases hxu : x = u
    · subst hxu; exact .inl h
    · right
      cases hp with
      | nil => exact absurd rfl hxu
      | cons e p => exact ⟨x, (h3 x).mpr ⟨hxu, _, .cons e p⟩, h⟩

/-- A chain of roles with a permission at its end. -/
def chained : Enforcer :=
  { rbac [[c!"root", c!"data", c!"read"], alice] [] with
    heap := [runCalls (RM.new 10) [.add c!"alice" c!"admin" [], .add c!"admin" c!"root" []]] }

example : (letI := insertionOrder
    (getImplicitPermissionsForUser c!"alice" [] chained).1)
    = .ok [alice, [c!"root", c!"data", c!"read"]] := by decide +kernel

omit [IterOrder] in
theorem no_path_to_empty {R : Str → Str → Prop} (h : ∀ x, ¬ R x []) {u : Str} (hu : u ≠ [])
    (n : Nat) : ¬ Path R n u [] := by
  intro hp
  generalize hb : ([] : Str) = b at hp
  induction hp with
  | nil => exact hu hb.symm
  | cons e p ih =>
    cases p with
    | nil => subst hb; exact h _ e
    | cons e' p' =>
      refine ih ?_ hb
      rintro rfl
      exact h _ e

/-- The hypotheses of `C39_implicitPermissions_partial` in the chain: a rule two roles away. -/
example : ∃ res, getImplicitPermissionsForUser c!"alice" [] chained = (.ok res, chained) ∧
    res.count [c!"root", c!"data", c!"read"] = 1 := by
  have g := good_runCalls 10 [.add c!"alice" c!"admin" [], .add c!"admin" c!"root" []]
  have hedge := g.edges
  obtain ⟨res, h1, h2⟩ := C39_implicitPermissions_partial (E := chained) ⟨rfl, g.wf, g.nopat⟩
    (rs := [[c!"root", c!"data", c!"read"], alice]) ⟨_, rfl, rfl⟩ (by decide) (u := c!"alice")
    (by decide) (no_path_to_empty (by
      intro x hx
      have := (hedge _ _).mp hx
      simp [LinkSet, RM.qualify] at this) (by decide))
  refine ⟨res, h1, (h2 _).1 ⟨c!"root", 2, rfl, .cons (b := c!"admin") ?_ (.cons ?_ (.nil _))⟩⟩
  · exact (hedge _ _).mpr (by simp [LinkSet, RM.qualify])
  · exact (hedge _ _).mpr (by simp [LinkSet, RM.qualify])

/-- The same within a domain. -/
example : ∃ E res, getImplicitPermissionsForUser c!"alice" [c!"d"] E = (.ok res, E) ∧
    res.count [c!"admin", c!"d", c!"data"] = 1 ∧ [c!"admin", c!"e", c!"data"] ∉ res := by
  let E : Enforcer := { rbac [[c!"admin", c!"d", c!"data"], [c!"admin", c!"e", c!"data"]] [] with
    heap := [runCalls (RM.new 10) [.add c!"alice" c!"admin" [c!"d"]]] }
  obtain ⟨res, h1, h2⟩ := C39_domain_partial 10 [.add c!"alice" c!"admin" [c!"d"]]
    (by intro c hc; rw [List.mem_singleton.mp hc]; simp [callOk, domOk, nameOk]) (E := E) rfl
    (d := c!"d") (u := c!"alice") (by decide) (by decide) (by decide)
    (rs := [[c!"admin", c!"d", c!"data"], [c!"admin", c!"e", c!"data"]]) ⟨_, rfl, rfl⟩ (by decide)
    (no_path_to_empty (by intro x hx; simp [LinkSet, RM.qualify] at hx) (by decide))
  refine ⟨E, res, h1, (h2 _).1 ⟨rfl, c!"admin", 1, rfl, .cons ?_ (.nil _)⟩, (h2 _).2 ?_⟩
  · simp [LinkSet, RM.qualify]
  · rintro ⟨h, _⟩; exact absurd h (by decide)

omit [IterOrder] in
/-- C39 fails when a role has the empty name: it gives the rules of everybody. -/
theorem C39_fails : ¬ ∀ (_ : IterOrder) (cs : List Call) (P : List Rule) (u : Str)
    (res : List Rule) (r : Rule),
    (getImplicitPermissionsForUser u [] { rbac P [] with
      heap := [runCalls (RM.new 10) cs] }).1 = .ok res → r ∈ res →
    Inherits (LinkSet cs.reverse) u r := by
  intro h
  obtain ⟨x, n, h1, hp⟩ := h insertionOrder [.add c!"bob" [] []] [alice] c!"bob" [alice] alice
    (by decide +kernel) (by simp)
  have hx : x = c!"alice" := by simpa [alice] using h1.symm
  subst hx
  have key : ∀ n (a b : Str), Path (LinkSet [Call.add c!"bob" [] []].reverse) n a b →
      b = a ∨ b = [] := by
    intro n a b hp
    induction hp with
    | nil => exact .inl rfl
    | cons e p ih =>
      have hcase := e
      simp [LinkSet, RM.qualify] at hcase
      rcases ih with rfl | h
      · exact .inr hcase.2
      · exact .inr h
  rcases key _ _ _ hp with h | h
  · exact absurd h (by decide)
  · exact absurd h (by decide)

/-! ## C40 -/

/-- What `HasRoleForUser` answers in a mirrored state of a two-place model. -/
theorem hasRole_twoPlace {lvl : Nat} {E : Enforcer} (hm : Mirrors lvl E) {rs : List Rule}
    (h : TwoPlace E rs) (hw : Wired E c!"g") (x y : Str) :
    hasRoleForUser x y E = (.ok (decide ([x, y] ∈ rs)), E) := by
  obtain ⟨rm, h1, _, h3⟩ := hm.links
  obtain ⟨a, ha, _⟩ := h.stored
  obtain ⟨b, e1, e2⟩ := hasRole_run h1 ha (hw a ha) x y
  rw [e1]
  have : (b = true ↔ [x, y] ∈ rs) := by rw [e2, h3, twoPlace_links h]
  cases b with
  | true => simp [this.mp rfl]
  | false =>
    have : [x, y] ∉ rs := fun hc => by simpa using this.mpr hc
    simp [this]

omit [IterOrder] in
theorem twoPlace_sameRules {m : Model} {E : Enforcer} {a : Assertion} {P : Policies}
    {E0 : Enforcer} {rs0 rs : List Rule} (h0 : TwoPlace E0 rs0)
    (ha : E0.model.find c!"g" c!"g" = some a)
    (hm : m = E0.model ∧ P = a.policy ∨ m = E0.model.put c!"g" c!"g" { a with policy := P })
    (hs : m.SameRules E.model) (hP : P.items = rs) (hp : ∀ r ∈ rs, r.length = 2) : TwoPlace E rs := by
  have hv : countChar '_' a.value = 2 := by
    obtain ⟨b, hb, _, hv⟩ := h0.stored
    rw [ha] at hb; cases hb; exact hv
  have hf : m.find c!"g" c!"g" = some { a with policy := P } := by
    rcases hm with ⟨rfl, rfl⟩ | rfl
    · exact ha
    · exact Model.find_put_self ..
  obtain ⟨q, hq⟩ := hs.some hf
  refine ⟨⟨_, hq, hP, hv⟩, ?_, hp⟩
  intro t b hb
  by_contra hne
  have hnone : E0.model.find c!"g" t = none := by
    cases hc : E0.model.find c!"g" t with
    | none => rfl
    | some d => exact absurd (h0.only t d hc) hne
  have hnone' : m.find c!"g" t = none := by
    rcases hm with ⟨rfl, _⟩ | rfl
    · exact hnone
    · rw [Model.find_put_ne]
      · exact hnone
      · rintro ⟨_, h⟩; exact hne h.symm
  rw [hs.none hnone'] at hb
  simp at hb

omit [IterOrder] in
/-- Pairs differ from the other arrangement of their values unless that is stored. -/
theorem noMixup_pair {rs : List Rule} {u r : Str} (hp : ∀ s ∈ rs, s.length = 2)
    (hmix : [r, u] ∈ rs → r = u) : NoMixup rs [u, r] := by
  intro s hs h
  match s, hp s hs with
  | [p, q], _ =>
    rcases List.mem_pair.mp (h.mem_iff.mp (List.mem_cons_self ..)) with rfl | rfl
    · have := List.perm_singleton.mp (List.Perm.cons_inv h)
      rw [this]
    · have h' : List.Perm [p, q] [p, u] := h.trans (List.Perm.swap ..)
      have hq : q = u := by simpa using List.perm_singleton.mp (List.Perm.cons_inv h')
      subst hq
      rw [hmix hs]

/-- `AddRoleForUser` in a mirrored state of a two-place model. -/
theorem addRole_run {lvl : Nat} {E : Enforcer} (hm : Mirrors lvl E)
    (hauto : E.autoBuild = true) {rs : List Rule} (h : TwoPlace E rs) {u r : Str}
    (hmix : [r, u] ∈ rs → r = u) (hacc : E.AdapterAccepts (.add c!"g" c!"g" [u, r])) :
    ∃ R rs', addRoleForUser u r E = (.ok (decide ([u, r] ∉ rs)), R) ∧ TwoPlace R rs' ∧
      (∀ x y, [x, y] ∈ rs' ↔ [x, y] ∈ rs ∨ x = u ∧ y = r) ∧ Wired R c!"g" ∧ Mirrors lvl R ∧
      R.autoBuild = true ∧ ∀ c', E.AdapterAccepts c' → R.AdapterAccepts c' := by
  obtain ⟨a, ha, hi, hv⟩ := h.stored
  have hno : NoMixup a.policy.items [u, r] := noMixup_pair (hi ▸ h.pairs) (hi ▸ hmix)
  have hsim : a.policy.Similar [u, r] ↔ [u, r] ∈ rs := by rw [similar_iff hno, hi]
  obtain ⟨R, h1, h2⟩ := addG_ok hm hauto ha (r := [u, r]) (by rw [hv]; simp) hacc
  have hM : Mirrors lvl R := add_step hm (fun b hb => by
    rw [ha] at hb; cases hb
    exact ⟨by rw [hv]; simp, fun hs => by rw [hi]; exact hsim.mp hs⟩) h1
  have hdid := (Edit.add true c!"g" [u, r]).did E
  have hrun : (Edit.add true c!"g" [u, r]).run E = _ := h1
  rw [hrun] at hdid
  have hd := hdid.rules
  simp only [Edit.onStore, show Edit.secOf true = c!"g" from rfl, Model.addPolicy_run ha] at hd
  have hT : ∃ rs', TwoPlace R rs' ∧ ∀ x y, [x, y] ∈ rs' ↔ [x, y] ∈ rs ∨ x = u ∧ y = r := by
    by_cases hs : a.policy.Similar [u, r]
    · rw [if_pos hs] at hd
      refine ⟨rs, twoPlace_sameRules h ha (.inl ⟨rfl, rfl⟩) hd hi h.pairs, ?_⟩
      intro x y
      constructor
      · exact .inl
      · rintro (h | ⟨rfl, rfl⟩)
        · exact h
        · exact hsim.mp hs
    · rw [if_neg hs] at hd
      refine ⟨_, twoPlace_sameRules h ha (.inr rfl) hd rfl ?_, ?_⟩
      · intro s hs'
        rcases (Policies.mem_emplace _ _ _).mp hs' with h' | rfl
        · exact h.pairs s (hi ▸ h')
        · rfl
      · intro x y
        rw [Policies.mem_emplace, hi]
        simp
  obtain ⟨rs', hT, hmem⟩ := hT
  refine ⟨R, rs', ?_, hT, hmem, h2, hM, hdid.rest.2.2.2.2.1.trans hauto, ?_⟩
  · have : addRoleForUser u r E = _ := h1
    rw [this]
    simp only [Prod.mk.injEq, Outcome.ok.injEq, and_true]
    exact decide_eq_decide.mpr (not_congr hsim)
  · intro c' hc'
    refine accepts_after (c := .add c!"g" c!"g" [u, r]) hc' ?_ hdid.rest.2.2.2.1 (by simp)
    cases hb : decide (¬ a.policy.Similar [u, r]) with
    | false => left; exact (hdid.failed (by simp only [hb])).1
    | true => right; exact (hdid.done (by simp only [hb])).1

/-- C40 for `AddRoleForUser`: the call returns whether the rule is new, afterwards `HasRoleForUser`
answers yes for this pair, as before for all others, and `g(u, r)` holds. Missing from the property:
a stored pair with the names exchanged (`C40_fails`), adapters that reject the call, and models with
further or other role definitions. -/
theorem C40_addRole_partial {lvl : Nat} {E : Enforcer} (hm : Mirrors lvl E)
    (hauto : E.autoBuild = true) {rs : List Rule} (h : TwoPlace E rs) {u r : Str}
    (hmix : [r, u] ∈ rs → r = u) (hacc : E.AdapterAccepts (.add c!"g" c!"g" [u, r])) :
    ∃ E', addRoleForUser u r E = (.ok (decide ([u, r] ∉ rs)), E') ∧
      (∀ x y, hasRoleForUser x y E' = (.ok (decide ([x, y] ∈ rs ∨ x = u ∧ y = r)), E')) ∧
      (1 ≤ lvl → ∀ lib, gHolds lib E' u r = .ok (.num 1)) ∧ Mirrors lvl E' := by
  obtain ⟨R, rs', h1, hT, hmem, h2, hM, _, _⟩ := addRole_run hm hauto h hmix hacc
  refine ⟨R, h1, ?_, ?_, hM⟩
  · intro x y
    rw [hasRole_twoPlace hM hT h2]
    simp only [Prod.mk.injEq, Outcome.ok.injEq, and_true]
    exact decide_eq_decide.mpr (hmem x y)
  · intro hlvl lib
    obtain ⟨rm, g1, g2, g3⟩ := hM.links
    obtain ⟨b, e1, e2⟩ := gHolds_eq lib R rm g1 u r
    have hedge : rm.Edge u r := (g3 u r).mpr ((twoPlace_links hT u r).mpr ((hmem u r).mpr (.inr ⟨rfl, rfl⟩)))
    rw [e1, e2.mpr ⟨1, by omega, .cons hedge (.nil _)⟩]
    rfl

/-- C40 for `DeleteRoleForUser`, if the pair is stored at most once: afterwards `HasRoleForUser`
answers no for this pair and as before for all others. The same restrictions. -/
theorem C40_deleteRole_partial {lvl : Nat} {E : Enforcer} (hm : Mirrors lvl E)
    (hauto : E.autoBuild = true) {rs : List Rule} (h : TwoPlace E rs) {u r : Str}
    (hmix : [r, u] ∈ rs → r = u) (hone : rs.count [u, r] ≤ 1)
    (hacc : E.AdapterAccepts (.remove c!"g" c!"g" [u, r])) :
    ∃ E', deleteRoleForUser u r E = (.ok (decide ([u, r] ∈ rs)), E') ∧
      (∀ x y, hasRoleForUser x y E' = (.ok (decide ([x, y] ∈ rs ∧ ¬ (x = u ∧ y = r))), E')) ∧
      Mirrors lvl E' := by
  obtain ⟨a, ha, hi, hv⟩ := h.stored
  have hno : NoMixup a.policy.items [u, r] := noMixup_pair (hi ▸ h.pairs) (hi ▸ hmix)
  have hsim : a.policy.Similar [u, r] ↔ [u, r] ∈ rs := by rw [similar_iff hno, hi]
  obtain ⟨R, h1, h2⟩ := removeG_ok hm hauto ha (r := [u, r]) (by rw [hv]; simp) hacc
  have hM : Mirrors lvl R := remove_step hm hauto h1
  have hd := ((Edit.remove true c!"g" [u, r]).did E).rules
  have hrun : (Edit.remove true c!"g" [u, r]).run E = _ := h1
  rw [hrun] at hd
  simp only [Edit.onStore, show Edit.secOf true = c!"g" from rfl, Model.removePolicy,
    Model.eraseRule_run ha] at hd
  have hT : ∃ rs', TwoPlace R rs' ∧ ∀ x y, [x, y] ∈ rs' ↔ [x, y] ∈ rs ∧ ¬ (x = u ∧ y = r) := by
    by_cases hs : [u, r] ∈ rs
    · rw [eraseFirst_exact hno (hi ▸ hs)] at hd
      refine ⟨_, twoPlace_sameRules h ha (.inr rfl) hd rfl ?_, ?_⟩
      · intro s hs'
        exact h.pairs s (hi ▸ List.mem_of_mem_erase hs')
      · intro x y
        simp only [hi]
        by_cases hxy : x = u ∧ y = r
        · obtain ⟨rfl, rfl⟩ := hxy
          simp only [and_self, not_true_eq_false, and_false, iff_false]
          intro hc
          have := List.count_erase_self (a := [x, y]) (l := rs)
          have h0 : 0 < (rs.erase [x, y]).count [x, y] := List.count_pos_iff.mpr hc
          omega
        · rw [List.mem_erase_of_ne (by simpa using hxy)]
          exact ⟨fun h => ⟨h, hxy⟩, fun h => h.1⟩
    · have hx := (eraseFirst_none_iff a.policy [u, r]).mpr (fun hc => hs (hsim.mp hc))
      rw [hx] at hd
      refine ⟨rs, twoPlace_sameRules h ha (.inl ⟨rfl, rfl⟩) hd hi h.pairs, ?_⟩
      intro x y
      constructor
      · intro hxy
        refine ⟨hxy, ?_⟩
        rintro ⟨rfl, rfl⟩
        exact hs hxy
      · exact fun h => h.1
  obtain ⟨rs', hT, hmem⟩ := hT
  refine ⟨R, ?_, ?_, hM⟩
  · have : deleteRoleForUser u r E = _ := h1
    rw [this]
    simp only [Prod.mk.injEq, Outcome.ok.injEq, and_true]
    exact decide_eq_decide.mpr hsim
  · intro x y
    rw [hasRole_twoPlace hM hT h2]
    simp only [Prod.mk.injEq, Outcome.ok.injEq, and_true]
    exact decide_eq_decide.mpr (hmem x y)

theorem twoPlace_team : TwoPlace team [[c!"alice", c!"admin"], [c!"bob", c!"admin"]] := by
  have h := (buildRoleLinks_linkOnly
    (rbac [alice, bob] [[c!"alice", c!"admin"], [c!"bob", c!"admin"]])).1
  have h0 : TwoPlace (rbac [alice, bob] [[c!"alice", c!"admin"], [c!"bob", c!"admin"]])
      [[c!"alice", c!"admin"], [c!"bob", c!"admin"]] := by
    refine ⟨⟨_, rfl, rfl, rfl⟩, ?_, by decide⟩
    intro t a ha
    by_contra hne
    simp [Model.find, rbac, enforcer, rbacModel, UMap.get, Ne.symm hne] at ha
  exact twoPlace_sameRules h0 rfl (.inl ⟨rfl, rfl⟩) h rfl (by decide)

/-- Granting a role and taking another one. -/
example : ∃ E', addRoleForUser c!"alice" c!"editor" team = (.ok true, E') ∧
    hasRoleForUser c!"alice" c!"editor" E' = (.ok true, E') ∧
    hasRoleForUser c!"bob" c!"editor" E' = (.ok false, E') := by
  obtain ⟨E', h1, h2, _, _⟩ := C40_addRole_partial mirrors_team flags_team.1 twoPlace_team
    (u := c!"alice") (r := c!"editor") (by decide) (adapterAccepts_none flags_team.2)
  exact ⟨E', h1, h2 _ _, h2 _ _⟩
example : ∃ E', deleteRoleForUser c!"alice" c!"admin" team = (.ok true, E') ∧
    hasRoleForUser c!"alice" c!"admin" E' = (.ok false, E') ∧
    hasRoleForUser c!"bob" c!"admin" E' = (.ok true, E') := by
  obtain ⟨E', h1, h2, _⟩ := C40_deleteRole_partial mirrors_team flags_team.1 twoPlace_team
    (u := c!"alice") (r := c!"admin") (by decide) (by decide) (adapterAccepts_none flags_team.2)
  exact ⟨E', h1, h2 _ _, h2 _ _⟩

omit [IterOrder] in
/-- C40 fails when the pair is stored with the names exchanged: taking a role that was never granted
takes the other user's role. -/
theorem C40_fails : letI := insertionOrder
    ∃ E : Enforcer, Mirrors 10 E ∧ E.autoBuild = true ∧
      (hasRoleForUser c!"admin" c!"alice" E).1 = .ok true ∧
      (hasRoleForUser c!"alice" c!"admin" E).1 = .ok false ∧
      (hasRoleForUser c!"admin" c!"alice" (deleteRoleForUser c!"alice" c!"admin" E).2).1
        = .ok false := by
  let _ := insertionOrder
  refine ⟨(buildRoleLinks (rbac [] [[c!"admin", c!"alice"]])).2,
    mirrors_rebuilt _ (noPat_rbac _ _) (groupsOk_rbac _ _ (by decide)), ?_, ?_, ?_, ?_⟩
  all_goals decide +kernel

/-! ## C41 -/

/-- The value occurs in a column of a section. -/
def Occurs (E : Enforcer) (sec : Str) (i : Nat) (x : Str) : Prop :=
  ∃ pt rs, Stored E sec pt rs ∧ ∃ r ∈ rs, r[i]? = some x

omit [IterOrder] in
theorem ensureSec_some {m : Model} {s t : Str} {a : Assertion} (h : m.find s t = some a) :
    m.ensureSec s = m := by
  unfold Model.ensureSec
  rw [if_pos]
  unfold Model.find at h
  unfold UMap.has
  cases hg : UMap.get m s with
  | none => rw [hg] at h; simp at h
  | some am => rfl

omit [IterOrder] in
theorem secMap_ensureSec (m : Model) (s t : Str) : (m.ensureSec s).secMap t = m.secMap t := by
  unfold Model.ensureSec
  split
  · rfl
  · rename_i h
    unfold Model.secMap
    rw [UMap.get_set]
    by_cases hst : t = s
    · subst hst
      rw [if_pos rfl]
      have : UMap.get m t = none := by
        cases hg : UMap.get m t with
        | none => rfl
        | some am => exact absurd (by simp [UMap.has, hg]) h
      rw [this]
    · rw [if_neg (Ne.symm hst)]

omit [IterOrder] in
theorem ensureSec_twice (m : Model) (s : Str) : (m.ensureSec s).ensureSec s = m.ensureSec s := by
  have h : (m.ensureSec s).has s = true := by
    unfold Model.ensureSec
    split
    · assumption
    · simp [UMap.has]
  conv_lhs => unfold Model.ensureSec
  exact if_pos h

/-- The same enforcer with an entry for the section `g`, which reading it makes. -/
def withG (E : Enforcer) : Enforcer := { E with model := E.model.ensureSec c!"g" }

theorem mEnforce_ensureSec (lib : ExprLib) (m : Model) (s : Str) (b : Bool) (matcher : Str) :
    mEnforce lib (m.ensureSec s) b matcher = mEnforce lib m b matcher := by
  unfold mEnforce
  simp only [gFunctions, needAssertion, selectPolicies, secMap_ensureSec, Model.find_ensureSec]

theorem enforceEx_withG (lib : ExprLib) (matcher : Str) (vals : List ReqVal) (X : Rule)
    (E : Enforcer) : enforceEx lib matcher vals X (withG E) =
      ((enforceEx lib matcher vals X E).1, withG (enforceEx lib matcher vals X E).2) := by
  unfold enforceEx
  simp only [M.bind_run, M.get_run, show (withG E).model = E.model.ensureSec c!"g" from rfl,
    Model.find_ensureSec, mEnforce_ensureSec]
  cases E.model.find c!"r" c!"r" with
  | none => rfl
  | some r =>
    simp only
    split <;> rfl

theorem enforce_withG (lib : ExprLib) (vals : List ReqVal) (E : Enforcer) :
    enforce lib vals (withG E) = ((enforce lib vals E).1, withG (enforce lib vals E).2) := by
  unfold enforce enforceWithMatcher
  simp only [M.bind_run, enforceEx_withG]
  rcases enforceEx lib [] vals [] E with ⟨o, E'⟩
  cases o <;> rfl

theorem implicitUsersLoop_withG (lib : ExprLib) (perm : List Str) (names : List Str) (E : Enforcer) :
    implicitUsersLoop lib perm names (withG E) =
      ((implicitUsersLoop lib perm names E).1, withG (implicitUsersLoop lib perm names E).2) := by
  induction names generalizing E with
  | nil => rfl
  | cons s names ih =>
    unfold implicitUsersLoop
    simp only [M.bind_run, M.lift_run]
    cases vecAt perm 0 with
    | throw e => rfl
    | ub u => rfl
    | ok p0 =>
      cases vecAt perm 1 with
      | throw e => rfl
      | ub u => rfl
      | ok p1 =>
        simp only [enforce_withG]
        rcases enforce lib [.str s, .str p0, .str p1] E with ⟨o, E'⟩
        cases o with
        | throw e => rfl
        | ub u => rfl
        | ok b =>
          simp only [ih]
          rcases implicitUsersLoop lib perm names E' with ⟨o, E''⟩
          cases o <;> rfl

/-- The columns that the call reads. -/
theorem implicitUsers_reads {E : Enforcer} {p : Assertion}
    (hp : E.model.find c!"p" c!"p" = some p)
    (hlp : ∀ pt rs, Stored E c!"p" pt rs → ∀ r ∈ rs, 0 < r.length)
    (hlg : ∀ pt rs, Stored E c!"g" pt rs → ∀ r ∈ rs, 1 < r.length) :
    ∃ l1 l2 l3, getAllSubjects E = (.ok l1, E) ∧
      onModel (Model.getValuesForFieldAllTypes c!"g" 1) E = (.ok l2, withG E) ∧
      onModel (Model.getValuesForFieldAllTypes c!"g" 0) (withG E) = (.ok l3, withG E) ∧
      (∀ s, s ∈ arrayRemoveDuplicates (l1 ++ l3) ↔ Occurs E c!"p" 0 s ∨ Occurs E c!"g" 0 s) ∧
      ∀ s, s ∈ l2 ↔ Occurs E c!"g" 1 s := by
  have col : ∀ (E : Enforcer) sec i,
      (∀ pt rs, Stored E sec pt rs → ∀ r ∈ rs, i < r.length) →
      ∃ l, onModel (Model.getValuesForFieldAllTypes sec i) E =
          (.ok l, { E with model := E.model.ensureSec sec }) ∧
        ∀ x, x ∈ l ↔ Occurs E sec i x := by
    intro E sec i hl
    obtain ⟨l, h1, _, h3⟩ := Model.getValuesForFieldAllTypes_run E.model sec i
      (fun t a ha r hr => hl t _ ⟨a, ha, rfl⟩ r hr)
    refine ⟨l, by rw [onModel_run, h1], ?_⟩
    intro x
    rw [h3]
    constructor
    · rintro ⟨t, a, ha, hr⟩
      exact ⟨t, _, ⟨a, ha, rfl⟩, hr⟩
    · rintro ⟨t, rs, ⟨a, ha, rfl⟩, hr⟩
      exact ⟨t, a, ha, hr⟩
  have stored : ∀ sec pt rs, Stored (withG E) sec pt rs ↔ Stored E sec pt rs := by
    intro sec pt rs
    unfold Stored
    simp only [show (withG E).model = E.model.ensureSec c!"g" from rfl, Model.find_ensureSec]
  obtain ⟨l1, a1, b1⟩ := col E c!"p" 0 hlp
  rw [show ({ E with model := E.model.ensureSec c!"p" } : Enforcer) = E by rw [ensureSec_some hp]] at a1
  obtain ⟨l2, a2, b2⟩ := col E c!"g" 1 hlg
  obtain ⟨l3, a3, b3⟩ := col (withG E) c!"g" 0
    (fun pt rs h r hr => by have := hlg pt rs ((stored _ _ _).mp h) r hr; omega)
  rw [show ({ withG E with model := (withG E).model.ensureSec c!"g" } : Enforcer) = withG E by
    simp only [withG, ensureSec_twice]] at a3
  have b3' : ∀ x, x ∈ l3 ↔ Occurs E c!"g" 0 x := by
    intro x
    rw [b3]
    unfold Occurs
    simp only [stored]
  refine ⟨l1, l2, l3, a1, a2, a3, ?_, b2⟩
  intro s
  rw [mem_arrayRemoveDuplicates, List.mem_append, b1, b3']

/-- The names the call goes through, and what it does with them. -/
theorem implicitUsers_run {lib : ExprLib} {E : Enforcer} {p : Assertion}
    (hp : E.model.find c!"p" c!"p" = some p)
    (hlp : ∀ pt rs, Stored E c!"p" pt rs → ∀ r ∈ rs, 0 < r.length)
    (hlg : ∀ pt rs, Stored E c!"g" pt rs → ∀ r ∈ rs, 1 < r.length) (o act : Str) :
    ∃ names roles, names.Nodup ∧ (∀ s, s ∈ names ↔ Occurs E c!"p" 0 s ∨ Occurs E c!"g" 0 s) ∧
      (∀ s, s ∈ roles ↔ Occurs E c!"g" 1 s) ∧
      getImplicitUsersForPermission lib [o, act] E =
        ((implicitUsersLoop lib [o, act] names E).1.map fun l => setSubtract l roles,
          withG (implicitUsersLoop lib [o, act] names E).2) := by
  obtain ⟨l1, l2, l3, a1, a2, a3, h1, h2⟩ := implicitUsers_reads hp hlp hlg
  refine ⟨arrayRemoveDuplicates (l1 ++ l3), l2, nodup_arrayRemoveDuplicates _, h1, h2, ?_⟩
  simp only [getImplicitUsersForPermission, M.bind_run, a1, a2, a3, implicitUsersLoop_withG]
  rcases implicitUsersLoop lib [o, act] (arrayRemoveDuplicates (l1 ++ l3)) E with ⟨ox, E'⟩
  cases ox <;> rfl

/-- C41: the subjects of rules and members of roles that are not roles themselves and whose request
`Enforce` allows, each once. The requests are those of C11: strings, in a state with settled role
managers, and none of them throws (`C41_throws` says what happens otherwise). -/
theorem C41_implicitUsers_partial {lib : ExprLib} {E : Enforcer} {r p e : Assertion}
    (hC : Consistent lib E r p) (hen : E.enabled = true) (he : E.model.find c!"e" c!"e" = some e)
    (hlp : ∀ pt rs, Stored E c!"p" pt rs → ∀ r ∈ rs, 0 < r.length)
    (hlg : ∀ pt rs, Stored E c!"g" pt rs → ∀ r ∈ rs, 1 < r.length) (o act : Str)
    (hpl : ∀ s, Occurs E c!"p" 0 s ∨ Occurs E c!"g" 0 s →
      Plain E.model r p ([], [.str s, .str o, .str act]))
    (hok : ∀ s, Occurs E c!"p" 0 s ∨ Occurs E c!"g" 0 s →
      ∃ b, (E.enforce lib [.str s, .str o, .str act]).1 = .ok b) :
    ∃ res E', getImplicitUsersForPermission lib [o, act] E = (.ok res, E') ∧ res.Nodup ∧
      ∀ s, s ∈ res ↔ (Occurs E c!"p" 0 s ∨ Occurs E c!"g" 0 s) ∧ ¬ Occurs E c!"g" 1 s ∧
        (E.enforce lib [.str s, .str o, .str act]).1 = .ok true := by
  obtain ⟨names, roles, hnd, hsub, hrol, hrun⟩ := implicitUsers_run (lib := lib) hC.defs.findP hlp hlg o act
  obtain ⟨ev', hloop⟩ := implicitUsersLoop_run hC hen he o act names
    (fun s hs => hpl s ((hsub s).mp hs)) (fun s hs => hok s ((hsub s).mp hs)) E.eval hC
  rw [show ({ E with eval := E.eval } : Enforcer) = E from rfl] at hloop
  refine ⟨setSubtract (names.filter fun s => decide
    ((E.enforce lib [.str s, .str o, .str act]).1 = .ok true)) roles, withG { E with eval := ev' }, ?_, ?_, ?_⟩
  · rw [hrun, hloop]
    rfl
  · exact (List.Nodup.filter _ (List.Nodup.filter _ hnd))
  · intro s
    simp only [setSubtract, List.mem_filter, hsub, decide_eq_true_eq, Bool.not_eq_true',
      decide_eq_false_iff_not, hrol]
    tauto

/-- If a request of the loop throws, so does the loop, with the exception of the first one that
throws. -/
theorem implicitUsersLoop_throws {lib : ExprLib} {E : Enforcer} {r p e : Assertion}
    (hC : Consistent lib E r p) (hen : E.enabled = true)
    (he : E.model.find c!"e" c!"e" = some e) (o act : Str) : ∀ (names : List Str),
    (∀ s ∈ names, Plain E.model r p ([], [.str s, .str o, .str act])) →
    (∀ s ∈ names, ∀ u, (E.enforce lib [.str s, .str o, .str act]).1 ≠ .ub u) →
    (∃ s ∈ names, ∃ x, (E.enforce lib [.str s, .str o, .str act]).1 = .throw x) →
    ∀ (ev : Option Evaluator), Consistent lib { E with eval := ev } r p →
    ∃ s ∈ names, ∃ x, (E.enforce lib [.str s, .str o, .str act]).1 = .throw x ∧
      (implicitUsersLoop lib [o, act] names { E with eval := ev }).1 = .throw x := by
  intro names
  induction names with
  | nil => rintro _ _ ⟨s, hs, _⟩; cases hs
  | cons s names ih =>
    intro hp hub hth ev hC'
    obtain ⟨ev1, h1, h2⟩ := plain_step hC hC' hen he (hp s (by simp)) []
    simp only [] at h1
    have hrun : ({ E with eval := ev } : Enforcer).enforce lib [.str s, .str o, .str act]
        = ((E.enforce lib [.str s, .str o, .str act]).1, { E with eval := ev1 }) := by
      simp only [Enforcer.enforce, Enforcer.enforceWithMatcher, M.bind_run]
      rw [h1]
      rcases hx : E.enforceEx lib [] [.str s, .str o, .str act] [] with ⟨ox, sx⟩
      cases ox <;> rfl
    cases ho : (E.enforce lib [.str s, .str o, .str act]).1 with
    | ub u => exact absurd ho (hub s (by simp) u)
    | throw x =>
      refine ⟨s, by simp, x, ho, ?_⟩
      simp only [implicitUsersLoop, M.bind_run, M.lift_run, vecAt, List.getElem?_cons_zero,
        List.getElem?_cons_succ, hrun, ho]
    | ok b =>
      obtain ⟨t, ht, x, h3, h4⟩ := ih (fun t ht => hp t (by simp [ht])) (fun t ht => hub t (by simp [ht]))
        (by
          obtain ⟨t, ht, x, hx⟩ := hth
          rcases List.mem_cons.mp ht with rfl | ht
          · rw [ho] at hx; cases hx
          · exact ⟨t, ht, x, hx⟩) ev1 h2
      refine ⟨t, by simp [ht], x, h3, ?_⟩
      simp only [implicitUsersLoop, M.bind_run, M.lift_run, vecAt, List.getElem?_cons_zero,
        List.getElem?_cons_succ, hrun, ho]
      rcases hl : implicitUsersLoop lib [o, act] names { E with eval := ev1 } with ⟨ol, El⟩
      rw [hl] at h4
      simp only at h4
      subst h4
      rfl

/-- C41 when the request of one of the names throws: the call throws too, with the exception of such
a request, whoever else is allowed. -/
theorem C41_throws {lib : ExprLib} {E : Enforcer} {r p e : Assertion}
    (hC : Consistent lib E r p) (hen : E.enabled = true) (he : E.model.find c!"e" c!"e" = some e)
    (hlp : ∀ pt rs, Stored E c!"p" pt rs → ∀ r ∈ rs, 0 < r.length)
    (hlg : ∀ pt rs, Stored E c!"g" pt rs → ∀ r ∈ rs, 1 < r.length) (o act : Str)
    (hpl : ∀ s, Occurs E c!"p" 0 s ∨ Occurs E c!"g" 0 s →
      Plain E.model r p ([], [.str s, .str o, .str act]))
    (hub : ∀ s, Occurs E c!"p" 0 s ∨ Occurs E c!"g" 0 s →
      ∀ u, (E.enforce lib [.str s, .str o, .str act]).1 ≠ .ub u)
    {s : Str} (hs : Occurs E c!"p" 0 s ∨ Occurs E c!"g" 0 s) {x : Exn}
    (hx : (E.enforce lib [.str s, .str o, .str act]).1 = .throw x) :
    ∃ s' x', (Occurs E c!"p" 0 s' ∨ Occurs E c!"g" 0 s') ∧
      (E.enforce lib [.str s', .str o, .str act]).1 = .throw x' ∧
      (getImplicitUsersForPermission lib [o, act] E).1 = .throw x' := by
  obtain ⟨names, roles, hnd, hsub, hrol, hrun⟩ := implicitUsers_run (lib := lib) hC.defs.findP hlp hlg o act
  obtain ⟨s', hs', x', h1, h2⟩ := implicitUsersLoop_throws hC hen he o act names
    (fun s hs => hpl s ((hsub s).mp hs)) (fun s hs => hub s ((hsub s).mp hs))
    ⟨s, (hsub s).mpr hs, x, hx⟩ E.eval hC
  rw [show ({ E with eval := E.eval } : Enforcer) = E from rfl] at h2
  refine ⟨s', x', (hsub _).mp hs', h1, ?_⟩
  rw [hrun, h2]
  rfl

omit [IterOrder] in
/-- C41 is false: a rule of `bob` with too few values makes the request of `bob` throw, and with it the
call, although `alice` occurs, is no role, and is allowed. -/
theorem C41_fails : letI := insertionOrder
    let E := acl [alice, [c!"bob", c!"data2"]]
    ((enforce miniLib (alice.map .str) E).1,
      (getImplicitUsersForPermission miniLib [c!"data1", c!"read"] E).1) =
    (.ok true, .throw .enforcer) := by
  decide +kernel

/-- Non-vacuity of `C41_throws`: the enforcer of `C41_fails`, whose model has no section `g`. -/
example : letI := insertionOrder
    ∃ x, (getImplicitUsersForPermission miniLib [c!"data1", c!"read"]
      (acl [alice, [c!"bob", c!"data2"]])).1 = .throw x := by
  let _ := insertionOrder
  have hst : ∀ pt rs, Stored (acl [alice, [c!"bob", c!"data2"]]) c!"p" pt rs →
      rs = [alice, [c!"bob", c!"data2"]] := by
    rintro pt rs ⟨a, ha, rfl⟩
    by_cases h : c!"p" = pt
    · subst h
      have h : (acl [alice, [c!"bob", c!"data2"]]).model.find c!"p" c!"p" =
        some (pA (.vector [alice, [c!"bob", c!"data2"]])) := rfl
      rw [h] at ha; cases ha
      rfl
    · simp [acl, Model.find, enforcer, aclModel, pDef, rDef, UMap.get, h] at ha
  have hg : ∀ pt rs, ¬ Stored (acl [alice, [c!"bob", c!"data2"]]) c!"g" pt rs := by
    rintro pt rs ⟨a, ha, rfl⟩
    simp [acl, Model.find, enforcer, aclModel, UMap.get] at ha
  have hs : ∀ s, Occurs (acl [alice, [c!"bob", c!"data2"]]) c!"p" 0 s ∨
      Occurs (acl [alice, [c!"bob", c!"data2"]]) c!"g" 0 s → s = c!"alice" ∨ s = c!"bob" := by
    rintro s (⟨pt, rs, h, r, hr, h0⟩ | ⟨pt, rs, h, _⟩)
    · rw [hst _ _ h] at hr
      rcases List.mem_pair.mp hr with rfl | rfl <;> simp [alice] at h0 <;> simp [← h0]
    · exact absurd h (hg _ _)
  obtain ⟨_, x, _, _, h⟩ := C41_throws (r := rA) (p := pA (.vector [alice, [c!"bob", c!"data2"]]))
    (e := eA) (consistent_acl miniLib (.vector [alice, [c!"bob", c!"data2"]])) rfl rfl
    (fun pt rs h => by rw [hst _ _ h]; decide) (fun pt rs h => absurd h (hg _ _)) c!"data1" c!"read"
    (fun s _ => Or.inr ⟨[s, c!"data1", c!"read"], mAcl, rfl, rfl, rfl, by decide,
        fun _ _ _ => text_noEval (by decide) (by decide) _ _⟩)
    (fun s h u hu => by
      rcases hs s h with rfl | rfl
      · exact absurd hu (by
          rw [show _ = Outcome.ok true from (by decide +kernel : (enforce miniLib
            [.str c!"alice", .str c!"data1", .str c!"read"]
            (enforcer (aclModel (.vector [alice, [c!"bob", c!"data2"]])))).1 =
            .ok true)]
          simp)
      · exact absurd hu (by
          rw [show _ = Outcome.throw .enforcer from (by decide +kernel : (enforce miniLib
            [.str c!"bob", .str c!"data1", .str c!"read"]
            (enforcer (aclModel (.vector [alice, [c!"bob", c!"data2"]])))).1 =
            .throw .enforcer)]
          simp))
    (s := c!"bob") (.inl ⟨c!"p", _, ⟨_, rfl, rfl⟩, [c!"bob", c!"data2"], by simp [Policies.vector, asrt], rfl⟩)
    (x := .enforcer) (by decide +kernel)
  exact ⟨x, h⟩

/-- `alice` is an `admin`, who may read. -/
def staffModel : Model :=
  [(c!"m", [(c!"m", asrt c!"m" mRbac [])]), (c!"r", rDef),
   (c!"p", pDef (.vector [[c!"admin", c!"data", c!"read"], [c!"bob", c!"other", c!"read"]])),
   (c!"g", [(c!"g", { asrt c!"g" c!"_, _" [] (.vector [[c!"alice", c!"admin"]]) with rm := some 0 })]),
   (c!"e", eDef)]

def staff : Enforcer :=
  letI := insertionOrder
  { enforcer staffModel with heap := [runCalls (RM.new 10) [.add c!"alice" c!"admin" []]] }

omit [IterOrder] in
theorem staff_find {sec pt : Str} {rs : List Rule} :
    Stored staff sec pt rs → (sec = c!"p" → pt = c!"p" ∧
      rs = [[c!"admin", c!"data", c!"read"], [c!"bob", c!"other", c!"read"]]) ∧
    (sec = c!"g" → pt = c!"g" ∧ rs = [[c!"alice", c!"admin"]]) := by
  rintro ⟨a, ha, rfl⟩
  constructor
  · rintro rfl
    by_cases h : c!"p" = pt
    · subst h
      have h : staff.model.find c!"p" c!"p" = some (asrt c!"p" c!"sub, obj, act"
        [c!"p_sub", c!"p_obj", c!"p_act"]
        (.vector [[c!"admin", c!"data", c!"read"], [c!"bob", c!"other", c!"read"]])) := rfl
      rw [h] at ha; cases ha
      exact ⟨rfl, rfl⟩
    · exfalso
      simp [Model.find, staff, staffModel, enforcer, pDef, rDef, UMap.get, h] at ha
  · rintro rfl
    by_cases h : c!"g" = pt
    · subst h
      have h : staff.model.find c!"g" c!"g" = some { asrt c!"g" c!"_, _" []
        (.vector [[c!"alice", c!"admin"]]) with rm := some 0 } := rfl
      rw [h] at ha; cases ha
      exact ⟨rfl, rfl⟩
    · exfalso
      simp [Model.find, staff, staffModel, enforcer, pDef, rDef, UMap.get, h] at ha

omit [IterOrder] in
theorem consistent_staff : Consistent miniLib staff rA
    (pA (.vector [[c!"admin", c!"data", c!"read"], [c!"bob", c!"other", c!"read"]])) where
  defs := ⟨rfl, rfl, by decide, by decide, by show ∀ t ∈ pTok, _; decide,
    by decide, by show (pTok.map polName).Nodup; decide, by decide, lower_find (by decide)⟩
  roles := by
    let _ := insertionOrder
    have g := good_runCalls 10 [.add c!"alice" c!"admin" []]
    refine ⟨?_, ?_, ?_⟩
    · intro R hR
      have : R = runCalls (RM.new 10) [.add c!"alice" c!"admin" []] := by simpa [staff] using hR
      rw [this]; exact g.wf
    · intro R hR
      have : R = runCalls (RM.new 10) [.add c!"alice" c!"admin" []] := by simpa [staff] using hR
      rw [this]; exact g.nopat
    · intro k a i ha hi
      obtain ⟨rfl, _⟩ := (staff_find ⟨a, ha, rfl⟩).2 rfl
      have h : staff.model.find c!"g" c!"g" = some { asrt c!"g" c!"_, _" []
        (.vector [[c!"alice", c!"admin"]]) with rm := some 0 } := rfl
      rw [h] at ha; cases ha
      cases hi
      simp [staff]
  eval := evOK_new _ _ _ _

/-- `alice` may read, through the role `admin`; `admin` is a role and `bob` may not. -/
example : letI := insertionOrder
    ∃ res E', getImplicitUsersForPermission miniLib [c!"data", c!"read"] staff = (.ok res, E') ∧
      c!"alice" ∈ res ∧ c!"admin" ∉ res ∧ c!"bob" ∉ res := by
  let _ := insertionOrder
  have hs : ∀ s, Occurs staff c!"p" 0 s ∨ Occurs staff c!"g" 0 s →
      s = c!"admin" ∨ s = c!"bob" ∨ s = c!"alice" := by
    rintro s (⟨pt, rs, h, r, hr, h0⟩ | ⟨pt, rs, h, r, hr, h0⟩)
    · obtain ⟨_, rfl⟩ := (staff_find h).1 rfl
      rcases List.mem_pair.mp hr with rfl | rfl <;> simp at h0 <;> simp [← h0]
    · obtain ⟨_, rfl⟩ := (staff_find h).2 rfl
      rw [List.mem_singleton.mp hr] at h0
      simp at h0; simp [← h0]
  obtain ⟨res, E', h1, _, h3⟩ := C41_implicitUsers_partial consistent_staff rfl (e := eA) rfl
    (by intro pt rs h; obtain ⟨_, rfl⟩ := (staff_find h).1 rfl; decide)
    (by intro pt rs h; obtain ⟨_, rfl⟩ := (staff_find h).2 rfl; decide) c!"data" c!"read"
    (by
      intro s _
      exact Or.inr ⟨[s, c!"data", c!"read"], mRbac, rfl, rfl, rfl, by decide,
        fun _ _ _ => text_noEval (by decide) (by decide) _ _⟩)
    (by
      intro s h
      rcases hs s h with rfl | rfl | rfl
      · exact ⟨true, by decide +kernel⟩
      · exact ⟨false, by decide +kernel⟩
      · exact ⟨true, by decide +kernel⟩)
  refine ⟨res, E', h1, (h3 _).mpr ⟨.inr ?_, ?_, by decide +kernel⟩, ?_, ?_⟩
  · exact ⟨c!"g", _, ⟨_, rfl, rfl⟩, [c!"alice", c!"admin"], List.mem_singleton.mpr rfl, rfl⟩
  · rintro ⟨pt, rs, h, r, hr, h0⟩
    obtain ⟨_, rfl⟩ := (staff_find h).2 rfl
    rw [List.mem_singleton.mp hr] at h0
    exact absurd h0 (by decide)
  · intro h
    exact ((h3 _).mp h).2.1 ⟨c!"g", _, ⟨_, rfl, rfl⟩, [c!"alice", c!"admin"], List.mem_singleton.mpr rfl, rfl⟩
  · intro h
    exact absurd ((h3 _).mp h).2.2 (by decide +kernel)

end RbacProps
end Casbin
