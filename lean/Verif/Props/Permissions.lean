import Verif.Props.RbacApi

/-!
# C87–C91: deleting roles and permissions, granting permissions, roles in domains

`Stored E sec pt rs`: the rules of a policy type. `LeftOver E E' sec pt i u rs`: of the rules `rs`
exactly those with `u` at position `i` went. `Mirrors lvl E`: the role manager holds exactly the links
of the stored grouping rules.
-/

namespace Casbin
namespace RbacProps

open RM (Path)
open Enforcer RoleProps LinkProps PolicyProps DecisionProps Fixtures

variable [IterOrder]

/-! ## C87 -/

/-- Removing by one value from `g` and then from `p`. -/
theorem removeBoth {lvl : Nat} {E : Enforcer} {ps gs : List Rule} {i : Nat}
    (hp : Stored E c!"p" c!"p" ps) (hg : Stored E c!"g" c!"g" gs) {u : Str} (hu : u ≠ [])
    (hi : i ≤ 1) (hlp : ∀ r ∈ ps, 0 < r.length) (hm : Mirrors lvl E) (hauto : E.autoBuild = true)
    (hacc1 : E.AdapterAccepts (.removeFiltered c!"g" c!"g" i [u]))
    (hacc2 : E.AdapterAccepts (.removeFiltered c!"p" c!"p" 0 [u])) :
    ∃ R S, removeFilteredGroupingPolicy i [u] E =
        (.ok (decide (∃ r ∈ gs, r[i]? = some u)), R) ∧
      removeFilteredPolicy 0 [u] R = (.ok (decide (∃ r ∈ ps, r[0]? = some u)), S) ∧
      LeftOver E S c!"p" c!"p" 0 u ps ∧ LeftOver E S c!"g" c!"g" i u gs ∧
      (∀ s t rs, (s, t) ≠ (c!"p", c!"p") → (s, t) ≠ (c!"g", c!"g") →
        (Stored S s t rs ↔ Stored E s t rs)) ∧
      (∀ s t, (S.model.find s t).map (fun a => (a.key, a.value, a.tokens)) =
        (E.model.find s t).map (fun a => (a.key, a.value, a.tokens))) ∧ Mirrors lvl S := by
  have hlg : ∀ r ∈ gs, i < r.length := by
    obtain ⟨a, ha, rfl⟩ := hg
    intro r hr
    have h1 := (hm.groups _ a ha).2 r hr
    have h2 := (hm.groups _ a ha).1
    rcases h2 with h2 | h2 <;> omega
  obtain ⟨g1, g2⟩ := leftOver_g hg hu hlg
  obtain ⟨R, g3, hMR⟩ : ∃ R, removeFilteredGroupingPolicy i [u] E =
      (.ok (decide (∃ r ∈ gs, r[i]? = some u)), R) ∧ Mirrors lvl R := by
    obtain ⟨a, ha, rfl⟩ := hg
    obtain ⟨R, h1, _⟩ := removeFilteredG_ok hm hauto ha (i := i) (vs := [u])
      (fun r hr => longEnough_one (hlg r hr)) hacc1
    refine ⟨R, ?_, removeFiltered_step hm hauto h1⟩
    refine Eq.trans h1 ?_
    congr 2
    exact decide_eq_decide.mpr (by simp only [filterMatch_one hu])
  have hd := (Edit.removeFiltered true c!"g" i [u]).did E
  have hR1 : removeFilteredNamedGroupingPolicy c!"g" i [u] E = _ := g3
  have hR2 : (Edit.removeFiltered true c!"g" i [u]).run E = _ := g3
  rw [hR1] at g1 g2
  rw [hR2] at hd
  simp only at g1 g2
  have haccR : R.AdapterAccepts (.removeFiltered c!"p" c!"p" 0 [u]) := by
    refine accepts_after (c := .removeFiltered c!"g" c!"g" i [u]) hacc2 ?_ hd.rest.2.2.2.1
      (by simp)
    cases hb : decide (∃ r ∈ gs, r[i]? = some u) with
    | false => left; exact (hd.failed (by simp only [hb])).1
    | true => right; exact (hd.done (by simp only [hb])).1
  have hpR : Stored R c!"p" c!"p" ps := (g2.1 _ _ _ (by decide)).mpr hp
  obtain ⟨p1, p2, p3⟩ := leftOver_p hpR hu hlp
  have p3 := p3 haccR
  rcases hS : removeFilteredPolicy 0 [u] R with ⟨oS, S⟩
  have hS1 : removeFilteredNamedPolicy c!"p" 0 [u] R = (oS, S) := hS
  rw [hS1] at p1 p2 p3
  simp only at p1 p2 p3
  subst p3
  have hautoR : R.autoBuild = true := hd.rest.2.2.2.2.1.trans hauto
  have hvec : ∀ s t, InVector E s t → (s, t) ≠ (c!"g", c!"g") → InVector R s t := by
    rintro s t ⟨a, ha, hv⟩ hne
    have hed := Edit.onStore_edited (.removeFiltered true c!"g" i [u]) E.model
    have hf : ((Edit.removeFiltered true c!"g" i [u]).onStore E.model).2.find s t = some a := by
      rcases hed with he | ⟨b, P, _, he⟩
      · rw [he]; exact ha
      · rw [he, Model.find_put_ne]
        · exact ha
        · rintro ⟨h1, h2⟩; exact hne (by rw [← h1, ← h2]; rfl)
    obtain ⟨p, hp⟩ := hd.rules.some hf
    exact ⟨_, hp, hv⟩
  refine ⟨R, S, g3, hS, ?_, ?_, ?_, ?_, ?_⟩
  · obtain ⟨rs', q1, q2, q3⟩ := p1
    exact ⟨rs', q1, q2, fun hv => q3 (hvec _ _ hv (by decide))⟩
  · obtain ⟨rs', q1, q2, q3⟩ := g1
    exact ⟨rs', (p2.1 _ _ _ (by decide)).mpr q1, q2, q3⟩
  · intro s t rs h1 h2
    exact (p2.1 s t rs h1).trans (g2.1 s t rs h2)
  · intro s t
    exact (p2.2.1 s t).trans (g2.2.1 s t)
  · exact mirror_step hMR hautoR (.removeFiltered false c!"p" 0 [u]) trivial hS

omit [IterOrder] in
/-- A path that ends elsewhere than it starts has a last step. -/
theorem path_last {R : Str → Str → Prop} {n : Nat} {x y : Str} (h : Path R n x y) (hne : x ≠ y) :
    ∃ z, R z y := by
  induction h with
  | nil => exact absurd rfl hne
  | @cons a b c n e p ih =>
    by_cases hb : b = c
    · exact ⟨a, hb ▸ e⟩
    · exact ih hb

/-- C87: for a non-empty name, exactly the grants of the role and the rules of type `p` whose subject
it is go, the result says whether there were any, and nobody else has the role any more. Missing from
the property: the rules that grant something to the role (`C87_fails`), the empty name
(`C87_empty_fails`), other policy types, and adapters that reject the calls. -/
theorem C87_deleteRole_partial {lvl : Nat} {E : Enforcer} {ps gs : List Rule}
    (hp : Stored E c!"p" c!"p" ps) (hg : TwoPlace E gs) {role : Str} (hu : role ≠ [])
    (hlp : ∀ r ∈ ps, 0 < r.length) (hm : Mirrors lvl E) (hauto : E.autoBuild = true)
    (hacc1 : E.AdapterAccepts (.removeFiltered c!"g" c!"g" 1 [role]))
    (hacc2 : E.AdapterAccepts (.removeFiltered c!"p" c!"p" 0 [role])) :
    ∃ E', deleteRole role E = (.ok (decide ((∃ r ∈ gs, r[1]? = some role) ∨
        ∃ r ∈ ps, About role r)), E') ∧
      LeftOver E E' c!"p" c!"p" 0 role ps ∧ LeftOver E E' c!"g" c!"g" 1 role gs ∧
      (∀ s t rs, (s, t) ≠ (c!"p", c!"p") → (s, t) ≠ (c!"g", c!"g") →
        (Stored E' s t rs ↔ Stored E s t rs)) ∧
      (∀ lib u, u ≠ role → gHolds lib E' u role = .ok (.num 0)) ∧ Mirrors lvl E' := by
  obtain ⟨a, ha, hi, hv⟩ := hg.stored
  obtain ⟨R, S, h1, h2, h3, h4, h5, h6, h7⟩ := removeBoth hp (i := 1) ⟨a, ha, hi⟩ hu (by omega) hlp hm
    hauto hacc1 hacc2
  refine ⟨S, ?_, h3, h4, h5, ?_, h7⟩
  · simp only [deleteRole, M.bind_run, h1, h2, M.pure_run]
    rw [← Bool.decide_or]
    rfl
  · intro lib u hne
    obtain ⟨rm, g1, g2, g3⟩ := h7.links
    obtain ⟨b, e1, e2⟩ := gHolds_eq lib S rm g1 u role
    rw [e1]
    cases b with
    | false => rfl
    | true =>
      obtain ⟨n, _, hpath⟩ := e2.mp rfl
      obtain ⟨z, hz⟩ := path_last hpath hne
      obtain ⟨t, b, hb, r, hr, hl⟩ := (g3 _ _).mp hz
      have hsome : ∃ b0, E.model.find c!"g" t = some b0 ∧ b0.value = b.value := by
        have := h6 c!"g" t
        rw [hb] at this
        cases hc : E.model.find c!"g" t with
        | none => rw [hc] at this; simp at this
        | some b0 =>
          rw [hc] at this
          simp only [Option.map_some, Option.some.injEq, Prod.mk.injEq] at this
          exact ⟨b0, rfl, this.2.1.symm⟩
      obtain ⟨b0, hb0, hbv⟩ := hsome
      cases hg.only t b0 hb0
      rw [ha] at hb0; cases hb0
      rw [← hbv, hv] at hl
      rcases hl with ⟨_, p, q, rest, rfl, rfl, rfl⟩ | ⟨h3, _⟩
      · obtain ⟨rs', ⟨b', hb', hi'⟩, hperm, _⟩ := h4
        rw [hb] at hb'; cases hb'
        rw [hi', hperm.mem_iff] at hr
        simp at hr
      · omega

/-- Deleting the role of `alice` and `bob`. -/
example : ∃ E', deleteRole c!"admin" team = (.ok true, E') ∧
    gHolds miniLib E' c!"alice" c!"admin" = .ok (.num 0) ∧
    Stored E' c!"g" c!"g" [] := by
  obtain ⟨E', h1, _, ⟨rs', h2, h3, _⟩, _, h4, _⟩ := C87_deleteRole_partial stored_team.1 twoPlace_team
    (role := c!"admin") (by decide) (by decide) mirrors_team flags_team.1
    (adapterAccepts_none flags_team.2) (adapterAccepts_none flags_team.2)
  refine ⟨E', ?_, h4 _ _ (by decide), ?_⟩
  · rw [h1]
    rfl
  · have : rs' = [] := List.perm_nil.mp (h3.trans (by decide))
    rwa [this] at h2

omit [IterOrder] in
/-- C87 fails: the rules that grant roles to the deleted role stay, so the role still has its own
roles; if the name is used again it has them from the start. -/
theorem C87_fails : letI := insertionOrder
    ∃ E : Enforcer, Mirrors 10 E ∧ E.autoBuild = true ∧
      Stored (deleteRole c!"admin" E).2 c!"g" c!"g" [[c!"admin", c!"root"]] ∧
      (hasRoleForUser c!"admin" c!"root" (deleteRole c!"admin" E).2).1 = .ok true := by
  let _ := insertionOrder
  have hm : Mirrors 10 (buildRoleLinks
      (rbac [] [[c!"alice", c!"admin"], [c!"admin", c!"root"]])).2 :=
    mirrors_rebuilt _ (noPat_rbac _ _) (groupsOk_rbac _ _ (by decide))
  refine ⟨_, hm, ?_, ⟨asrt c!"g" c!"_, _" [] (.vector [[c!"admin", c!"root"]]) |>
    fun a => { a with rm := some 0 }, ?_, rfl⟩, ?_⟩
  all_goals decide +kernel

omit [IterOrder] in
/-- C87 fails for the empty name: every rule and every grant goes. -/
theorem C87_empty_fails : letI := insertionOrder
    ∃ E : Enforcer, Mirrors 10 E ∧ Stored E c!"p" c!"p" [alice] ∧
      Stored E c!"g" c!"g" [[c!"bob", c!"admin"]] ∧
      Stored (deleteRole [] E).2 c!"p" c!"p" [] ∧ Stored (deleteRole [] E).2 c!"g" c!"g" [] := by
  let _ := insertionOrder
  have hm : Mirrors 10 (buildRoleLinks (rbac [alice] [[c!"bob", c!"admin"]])).2 :=
    mirrors_rebuilt _ (noPat_rbac _ _) (groupsOk_rbac _ _ (by decide))
  refine ⟨_, hm, ⟨asrt c!"p" c!"sub, obj, act" [c!"p_sub", c!"p_obj", c!"p_act"] (.vector [alice]),
    ?_, rfl⟩, ⟨{ asrt c!"g" c!"_, _" [] (.vector [[c!"bob", c!"admin"]]) with rm := some 0 }, ?_, rfl⟩,
    ⟨asrt c!"p" c!"sub, obj, act" [c!"p_sub", c!"p_obj", c!"p_act"] (.vector []), ?_, rfl⟩,
    ⟨{ asrt c!"g" c!"_, _" [] (.vector []) with rm := some 0 }, ?_, rfl⟩⟩
  all_goals decide +kernel

/-! ## C88 -/

/-- The rule is about the permission: whatever the subject, its next values are these. -/
def Grants (perm : List Str) (r : Rule) : Prop := ∃ s rest, r = s :: (perm ++ rest)

instance (perm : List Str) (r : Rule) : Decidable (Grants perm r) :=
  decidable_of_iff (r ≠ [] ∧ perm <+: r.tail) (by
    unfold Grants
    constructor
    · rintro ⟨h1, rest, h2⟩
      match r, h1 with
      | s :: t, _ => exact ⟨s, rest, by rw [h2]; rfl⟩
    · rintro ⟨s, rest, rfl⟩
      exact ⟨by simp, rest, rfl⟩)

omit [IterOrder] in
theorem filterMatch_prefix {perm : List Str} (hne : [] ∉ perm) {r : Rule}
    (hl : perm.length < r.length) : Model.FilterMatch r 1 perm ↔ Grants perm r := by
  constructor
  · intro h
    match r, hl with
    | s :: t, hl =>
      refine ⟨s, t.drop perm.length, ?_⟩
      have hpre : perm = t.take perm.length := by
        apply List.ext_getElem?
        intro j
        rw [List.getElem?_take]
        by_cases hj : j < perm.length
        · rw [if_pos hj]
          have h1 : perm[j]? = some perm[j] := List.getElem?_eq_getElem hj
          have h2 := h j perm[j] h1 (fun hc => hne (hc ▸ List.getElem_mem hj))
          rw [show 1 + j = j + 1 from by omega, List.getElem?_cons_succ] at h2
          rw [h1, h2]
        · rw [if_neg hj]
          exact List.getElem?_eq_none (by omega)
      conv_rhs => rw [show perm ++ t.drop perm.length = t.take perm.length ++ t.drop perm.length from by
        rw [← hpre]]
      rw [List.take_append_drop]
  · rintro ⟨s, rest, rfl⟩ j v hj _
    have hj' : j < perm.length := (List.getElem?_eq_some_iff.mp hj).1
    rw [show 1 + j = j + 1 from by omega, List.getElem?_cons_succ, List.getElem?_append_left hj']
    exact hj

/-- C88: `DeletePermission` removes exactly the rules of type `p` whose values after the subject begin
with the permission, and says whether there were any. Missing from the property: empty values, which
stand for any value (`C88_fails`), and rules with fewer values, for which the behaviour is undefined. -/
theorem C88_deletePermission_partial {E : Enforcer} {rs : List Rule} (h : Stored E c!"p" c!"p" rs)
    {perm : List Str} (hne : [] ∉ perm) (hl : ∀ r ∈ rs, perm.length < r.length) :
    (∃ rs', Stored (deletePermission perm E).2 c!"p" c!"p" rs' ∧
      rs'.Perm (rs.filter fun r => ¬ Grants perm r) ∧
      (InVector E c!"p" c!"p" → rs' = rs.filter fun r => ¬ Grants perm r)) ∧
    OthersKept E (deletePermission perm E).2 c!"p" c!"p" ∧
    (E.AdapterAccepts (.removeFiltered c!"p" c!"p" 1 perm) →
      (deletePermission perm E).1 = .ok (decide (∃ r ∈ rs, Grants perm r))) := by
  obtain ⟨seq, h1, h2, _, h4, h5, h6⟩ := C33_filtered h (i := 1) (vs := perm) (fun r hr j v hj _ => by
    have := (List.getElem?_eq_some_iff.mp hj).1
    have := hl r hr
    omega)
  have hiff : ∀ r ∈ rs, (Model.FilterMatch r 1 perm ↔ Grants perm r) :=
    fun r hr => filterMatch_prefix hne (hl r hr)
  have hfun : ∀ l : List Rule, (∀ r ∈ l, r ∈ rs) →
      (l.filter fun r => decide (¬ Model.FilterMatch r 1 perm)) =
        l.filter fun r => decide (¬ Grants perm r) := by
    intro l hl'
    exact List.filter_congr fun r hr => decide_eq_decide.mpr (not_congr (hiff r (hl' r hr)))
  refine ⟨⟨_, h4, ?_, fun hv => ?_⟩, h5, fun hacc => ?_⟩
  · rw [hfun seq (fun r hr => h1.mem_iff.mp hr)]
    exact h1.filter _
  · rw [hfun seq (fun r hr => h1.mem_iff.mp hr), h2 hv]
  · refine Eq.trans (h6 hacc) ?_
    congr 1
    refine decide_eq_decide.mpr ?_
    constructor
    · rintro ⟨r, hr, hf⟩; exact ⟨r, hr, (hiff r hr).mp hf⟩
    · rintro ⟨r, hr, hf⟩; exact ⟨r, hr, (hiff r hr).mpr hf⟩

example : (deletePermission [c!"data1"] (acl [alice, bob, carol])).1 = .ok true ∧
    Stored (deletePermission [c!"data1"] (acl [alice, bob, carol])).2 c!"p" c!"p" [bob] := by
  obtain ⟨⟨rs', h1, _, h2⟩, _, h3⟩ := C88_deletePermission_partial (E := acl [alice, bob, carol])
    (rs := [alice, bob, carol]) ⟨_, rfl, rfl⟩ (perm := [c!"data1"]) (by decide) (by decide)
  have := h2 ⟨_, rfl, rfl⟩
  refine ⟨Eq.trans (h3 (adapterAccepts_none rfl)) (by decide +kernel), ?_⟩
  rw [this] at h1
  exact h1

omit [IterOrder] in
/-- C88 fails for empty values and for the empty permission: rules about other permissions go. -/
theorem C88_fails : letI := insertionOrder
    ¬ Grants [[], c!"read"] alice ∧
    Stored (deletePermission [[], c!"read"] (acl [alice, bob])).2 c!"p" c!"p" [bob] ∧
    Stored (deletePermission [] (acl [alice, bob])).2 c!"p" c!"p" [] := by
  let _ := insertionOrder
  refine ⟨by decide, ⟨asrt c!"p" c!"sub, obj, act" [c!"p_sub", c!"p_obj", c!"p_act"] (.vector [bob]),
    ?_, rfl⟩, ⟨asrt c!"p" c!"sub, obj, act" [c!"p_sub", c!"p_obj", c!"p_act"] (.vector []), ?_, rfl⟩⟩
  all_goals decide +kernel

/-! ## C89 -/

/-- C89 for `AddPermissionForUser` and `HasPermissionForUser`. Missing from the property: rules of
which another arrangement is stored (`C89_fails`), and adapters that reject the call. -/
theorem C89_addPermission_partial {E : Enforcer} {rs : List Rule} (h : Stored E c!"p" c!"p" rs)
    {u : Str} {perm : List Str} (hm : NoMixup rs (u :: perm))
    (hacc : E.AdapterAccepts (.add c!"p" c!"p" (u :: perm))) :
    ∃ E', addPermissionForUser u perm E = (.ok (decide ((u :: perm) ∉ rs)), E') ∧
      OthersKept E E' c!"p" c!"p" ∧
      ∀ v q, NoMixup ((u :: perm) :: rs) (v :: q) → hasPermissionForUser v q E' =
        (.ok (decide (v :: q ∈ rs ∨ v = u ∧ q = perm)), E') := by
  obtain ⟨h1, h2⟩ := C27_addPolicy_partial h hm
  by_cases hr : (u :: perm) ∈ rs
  · refine ⟨E, ?_, ⟨fun _ _ _ _ => Iff.rfl, fun _ _ => rfl, rfl, rfl, rfl, rfl⟩, ?_⟩
    · simp only [hr, not_true_eq_false, decide_false]; exact h1 hr
    · intro v q hn
      refine Eq.trans (C26_hasPolicy_partial h (r := v :: q)
        (fun s hs => hn s (List.mem_cons_of_mem _ hs))) ?_
      congr 2
      refine decide_eq_decide.mpr ⟨.inl, ?_⟩
      rintro (h | ⟨rfl, rfl⟩)
      · exact h
      · exact hr
  · obtain ⟨a1, a2, a3⟩ := h2 hr
    have a1 := a1 hacc
    rcases hx : addNamedPolicy c!"p" (u :: perm) E with ⟨o, E'⟩
    rw [hx] at a1 a2 a3
    simp only at a1 a2 a3
    subst a1
    refine ⟨E', ?_, a3, ?_⟩
    · simp only [hr, not_false_eq_true, decide_true]; exact hx
    · intro v q hn
      refine Eq.trans (C26_hasPolicy_partial a2 (r := v :: q) (fun s hs => hn s (by
        rcases List.mem_append.mp hs with h | h
        · exact List.mem_cons_of_mem _ h
        · rw [List.mem_singleton.mp h]; exact List.mem_cons_self ..))) ?_
      congr 2
      refine decide_eq_decide.mpr ?_
      simp

/-- C89 for `DeletePermissionForUser`, if the rule is stored at most once. The same restrictions. -/
theorem C89_deletePermission_partial {E : Enforcer} {rs : List Rule} (h : Stored E c!"p" c!"p" rs)
    {u : Str} {perm : List Str} (hm : NoMixup rs (u :: perm)) (hone : rs.count (u :: perm) ≤ 1)
    (hacc : E.AdapterAccepts (.remove c!"p" c!"p" (u :: perm))) :
    ∃ E', deletePermissionForUser u perm E = (.ok (decide ((u :: perm) ∈ rs)), E') ∧
      OthersKept E E' c!"p" c!"p" ∧
      ∀ v q, NoMixup rs (v :: q) → hasPermissionForUser v q E' =
        (.ok (decide (v :: q ∈ rs ∧ ¬ (v = u ∧ q = perm))), E') := by
  obtain ⟨h1, h2⟩ := C28_removePolicy_partial h hm
  by_cases hr : (u :: perm) ∈ rs
  · obtain ⟨a1, a2, a3⟩ := h2 hr
    have a1 := a1 hacc
    rcases hx : removeNamedPolicy c!"p" (u :: perm) E with ⟨o, E'⟩
    rw [hx] at a1 a2 a3
    simp only at a1 a2 a3
    subst a1
    refine ⟨E', ?_, a3, ?_⟩
    · simp only [hr, decide_true]; exact hx
    · intro v q hn
      refine Eq.trans (C26_hasPolicy_partial a2 (r := v :: q)
        (fun s hs => hn s (List.mem_of_mem_erase hs))) ?_
      congr 2
      refine decide_eq_decide.mpr ?_
      by_cases hxy : v = u ∧ q = perm
      · obtain ⟨rfl, rfl⟩ := hxy
        simp only [and_self, not_true_eq_false, and_false, iff_false]
        intro hc
        have := List.count_erase_self (a := v :: q) (l := rs)
        have h0 : 0 < (rs.erase (v :: q)).count (v :: q) := List.count_pos_iff.mpr hc
        omega
      · rw [List.mem_erase_of_ne (by simpa using hxy)]
        exact ⟨fun h => ⟨h, hxy⟩, fun h => h.1⟩
  · refine ⟨E, ?_, ⟨fun _ _ _ _ => Iff.rfl, fun _ _ => rfl, rfl, rfl, rfl, rfl⟩, ?_⟩
    · simp only [hr, decide_false]; exact h1 hr
    · intro v q hn
      refine Eq.trans (C26_hasPolicy_partial h (r := v :: q) hn) ?_
      congr 2
      refine decide_eq_decide.mpr ⟨fun hv => ⟨hv, ?_⟩, fun h => h.1⟩
      rintro ⟨rfl, rfl⟩
      exact hr hv

example : ∃ E', addPermissionForUser c!"dave" [c!"data1", c!"read"] (acl [alice, bob]) =
      (.ok true, E') ∧
    hasPermissionForUser c!"dave" [c!"data1", c!"read"] E' = (.ok true, E') ∧
    hasPermissionForUser c!"dave" [c!"data2", c!"read"] E' = (.ok false, E') := by
  obtain ⟨E', h1, _, h2⟩ := C89_addPermission_partial (E := acl [alice, bob]) (rs := [alice, bob])
    ⟨_, rfl, rfl⟩ (u := c!"dave") (perm := [c!"data1", c!"read"]) (by decide)
    (adapterAccepts_none rfl)
  exact ⟨E', h1, h2 _ _ (by decide), h2 _ _ (by decide)⟩
example : ∃ E', deletePermissionForUser c!"alice" [c!"data1", c!"read"] (acl [alice, bob]) =
      (.ok true, E') ∧
    hasPermissionForUser c!"alice" [c!"data1", c!"read"] E' = (.ok false, E') ∧
    hasPermissionForUser c!"bob" [c!"data2", c!"write"] E' = (.ok true, E') := by
  obtain ⟨E', h1, _, h2⟩ := C89_deletePermission_partial (E := acl [alice, bob]) (rs := [alice, bob])
    ⟨_, rfl, rfl⟩ (u := c!"alice") (perm := [c!"data1", c!"read"]) (by decide) (by decide)
    (adapterAccepts_none rfl)
  exact ⟨E', h1, h2 _ _ (by decide), h2 _ _ (by decide)⟩

omit [IterOrder] in
/-- C89 fails when a rule with the same values in another order is stored: the permission is not
added, and deleting it deletes the other one. -/
theorem C89_fails : letI := insertionOrder
    (addPermissionForUser c!"data1" [c!"alice", c!"read"] (acl [alice])).1 = .ok false ∧
    Stored (addPermissionForUser c!"data1" [c!"alice", c!"read"] (acl [alice])).2 c!"p" c!"p" [alice] ∧
    Stored (deletePermissionForUser c!"data1" [c!"alice", c!"read"] (acl [alice])).2 c!"p" c!"p" [] := by
  let _ := insertionOrder
  refine ⟨by decide +kernel,
    ⟨asrt c!"p" c!"sub, obj, act" [c!"p_sub", c!"p_obj", c!"p_act"] (.vector [alice]), ?_, rfl⟩,
    ⟨asrt c!"p" c!"sub, obj, act" [c!"p_sub", c!"p_obj", c!"p_act"] (.vector []), ?_, rfl⟩⟩
  all_goals decide +kernel

/-! ## C90 -/

/-- C90: `AddRolesForUser` grants every role of the list and nothing else, and says whether any of
them is new. Missing from the property: a stored pair with the names exchanged (`C90_fails`),
adapters that reject a call, and models with further or other role definitions. -/
theorem C90_addRoles_partial {lvl : Nat} (u : Str) (roles : List Str) : ∀ {E : Enforcer},
    Mirrors lvl E → E.autoBuild = true → ∀ {rs : List Rule}, TwoPlace E rs → Wired E c!"g" →
    (∀ r ∈ roles, [r, u] ∈ rs → r = u) →
    (∀ r ∈ roles, E.AdapterAccepts (.add c!"g" c!"g" [u, r])) →
    ∃ E', addRolesForUser u roles E = (.ok (decide (∃ r ∈ roles, [u, r] ∉ rs)), E') ∧
      (∀ x y, hasRoleForUser x y E' = (.ok (decide ([x, y] ∈ rs ∨ x = u ∧ y ∈ roles)), E')) ∧
      Mirrors lvl E' := by
  induction roles with
  | nil =>
    intro E hm _ rs h hw _ _
    refine ⟨E, by simp [addRolesForUser], ?_, hm⟩
    intro x y
    rw [hasRole_twoPlace hm h hw]
    simp
  | cons r roles ih =>
    intro E hm hauto rs h hw hmix hacc
    obtain ⟨R, rs', h1, hT, hmem, h2, hM, hauto', hacc'⟩ := addRole_run hm hauto h
      (hmix r (List.mem_cons_self ..)) (hacc r (List.mem_cons_self ..))
    obtain ⟨E', e1, e2, e3⟩ := ih hM hauto' hT h2
      (fun r' hr' hx => by
        rcases (hmem _ _).mp hx with hx | ⟨rfl, _⟩
        · exact hmix r' (List.mem_cons_of_mem _ hr') hx
        · rfl)
      (fun r' hr' => hacc' _ (hacc r' (List.mem_cons_of_mem _ hr')))
    refine ⟨E', ?_, ?_, e3⟩
    · have h1' : addGroupingPolicy [u, r] E = _ := h1
      simp only [addRolesForUser, M.bind_run, h1', e1, M.pure_run, ← Bool.decide_or, hmem]
      congr 2
      refine decide_eq_decide.mpr ?_
      simp only [List.mem_cons, exists_eq_or_imp, true_and, not_or]
      constructor
      · rintro (h | ⟨r', h, h', _⟩)
        · exact .inl h
        · exact .inr ⟨r', h, h'⟩
      · rintro (h | ⟨r', h, h'⟩)
        · exact .inl h
        · by_cases hr : r' = r
          · subst hr; exact .inl h'
          · exact .inr ⟨r', h, h', hr⟩
    · intro x y
      rw [e2]
      congr 2
      refine decide_eq_decide.mpr ?_
      rw [hmem, List.mem_cons]
      tauto

theorem wired_team : Wired team c!"g" := by
  obtain ⟨R, h1, _, h3⟩ := rebuild_ok
    (noPat_rbac [alice, bob] [[c!"alice", c!"admin"], [c!"bob", c!"admin"]])
    (groupsOk_rbac _ _ (by decide))
  unfold team
  rw [h1]
  exact h3 _

example : ∃ E', addRolesForUser c!"alice" [c!"admin", c!"editor", c!"editor"] team = (.ok true, E') ∧
    hasRoleForUser c!"alice" c!"editor" E' = (.ok true, E') ∧
    hasRoleForUser c!"bob" c!"editor" E' = (.ok false, E') := by
  obtain ⟨E', h1, h2, _⟩ := C90_addRoles_partial c!"alice" [c!"admin", c!"editor", c!"editor"]
    mirrors_team flags_team.1 twoPlace_team wired_team (by decide)
    (fun _ _ => adapterAccepts_none flags_team.2)
  exact ⟨E', h1, h2 _ _, h2 _ _⟩
example : ∃ E', addRolesForUser c!"alice" [c!"admin"] team = (.ok false, E') := by
  obtain ⟨E', h1, h2, _⟩ := C90_addRoles_partial c!"alice" [c!"admin"]
    mirrors_team flags_team.1 twoPlace_team wired_team (by decide)
    (fun _ _ => adapterAccepts_none flags_team.2)
  exact ⟨E', h1⟩

omit [IterOrder] in
/-- C90 fails when a pair is stored with the names exchanged: the role is granted in the role manager
only, no rule is stored for it, and it is gone when the links are built again. -/
theorem C90_fails : letI := insertionOrder
    ∃ E : Enforcer, Mirrors 10 E ∧ E.autoBuild = true ∧
      Stored (addRolesForUser c!"alice" [c!"editor", c!"admin"] E).2 c!"g" c!"g"
        [[c!"admin", c!"alice"], [c!"alice", c!"editor"]] ∧
      (hasRoleForUser c!"alice" c!"admin"
        (addRolesForUser c!"alice" [c!"editor", c!"admin"] E).2).1 = .ok true ∧
      (hasRoleForUser c!"alice" c!"admin"
        (buildRoleLinks (addRolesForUser c!"alice" [c!"editor", c!"admin"] E).2).2).1 = .ok false := by
  let _ := insertionOrder
  refine ⟨(buildRoleLinks (rbac [] [[c!"admin", c!"alice"]])).2,
    mirrors_rebuilt _ (noPat_rbac _ _) (groupsOk_rbac _ _ (by decide)), ?_,
    ⟨{ asrt c!"g" c!"_, _" [] (.vector [[c!"admin", c!"alice"], [c!"alice", c!"editor"]]) with
      rm := some 0 }, ?_, rfl⟩, ?_, ?_⟩
  all_goals decide +kernel

/-! ## C91 -/

/-- The one grouping type `g` has three places and rules of three values, the last of which, the
domain, contains no colon. -/
structure ThreePlace (E : Enforcer) (rs : List Rule) : Prop where
  stored : ∃ a, E.model.find c!"g" c!"g" = some a ∧ a.policy.items = rs ∧ countChar '_' a.value = 3
  only : ∀ t a, E.model.find c!"g" t = some a → t = c!"g"
  triples : ∀ r ∈ rs, ∃ x y d, r = [x, y, d] ∧ ':' ∉ d

omit [IterOrder] in
/-- The prefix of a domain without colons can be read off. -/
theorem prefix_inj {d d' a a' : Str} (hd : ':' ∉ d) (hd' : ':' ∉ d')
    (h : d ++ c!"::" ++ a = d' ++ c!"::" ++ a') : d = d' ∧ a = a' := by
  have := qualify_inj (D := [d]) (D' := [d']) (n := a) (n' := a') (x := d ++ c!"::" ++ a)
    (by simpa [domOk] using hd) (by simpa [domOk] using hd') (by simp [nameOk]) (by simp [nameOk])
    rfl (by rw [h]; rfl)
  simpa using this

omit [IterOrder] in
theorem threePlace_links {E : Enforcer} {rs : List Rule} (h : ThreePlace E rs) {d : Str}
    (hd : ':' ∉ d) (x z : Str) :
    StoredLinks E.model (d ++ c!"::" ++ x) z ↔ ∃ y, z = d ++ c!"::" ++ y ∧ [x, y, d] ∈ rs := by
  obtain ⟨a, ha, hi, hv⟩ := h.stored
  constructor
  · rintro ⟨t, b, hb, r, hr, hl⟩
    cases h.only t b hb
    rw [ha] at hb; cases hb
    rcases hl with ⟨h2, _⟩ | ⟨_, p, q, d', rest, rfl, h4, rfl⟩
    · omega
    · rw [hi] at hr
      obtain ⟨x', y', d'', h5, h6⟩ := h.triples _ hr
      simp only [List.cons.injEq] at h5
      obtain ⟨rfl, rfl, rfl, rfl⟩ := h5
      obtain ⟨rfl, rfl⟩ := prefix_inj hd h6 h4
      exact ⟨_, rfl, hr⟩
  · rintro ⟨y, rfl, hr⟩
    exact ⟨_, a, ha, _, hi ▸ hr, .inr ⟨hv, x, y, d, [], rfl, rfl, rfl⟩⟩

/-- What `GetRolesForUserInDomain` answers in a mirrored state of a three-place model. -/
theorem getRoles_threePlace {lvl : Nat} {E : Enforcer} (hm : Mirrors lvl E) {rs : List Rule}
    (h : ThreePlace E rs) (hw : Wired E c!"g") {d : Str} (hd : ':' ∉ d) (u : Str) :
    ∃ ns, getRolesForUser u [d] E = (.ok ns, E) ∧ ∀ y, y ∈ ns ↔ [u, y, d] ∈ rs := by
  obtain ⟨rm, h1, _, h3⟩ := hm.links
  obtain ⟨a, ha, _⟩ := h.stored
  have hset : E.heap.set E.rm rm = E.heap := by
    obtain ⟨g1, g2⟩ := List.getElem?_eq_some_iff.mp h1.here
    rw [← g2]; exact List.set_getElem_self g1
  have key : ∃ ns, RM.getRoles u [d] rm = (.ok ns, rm) ∧
      ∀ y, y ∈ ns ↔ rm.Edge (d ++ c!"::" ++ u) (d ++ c!"::" ++ y) := by
    simp only [RM.getRoles, M.bind_run, M.lift_run, RM.qualify, M.get_run]
    by_cases hk : d ++ c!"::" ++ u ∈ rm.roles.keys
    · have e1 := (RM.hasRole_none rm _ h1.nopat).mpr hk
      simp only [e1, Bool.not_true, Bool.false_eq_true, if_false, M.bind_run, M.modify_run,
        RM.createRole_known rm _ h1.nopat hk, M.get_run, M.lift_run]
      obtain ⟨ns, g1, g2⟩ := stripAll_qualified [d] (fun n => d ++ c!"::" ++ n) (fun n => rfl)
        (RM.direct rm.roles (d ++ c!"::" ++ u)) (by
          intro x hx
          obtain ⟨y, hy, _⟩ := (threePlace_links h hd u x).mp ((h3 _ _).mp hx)
          exact ⟨y, hy⟩)
      refine ⟨ns, by rw [g1], ?_⟩
      intro y
      unfold RM.Edge
      rw [g2, List.mem_map]
      constructor
      · intro h; exact ⟨y, h, rfl⟩
      · rintro ⟨y', h, e⟩; simp only [List.append_cancel_left_eq] at e; rwa [← e]
    · have e1 : rm.hasRole (d ++ c!"::" ++ u) = false := by
        have := mt (RM.hasRole_none rm _ h1.nopat).mp hk
        simpa using this
      simp only [e1, Bool.not_false, if_true, M.pure_run]
      refine ⟨[], rfl, ?_⟩
      intro y
      simp only [List.not_mem_nil, false_iff]
      intro he
      unfold RM.Edge RM.direct at he
      cases hg : rm.roles.get (d ++ c!"::" ++ u) with
      | none => rw [hg] at he; simp at he
      | some l => exact hk (UMap.mem_keys_of_get hg)
  obtain ⟨ns, k1, k2⟩ := key
  refine ⟨ns, ?_, ?_⟩
  · simp only [getRolesForUser, onGRm, M.bind_run, M.get_run, ha, hw a ha]
    rw [onRm_run h1.here, k1, hset]
  · intro y
    rw [k2, h3, threePlace_links h hd]
    constructor
    · rintro ⟨y', e, hr⟩; simp only [List.append_cancel_left_eq] at e; rwa [e]
    · intro hr; exact ⟨y, rfl, hr⟩

omit [IterOrder] in
theorem threePlace_sameRules {m : Model} {E : Enforcer} {a : Assertion} {P : Policies}
    {E0 : Enforcer} {rs0 rs : List Rule} (h0 : ThreePlace E0 rs0)
    (ha : E0.model.find c!"g" c!"g" = some a)
    (hm : m = E0.model ∧ P = a.policy ∨ m = E0.model.put c!"g" c!"g" { a with policy := P })
    (hs : m.SameRules E.model) (hP : P.items = rs)
    (hp : ∀ r ∈ rs, ∃ x y d, r = [x, y, d] ∧ ':' ∉ d) : ThreePlace E rs := by
  have hv : countChar '_' a.value = 3 := by
    obtain ⟨b, hb, _, hv⟩ := h0.stored
    rw [ha] at hb; cases hb; exact hv
  have hf : m.find c!"g" c!"g" = some { a with policy := P } := by
    rcases hm with ⟨rfl, rfl⟩ | rfl
    · exact ha
    · exact Model.find_put_self ..
  obtain ⟨q, hq⟩ := hs.some hf
  refine ⟨⟨_, hq, hP, hv⟩, ?_, hp⟩
  intro t b hb
  by_contra hne
  have hnone : E0.model.find c!"g" t = none := by
    cases hc : E0.model.find c!"g" t with
    | none => rfl
    | some d => exact absurd (h0.only t d hc) hne
  have hnone' : m.find c!"g" t = none := by
    rcases hm with ⟨rfl, _⟩ | rfl
    · exact hnone
    · rw [Model.find_put_ne]
      · exact hnone
      · rintro ⟨_, h⟩; exact hne h.symm
  rw [hs.none hnone'] at hb
  simp at hb

/-- C91 for `AddRoleForUserInDomain`: the call says whether the grant is new; afterwards
`GetRolesForUserInDomain` lists the role for this user in this domain, and what it listed before for
every user in every domain. Missing from the property: domains with colons (`C91_colon_fails`),
another arrangement of the three names stored (`C91_fails`), adapters that reject the call, and
models with further or other role definitions. -/
theorem C91_addRoleInDomain_partial {lvl : Nat} {E : Enforcer} (hm : Mirrors lvl E)
    (hauto : E.autoBuild = true) {rs : List Rule} (h : ThreePlace E rs) {u r d : Str} (hd : ':' ∉ d)
    (hmix : NoMixup rs [u, r, d]) (hacc : E.AdapterAccepts (.add c!"g" c!"g" [u, r, d])) :
    ∃ E', addRoleForUserInDomain u r d E = (.ok (decide ([u, r, d] ∉ rs)), E') ∧
      (∀ v e, ':' ∉ e → ∃ ns, getRolesForUser v [e] E' = (.ok ns, E') ∧
        ∀ y, y ∈ ns ↔ [v, y, e] ∈ rs ∨ v = u ∧ y = r ∧ e = d) ∧ Mirrors lvl E' := by
  obtain ⟨a, ha, hi, hv⟩ := h.stored
  have hno : NoMixup a.policy.items [u, r, d] := hi ▸ hmix
  have hsim : a.policy.Similar [u, r, d] ↔ [u, r, d] ∈ rs := by rw [similar_iff hno, hi]
  obtain ⟨R, h1, h2⟩ := addG_ok hm hauto ha (r := [u, r, d]) (by rw [hv]; simp) hacc
  have hM : Mirrors lvl R := add_step hm (fun b hb => by
    rw [ha] at hb; cases hb
    exact ⟨by rw [hv]; simp, fun hs => by rw [hi]; exact hsim.mp hs⟩) h1
  have hdr := ((Edit.add true c!"g" [u, r, d]).did E).rules
  have hrun : (Edit.add true c!"g" [u, r, d]).run E = _ := h1
  rw [hrun] at hdr
  simp only [Edit.onStore, show Edit.secOf true = c!"g" from rfl, Model.addPolicy_run ha] at hdr
  have hT : ∃ rs', ThreePlace R rs' ∧
      ∀ x y e, [x, y, e] ∈ rs' ↔ [x, y, e] ∈ rs ∨ x = u ∧ y = r ∧ e = d := by
    by_cases hs : a.policy.Similar [u, r, d]
    · rw [if_pos hs] at hdr
      refine ⟨rs, threePlace_sameRules h ha (.inl ⟨rfl, rfl⟩) hdr hi h.triples, ?_⟩
      intro x y e
      constructor
      · exact .inl
      · rintro (h | ⟨rfl, rfl, rfl⟩)
        · exact h
        · exact hsim.mp hs
    · rw [if_neg hs] at hdr
      refine ⟨_, threePlace_sameRules h ha (.inr rfl) hdr rfl ?_, ?_⟩
      · intro s hs'
        rcases (Policies.mem_emplace _ _ _).mp hs' with h' | rfl
        · exact h.triples s (hi ▸ h')
        · exact ⟨u, r, d, rfl, hd⟩
      · intro x y e
        rw [Policies.mem_emplace, hi]
        simp
  obtain ⟨rs', hT, hmem⟩ := hT
  refine ⟨R, ?_, ?_, hM⟩
  · refine Eq.trans h1 ?_
    simp only [Prod.mk.injEq, Outcome.ok.injEq, and_true]
    exact decide_eq_decide.mpr (not_congr hsim)
  · intro v e he
    obtain ⟨ns, k1, k2⟩ := getRoles_threePlace hM hT h2 he v
    exact ⟨ns, k1, fun y => (k2 y).trans (hmem v y e)⟩

/-- C91 for `DeleteRoleForUserInDomain`, if the rule is stored at most once. The same restrictions. -/
theorem C91_deleteRoleInDomain_partial {lvl : Nat} {E : Enforcer} (hm : Mirrors lvl E)
    (hauto : E.autoBuild = true) {rs : List Rule} (h : ThreePlace E rs) {u r d : Str}
    (hmix : NoMixup rs [u, r, d]) (hone : rs.count [u, r, d] ≤ 1)
    (hacc : E.AdapterAccepts (.remove c!"g" c!"g" [u, r, d])) :
    ∃ E', deleteRoleForUserInDomain u r d E = (.ok (decide ([u, r, d] ∈ rs)), E') ∧
      (∀ v e, ':' ∉ e → ∃ ns, getRolesForUser v [e] E' = (.ok ns, E') ∧
        ∀ y, y ∈ ns ↔ [v, y, e] ∈ rs ∧ ¬ (v = u ∧ y = r ∧ e = d)) ∧ Mirrors lvl E' := by
  obtain ⟨a, ha, hi, hv⟩ := h.stored
  have hno : NoMixup a.policy.items [u, r, d] := hi ▸ hmix
  have hsim : a.policy.Similar [u, r, d] ↔ [u, r, d] ∈ rs := by rw [similar_iff hno, hi]
  obtain ⟨R, h1, h2⟩ := removeG_ok hm hauto ha (r := [u, r, d]) (by rw [hv]; simp) hacc
  have hM : Mirrors lvl R := remove_step hm hauto h1
  have hdr := ((Edit.remove true c!"g" [u, r, d]).did E).rules
  have hrun : (Edit.remove true c!"g" [u, r, d]).run E = _ := h1
  rw [hrun] at hdr
  simp only [Edit.onStore, show Edit.secOf true = c!"g" from rfl, Model.removePolicy,
    Model.eraseRule_run ha] at hdr
  have hT : ∃ rs', ThreePlace R rs' ∧
      ∀ x y e, [x, y, e] ∈ rs' ↔ [x, y, e] ∈ rs ∧ ¬ (x = u ∧ y = r ∧ e = d) := by
    by_cases hs : [u, r, d] ∈ rs
    · rw [eraseFirst_exact hno (hi ▸ hs)] at hdr
      refine ⟨_, threePlace_sameRules h ha (.inr rfl) hdr rfl ?_, ?_⟩
      · intro s hs'
        exact h.triples s (hi ▸ List.mem_of_mem_erase hs')
      · intro x y e
        simp only [hi]
        by_cases hxy : x = u ∧ y = r ∧ e = d
        · obtain ⟨rfl, rfl, rfl⟩ := hxy
          simp only [and_self, not_true_eq_false, and_false, iff_false]
          intro hc
          have := List.count_erase_self (a := [x, y, e]) (l := rs)
          have h0 : 0 < (rs.erase [x, y, e]).count [x, y, e] := List.count_pos_iff.mpr hc
          omega
        · rw [List.mem_erase_of_ne (by simpa using hxy)]
          exact ⟨fun h => ⟨h, hxy⟩, fun h => h.1⟩
    · have hx := (eraseFirst_none_iff a.policy [u, r, d]).mpr (fun hc => hs (hsim.mp hc))
      rw [hx] at hdr
      refine ⟨rs, threePlace_sameRules h ha (.inl ⟨rfl, rfl⟩) hdr hi h.triples, ?_⟩
      intro x y e
      constructor
      · intro hxy
        refine ⟨hxy, ?_⟩
        rintro ⟨rfl, rfl, rfl⟩
        exact hs hxy
      · exact fun h => h.1
  obtain ⟨rs', hT, hmem⟩ := hT
  refine ⟨R, ?_, ?_, hM⟩
  · refine Eq.trans h1 ?_
    simp only [Prod.mk.injEq, Outcome.ok.injEq, and_true]
    exact decide_eq_decide.mpr hsim
  · intro v e he
    obtain ⟨ns, k1, k2⟩ := getRoles_threePlace hM hT h2 he v
    exact ⟨ns, k1, fun y => (k2 y).trans (hmem v y e)⟩

/-- A model with roles in domains. -/
def domainModel (G : List Rule) : Model :=
  [(c!"m", [(c!"m", asrt c!"m" mRbac [])]), (c!"r", rDef), (c!"p", pDef (.vector [])),
   (c!"g", [(c!"g", asrt c!"g" c!"_, _, _" [] (.vector G))]), (c!"e", eDef)]

/-- An enforcer of that model with its links built. -/
def domains (G : List Rule) : Enforcer := (buildRoleLinks (enforcer (domainModel G))).2

omit [IterOrder] in
theorem groupsOk_domains (G : List Rule) (h : ∀ r ∈ G, 3 ≤ r.length) : GroupsOk (domainModel G) := by
  intro t a ha
  by_cases ht : c!"g" = t
  · subst ht
    have : a = asrt c!"g" c!"_, _, _" [] (.vector G) := by
      have h : (domainModel G).find c!"g" c!"g" = some (asrt c!"g" c!"_, _, _" [] (.vector G)) := rfl
      rw [h] at ha; exact (Option.some.inj ha).symm
    subst this
    exact ⟨.inr rfl, h⟩
  · simp [Model.find, domainModel, UMap.get, ht] at ha

theorem domains_ok (G : List Rule) (hG : ∀ r ∈ G, ∃ x y d, r = [x, y, d] ∧ ':' ∉ d) :
    Mirrors 10 (domains G) ∧ Wired (domains G) c!"g" ∧ (domains G).autoBuild = true ∧
    (domains G).adapter = none ∧ ThreePlace (domains G) G := by
  have hg : GroupsOk (enforcer (domainModel G)).model := groupsOk_domains G (fun r hr => by
    obtain ⟨x, y, d, rfl, _⟩ := hG r hr; simp)
  obtain ⟨R, h1, h2, h3⟩ := rebuild_ok (lvl := 10) ⟨RM.new 10, rfl, rfl, rfl⟩ hg
  have hl := buildRoleLinks_linkOnly (enforcer (domainModel G))
  have hR : domains G = R := by unfold domains; rw [h1]
  rw [h1] at hl
  rw [hR]
  refine ⟨h2, h3 _, hl.2.2.2.2.2.2.2.1, hl.2.2.1, ?_⟩
  have h0 : ThreePlace (enforcer (domainModel G)) G := by
    refine ⟨⟨_, rfl, rfl, rfl⟩, ?_, hG⟩
    intro t a ha
    by_contra hne
    simp [Model.find, enforcer, domainModel, UMap.get, Ne.symm hne] at ha
  exact threePlace_sameRules h0 rfl (.inl ⟨rfl, rfl⟩) hl.1 rfl hG

/-- Granting a role in one domain, while it is held in another. -/
example : ∃ E' ns ns', addRoleForUserInDomain c!"alice" c!"admin" c!"d2"
      (domains [[c!"alice", c!"admin", c!"d1"]]) = (.ok true, E') ∧
    getRolesForUser c!"alice" [c!"d2"] E' = (.ok ns, E') ∧ c!"admin" ∈ ns ∧
    getRolesForUser c!"bob" [c!"d2"] E' = (.ok ns', E') ∧ c!"admin" ∉ ns' := by
  obtain ⟨g1, g2, g3, g4, g5⟩ := domains_ok [[c!"alice", c!"admin", c!"d1"]]
    (by intro r hr; rw [List.mem_singleton.mp hr]; exact ⟨_, _, _, rfl, by decide⟩)
  obtain ⟨E', h1, h2, _⟩ := C91_addRoleInDomain_partial g1 g3 g5 (u := c!"alice") (r := c!"admin")
    (d := c!"d2") (by decide) (by decide) (adapterAccepts_none g4)
  obtain ⟨ns, k1, k2⟩ := h2 c!"alice" c!"d2" (by decide)
  obtain ⟨ns', k1', k2'⟩ := h2 c!"bob" c!"d2" (by decide)
  exact ⟨E', ns, ns', h1, k1, (k2 _).mpr (by decide), k1', fun h => absurd ((k2' _).mp h) (by decide)⟩
example : ∃ E' ns ns', deleteRoleForUserInDomain c!"alice" c!"admin" c!"d1"
      (domains [[c!"alice", c!"admin", c!"d1"], [c!"alice", c!"admin", c!"d2"]]) = (.ok true, E') ∧
    getRolesForUser c!"alice" [c!"d1"] E' = (.ok ns, E') ∧ c!"admin" ∉ ns ∧
    getRolesForUser c!"alice" [c!"d2"] E' = (.ok ns', E') ∧ c!"admin" ∈ ns' := by
  obtain ⟨g1, g2, g3, g4, g5⟩ := domains_ok
    [[c!"alice", c!"admin", c!"d1"], [c!"alice", c!"admin", c!"d2"]] (by
      intro r hr
      rcases List.mem_pair.mp hr with rfl | rfl
      · exact ⟨_, _, _, rfl, by decide⟩
      · exact ⟨_, _, _, rfl, by decide⟩)
  obtain ⟨E', h1, h2, _⟩ := C91_deleteRoleInDomain_partial g1 g3 g5 (u := c!"alice") (r := c!"admin")
    (d := c!"d1") (by decide) (by decide) (adapterAccepts_none g4)
  obtain ⟨ns, k1, k2⟩ := h2 c!"alice" c!"d1" (by decide)
  obtain ⟨ns', k1', k2'⟩ := h2 c!"alice" c!"d2" (by decide)
  exact ⟨E', ns, ns', h1, k1, fun h => absurd ((k2 _).mp h) (by decide), k1', (k2' _).mpr (by decide)⟩

omit [IterOrder] in
/-- C91 fails when the three names are stored in another arrangement: revoking a role in a domain
takes away a role in another one. -/
theorem C91_fails : letI := insertionOrder
    (getRolesForUser c!"alice" [c!"blue"] (domains [[c!"alice", c!"red", c!"blue"]])).1 =
      .ok [c!"red"] ∧
    (addRoleForUserInDomain c!"alice" c!"blue" c!"red"
      (domains [[c!"alice", c!"red", c!"blue"]])).1 = .ok false ∧
    (getRolesForUser c!"alice" [c!"blue"] (deleteRoleForUserInDomain c!"alice" c!"blue" c!"red"
      (domains [[c!"alice", c!"red", c!"blue"]])).2).1 = .ok [] := by
  let _ := insertionOrder
  refine ⟨?_, ?_, ?_⟩
  all_goals decide +kernel

omit [IterOrder] in
/-- C91 fails for domains with colons: a grant in one domain is seen in another one. -/
theorem C91_colon_fails : letI := insertionOrder
    (getRolesForUser c!"x::alice" [c!"a"] (domains [])).1 = .ok [] ∧
    (getRolesForUser c!"x::alice" [c!"a"] (addRoleForUserInDomain c!"alice" c!"admin" c!"a::x"
      (domains [])).2).1 = .ok [c!"x::admin"] := by
  let _ := insertionOrder
  refine ⟨?_, ?_⟩
  all_goals decide +kernel

end RbacProps
end Casbin
