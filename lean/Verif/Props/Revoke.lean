import Verif.Props.Locality
import Verif.Props.Exceptions
import Verif.Props.Tenants

/-!
# C170: what is taken away is not granted any more

`DeleteUser`, `DeleteRole`, `DeleteRolesForUser`, `DeletePermissionsForUser`, `DeletePermission`,
`DeletePermissionForUser` and `DeleteRoleForUser` (rbac_api.cpp 77–137), up to the answers of `Enforce`: with
the RBAC model, in any state in which the links are those of the grouping rules (`InStep`, reached by every
faithful history: `inStep_history`). The answers afterwards are stated from the rules stored before.
-/

set_option linter.unusedSectionVars false

namespace Casbin
namespace Revoke

open Enforcer Fixtures EndToEnd StoreProps Locality
open Model (FilterMatch)

variable [IterOrder] {lib : ExprLib} {E : Enforcer} {P G : List Rule}

/-- `sub` comes to `s` in at most ten steps. -/
def Leads (R : Str → Str → Prop) (sub s : Str) : Prop := ∃ n ≤ 10, RM.Path R n sub s

/-! ## Helpers -/

omit [IterOrder] in
theorem bind_ok {f : M Enforcer Bool} {g : Bool → M Enforcer Bool} (h : ((f >>= g) E).1.IsOk) :
    ∃ b, (f E).1 = .ok b ∧ (f >>= g) E = g b (f E).2 := by
  rw [M.bind_run] at h ⊢
  rcases hf : f E with ⟨o, E'⟩
  rw [hf] at h
  cases o with
  | ok b => exact ⟨b, rfl, rfl⟩
  | throw x => exact absurd h (by simp [Outcome.IsOk])
  | ub x => exact absurd h (by simp [Outcome.IsOk])

theorem filtered_left (g : Bool) (pt : Str) (i : Nat) (vs : List Str) {rs : List Rule}
    (hh : Holds E (Edit.removeFiltered g pt i vs).target rs)
    (hok : ((Edit.removeFiltered g pt i vs).run E).1.IsOk) :
    (reference (.removeFiltered g pt i vs) rs).2 = rs.filter fun r => ¬ FilterMatch r i vs := by
  have hb : ∃ b, ((Edit.removeFiltered g pt i vs).run E).1 = .ok b := by
    cases ho : ((Edit.removeFiltered g pt i vs).run E).1 with
    | ok b => exact ⟨b, rfl⟩
    | throw x => rw [ho] at hok; exact absurd hok (by simp [Outcome.IsOk])
    | ub x => rw [ho] at hok; exact absurd hok (by simp [Outcome.IsOk])
  obtain ⟨b, hb⟩ := hb
  have := (C150_call _ hh).2 b hb
  simp only [reference] at this ⊢
  split at this
  · cases this
  · rename_i hs; rw [if_neg hs]

/-- The rules after a filtered removal of policy rules that returns. -/
theorem filtered_p (h : InStep lib E P G) (i : Nat) (vs : List Str)
    (hok : (removeFilteredPolicy i vs E).1.IsOk) :
    InStep lib (removeFilteredPolicy i vs E).2 (P.filter fun r => ¬ FilterMatch r i vs) G := by
  have := h.edit (e := .removeFiltered false c!"p" i vs) trivial hok
  rwa [show after (Edit.removeFiltered false c!"p" i vs) (c!"p", c!"p") P = _ from if_pos rfl,
    filtered_left false c!"p" i vs h.holds.1 hok,
    show after (Edit.removeFiltered false c!"p" i vs) (c!"g", c!"g") G = G from
      if_neg (by show ¬ ((c!"p", c!"p") : Str × Str) = _; decide)] at this

/-- The rules after a filtered removal of grouping rules that returns. -/
theorem filtered_g (h : InStep lib E P G) (i : Nat) (vs : List Str)
    (hok : (removeFilteredGroupingPolicy i vs E).1.IsOk) :
    InStep lib (removeFilteredGroupingPolicy i vs E).2 P (G.filter fun r => ¬ FilterMatch r i vs) := by
  have := h.edit (e := .removeFiltered true c!"g" i vs) trivial hok
  rwa [show after (Edit.removeFiltered true c!"g" i vs) (c!"g", c!"g") G = _ from if_pos rfl,
    filtered_left true c!"g" i vs h.holds.2 hok,
    show after (Edit.removeFiltered true c!"g" i vs) (c!"p", c!"p") P = P from
      if_neg (by show ¬ ((c!"g", c!"g") : Str × Str) = _; decide)] at this

/-- Both removals, one after the other. -/
theorem filtered_both (h : InStep lib E P G) (i j : Nat) (vs ws : List Str) {f : M Enforcer Bool}
    (hf : f = (do let r1 ← removeFilteredGroupingPolicy i vs; let r2 ← removeFilteredPolicy j ws; pure (r1 || r2)))
    (hok : (f E).1.IsOk) :
    InStep lib (f E).2 (P.filter fun r => ¬ FilterMatch r j ws) (G.filter fun r => ¬ FilterMatch r i vs) := by
  subst hf
  obtain ⟨b, h1, h2⟩ := bind_ok hok
  rw [h2] at hok ⊢
  obtain ⟨b', h3, h4⟩ := bind_ok hok
  rw [h4]
  exact filtered_p (filtered_g h i vs (by rw [h1]; trivial)) j ws (by rw [h3]; trivial)

omit [IterOrder] in
theorem match_one {u : Str} (hu : u ≠ []) (i : Nat) (r : Rule) : FilterMatch r i [u] ↔ r[i]? = some u := by
  constructor
  · intro h; exact h 0 u rfl hu
  · intro h j v hj _
    match j with
    | 0 => simp only [List.getElem?_cons_zero, Option.some.injEq] at hj; subst hj; exact h
    | j + 1 => simp at hj

omit [IterOrder] in
theorem leads_congr {R S : Str → Str → Prop} (h : ∀ x y, R x y ↔ S x y) {a b : Str} :
    Leads R a b ↔ Leads S a b :=
  exists_congr fun _ => and_congr_right fun _ =>
    ⟨path_mono fun x y => (h x y).mp, path_mono fun x y => (h x y).mpr⟩

omit [IterOrder] in
theorem from_left {u : Str} (hu : u ≠ []) {x y : Str} :
    Grants (G.filter fun r => ¬ FilterMatch r 0 [u]) x y ↔ x ≠ u ∧ Grants G x y := by
  simp [Grants, match_one hu, and_comm]

omit [IterOrder] in
theorem to_left {u : Str} (hu : u ≠ []) {x y : Str} :
    Grants (G.filter fun r => ¬ FilterMatch r 1 [u]) x y ↔ y ≠ u ∧ Grants G x y := by
  simp [Grants, match_one hu, and_comm]

omit [IterOrder] in
theorem subject_left {u : Str} (hu : u ≠ []) {s obj act : Str} :
    [s, obj, act] ∈ P.filter (fun r => ¬ FilterMatch r 0 [u]) ↔ [s, obj, act] ∈ P ∧ s ≠ u := by
  simp [match_one hu]

omit [IterOrder] in
theorem leads_cut {R : Str → Str → Prop} {u s : Str} (h : Leads (fun x y => x ≠ u ∧ R x y) u s) : s = u := by
  obtain ⟨n, -, hp⟩ := h
  cases hp with
  | nil => rfl
  | cons h _ => exact absurd rfl h.1

open Classical in
theorem answer (hL : SoundLib lib) (h : InStep lib E P G) (hlen : ∀ r ∈ P, r.length = 3)
    {sub obj act : Str} (hne : obj ≠ [] ∨ act ≠ []) {Q : Prop}
    (hQ : (∃ s, [s, obj, act] ∈ P ∧ Leads (Grants G) sub s) ↔ Q) :
    (E.enforce lib [.str sub, .str obj, .str act]).1 = .ok (decide Q) :=
  (h.answer hL hlen sub obj act hne).trans (congrArg Outcome.ok (decide_eq_decide.mpr hQ))

omit [IterOrder] in
theorem dropped {rs : List Rule} {o : Rule} (hperm : ∀ q ∈ rs, o.Perm q → q = o) (hnd : rs.Nodup) (q : Rule) :
    q ∈ (dropEach [o] rs).2 ↔ q ∈ rs ∧ q ≠ o := by
  have key : ∀ rs : List Rule, (∀ q ∈ rs, o.Perm q → q = o) → rs.Nodup →
      (dropFirst o rs = none ∧ o ∉ rs) ∨ ∃ rs', dropFirst o rs = some rs' ∧ ∀ q, q ∈ rs' ↔ q ∈ rs ∧ q ≠ o := by
    intro rs
    induction rs with
    | nil => intro _ _; exact .inl ⟨rfl, by simp⟩
    | cons r rs ih =>
      intro hp hn
      obtain ⟨hn1, hn2⟩ := List.nodup_cons.mp hn
      by_cases h : o.Perm r
      · have := hp r List.mem_cons_self h
        subst this
        refine .inr ⟨rs, by simp [dropFirst], fun q => ⟨fun hq => ⟨List.mem_cons_of_mem _ hq, ?_⟩, ?_⟩⟩
        · rintro rfl; exact hn1 hq
        · rintro ⟨hq, hne⟩; exact (List.mem_cons.mp hq).resolve_left hne
      · have hro : r ≠ o := fun e => h (e ▸ List.Perm.refl _)
        rcases ih (fun q hq => hp q (List.mem_cons_of_mem _ hq)) hn2 with ⟨h1, h2⟩ | ⟨rs', h1, h2⟩
        · refine .inl ⟨by simp [dropFirst, h, h1], ?_⟩
          simp [h2, hro.symm]
        · refine .inr ⟨r :: rs', by simp [dropFirst, h, h1], fun q => ?_⟩
          simp only [List.mem_cons, h2]
          constructor
          · rintro (rfl | h)
            · exact ⟨.inl rfl, hro⟩
            · exact ⟨.inr h.1, h.2⟩
          · rintro ⟨rfl | h, h'⟩
            · exact .inl rfl
            · exact .inr ⟨h, h'⟩
  rcases key rs hperm hnd with ⟨h1, h2⟩ | ⟨rs', h1, h2⟩
  · simp only [dropEach, h1]
    exact ⟨fun h => ⟨h, fun e => h2 (e ▸ h)⟩, fun h => h.1⟩
  · simp only [dropEach, h1]
    exact h2 q

/-! ## C170 -/

section
variable (hL : SoundLib lib) (h : InStep lib E P G) (hlen : ∀ r ∈ P, r.length = 3)
  (sub obj act : Str) (hne : obj ≠ [] ∨ act ≠ [])
include hL h hlen hne

open Classical in
/-- C170 for `DeleteUser`: the user is granted nothing; anybody else what a rule of another subject gives them
on a way that does not go on from the user. Missing: what C69 misses, and the user without a name. -/
theorem C170_user_partial {u : Str} (hu : u ≠ []) (hok : (deleteUser u E).1.IsOk) :
    ((deleteUser u E).2.enforce lib [.str sub, .str obj, .str act]).1 =
      .ok (decide (∃ s, s ≠ u ∧ [s, obj, act] ∈ P ∧ Leads (fun x y => x ≠ u ∧ Grants G x y) sub s)) ∧
    ((deleteUser u E).2.enforce lib [.str u, .str obj, .str act]).1 = .ok false := by
  have h' := filtered_both h 0 0 [u] [u] (f := deleteUser u) rfl hok
  have key : ∀ sub, ((deleteUser u E).2.enforce lib [.str sub, .str obj, .str act]).1 =
      .ok (decide (∃ s, s ≠ u ∧ [s, obj, act] ∈ P ∧ Leads (fun x y => x ≠ u ∧ Grants G x y) sub s)) := by
    intro sub
    refine answer hL h' (fun r hr => hlen r (List.mem_filter.mp hr).1) hne (exists_congr fun s => ?_)
    rw [subject_left hu, leads_congr fun x y => from_left hu]
    tauto
  refine ⟨key sub, ?_⟩
  rw [key u]
  simp only [Outcome.ok.injEq, decide_eq_false_iff_not]
  rintro ⟨s, hs, -, hp⟩
  exact hs (leads_cut hp)

open Classical in
/-- C170 for `DeleteRolesForUser`: the user is granted what their own rules grant, and nothing else. -/
theorem C170_roles_partial {u : Str} (hu : u ≠ []) (hok : (deleteRolesForUser u E).1.IsOk) :
    ((deleteRolesForUser u E).2.enforce lib [.str sub, .str obj, .str act]).1 =
      .ok (decide (∃ s, [s, obj, act] ∈ P ∧ Leads (fun x y => x ≠ u ∧ Grants G x y) sub s)) ∧
    ((deleteRolesForUser u E).2.enforce lib [.str u, .str obj, .str act]).1 =
      .ok (decide ([u, obj, act] ∈ P)) := by
  have h' := filtered_g h 0 [u] (show (removeFilteredGroupingPolicy 0 [u] E).1.IsOk from hok)
  have key : ∀ sub, ((deleteRolesForUser u E).2.enforce lib [.str sub, .str obj, .str act]).1 =
      .ok (decide (∃ s, [s, obj, act] ∈ P ∧ Leads (fun x y => x ≠ u ∧ Grants G x y) sub s)) := by
    intro sub
    refine answer hL h' hlen hne (exists_congr fun s => ?_)
    rw [leads_congr fun x y => from_left hu]
  refine ⟨key sub, ?_⟩
  rw [key u]
  refine congrArg Outcome.ok (decide_eq_decide.mpr ⟨?_, fun h => ⟨u, h, 0, by omega, .nil u⟩⟩)
  rintro ⟨s, hs, hp⟩
  exact leads_cut hp ▸ hs

open Classical in
/-- C170 for `DeletePermissionsForUser`: nobody is granted anything by a rule of that user or role; what is
granted by the rules of the others stays. -/
theorem C170_permissions_partial {u : Str} (hu : u ≠ []) (hok : (deletePermissionsForUser u E).1.IsOk) :
    ((deletePermissionsForUser u E).2.enforce lib [.str sub, .str obj, .str act]).1 =
      .ok (decide (∃ s, s ≠ u ∧ [s, obj, act] ∈ P ∧ Leads (Grants G) sub s)) := by
  have h' := filtered_p h 0 [u] (show (removeFilteredPolicy 0 [u] E).1.IsOk from hok)
  refine answer hL h' (fun r hr => hlen r (List.mem_filter.mp hr).1) hne (exists_congr fun s => ?_)
  rw [subject_left hu]
  tauto

open Classical in
/-- C170 for `DeleteRole`: nobody else is granted anything by way of the role. -/
theorem C170_role_partial {u : Str} (hu : u ≠ []) (hok : (deleteRole u E).1.IsOk) :
    ((deleteRole u E).2.enforce lib [.str sub, .str obj, .str act]).1 =
      .ok (decide (∃ s, s ≠ u ∧ [s, obj, act] ∈ P ∧ Leads (fun x y => y ≠ u ∧ Grants G x y) sub s)) := by
  have h' := filtered_both h 1 0 [u] [u] (f := deleteRole u) rfl hok
  refine answer hL h' (fun r hr => hlen r (List.mem_filter.mp hr).1) hne (exists_congr fun s => ?_)
  rw [subject_left hu, leads_congr fun x y => to_left hu]
  tauto

open Classical in
/-- C170 for `DeletePermission` of an object and an action: nobody is granted the action on the object; all
other answers stay. -/
theorem C170_permission_partial {o a : Str} (ho : o ≠ []) (ha : a ≠ [])
    (hok : (deletePermission [o, a] E).1.IsOk) :
    ((deletePermission [o, a] E).2.enforce lib [.str sub, .str o, .str a]).1 = .ok false ∧
    ((obj, act) ≠ (o, a) → ((deletePermission [o, a] E).2.enforce lib [.str sub, .str obj, .str act]).1 =
      (E.enforce lib [.str sub, .str obj, .str act]).1) := by
  have h' := filtered_p h 1 [o, a] (show (removeFilteredPolicy 1 [o, a] E).1.IsOk from hok)
  have hm : ∀ s obj act, FilterMatch [s, obj, act] 1 [o, a] ↔ (obj, act) = (o, a) := by
    intro s obj act
    constructor
    · intro hf
      have h0 := hf 0 o rfl ho
      have h1 := hf 1 a rfl ha
      simp at h0 h1
      rw [h0, h1]
    · rintro hf j v hj -
      cases hf
      match j with
      | 0 => simp at hj ⊢; exact hj
      | 1 => simp at hj ⊢; exact hj
      | j + 2 => simp at hj
  have hlen' : ∀ r ∈ P.filter (fun r => ¬ FilterMatch r 1 [o, a]), r.length = 3 :=
    fun r hr => hlen r (List.mem_filter.mp hr).1
  refine ⟨?_, fun hd => ?_⟩
  · refine (answer hL h' hlen' (sub := sub) (act := a) (.inl ho) (Q := False) (by simp [hm])).trans ?_
    simp
  · rw [answer hL h hlen hne Iff.rfl]
    refine answer hL h' hlen' hne (exists_congr fun s => ?_)
    simp only [List.mem_filter, hm, decide_not, Bool.not_eq_true', decide_eq_false_iff_not]
    tauto

open Classical in
/-- C170 for `DeletePermissionForUser`: the user is granted the action on the object only through a role that
has it. Missing: rules with the same values in another order, and a rule stored twice. -/
theorem C170_own_partial {u : Str} (hperm : ∀ q ∈ P, [u, obj, act].Perm q → q = [u, obj, act])
    (hnd : P.Nodup) (hok : (deletePermissionForUser u [obj, act] E).1.IsOk) :
    ((deletePermissionForUser u [obj, act] E).2.enforce lib [.str sub, .str obj, .str act]).1 =
      .ok (decide (∃ s, s ≠ u ∧ [s, obj, act] ∈ P ∧ Leads (Grants G) sub s)) := by
  have h' := h.edit (e := .remove false c!"p" [u, obj, act]) trivial hok
  rw [show after (Edit.remove false c!"p" [u, obj, act]) (c!"p", c!"p") P = _ from if_pos rfl,
    show after (Edit.remove false c!"p" [u, obj, act]) (c!"g", c!"g") G = G from
      if_neg (by show ¬ ((c!"p", c!"p") : Str × Str) = _; decide)] at h'
  have hd := dropped hperm hnd
  refine answer hL h' (fun r hr => hlen r ((hd r).mp hr).1) hne (exists_congr fun s => ?_)
  rw [show ([s, obj, act] ∈ (reference (.remove false c!"p" [u, obj, act]) P).2 ↔ _) from hd _]
  simp
  tauto

open Classical in
/-- C170 for `DeleteRoleForUser`: nobody is granted anything by way of the user having the role. Missing: the
pair stored with its names exchanged or twice. -/
theorem C170_one_role_partial {u r : Str} (hG : ∀ q ∈ G, q.length = 2) (hperm : [r, u] ∈ G → r = u)
    (hnd : G.Nodup) (hok : (deleteRoleForUser u r E).1.IsOk) :
    ((deleteRoleForUser u r E).2.enforce lib [.str sub, .str obj, .str act]).1 =
      .ok (decide (∃ s, [s, obj, act] ∈ P ∧ Leads (fun x y => ¬ (x = u ∧ y = r) ∧ Grants G x y) sub s)) := by
  have h' := h.edit (e := .remove true c!"g" [u, r]) trivial hok
  rw [show after (Edit.remove true c!"g" [u, r]) (c!"g", c!"g") G = _ from if_pos rfl,
    show after (Edit.remove true c!"g" [u, r]) (c!"p", c!"p") P = P from
      if_neg (by show ¬ ((c!"g", c!"g") : Str × Str) = _; decide)] at h'
  have hd := dropped (rs := G) (o := [u, r]) (by
    intro q hq hp
    obtain ⟨a, b, rfl⟩ := List.length_eq_two.mp (hG q hq)
    have ha : a ∈ [u, r] := hp.mem_iff.mpr (by simp)
    rcases List.mem_cons.mp ha with rfl | ha
    · have := List.singleton_perm_singleton.mp (List.perm_cons a |>.mp hp)
      rw [this]
    · have ha := List.mem_singleton.mp ha
      subst ha
      have := List.singleton_perm_singleton.mp (List.perm_cons a |>.mp ((List.Perm.swap _ _ _).trans hp))
      subst this
      rw [hperm hq]) hnd
  refine answer hL h' hlen hne (exists_congr fun s => ?_)
  rw [leads_congr fun x y => ?_]
  refine (exists_congr fun rest => hd _).trans ?_
  simp only [Grants]
  constructor
  · rintro ⟨rest, h1, h2⟩
    have hr : rest = [] := by simpa using hG _ h1
    subst hr
    exact ⟨by simpa using h2, _, h1⟩
  · rintro ⟨h1, rest, h2⟩
    exact ⟨rest, h2, fun h => h1 (by simp at h; exact ⟨h.1, h.2.1⟩)⟩
end

/-! ## With domains -/

theorem filteredD_both (h : Tenants.InStepD lib E P G) (i j : Nat) (vs ws : List Str) {f : M Enforcer Bool}
    (hf : f = (do let r1 ← removeFilteredGroupingPolicy i vs; let r2 ← removeFilteredPolicy j ws; pure (r1 || r2)))
    (hok : (f E).1.IsOk) :
    Tenants.InStepD lib (f E).2 (P.filter fun r => ¬ FilterMatch r j ws)
      (G.filter fun r => ¬ FilterMatch r i vs) := by
  subst hf
  obtain ⟨b, h1, h2⟩ := bind_ok hok
  rw [h2] at hok ⊢
  obtain ⟨b', h3, h4⟩ := bind_ok hok
  rw [h4]
  have hok1 : ((Edit.removeFiltered true c!"g" i vs).run E).1.IsOk := by
    show (removeFilteredGroupingPolicy i vs E).1.IsOk
    rw [h1]; trivial
  have hg := h.edit (e := .removeFiltered true c!"g" i vs) trivial hok1
  rw [show after (Edit.removeFiltered true c!"g" i vs) (c!"g", c!"g") G = _ from if_pos rfl,
    filtered_left true c!"g" i vs h.holds.2 hok1,
    show after (Edit.removeFiltered true c!"g" i vs) (c!"p", c!"p") P = P from
      if_neg (by show ¬ ((c!"g", c!"g") : Str × Str) = _; decide)] at hg
  have hok2 : ((Edit.removeFiltered false c!"p" j ws).run
      ((Edit.removeFiltered true c!"g" i vs).run E).2).1.IsOk := by
    show (removeFilteredPolicy j ws (removeFilteredGroupingPolicy i vs E).2).1.IsOk
    rw [h3]; trivial
  have hp := hg.edit (e := .removeFiltered false c!"p" j ws) trivial hok2
  rwa [show after (Edit.removeFiltered false c!"p" j ws) (c!"p", c!"p") P = _ from if_pos rfl,
    filtered_left false c!"p" j ws hg.holds.1 hok2,
    show after (Edit.removeFiltered false c!"p" j ws) (c!"g", c!"g") _ = _ from
      if_neg (by show ¬ ((c!"p", c!"p") : Str × Str) = _; decide)] at hp

section
variable (hL : SoundLib lib) (h : Tenants.InStepD lib E P G) (hlen : ∀ r ∈ P, r.length = 4)
  (hD : PlainDomains G) (sub d obj act : Str) (hd : ':' ∉ d) (hne : d ≠ [])
include hL h hlen hD hd hne

open Classical in
/-- C170 for `DeleteUser` with domains: the user is granted nothing in any domain. Missing: what C70
misses. -/
theorem C170_domains_user_partial {u : Str} (hu : u ≠ []) (hok : (deleteUser u E).1.IsOk) :
    ((deleteUser u E).2.enforce lib [.str sub, .str d, .str obj, .str act]).1 =
      .ok (decide (∃ s, s ≠ u ∧ [s, d, obj, act] ∈ P ∧ Leads (fun x y => x ≠ u ∧ GrantsIn G d x y) sub s)) ∧
    ((deleteUser u E).2.enforce lib [.str u, .str d, .str obj, .str act]).1 = .ok false := by
  have h' := filteredD_both h 0 0 [u] [u] (f := deleteUser u) rfl hok
  have key : ∀ sub, ((deleteUser u E).2.enforce lib [.str sub, .str d, .str obj, .str act]).1 =
      .ok (decide (∃ s, s ≠ u ∧ [s, d, obj, act] ∈ P ∧
        Leads (fun x y => x ≠ u ∧ GrantsIn G d x y) sub s)) := by
    intro sub
    refine (h'.answer hL (fun r hr => hlen r (List.mem_filter.mp hr).1)
      (fun x y e rest hr => hD x y e rest (List.mem_filter.mp hr).1) sub d obj act hd hne).trans ?_
    refine congrArg Outcome.ok (decide_eq_decide.mpr (exists_congr fun s => ?_))
    have hg : ∀ x y, GrantsIn (G.filter fun r => ¬ FilterMatch r 0 [u]) d x y ↔ x ≠ u ∧ GrantsIn G d x y := by
      intro x y; simp [GrantsIn, match_one hu, and_comm]
    have hp : [s, d, obj, act] ∈ P.filter (fun r => ¬ FilterMatch r 0 [u]) ↔ [s, d, obj, act] ∈ P ∧ s ≠ u := by
      simp [match_one hu]
    rw [hp]
    have := leads_congr hg (a := sub) (b := s)
    unfold Leads at this ⊢
    rw [this]
    tauto
  refine ⟨key sub, ?_⟩
  rw [key u]
  simp only [Outcome.ok.injEq, decide_eq_false_iff_not]
  rintro ⟨s, hs, -, hp⟩
  exact hs (leads_cut hp)

open Classical in
/-- C170 for `DeleteRoleForUserInDomain`: in that domain nobody is granted anything by way of the user having
the role; in all other domains the answers stay. Missing: the values stored in another order or twice. -/
theorem C170_domain_role_partial {u r c : Str} (hG : ∀ q ∈ G, q.length = 3)
    (hperm : ∀ q ∈ G, [u, r, c].Perm q → q = [u, r, c]) (hnd : G.Nodup)
    (hok : (deleteRoleForUserInDomain u r c E).1.IsOk) :
    ((deleteRoleForUserInDomain u r c E).2.enforce lib [.str sub, .str d, .str obj, .str act]).1 =
      .ok (decide (∃ s, [s, d, obj, act] ∈ P ∧
        Leads (fun x y => ¬ (x = u ∧ y = r ∧ d = c) ∧ GrantsIn G d x y) sub s)) := by
  have h' := h.edit (e := .remove true c!"g" [u, r, c]) trivial hok
  rw [show after (Edit.remove true c!"g" [u, r, c]) (c!"g", c!"g") G = _ from if_pos rfl,
    show after (Edit.remove true c!"g" [u, r, c]) (c!"p", c!"p") P = P from
      if_neg (by show ¬ ((c!"g", c!"g") : Str × Str) = _; decide)] at h'
  have hdr := dropped hperm hnd
  refine (h'.answer hL hlen (fun x y e rest hr => hD x y e rest ((hdr _).mp hr).1) sub d obj act hd hne).trans ?_
  refine congrArg Outcome.ok (decide_eq_decide.mpr (exists_congr fun s => and_congr_right fun _ => ?_))
  refine leads_congr fun x y => (exists_congr fun rest => hdr _).trans ?_
  simp only [GrantsIn]
  constructor
  · rintro ⟨rest, h1, h2⟩
    have hr : rest = [] := by simpa using hG _ h1
    subst hr
    exact ⟨by simpa using h2, _, h1⟩
  · rintro ⟨h1, rest, h2⟩
    exact ⟨rest, h2, fun h => h1 (by simp at h; exact ⟨h.1, h.2.1, h.2.2.1⟩)⟩
end

/-! ## Where it stops -/

/-- C170 is false for models without roles: `DeleteUser` asks for grouping rules first, and without a section
`g` it dereferences a null pointer, whatever the rules. -/
theorem C170_acl_fails (P : List Rule) (u : Str) : (deleteUser u (acl P)).1 = .ub .nullDeref := rfl

omit [IterOrder] in
/-- C170 is false for a call that raises an exception: an adapter that rejects the removal of the roles keeps
`DeleteUser` from removing the rules of the user, who is granted as before. -/
theorem C170_raised_fails : letI := insertionOrder
    ∃ E : Enforcer, ∃ x, InStep miniLib E [alice] [[c!"alice", c!"staff"]] ∧
      (deleteUser c!"alice" E).1 = .throw x ∧
      ((deleteUser c!"alice" E).2.enforce miniLib [.str c!"alice", .str c!"data1", .str c!"read"]).1 =
        .ok true := by
  let _ := insertionOrder
  have hs := (inStep_new miniLib [alice] (G := [[c!"alice", c!"staff"]]) (by decide)).holds
  refine ⟨runDeeds miniLib [.setAdapter ExceptionProps.broken]
    (buildRoleLinks (rbac [alice] [[c!"alice", c!"staff"]])).2, .external,
    inStep_history (by decide) _ (by simp [FaithfulDeeds]) hs.1 hs.2, ?_, ?_⟩
  · decide +kernel
  · decide +kernel

omit [IterOrder] in
/-- C170 is false with another arrangement of the rule stored before it: `DeletePermissionForUser` answers
`true`, has removed the other one, and the user is granted as before. -/
theorem C170_swapped_fails : letI := insertionOrder
    (deletePermissionForUser c!"alice" [c!"data1", c!"read"]
      (buildRoleLinks (rbac [aliceSwapped, alice] [])).2).1 = .ok true ∧
    ((deletePermissionForUser c!"alice" [c!"data1", c!"read"]
      (buildRoleLinks (rbac [aliceSwapped, alice] [])).2).2.enforce miniLib
      [.str c!"alice", .str c!"data1", .str c!"read"]).1 = .ok true := by decide +kernel

omit [IterOrder] in
/-- C170 is false for the name of a role that is asked about as a user: after `DeleteRole` it is still granted
what its own roles give. -/
theorem C170_inherited_fails : letI := insertionOrder
    (deleteRole c!"staff" (buildRoleLinks (rbac [[c!"all", c!"data1", c!"read"]]
      [[c!"staff", c!"all"], [c!"bob", c!"staff"]])).2).1 = .ok true ∧
    ((deleteRole c!"staff" (buildRoleLinks (rbac [[c!"all", c!"data1", c!"read"]]
      [[c!"staff", c!"all"], [c!"bob", c!"staff"]])).2).2.enforce miniLib
      [.str c!"staff", .str c!"data1", .str c!"read"]).1 = .ok true := by decide +kernel

/-! ## Examples

Bob has the role `staff` and a rule of his own; Carol has Bob as a role. -/

/-- The policy rules of the example. -/
def exP : List Rule := [bob, [c!"staff", c!"data1", c!"read"]]
/-- The roles of the example. -/
def exG : List Rule := [[c!"bob", c!"staff"], [c!"carol", c!"bob"]]
/-- The enforcer with them. -/
def exE : Enforcer := (buildRoleLinks (rbac exP exG)).2

theorem inStep_ex : InStep miniLib exE exP exG := inStep_new miniLib exP (by decide)

/-- All of it was granted to Bob before, and nothing after he has been deleted. -/
example : letI := insertionOrder
    (exE.enforce miniLib [.str c!"bob", .str c!"data1", .str c!"read"]).1 = .ok true ∧
    ((deleteUser c!"bob" exE).2.enforce miniLib [.str c!"bob", .str c!"data1", .str c!"read"]).1 = .ok false := by
  let _ := insertionOrder
  exact ⟨by decide +kernel, (C170_user_partial miniLib_sound inStep_ex (by decide) c!"bob" _ _ (.inl (by decide))
    (by decide) (by decide +kernel)).2⟩

/-- Without his roles Bob keeps his own rule. -/
example : letI := insertionOrder
    ((deleteRolesForUser c!"bob" exE).2.enforce miniLib [.str c!"bob", .str c!"data2", .str c!"write"]).1 =
      .ok true ∧
    ((deleteRolesForUser c!"bob" exE).2.enforce miniLib [.str c!"bob", .str c!"data1", .str c!"read"]).1 =
      .ok false := by
  let _ := insertionOrder
  refine ⟨(C170_roles_partial miniLib_sound inStep_ex (by decide) c!"bob" _ _ (.inl (by decide))
      (by decide) (by decide +kernel)).2.trans ?_,
    (C170_roles_partial miniLib_sound inStep_ex (by decide) c!"bob" _ _ (.inl (by decide))
      (by decide) (by decide +kernel)).2.trans ?_⟩ <;> simp [exP, bob]

/-- Without his rules Bob keeps what his role gives. -/
example : letI := insertionOrder
    ((deletePermissionsForUser c!"bob" exE).2.enforce miniLib [.str c!"bob", .str c!"data1", .str c!"read"]).1 =
      .ok true := by
  let _ := insertionOrder
  refine (C170_permissions_partial miniLib_sound inStep_ex (by decide) c!"bob" _ _ (.inl (by decide))
    (u := c!"bob") (by decide) (by decide +kernel)).trans ?_
  simp only [Outcome.ok.injEq, decide_eq_true_eq]
  exact ⟨c!"staff", by decide, by decide, 1, by omega, .cons ⟨[], by decide⟩ (.nil _)⟩

/-- Without the role nobody has what it gave. -/
example : letI := insertionOrder
    ((deleteRole c!"staff" exE).2.enforce miniLib [.str c!"carol", .str c!"data1", .str c!"read"]).1 =
      .ok false := by
  let _ := insertionOrder
  refine (C170_role_partial miniLib_sound inStep_ex (by decide) c!"carol" _ _ (.inl (by decide))
    (u := c!"staff") (by decide) (by decide +kernel)).trans ?_
  simp only [Outcome.ok.injEq, decide_eq_false_iff_not]
  rintro ⟨s, hs, hm, -⟩
  simp [exP, bob] at hm
  exact hs hm

/-- Nobody may read `data1` after that permission is deleted, and Bob still writes `data2`. -/
example : letI := insertionOrder
    ((deletePermission [c!"data1", c!"read"] exE).2.enforce miniLib
      [.str c!"bob", .str c!"data1", .str c!"read"]).1 = .ok false ∧
    ((deletePermission [c!"data1", c!"read"] exE).2.enforce miniLib
      [.str c!"bob", .str c!"data2", .str c!"write"]).1 = .ok true := by
  let _ := insertionOrder
  obtain ⟨h1, h2⟩ := C170_permission_partial miniLib_sound inStep_ex (by decide) c!"bob" c!"data2" c!"write"
    (.inl (by decide)) (o := c!"data1") (a := c!"read") (by decide) (by decide) (by decide +kernel)
  exact ⟨h1, (h2 (by decide)).trans (by decide +kernel)⟩

/-- Bob without his own rule, and without his role. -/
example : letI := insertionOrder
    ((deletePermissionForUser c!"bob" [c!"data2", c!"write"] exE).2.enforce miniLib
      [.str c!"bob", .str c!"data2", .str c!"write"]).1 = .ok false ∧
    ((deleteRoleForUser c!"bob" c!"staff" exE).2.enforce miniLib
      [.str c!"bob", .str c!"data1", .str c!"read"]).1 = .ok false := by
  let _ := insertionOrder
  constructor
  · refine (C170_own_partial miniLib_sound inStep_ex (by decide) c!"bob" _ _ (.inl (by decide)) (u := c!"bob")
      (by decide) (by decide) (by decide +kernel)).trans ?_
    simp only [Outcome.ok.injEq, decide_eq_false_iff_not]
    rintro ⟨s, hs, hm, -⟩
    simp [exP, bob] at hm
    exact hs hm
  · refine (C170_one_role_partial miniLib_sound inStep_ex (by decide) c!"bob" _ _ (.inl (by decide)) (u := c!"bob")
      (r := c!"staff") (by decide) (by decide) (by decide) (by decide +kernel)).trans ?_
    simp only [Outcome.ok.injEq, decide_eq_false_iff_not]
    rintro ⟨s, hm, n, -, hp⟩
    cases hp with
    | nil => exact absurd hm (by decide)
    | cons h _ =>
      obtain ⟨h1, rest, h2⟩ := h
      simp [exG] at h2
      exact h1 ⟨rfl, h2.1⟩

/-- With domains: Alice deleted, and Alice without her role in the first domain. -/
example : letI := insertionOrder
    ((deleteUser c!"alice" Tenants.firm).2.enforce miniLib
      [.str c!"alice", .str c!"d1", .str c!"data1", .str c!"read"]).1 = .ok false ∧
    ((deleteRoleForUserInDomain c!"alice" c!"admin" c!"d1" Tenants.firm).2.enforce miniLib
      [.str c!"bob", .str c!"d2", .str c!"data2", .str c!"read"]).1 = .ok true := by
  let _ := insertionOrder
  have hD : PlainDomains Tenants.firmG := by
    intro x y d rest h; simp [Tenants.firmG] at h; rcases h with ⟨_, _, rfl, _⟩ | ⟨_, _, rfl, _⟩ <;> decide
  refine ⟨(C170_domains_user_partial miniLib_sound Tenants.inStepD_firm (by decide) hD c!"alice" _ _ _
    (by decide) (by decide) (by decide) (by decide +kernel)).2, ?_⟩
  refine (C170_domain_role_partial miniLib_sound Tenants.inStepD_firm (by decide) hD c!"bob" _ _ _
    (by decide) (by decide) (by decide) (by decide) (by decide) (by decide +kernel)).trans ?_
  simp only [Outcome.ok.injEq, decide_eq_true_eq]
  exact ⟨c!"admin", by decide, 1, by omega, .cons ⟨by decide, [], by decide⟩ (.nil _)⟩

end Revoke
end Casbin
