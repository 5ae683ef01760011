import Verif.Props.Links
import Verif.Props.Policy
import Verif.Props.Requests

/-!
# Lemmas about the RBAC API

When the grouping calls return normally, which role manager the types then use, and what the loops
over names collect.
-/

namespace Casbin
namespace RbacProps

open Enforcer LinkProps PolicyProps DecisionProps

variable [IterOrder]

/-- Every grouping type uses the enforcer's role manager. -/
def Wired (E : Enforcer) (pt : Str) : Prop :=
  ∀ a, E.model.find c!"g" pt = some a → a.rm = some E.rm

omit [IterOrder] in
theorem edit_ok {link : M Enforcer Unit} {E E1 : Enforcer} {c : AdapterCall}
    (hl : link E = (.ok (), E1)) (hlo : LinkOnly E E1) (hacc : E.AdapterAccepts c) :
    ∃ E2, (do link; autoSaveCall c; notify; pure true : M Enforcer Bool) E = (.ok true, E2) ∧
      SameCore E1 E2 := by
  have hacc1 : E1.AdapterAccepts c := by
    intro a ha hs
    exact hacc a (hlo.2.2.1 ▸ ha) (hlo.2.2.2.2.2.2.1 ▸ hs)
  refine ⟨(E1.afterAdapter c).afterNotify, ?_, (afterAdapter_core c E1).trans (afterNotify_core _)⟩
  simp only [M.bind_run, hl, autoSaveCall_ok hacc1, notify_run, M.pure_run]

omit [IterOrder] in
theorem inner_false {op : M Model Bool} {rest : M Enforcer Bool} {E : Enforcer} {m' : Model}
    (h : op E.model = (.ok false, m')) :
    (do let a ← onModel op
        if !a then pure false else rest : M Enforcer Bool) E = (.ok false, { E with model := m' }) := by
  simp only [M.bind_run, onModel_run, h, Bool.not_false, if_true, M.pure_run]

omit [IterOrder] in
theorem inner_true {op : M Model Bool} {rest : M Enforcer Bool} {E E2 : Enforcer} {m' : Model}
    (h : op E.model = (.ok true, m')) (hr : rest { E with model := m' } = (.ok true, E2)) :
    (do let a ← onModel op
        if !a then pure false else rest : M Enforcer Bool) E = (.ok true, E2) := by
  simp only [M.bind_run, onModel_run, h, Bool.not_true, Bool.false_eq_true, if_false, hr]

omit [IterOrder] in
theorem then_ok {x : M Enforcer Bool} {link : M Enforcer Unit} {E E1 R : Enforcer} {b : Bool}
    (hx : x E = (.ok b, E1)) (ha : E1.autoBuild = true) (hl : link E1 = (.ok (), R)) :
    (do let b ← x
        let E' ← M.get
        if E'.autoBuild then link else pure ()
        pure b : M Enforcer Bool) E = (.ok b, R) := by
  simp only [M.bind_run, hx, M.get_run, ha, if_true, hl, M.pure_run]

/-- Adding a grouping rule that is long enough returns normally. -/
theorem addG_ok {lvl : Nat} {E : Enforcer} (hm : Mirrors lvl E) (hauto : E.autoBuild = true)
    {pt : Str} {a : Assertion} (ha : E.model.find c!"g" pt = some a) {r : Rule}
    (hlen : countChar '_' a.value ≤ r.length) (hacc : E.AdapterAccepts (.add c!"g" pt r)) :
    ∃ R, addNamedGroupingPolicy pt r E = (.ok (decide (¬ a.policy.Similar r)), R) ∧
      Wired R pt := by
  have hn := (hm.groups pt a ha).1
  have hlens : ∀ s ∈ [r], countChar '_' a.value ≤ s.length := by simpa using hlen
  -- the second call of `buildIncremental`, in any state of the right shape
  have last : ∀ (E1 : Enforcer) (a1 : Assertion) (S : Str → Str → Prop), RmIs lvl E1 S →
      E1.model.find c!"g" pt = some a1 → a1.value = a.value →
      ∃ R, buildIncremental .add pt [r] E1 = (.ok (), R) ∧ Wired R pt := by
    intro E1 a1 S ⟨rm, hrm, _, _⟩ ha1 hv
    obtain ⟨rm', h1, _⟩ := buildIncremental_add hrm ha1 (by rw [hv]; exact hn) [r]
      (by rw [hv]; exact hlens)
    refine ⟨_, h1, ?_⟩
    intro b hb
    simp only [Model.find_put_self, Option.some.injEq] at hb
    rw [← hb]
  have hrun := Model.addPolicy_run ha r
  by_cases hs : a.policy.Similar r
  · rw [if_pos hs] at hrun
    obtain ⟨R, h1, h2⟩ := last E a _ hm.links ha rfl
    refine ⟨R, ?_, h2⟩
    simp only [hs, not_true_eq_false, decide_false]
    exact then_ok (x := addPolicyI c!"g" pt r) (E1 := E) (inner_false hrun) hauto h1
  · rw [if_neg hs] at hrun
    generalize hm' : E.model.put c!"g" pt { a with policy := a.policy.emplace r } = m' at hrun
    have ha' : m'.find c!"g" pt = some { a with policy := a.policy.emplace r } := by
      rw [← hm']; exact Model.find_put_self ..
    obtain ⟨E1, k1, k2, k3⟩ := buildIncremental_rmIs (E := { E with model := m' })
      (hm.links.of_heap rfl rfl) ha' hn [r] hlens
    obtain ⟨E2, q1, q2⟩ := edit_ok (link := linkIfG c!"g" .add pt [r]) (c := .add c!"g" pt r)
      (E := { E with model := m' }) (by rw [linkIfG_g]; exact k1) k2 hacc
    have hauto2 : E2.autoBuild = true := by
      rw [q2.2.2.2.2.2.2.1, k2.2.2.2.2.2.2.2.1]; exact hauto
    obtain ⟨p, hp⟩ := k2.1.some ha'
    obtain ⟨R, h1, h2⟩ := last E2 { a with policy := a.policy.emplace r, rm := p } _
      (k3.of_heap q2.2.1 q2.2.2.1) (by rw [q2.1]; exact hp) rfl
    refine ⟨R, ?_, h2⟩
    simp only [hs, not_false_eq_true, decide_true]
    exact then_ok (x := addPolicyI c!"g" pt r) (inner_true hrun q1) hauto2 h1

/-- The rebuild at the end of a removal returns normally. -/
theorem rebuild_ok {lvl : Nat} {E : Enforcer} (h : NoPat lvl E) (hg : GroupsOk E.model) :
    ∃ R, buildRoleLinks E = (.ok (), R) ∧ Mirrors lvl R ∧ ∀ pt, Wired R pt := by
  obtain ⟨R, h1, _, h3⟩ := buildRoleLinks_mirrors h hg
  obtain ⟨rm, e1, e2, _⟩ := h
  obtain ⟨rm', m', g1, _, _, _, _, _, _, g2⟩ := buildRoleLinks_run e1 e2 hg
  rw [g1] at h1
  cases h1
  exact ⟨_, g1, h3, fun pt a ha => g2 pt a ha⟩

/-- Removing a grouping rule returns normally. -/
theorem removeG_ok {lvl : Nat} {E : Enforcer} (hm : Mirrors lvl E) (hauto : E.autoBuild = true)
    {pt : Str} {a : Assertion} (ha : E.model.find c!"g" pt = some a) {r : Rule}
    (hlen : countChar '_' a.value ≤ r.length) (hacc : E.AdapterAccepts (.remove c!"g" pt r)) :
    ∃ R, removeNamedGroupingPolicy pt r E = (.ok (decide (a.policy.Similar r)), R) ∧
      Wired R pt := by
  have hn := (hm.groups pt a ha).1
  have hlens : ∀ s ∈ [r], countChar '_' a.value ≤ s.length := by simpa using hlen
  have hrun : Model.removePolicy c!"g" pt r E.model = _ := Model.eraseRule_run ha r
  cases hx : a.policy.eraseFirst (fun x => arrayEquals r x) with
  | none =>
    have hs : ¬ a.policy.Similar r := (eraseFirst_none_iff _ _).mp hx
    rw [hx] at hrun
    obtain ⟨R, h1, _, h2⟩ := rebuild_ok hm.links.noPat hm.groups
    refine ⟨R, ?_, h2 pt⟩
    simp only [hs, decide_false]
    exact then_ok (x := removePolicyI c!"g" pt r) (E1 := E) (inner_false hrun) hauto h1
  | some P =>
    have hs : a.policy.Similar r := by
      by_contra hs
      rw [(eraseFirst_none_iff _ _).mpr hs] at hx; simp at hx
    rw [hx] at hrun
    simp only [] at hrun
    generalize hm' : E.model.put c!"g" pt { a with policy := P } = m' at hrun
    have ha' : m'.find c!"g" pt = some { a with policy := P } := by
      rw [← hm']; exact Model.find_put_self ..
    have hg' : GroupsOk m' := by
      rw [← hm']
      refine groupsOk_put hm.groups ha ?_
      intro s hs'
      obtain ⟨pre, s0, post, q1, q2, _⟩ := Policies.eraseFirst_some hx
      rw [q2] at hs'
      rw [q1]
      simp only [List.mem_append, List.mem_cons] at hs' ⊢
      tauto
    obtain ⟨E1, k1, k2, k3⟩ := buildIncremental_rmIs (E := { E with model := m' })
      (hm.links.of_heap rfl rfl) ha' hn [r] hlens
    obtain ⟨E2, q1, q2⟩ := edit_ok (link := linkIfG c!"g" .add pt [r]) (c := .remove c!"g" pt r)
      (E := { E with model := m' }) (by rw [linkIfG_g]; exact k1) k2 hacc
    have hauto2 : E2.autoBuild = true := by
      rw [q2.2.2.2.2.2.2.1, k2.2.2.2.2.2.2.2.1]; exact hauto
    obtain ⟨R, h1, _, h2⟩ := rebuild_ok (k3.noPat.of_heap q2.2.1 q2.2.2.1)
      (by rw [q2.1]; exact groupsOk_congr k2.1 hg')
    refine ⟨R, ?_, h2 pt⟩
    simp only [hs, decide_true]
    exact then_ok (x := removePolicyI c!"g" pt r) (inner_true hrun q1) hauto2 h1

/-- Removing grouping rules by a filter returns normally. -/
theorem removeFilteredG_ok {lvl : Nat} {E : Enforcer} (hm : Mirrors lvl E)
    (hauto : E.autoBuild = true) {pt : Str} {a : Assertion} (ha : E.model.find c!"g" pt = some a)
    {i : Nat} {vs : List Str} (hl : ∀ r ∈ a.policy.items, Model.LongEnough r i vs)
    (hacc : E.AdapterAccepts (.removeFiltered c!"g" pt i vs)) :
    ∃ R, removeFilteredNamedGroupingPolicy pt i vs E =
      (.ok (decide (∃ r ∈ a.policy.items, Model.FilterMatch r i vs)), R) ∧ Wired R pt := by
  have hn := (hm.groups pt a ha).1
  have hrun := Model.removeFilteredPolicy_run ha i vs hl
  generalize hf : a.policy.iterate.filter (fun r => decide (Model.FilterMatch r i vs)) = eff at hrun
  have heff : ∀ r ∈ eff, r ∈ a.policy.items ∧ Model.FilterMatch r i vs := by
    intro r hr
    rw [← hf, List.mem_filter, Policies.mem_iterate] at hr
    simpa using hr
  generalize hm' : E.model.put c!"g" pt { a with
         policy := Policies.vector (a.policy.iterate.filter
           (fun r => !decide (Model.FilterMatch r i vs))) } = m' at hrun
  have ha' : ∃ P, m'.find c!"g" pt = some { a with policy := P } := by
    rw [← hm']; exact ⟨_, Model.find_put_self ..⟩
  obtain ⟨P, ha'⟩ := ha'
  have hg' : GroupsOk m' := by
    rw [← hm']
    refine groupsOk_put hm.groups ha ?_
    intro s hs'
    left
    simp only [Policies.vector, List.mem_filter, Policies.mem_iterate] at hs'
    exact hs'.1
  by_cases hex : ∃ r ∈ a.policy.items, Model.FilterMatch r i vs
  · have hne : eff ≠ [] := by
      obtain ⟨r, hr, hfm⟩ := hex
      refine List.ne_nil_of_mem (a := r) ?_
      rw [← hf, List.mem_filter, Policies.mem_iterate]
      exact ⟨hr, by simpa using hfm⟩
    have he : (!eff.isEmpty) = true := by simpa using hne
    obtain ⟨E1, k1, k2, k3⟩ := buildIncremental_rmIs_remove (E := { E with model := m' })
      (hm.links.of_heap rfl rfl) ha' hn eff
      (fun r hr => (hm.groups pt a ha).2 r (heff r hr).1)
      (fun r hr x y hl => ⟨pt, a, ha, r, (heff r hr).1, hl⟩)
    obtain ⟨E2, q1, q2⟩ := edit_ok (link := linkIfG c!"g" .remove pt eff)
      (c := .removeFiltered c!"g" pt i vs)
      (E := { E with model := m' }) (by rw [linkIfG_g]; exact k1) k2 hacc
    have hauto2 : E2.autoBuild = true := by
      rw [q2.2.2.2.2.2.2.1, k2.2.2.2.2.2.2.2.1]; exact hauto
    obtain ⟨R, h1, _, h2⟩ := rebuild_ok (k3.noPat.of_heap q2.2.1 q2.2.2.1)
      (by rw [q2.1]; exact groupsOk_congr k2.1 hg')
    refine ⟨R, ?_, h2 pt⟩
    simp only [hex, decide_true]
    refine then_ok (x := removeFilteredI c!"g" pt i vs) (E1 := E2) ?_ hauto2 h1
    unfold removeFilteredI
    rw [M.bind_run, onModel_run, hrun]
    simp only [he, Bool.not_true, Bool.false_eq_true, if_false]
    exact q1
  · have he : (!eff.isEmpty) = false := by
      simp only [Bool.not_eq_false', List.isEmpty_iff]
      by_contra hne
      obtain ⟨r, hr⟩ := List.exists_mem_of_ne_nil _ hne
      exact hex ⟨r, heff r hr⟩
    obtain ⟨R, h1, _, h2⟩ := rebuild_ok (E := { E with model := m' })
      (hm.links.noPat.of_heap rfl rfl) hg'
    refine ⟨R, ?_, h2 pt⟩
    simp only [hex, decide_false]
    refine then_ok (x := removeFilteredI c!"g" pt i vs) (E1 := { E with model := m' }) ?_ hauto h1
    unfold removeFilteredI
    rw [M.bind_run, onModel_run, hrun]
    simp only [he, Bool.not_false, if_true, M.pure_run]

/-! ### The adapter between two calls -/

omit [IterOrder] in
/-- The answer of an adapter depends on its kind only, which only a removal of one rule changes. -/
theorem accepts_after {E R : Enforcer} {c c' : AdapterCall} (hacc : E.AdapterAccepts c')
    (hsame : R.adapter = E.adapter ∨ R.adapter = E.savedAdapter (some c))
    (hs : R.autoSave = E.autoSave) (hc : ∀ s t r, c ≠ .remove s t r) : R.AdapterAccepts c' := by
  intro b hb hsave
  rw [hs] at hsave
  rcases hsame with h | h
  · rw [h] at hb; exact hacc b hb hsave
  · rw [h] at hb
    simp only [savedAdapter, Option.map_eq_some_iff, hsave, if_true] at hb
    obtain ⟨a, ha, rfl⟩ := hb
    have := hacc a ha hsave
    have key : (Adapter.edit c' (Adapter.edit c a).2).1 = (Adapter.edit c' a).1 := by
      obtain ⟨kind, log⟩ := a
      cases kind with
      | string l =>
        cases c with
        | remove s t r => exact absurd rfl (hc s t r)
        | _ => cases c' <;> rfl
      | file p d w b => rfl
      | custom v f b l resp => rfl
    rw [key]; exact this

/-! ### The API of roles -/

/-- `HasRoleForUser` answers whether the link is there. -/
theorem hasRole_run {E : Enforcer} {rm : RM} (h : RmOk E rm) {a : Assertion}
    (ha : E.model.find c!"g" c!"g" = some a) (hw : a.rm = some E.rm) (x y : Str) :
    ∃ b, hasRoleForUser x y E = (.ok b, E) ∧ (b = true ↔ rm.Edge x y) := by
  obtain ⟨rs, h1, h2⟩ := RM.getRoles_plain h.nopat x
  have hset : E.heap.set E.rm rm = E.heap := by
    obtain ⟨g1, g2⟩ := List.getElem?_eq_some_iff.mp h.here
    rw [← g2]; exact List.set_getElem_self g1
  refine ⟨rs.any (fun r => decide (r = y)), ?_, ?_⟩
  · simp only [hasRoleForUser, getRolesForUser, onGRm, M.bind_run, M.get_run, ha, hw]
    rw [onRm_run h.here, h1, hset]
    rfl
  · rw [← h2]; simp

/-- The one grouping type `g` has two places and rules of two values. -/
structure TwoPlace (E : Enforcer) (rs : List Rule) : Prop where
  stored : ∃ a, E.model.find c!"g" c!"g" = some a ∧ a.policy.items = rs ∧ countChar '_' a.value = 2
  only : ∀ t a, E.model.find c!"g" t = some a → t = c!"g"
  pairs : ∀ r ∈ rs, r.length = 2

omit [IterOrder] in
theorem twoPlace_links {E : Enforcer} {rs : List Rule} (h : TwoPlace E rs) (x y : Str) :
    StoredLinks E.model x y ↔ [x, y] ∈ rs := by
  obtain ⟨a, ha, hi, hv⟩ := h.stored
  constructor
  · rintro ⟨t, b, hb, r, hr, hl⟩
    cases h.only t b hb
    rw [ha] at hb; cases hb
    rcases hl with ⟨_, p, q, rest, rfl, rfl, rfl⟩ | ⟨h3, _⟩
    · rw [hi] at hr
      have := h.pairs _ hr
      have : rest = [] := by
        cases rest with
        | nil => rfl
        | cons _ _ => simp at this
      rwa [this] at hr
    · omega
  · intro hr
    exact ⟨_, a, ha, _, hi ▸ hr, .inl ⟨hv, x, y, [], rfl, rfl, rfl⟩⟩

/-! ### Loops over names -/

/-- The rules of the policy `p` that the loop of `GetImplicitPermissionsForUser` collects. -/
theorem implicitPermLoop_run {E : Enforcer} {rs : List Rule} (h : Stored E c!"p" c!"p" rs)
    {D : List Str} (hD : D.length ≤ 1) (hDne : ∀ d ∈ D, d ≠ []) (hl : ∀ r ∈ rs, D.length < r.length) :
    ∀ names : List Str, names.Nodup → (∀ x ∈ names, x ≠ []) →
    ∃ res, implicitPermLoop D names E = (.ok res, E) ∧ ∀ r, res.count r =
      if (∃ x ∈ names, r[0]? = some x) ∧ (∀ d ∈ D, r[1]? = some d) then rs.count r else 0 := by
  obtain ⟨a, ha, rfl⟩ := h
  -- one name
  have one : ∀ x, x ≠ [] → ∃ l, (match (generalizing := false) D with
      | [d] => getPermissionsForUserInDomain x d
      | _ => getPermissionsForUser x : M Enforcer Policies) E = (.ok (.vector l), E) ∧
      ∀ r, l.count r = if r[0]? = some x ∧ (∀ d ∈ D, r[1]? = some d)
        then a.policy.items.count r else 0 := by
    intro x hx
    have fin : ∀ vs, (∀ r ∈ a.policy.items, Model.LongEnough r 0 vs) →
        (∀ r, Model.FilterMatch r 0 vs ↔ r[0]? = some x ∧ (∀ d ∈ D, r[1]? = some d)) →
        ∃ l, getFilteredPolicy 0 vs E = (.ok (.vector l), E) ∧
        ∀ r, l.count r = if r[0]? = some x ∧ (∀ d ∈ D, r[1]? = some d)
          then a.policy.items.count r else 0 := by
      intro vs hle hiff
      refine ⟨_, by rw [Enforcer.getFilteredPolicy, getFilteredNamedPolicy, onModel_run,
        Model.getFilteredPolicy_run ha 0 vs hle], ?_⟩
      intro r
      by_cases hr : r[0]? = some x ∧ (∀ d ∈ D, r[1]? = some d)
      · rw [if_pos hr, List.count_filter (by simpa using (hiff r).mpr hr),
          (Policies.iterate_perm a.policy).count_eq]
      · rw [if_neg hr, List.count_eq_zero]
        intro hmem
        exact hr ((hiff r).mp (by simpa using (List.mem_filter.mp hmem).2))
    match D, hD, hDne, hl, fin with
    | [], _, _, hl, fin =>
      refine fin [x] ?_ ?_
      · intro r hr
        rw [Model.longEnough_cons]
        exact ⟨fun _ => hl r hr, fun j v hj => by simp at hj⟩
      · intro r
        constructor
        · intro hf; exact ⟨hf 0 x rfl hx, by simp⟩
        · rintro ⟨h0, _⟩ j v hj _
          match j with
          | 0 => simp only [List.getElem?_cons_zero, Option.some.injEq] at hj; subst hj; exact h0
          | j + 1 => simp at hj
    | [d], _, hDne, hl, fin =>
      refine fin [x, d] ?_ ?_
      · intro r hr
        have := hl r hr
        simp only [List.length_singleton] at this
        rw [Model.longEnough_cons, Model.longEnough_cons]
        exact ⟨fun _ => by omega, fun _ => by omega, fun j v hj => by simp at hj⟩
      · intro r
        constructor
        · intro hf
          refine ⟨hf 0 x rfl hx, ?_⟩
          intro d' hd'
          simp only [List.mem_singleton] at hd'
          subst hd'
          exact hf 1 d' rfl (hDne d' (by simp))
        · rintro ⟨h0, h1⟩ j v hj _
          match j with
          | 0 => simp only [List.getElem?_cons_zero, Option.some.injEq] at hj; subst hj; exact h0
          | 1 =>
            simp only [List.getElem?_cons_succ, List.getElem?_cons_zero, Option.some.injEq] at hj
            subst hj; exact h1 d (by simp)
          | j + 2 => simp at hj
    | _ :: _ :: _, hD, _, _, _ => exact absurd hD (by simp)
  intro names
  induction names with
  | nil => intro _ _; exact ⟨[], rfl, by simp⟩
  | cons x names ih =>
    intro hnd hne
    obtain ⟨hx, hnd⟩ := List.nodup_cons.mp hnd
    obtain ⟨l, h1, h2⟩ := one x (hne x (by simp))
    obtain ⟨res, h3, h4⟩ := ih hnd (fun y hy => hne y (by simp [hy]))
    refine ⟨l ++ res, ?_, ?_⟩
    · rcases D with _ | ⟨d, _ | ⟨d', D⟩⟩ <;> simp only [] at h1 <;>
        simp only [implicitPermLoop, M.bind_run, h1, h3, M.pure_run, Policies.vector]
    · intro r
      rw [List.count_append, h2, h4]
      by_cases hd : ∀ d ∈ D, r[1]? = some d
      · by_cases h0 : r[0]? = some x
        · have : ¬ ∃ y ∈ names, r[0]? = some y := by
            rintro ⟨y, hy, hy'⟩
            rw [h0] at hy'; cases hy'
            exact hx hy
          rw [if_pos ⟨h0, hd⟩, if_neg (fun h => this h.1), if_pos ⟨⟨x, by simp, h0⟩, hd⟩, Nat.add_zero]
        · rw [if_neg (fun h => h0 h.1), Nat.zero_add]
          by_cases h5 : ∃ y ∈ names, r[0]? = some y
          · obtain ⟨y, hy, hy'⟩ := h5
            rw [if_pos ⟨⟨y, hy, hy'⟩, hd⟩, if_pos ⟨⟨y, by simp [hy], hy'⟩, hd⟩]
          · rw [if_neg (fun h => h5 h.1), if_neg]
            rintro ⟨⟨y, hy, hy'⟩, _⟩
            rcases List.mem_cons.mp hy with rfl | hy
            · exact h0 hy'
            · exact h5 ⟨y, hy, hy'⟩
      · rw [if_neg (fun h => hd h.2), if_neg (fun h => hd h.2), if_neg (fun h => hd h.2)]

/-- The loop of `GetImplicitUsersForPermission` keeps the names whose request is allowed. -/
theorem implicitUsersLoop_run {lib : ExprLib} {E : Enforcer} {r p e : Assertion}
    (hC : Consistent lib E r p) (hen : E.enabled = true)
    (he : E.model.find c!"e" c!"e" = some e) (o act : Str) : ∀ (names : List Str),
    (∀ s ∈ names, Plain E.model r p ([], [.str s, .str o, .str act])) →
    (∀ s ∈ names, ∃ b, (E.enforce lib [.str s, .str o, .str act]).1 = .ok b) →
    ∀ (ev : Option Evaluator), Consistent lib { E with eval := ev } r p →
    ∃ ev', implicitUsersLoop lib [o, act] names { E with eval := ev } =
      (.ok (names.filter fun s => decide
        ((E.enforce lib [.str s, .str o, .str act]).1 = .ok true)), { E with eval := ev' }) := by
  intro names
  induction names with
  | nil => intro _ _ ev _; exact ⟨ev, rfl⟩
  | cons s names ih =>
    intro hp hok ev hC'
    obtain ⟨ev1, h1, h2⟩ := plain_step hC hC' hen he (hp s (by simp)) []
    simp only [] at h1
    obtain ⟨b, hb⟩ := hok s (by simp)
    obtain ⟨ev2, h3⟩ := ih (fun t ht => hp t (by simp [ht])) (fun t ht => hok t (by simp [ht]))
      ev1 h2
    have hrun : ({ E with eval := ev } : Enforcer).enforce lib [.str s, .str o, .str act]
        = (.ok b, { E with eval := ev1 }) := by
      simp only [Enforcer.enforce, Enforcer.enforceWithMatcher, M.bind_run] at hb ⊢
      rw [h1]
      rcases hx : E.enforceEx lib [] [.str s, .str o, .str act] [] with ⟨ox, sx⟩
      rw [hx] at hb
      cases ox with
      | ok bx => simp only [M.pure_run] at hb ⊢; rw [hb]
      | throw e => simp at hb
      | ub u => simp at hb
    refine ⟨ev2, ?_⟩
    simp only [implicitUsersLoop, M.bind_run, M.lift_run, vecAt, List.getElem?_cons_zero,
      List.getElem?_cons_succ, hrun, h3, M.pure_run, List.filter_cons, hb, Outcome.ok.injEq]
    cases b <;> simp

end RbacProps
end Casbin
