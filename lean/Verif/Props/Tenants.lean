import Verif.Props.Locality

/-!
# C167: what is edited in one domain does not reach another

With the RBAC model with domains (examples/rbac_with_domains_model.conf), in any state in which the links
are those of the grouping rules.
-/

set_option linter.unusedSectionVars false

namespace Casbin
namespace Tenants

open Enforcer Fixtures EndToEnd StoreProps Locality PolicyProps

variable [IterOrder] {lib : ExprLib} {E : Enforcer} {P G : List Rule}

/-- The enforcer has the definitions of the domain model, the policy rules `P` and the grouping rules `G`,
and its links are those of `G`. -/
structure InStepD (lib : ExprLib) (E : Enforcer) (P G : List Rule) : Prop where
  linked : ∃ p, Linked lib E rD p eA mDom ∧ p.tokens = pTokD ∧ p.policy = .vector P
  groups : ∃ ga, E.model.find c!"g" c!"g" = some ga ∧ countChar '_' ga.value = 3 ∧ ga.policy = .vector G
  only : ∀ t, t ≠ c!"g" → E.model.find c!"g" t = none

/-- The call is not about rules of this domain: neither a policy rule nor a grouping rule that it names has
the domain in its place. -/
structure Elsewhere (e : Edit) (d : Str) : Prop where
  policy : e.target = (c!"p", c!"p") → ∀ s o a, ¬ Names e [s, d, o, a]
  grouping : e.target = (c!"g", c!"g") → ∀ x y rest, ¬ Names e (x :: y :: d :: rest)

/-- The rules a call puts in have the fields of the definition, and their domains have no colon. -/
structure Tidy (e : Edit) : Prop where
  policy : ∀ r, Brings e r → e.target = (c!"p", c!"p") → r.length = 4
  grouping : ∀ r, Brings e r → e.target = (c!"g", c!"g") → ∀ x y d rest, r = x :: y :: d :: rest → ':' ∉ d

/-- Editing calls one after the other, each of which returns, keeps links and rules together (C23), is tidy
and is about other domains. -/
def Foreign (d : Str) : List Edit → Enforcer → Prop
  | [], _ => True
  | e :: es, E => LinkProps.Faithful E e ∧ (e.run E).1.IsOk ∧ Tidy e ∧ Elsewhere e d ∧
      Foreign d es (e.run E).2

/-! ## Helpers -/

theorem InStepD.holds (h : InStepD lib E P G) :
    Holds E (c!"p", c!"p") P ∧ Holds E (c!"g", c!"g") G := by
  obtain ⟨p, hl, _, hp⟩ := h.linked
  obtain ⟨ga, hg, _, hG⟩ := h.groups
  exact ⟨⟨p, hl.setup.ready.state.defs.findP, hp⟩, ⟨ga, hg, hG⟩⟩

theorem InStepD.edit (h : InStepD lib E P G) {e : Edit} (hf : LinkProps.Faithful E e)
    (hok : (e.run E).1.IsOk) :
    InStepD lib (e.run E).2 (after e (c!"p", c!"p") P) (after e (c!"g", c!"g") G) := by
  have hh : ∀ t rs, Holds E t rs → Holds (e.run E).2 t (after e t rs) := by
    intro t rs hr
    unfold after
    split
    · rename_i ht; subst ht; exact (C150_call e hr).1
    · rename_i ht; exact (others_kept e E (Ne.symm ht)).mpr hr
  obtain ⟨hP, hG⟩ := h.holds
  obtain ⟨p, hl, ht, hp⟩ := h.linked
  obtain ⟨ga, hg, h3, _⟩ := h.groups
  obtain ⟨p', ht', hl', hv, _⟩ := hl.acts [.edit e] ⟨hf, hok, trivial⟩
  change Linked lib (e.run E).2 rD p' eA mDom at hl'
  change ∀ t, (E.model.find c!"g" t).map Assertion.value =
    ((e.run E).2.model.find c!"g" t).map Assertion.value at hv
  obtain ⟨q, hq, hq2⟩ := hh _ _ hP
  obtain ⟨gb, hgb, hgb2⟩ := hh _ _ hG
  refine ⟨⟨p', hl', ht'.trans ht, ?_⟩, ⟨gb, hgb, ?_, hgb2⟩, fun t hne => ?_⟩
  · have : some p' = some q := hl'.setup.ready.state.defs.findP.symm.trans hq
    cases this
    exact hq2
  · have := hv c!"g"
    rw [hg, hgb] at this
    simp only [Option.map_some, Option.some.injEq] at this
    rw [← this]; exact h3
  · have := hv t
    rw [h.only t hne] at this
    cases hx : (e.run E).2.model.find c!"g" t with
    | none => rfl
    | some a => rw [hx] at this; cases this

open Classical in
theorem InStepD.answer (hL : SoundLib lib) (h : InStepD lib E P G) (hlen : ∀ r ∈ P, r.length = 4)
    (hD : PlainDomains G) (sub d obj act : Str) (hd : ':' ∉ d) (hne : d ≠ []) :
    (E.enforce lib [.str sub, .str d, .str obj, .str act]).1 =
      .ok (decide (∃ s, [s, d, obj, act] ∈ P ∧ ∃ n ≤ 10, RM.Path (GrantsIn G d) n sub s)) := by
  obtain ⟨p, hl, ht, hp⟩ := h.linked
  obtain ⟨ga, hg, h3, hG⟩ := h.groups
  have := C70_domains_partial hL hl ht (by rw [hp]; rfl) (by rw [hp]; exact hlen) hg h3 h.only
    (by rw [hG]; exact hD) sub d obj act hd (.inr (.inl hne))
  rw [hp, hG] at this
  exact this

omit [IterOrder] in
theorem plain_after {e : Edit} (ht : Tidy e) (hD : PlainDomains G) :
    PlainDomains (after e (c!"g", c!"g") G) := by
  have := after_all (t := (c!"g", c!"g")) (rs := G)
    (Q := fun r => ∀ x y d rest, r = x :: y :: d :: rest → ':' ∉ d) e
    (fun r hr x y d rest he => hD x y d rest (he ▸ hr)) ht.grouping
  exact fun x y d rest hr => this _ hr x y d rest rfl

/-! ## C167 -/

section
variable (hL : SoundLib lib) (hlen : ∀ r ∈ P, r.length = 4) (hD : PlainDomains G)
  (sub d obj act : Str) (hd : ':' ∉ d) (hne : d ≠ [])
include hL hlen hD hd hne

/-- C167, one call: if it changes the answer to a request, it is about a policy rule for this domain,
object and action and a subject that the asking one is or has as a role in this domain; or about a grouping
rule of this domain for someone that the asking one is or has as a role in it. Missing: domains with a colon
(`C70_fails`), the empty domain, calls after which rules and links disagree (C23). -/
theorem C167_partial (h : InStepD lib E P G) {e : Edit} (hf : LinkProps.Faithful E e)
    (hok : (e.run E).1.IsOk) (ht : Tidy e)
    (hdiff : ((e.run E).2.enforce lib [.str sub, .str d, .str obj, .str act]).1 ≠
      (E.enforce lib [.str sub, .str d, .str obj, .str act]).1) :
    (e.target = (c!"p", c!"p") ∧
      ∃ s, Names e [s, d, obj, act] ∧ ∃ n ≤ 10, RM.Path (GrantsIn G d) n sub s) ∨
    (e.target = (c!"g", c!"g") ∧ (∃ s, [s, d, obj, act] ∈ P) ∧
      ∃ x y rest, Names e (x :: y :: d :: rest) ∧ ∃ n ≤ 9, RM.Path (GrantsIn G d) n sub x) := by
  have h1 := h.answer hL hlen hD sub d obj act hd hne
  have h2 := (h.edit hf hok).answer hL (after_all e hlen ht.policy) (plain_after ht hD) sub d obj act hd hne
  rw [h1, h2] at hdiff
  by_cases hp : e.target = (c!"p", c!"p")
  · left
    refine ⟨hp, ?_⟩
    have hg : ¬ e.target = (c!"g", c!"g") := by rw [hp]; decide
    rw [show after e (c!"p", c!"p") P = (reference e P).2 from if_pos hp,
      show after e (c!"g", c!"g") G = G from if_neg hg] at hdiff
    by_contra hno
    refine hdiff (congrArg Outcome.ok (decide_eq_decide.mpr (exists_congr fun s => ?_)))
    refine and_congr_left fun hs => ?_
    exact (changed_named e P [s, d, obj, act]).resolve_right fun hn => hno ⟨s, hn, hs⟩
  by_cases hg : e.target = (c!"g", c!"g")
  · right
    refine ⟨hg, ?_⟩
    rw [show after e (c!"p", c!"p") P = P from if_neg hp,
      show after e (c!"g", c!"g") G = (reference e G).2 from if_pos hg] at hdiff
    by_contra hno
    refine hdiff (congrArg Outcome.ok (decide_eq_decide.mpr (exists_congr fun s => ?_)))
    refine and_congr_right fun hs => ?_
    have edge : ∀ {x : Str} {n : Nat}, n ≤ 9 → RM.Path (GrantsIn G d) n sub x → ∀ y,
        (GrantsIn (reference e G).2 d x y ↔ GrantsIn G d x y) := fun {x n} hn hx y =>
      exists_congr fun rest => (changed_named e G (x :: y :: d :: rest)).resolve_right
        fun hn' => hno ⟨⟨s, hs⟩, x, y, rest, hn', n, hn, hx⟩
    refine exists_congr fun n => and_congr_right fun hn => ⟨fun hpath => ?_, fun hpath => ?_⟩
    · rcases first_missing (S := GrantsIn G d) hpath with h | ⟨x, y, k, hk, _, h2, h3, h4⟩
      · exact h
      · exact absurd ((edge (by omega) h2 y).mp h3) h4
    · rcases first_missing (S := GrantsIn (reference e G).2 d) hpath with h | ⟨x, y, k, hk, h1, _, h3, h4⟩
      · exact h
      · exact absurd ((edge (by omega) h1 y).mpr h3) h4
  · rw [show after e (c!"p", c!"p") P = P from if_neg hp,
      show after e (c!"g", c!"g") G = G from if_neg hg] at hdiff
    exact absurd rfl hdiff
end

/-- C167, histories: however many calls about other domains are made, the answers in this domain stay. -/
theorem C167_history_partial (hL : SoundLib lib) (sub d obj act : Str) (hd : ':' ∉ d) (hne : d ≠ []) :
    ∀ (es : List Edit) {E : Enforcer} {P G : List Rule}, InStepD lib E P G → (∀ r ∈ P, r.length = 4) →
      PlainDomains G → Foreign d es E →
      ((runEdits E es).enforce lib [.str sub, .str d, .str obj, .str act]).1 =
        (E.enforce lib [.str sub, .str d, .str obj, .str act]).1 := by
  intro es
  induction es with
  | nil => intro E P G _ _ _ _; rfl
  | cons e es ih =>
    intro E P G h hlen hD ⟨hf, hok, ht, hw, hrest⟩
    refine (ih (h.edit hf hok) (after_all e hlen ht.policy) (plain_after ht hD) hrest).trans ?_
    by_contra hdiff
    rcases C167_partial hL hlen hD sub d obj act hd hne h hf hok ht hdiff with
      ⟨hp, s, hn, _⟩ | ⟨hg, _, x, y, rest, hn, _⟩
    · exact hw.policy hp s obj act hn
    · exact hw.grouping hg x y rest hn

/-! ## The states -/

/-- A new enforcer with rules `P` and `G`, after `BuildRoleLinks`. -/
theorem inStepD_new (lib : ExprLib) (P : List Rule) {G : List Rule} (hG : ∀ r ∈ G, 3 ≤ r.length) :
    InStepD lib (buildRoleLinks (enforcer (domModel P G))).2 P G := by
  obtain ⟨p, t, v, l, s⟩ := linked_dom lib P G hG
  have hs := s c!"g"
  rw [show (domModel P G).find c!"g" c!"g" = some (gD G) from rfl] at hs
  cases hga : (buildRoleLinks (enforcer (domModel P G))).2.model.find c!"g" c!"g" with
  | none => rw [hga] at hs; cases hs
  | some ga =>
    rw [hga] at hs
    simp only [Option.map_some, Option.some.injEq] at hs
    refine ⟨⟨p, l, t, v⟩, ⟨ga, hga, ?_, (congrArg (fun a : Assertion => a.policy) hs).symm⟩, ?_⟩
    · rw [show ga.value = (gD G).value from (congrArg (fun a : Assertion => a.value) hs).symm]
      show countChar '_' c!"_, _, _" = 3; decide
    · intro t ht
      have s3 := s t
      rw [find_domModel P G t ht] at s3
      cases hx : (buildRoleLinks (enforcer (domModel P G))).2.model.find c!"g" t with
      | none => rfl
      | some a => rw [hx] at s3; cases s3

/-- The state is kept by any editing calls that return and keep links and rules together. -/
theorem inStepD_edit (h : InStepD lib E P G) {e : Edit} (hf : LinkProps.Faithful E e)
    (hok : (e.run E).1.IsOk) : ∃ P' G', InStepD lib (e.run E).2 P' G' :=
  ⟨_, _, h.edit hf hok⟩

/-! ## Where it stops -/

omit [IterOrder] in
/-- C167 read as "removing a rule of one domain changes nothing in another" is false: the values may be
there in another order, as a rule of another domain. -/
theorem C167_swapped_fails : ¬ ∀ (_ : IterOrder) (lib : ExprLib) (P : List Rule) (s d' o a : Str)
    (sub d obj act : Str), SoundLib lib → (∀ s ∈ P, s.length = 4) → d ≠ d' →
    (((Edit.remove false c!"p" [s, d', o, a]).run (buildRoleLinks (enforcer (domModel P []))).2).2.enforce lib
        [.str sub, .str d, .str obj, .str act]).1 =
      ((buildRoleLinks (enforcer (domModel P []))).2.enforce lib
        [.str sub, .str d, .str obj, .str act]).1 := by
  intro h
  have := h insertionOrder miniLib [[c!"alice", c!"d1", c!"d2", c!"read"], [c!"bob", c!"d2", c!"x", c!"read"]]
    c!"alice" c!"d2" c!"d1" c!"read" c!"alice" c!"d1" c!"d2" c!"read" miniLib_sound (by decide) (by decide)
  exact absurd this (by decide +kernel)

/-! ## Example -/

/-- Two domains with an administrator each. -/
def firmP : List Rule := [[c!"admin", c!"d1", c!"data1", c!"read"], [c!"admin", c!"d2", c!"data2", c!"read"]]
def firmG : List Rule := [[c!"alice", c!"admin", c!"d1"], [c!"bob", c!"admin", c!"d2"]]
def firm : Enforcer := (buildRoleLinks (enforcer (domModel firmP firmG))).2

theorem inStepD_firm : InStepD miniLib firm firmP firmG := inStepD_new miniLib firmP (by decide)

/-- Work in the second domain. -/
def e1 : Edit := .add false c!"p" [c!"alice", c!"d2", c!"data1", c!"read"]
def e2 : Edit := .add true c!"g" [c!"alice", c!"admin", c!"d2"]

theorem faithful_add (h : InStepD lib E P G) {r : Rule} (hl : 3 ≤ r.length) (hs : ∀ s ∈ G, ¬ r.Perm s) :
    LinkProps.Faithful E (.add true c!"g" r) := by
  intro a ha
  obtain ⟨ga, hg, h3, hG⟩ := h.groups
  rw [hg] at ha
  cases ha
  refine ⟨by rw [h3]; exact hl, fun hsim => ?_⟩
  rw [hG] at hsim
  obtain ⟨s, hs1, hs2⟩ := hsim
  exact absurd hs2 (hs s hs1)

theorem Foreign.cons {d : Str} {e : Edit} {es : List Edit} (h1 : LinkProps.Faithful E e)
    (h2 : (e.run E).1.IsOk) (h3 : Tidy e) (h4 : Elsewhere e d) (h5 : Foreign d es (e.run E).2) :
    Foreign d (e :: es) E := ⟨h1, h2, h3, h4, h5⟩

theorem faithful_policy (pt : Str) (r : Rule) : LinkProps.Faithful E (.add false pt r) := by
  unfold LinkProps.Faithful; trivial

theorem foreign_two (h0 : InStepD lib E P G) (o1 : (e1.run E).1.IsOk) (o2 : (e2.run (e1.run E).2).1.IsOk)
    (fresh : ∀ s ∈ after e1 (c!"g", c!"g") G, ¬ [c!"alice", c!"admin", c!"d2"].Perm s) :
    Foreign c!"d1" [e1, e2] E := by
  have f1 : LinkProps.Faithful E e1 := faithful_policy _ _
  have h1 := h0.edit (e := e1) f1 o1
  have f2 : LinkProps.Faithful (e1.run E).2 e2 := faithful_add h1 (by decide) fresh
  refine .cons f1 o1 ⟨?_, ?_⟩ ⟨?_, ?_⟩ (.cons f2 o2 ⟨?_, ?_⟩ ⟨?_, ?_⟩ trivial)
  · intro r hr _; rw [show r = _ from hr]; rfl
  · intro _ _ h; exact absurd h (by decide)
  · intro _ s o a h; simp [Names, e1] at h
  · intro h; exact absurd h (by decide)
  · intro _ _ h; exact absurd h (by decide)
  · intro r hr _ x y d rest he
    rw [show r = [c!"alice", c!"admin", c!"d2"] from hr] at he
    cases he
    decide
  · intro h; exact absurd h (by decide)
  · intro _ x y rest h; simp [Names, e2] at h

end Tenants

namespace Tenants
open Enforcer Fixtures EndToEnd StoreProps Locality PolicyProps

attribute [local instance] insertionOrder

theorem o1 : (e1.run firm).1.IsOk := by decide +kernel
theorem o2 : (e2.run (e1.run firm).2).1.IsOk := by decide +kernel

theorem fresh : ∀ s ∈ after e1 (c!"g", c!"g") firmG, ¬ [c!"alice", c!"admin", c!"d2"].Perm s := by
  decide +kernel

theorem foreign_work : Foreign c!"d1" [e1, e2] firm := foreign_two inStepD_firm o1 o2 fresh

example : ((runEdits firm [e1, e2]).enforce miniLib [.str c!"bob", .str c!"d1", .str c!"data1", .str c!"read"]).1 =
      (firm.enforce miniLib [.str c!"bob", .str c!"d1", .str c!"data1", .str c!"read"]).1 :=
  C167_history_partial miniLib_sound c!"bob" c!"d1" c!"data1" c!"read" (by decide) (by decide)
    [e1, e2]    inStepD_firm (by decide)
    (by intro x y d rest h; simp [firmG] at h; rcases h with ⟨_, _, rfl, _⟩ | ⟨_, _, rfl, _⟩ <;> decide)
    foreign_work

end Tenants
end Casbin
