import Verif.Props.EndToEnd
import Verif.Props.Store

/-!
# C166: a change of the rules reaches only the requests it is about

With the RBAC model, in any state in which the links are those of the grouping rules. `Names` says which
rules a call is about from its arguments alone.
-/

set_option linter.unusedSectionVars false

namespace Casbin
namespace Locality

open Enforcer Fixtures EndToEnd StoreProps
open Model (FilterMatch)

variable [IterOrder] {lib : ExprLib} {E : Enforcer} {P G : List Rule}

/-! ## What a call is about -/

/-- The call is about this rule: it is given, has the values of a rule given for removal in some order
(`ArrayEquals`), or passes the filter given. -/
def Names : Edit → Rule → Prop
  | .add _ _ n, r => r = n
  | .addMany _ _ ns, r => r ∈ ns
  | .removeMany _ _ ns, r => r ∈ ns
  | .remove _ _ o, r => o.Perm r
  | .removeFiltered _ _ i vs, r => FilterMatch r i vs
  | .update _ _ o n, r => o.Perm r ∨ r = n
  | .updateMany _ os ns, r => (∃ o ∈ os, o.Perm r) ∨ r ∈ ns

/-- The call is given this rule to put in. -/
def Brings : Edit → Rule → Prop
  | .add _ _ n, r => r = n
  | .addMany _ _ ns, r => r ∈ ns
  | .removeMany _ _ ns, r => r ∈ ns
  | .update _ _ _ n, r => r = n
  | .updateMany _ _ ns, r => r ∈ ns
  | _, _ => False

/-- The call is one that only puts rules in. `RemovePolicies` and `RemoveNamedGroupingPolicies` are two of
them (C31). -/
def PutsIn : Edit → Prop
  | .add .. | .addMany .. | .removeMany .. => True
  | _ => False

/-- The call is one that only takes rules out. -/
def TakesOut : Edit → Prop
  | .remove .. | .removeFiltered .. => True
  | _ => False

/-- The enforcer has the definitions of the RBAC model, the policy rules `P` and the grouping rules `G`, and
its links are those of `G`. -/
structure InStep (lib : ExprLib) (E : Enforcer) (P G : List Rule) : Prop where
  linked : ∃ p, Linked lib E rA p eA mRbac ∧ p.tokens = pTok ∧ p.policy = .vector P
  groups : ∃ ga, E.model.find c!"g" c!"g" = some ga ∧ countChar '_' ga.value = 2 ∧ ga.policy = .vector G
  only : ∀ t, t ≠ c!"g" → E.model.find c!"g" t = none

/-! ## Helpers -/

omit [IterOrder] in
theorem dropFirst_mem {o : Rule} : ∀ {rs rs' : List Rule}, dropFirst o rs = some rs' →
    (∀ r ∈ rs', r ∈ rs) ∧ ∀ r ∈ rs, r ∈ rs' ∨ o.Perm r := by
  intro rs
  induction rs with
  | nil => intro rs' h; cases h
  | cons s rs ih =>
    intro rs' h
    simp only [dropFirst] at h
    split at h
    · rename_i hp
      cases h
      refine ⟨fun r hr => List.mem_cons_of_mem _ hr, fun r hr => ?_⟩
      rcases List.mem_cons.mp hr with rfl | hr
      · exact .inr hp
      · exact .inl hr
    · cases hd : dropFirst o rs with
      | none => rw [hd] at h; cases h
      | some rs'' =>
        rw [hd] at h
        cases h
        obtain ⟨h1, h2⟩ := ih hd
        refine ⟨fun r hr => ?_, fun r hr => ?_⟩
        · rcases List.mem_cons.mp hr with rfl | hr
          · exact List.mem_cons_self
          · exact List.mem_cons_of_mem _ (h1 r hr)
        · rcases List.mem_cons.mp hr with rfl | hr
          · exact .inl List.mem_cons_self
          · exact (h2 r hr).imp (List.mem_cons_of_mem _) id

omit [IterOrder] in
theorem dropEach_mem : ∀ {os rs : List Rule},
    (∀ r ∈ (dropEach os rs).2, r ∈ rs) ∧ ∀ r ∈ rs, r ∈ (dropEach os rs).2 ∨ ∃ o ∈ os, o.Perm r := by
  intro os
  induction os with
  | nil => intro rs; exact ⟨fun r h => h, fun r h => .inl h⟩
  | cons o os ih =>
    intro rs
    simp only [dropEach]
    cases hd : dropFirst o rs with
    | none => exact ⟨fun r h => h, fun r h => .inl h⟩
    | some rs' =>
      obtain ⟨h1, h2⟩ := dropFirst_mem hd
      obtain ⟨h3, h4⟩ := ih (rs := rs')
      refine ⟨fun r hr => h1 r (h3 r hr), fun r hr => ?_⟩
      rcases h2 r hr with h | h
      · rcases h4 r h with h | ⟨x, hx, hp⟩
        · exact .inl h
        · exact .inr ⟨x, List.mem_cons_of_mem _ hx, hp⟩
      · exact .inr ⟨o, List.mem_cons_self, h⟩

omit [IterOrder] in
theorem appendNew_mem {ns rs : List Rule} :
    (∀ r ∈ rs, r ∈ (appendNew ns rs).2) ∧ ∀ r ∈ (appendNew ns rs).2, r ∈ rs ∨ r ∈ ns := by
  unfold appendNew
  split
  · exact ⟨fun r h => h, fun r h => .inl h⟩
  · exact ⟨fun r h => List.mem_append_left _ h, fun r h => List.mem_append.mp h⟩

omit [IterOrder] in
/-- A rule comes or goes only if the call is about it. -/
theorem changed_named (e : Edit) (rs : List Rule) (r : Rule) :
    (r ∈ (reference e rs).2 ↔ r ∈ rs) ∨ Names e r := by
  have app : ∀ ns : List Rule, (r ∈ (appendNew ns rs).2 ↔ r ∈ rs) ∨ r ∈ ns := by
    intro ns
    by_cases h : r ∈ ns
    · exact .inr h
    · exact .inl ⟨fun hr => (appendNew_mem.2 r hr).resolve_right h, appendNew_mem.1 r⟩
  have both : ∀ os ns : List Rule,
      (r ∈ (if (dropEach os rs).1 then ((.ok (appendNew ns (dropEach os rs).2).1 : Outcome Bool),
        (appendNew ns (dropEach os rs).2).2) else (.ok false, (dropEach os rs).2)).2 ↔ r ∈ rs) ∨
      (∃ o ∈ os, o.Perm r) ∨ r ∈ ns := by
    intro os ns
    by_cases h1 : ∃ o ∈ os, o.Perm r
    · exact .inr (.inl h1)
    by_cases h2 : r ∈ ns
    · exact .inr (.inr h2)
    left
    have hd : r ∈ (dropEach os rs).2 ↔ r ∈ rs :=
      ⟨dropEach_mem.1 r, fun h => (dropEach_mem.2 r h).resolve_right h1⟩
    split
    · exact ⟨fun hr => hd.mp ((appendNew_mem.2 r hr).resolve_right h2),
        fun hr => appendNew_mem.1 r (hd.mpr hr)⟩
    · exact hd
  cases e with
  | add g pt n => exact (app [n]).imp id (fun h => by simpa [Names] using h)
  | addMany g pt ns => exact app ns
  | removeMany g pt ns => exact app ns
  | remove g pt o =>
    by_cases h : o.Perm r
    · exact .inr h
    · refine .inl ⟨dropEach_mem.1 r, fun hr => (dropEach_mem.2 r hr).resolve_right ?_⟩
      rintro ⟨x, hx, hp⟩
      rw [List.mem_singleton.mp hx] at hp
      exact h hp
  | removeFiltered g pt i vs =>
    simp only [reference, Names]
    split
    · exact .inl Iff.rfl
    · by_cases h : FilterMatch r i vs
      · exact .inr h
      · exact .inl (by simp [h])
  | update g pt o n =>
    exact (both [o] [n]).imp id fun h => by simpa [Names] using h
  | updateMany pt os ns => exact both os ns

omit [IterOrder] in
/-- A rule that is there afterwards was there or was brought. -/
theorem after_brought (e : Edit) (rs : List Rule) : ∀ r ∈ (reference e rs).2, r ∈ rs ∨ Brings e r := by
  have both : ∀ os ns : List Rule,
      ∀ r ∈ (if (dropEach os rs).1 then ((.ok (appendNew ns (dropEach os rs).2).1 : Outcome Bool),
        (appendNew ns (dropEach os rs).2).2) else (.ok false, (dropEach os rs).2)).2, r ∈ rs ∨ r ∈ ns := by
    intro os ns r hr
    split at hr
    · exact (appendNew_mem.2 r hr).imp (dropEach_mem.1 r) id
    · exact .inl (dropEach_mem.1 r hr)
  intro r hr
  cases e with
  | add g pt n => exact (appendNew_mem.2 r hr).imp id (fun h => by simpa [Brings] using h)
  | addMany g pt ns => exact appendNew_mem.2 r hr
  | removeMany g pt ns => exact appendNew_mem.2 r hr
  | remove g pt o => exact .inl (dropEach_mem.1 r hr)
  | removeFiltered g pt i vs =>
    simp only [reference] at hr
    split at hr
    · exact .inl hr
    · exact .inl (List.mem_filter.mp hr).1
  | update g pt o n => exact (both [o] [n] r hr).imp id (fun h => by simpa [Brings] using h)
  | updateMany pt os ns => exact both os ns r hr

omit [IterOrder] in
theorem putsIn_mem {e : Edit} (h : PutsIn e) (rs : List Rule) : ∀ r ∈ rs, r ∈ (reference e rs).2 := by
  cases e <;> first | exact absurd h id | exact fun r hr => appendNew_mem.1 r hr

omit [IterOrder] in
theorem takesOut_mem {e : Edit} (h : TakesOut e) (rs : List Rule) : ∀ r ∈ (reference e rs).2, r ∈ rs := by
  cases e with
  | remove g pt o => exact fun r hr => dropEach_mem.1 r hr
  | removeFiltered g pt i vs =>
    intro r hr
    simp only [reference] at hr
    split at hr
    · exact hr
    · exact (List.mem_filter.mp hr).1
  | _ => exact absurd h id

omit [IterOrder] in
/-- A path in one relation that is not one in another has a first link that the other lacks. -/
theorem first_missing {R S : Str → Str → Prop} {n : Nat} {a b : Str} (h : RM.Path R n a b) :
    RM.Path S n a b ∨ ∃ x y k, k < n ∧ RM.Path R k a x ∧ RM.Path S k a x ∧ R x y ∧ ¬ S x y := by
  induction h with
  | nil a => exact .inl (.nil a)
  | @cons a b c n hab _ ih =>
    by_cases hs : S a b
    · rcases ih with h | ⟨x, y, k, hk, h1, h2, h3⟩
      · exact .inl (.cons hs h)
      · exact .inr ⟨x, y, k + 1, by omega, .cons hab h1, .cons hs h2, h3⟩
    · exact .inr ⟨a, b, 0, by omega, .nil a, .nil a, hab, hs⟩

omit [IterOrder] in
theorem path_mono {R S : Str → Str → Prop} (hs : ∀ x y, R x y → S x y) {n : Nat} {a b : Str}
    (h : RM.Path R n a b) : RM.Path S n a b := by
  induction h with
  | nil a => exact .nil a
  | cons hab _ ih => exact .cons (hs _ _ hab) ih

omit [IterOrder] in
theorem last_edge {R : Str → Str → Prop} {n : Nat} {a b : Str} (h : RM.Path R n a b) (hne : a ≠ b)
    (hno : ∀ x, ¬ R x b) : False := by
  induction h with
  | nil a => exact hne rfl
  | @cons a b c n hab _ ih =>
    by_cases hb : b = c
    · subst hb; exact hno _ hab
    · exact ih hb hno

theorem InStep.holds (h : InStep lib E P G) :
    Holds E (c!"p", c!"p") P ∧ Holds E (c!"g", c!"g") G := by
  obtain ⟨p, hl, _, hp⟩ := h.linked
  obtain ⟨ga, hg, _, hG⟩ := h.groups
  exact ⟨⟨p, hl.setup.ready.state.defs.findP, hp⟩, ⟨ga, hg, hG⟩⟩

/-- The rules of one type after the call. -/
def after (e : Edit) (t : Str × Str) (rs : List Rule) : List Rule :=
  if e.target = t then (reference e rs).2 else rs

omit [IterOrder] in
theorem after_all {Q : Rule → Prop} {t : Str × Str} {rs : List Rule} (e : Edit) (h : ∀ r ∈ rs, Q r)
    (hb : ∀ r, Brings e r → e.target = t → Q r) : ∀ r ∈ after e t rs, Q r := by
  intro r hr
  unfold after at hr
  split at hr
  · rename_i ht
    exact (after_brought e rs r hr).elim (h r) (fun hb' => hb r hb' ht)
  · exact h r hr

theorem InStep.edit (h : InStep lib E P G) {e : Edit} (hf : LinkProps.Faithful E e)
    (hok : (e.run E).1.IsOk) :
    InStep lib (e.run E).2 (after e (c!"p", c!"p") P) (after e (c!"g", c!"g") G) := by
  have hh : ∀ t rs, Holds E t rs → Holds (e.run E).2 t (after e t rs) := by
    intro t rs hr
    unfold after
    split
    · rename_i ht; subst ht; exact (C150_call e hr).1
    · rename_i ht; exact (others_kept e E (Ne.symm ht)).mpr hr
  obtain ⟨hP, hG⟩ := h.holds
  obtain ⟨p, hl, ht, hp⟩ := h.linked
  obtain ⟨ga, hg, h2, _⟩ := h.groups
  obtain ⟨p', ht', hl', hv, _⟩ := hl.acts [.edit e] ⟨hf, hok, trivial⟩
  change Linked lib (e.run E).2 rA p' eA mRbac at hl'
  change ∀ t, (E.model.find c!"g" t).map Assertion.value =
    ((e.run E).2.model.find c!"g" t).map Assertion.value at hv
  obtain ⟨q, hq, hq2⟩ := hh _ _ hP
  obtain ⟨gb, hgb, hgb2⟩ := hh _ _ hG
  refine ⟨⟨p', hl', ht'.trans ht, ?_⟩, ⟨gb, hgb, ?_, hgb2⟩, fun t hne => ?_⟩
  · have : some p' = some q := hl'.setup.ready.state.defs.findP.symm.trans hq
    cases this
    exact hq2
  · have := hv c!"g"
    rw [hg, hgb] at this
    simp only [Option.map_some, Option.some.injEq] at this
    rw [← this]; exact h2
  · have := hv t
    rw [h.only t hne] at this
    cases hx : (e.run E).2.model.find c!"g" t with
    | none => rfl
    | some a => rw [hx] at this; cases this

open Classical in
theorem InStep.answer (hL : SoundLib lib) (h : InStep lib E P G) (hlen : ∀ r ∈ P, r.length = 3)
    (sub obj act : Str) (hne : obj ≠ [] ∨ act ≠ []) :
    (E.enforce lib [.str sub, .str obj, .str act]).1 =
      .ok (decide (∃ s, [s, obj, act] ∈ P ∧ ∃ n ≤ 10, RM.Path (Grants G) n sub s)) := by
  obtain ⟨p, hl, ht, hp⟩ := h.linked
  obtain ⟨ga, hg, h2, hG⟩ := h.groups
  have := C69_rbac_partial hL hl ht (by rw [hp]; rfl) (by rw [hp]; exact hlen) hg h2 h.only sub obj act
    (.inr hne)
  rw [hp, hG] at this
  exact this

/-! ## C166 -/

section
variable (hL : SoundLib lib) (h : InStep lib E P G) {e : Edit} (hf : LinkProps.Faithful E e)
  (hok : (e.run E).1.IsOk) (hlen : ∀ r ∈ P, r.length = 3)
  (hlen' : ∀ r, Brings e r → e.target = (c!"p", c!"p") → r.length = 3)
  (sub obj act : Str) (hne : obj ≠ [] ∨ act ≠ [])
include hL h hf hok hlen hlen' hne

open Classical in
theorem answers : (E.enforce lib [.str sub, .str obj, .str act]).1 =
      .ok (decide (∃ s, [s, obj, act] ∈ P ∧ ∃ n ≤ 10, RM.Path (Grants G) n sub s)) ∧
    ((e.run E).2.enforce lib [.str sub, .str obj, .str act]).1 =
      .ok (decide (∃ s, [s, obj, act] ∈ after e (c!"p", c!"p") P ∧
        ∃ n ≤ 10, RM.Path (Grants (after e (c!"g", c!"g") G)) n sub s)) :=
  ⟨h.answer hL hlen sub obj act hne,
    (h.edit hf hok).answer hL (after_all e hlen hlen') sub obj act hne⟩

/-- C166: if a call changes the answer to a request, then either the call is about a policy rule for this
object and action and a subject that the asking one is or has as a role; or the call is about a grouping
rule for someone that the asking one is or has as a role, and there is a rule for this object and action.
Everyone else's answers stay. Missing: what C69 misses, and calls after which rules and links disagree
(C23). -/
theorem C166_partial
    (hdiff : ((e.run E).2.enforce lib [.str sub, .str obj, .str act]).1 ≠
      (E.enforce lib [.str sub, .str obj, .str act]).1) :
    (e.target = (c!"p", c!"p") ∧ ∃ s, Names e [s, obj, act] ∧ ∃ n ≤ 10, RM.Path (Grants G) n sub s) ∨
    (e.target = (c!"g", c!"g") ∧ (∃ s, [s, obj, act] ∈ P) ∧
      ∃ x y rest, Names e (x :: y :: rest) ∧ ∃ n ≤ 9, RM.Path (Grants G) n sub x) := by
  obtain ⟨h1, h2⟩ := answers hL h hf hok hlen hlen' sub obj act hne
  rw [h1, h2] at hdiff
  by_cases hp : e.target = (c!"p", c!"p")
  · left
    refine ⟨hp, ?_⟩
    have hg : ¬ e.target = (c!"g", c!"g") := by rw [hp]; decide
    rw [show after e (c!"p", c!"p") P = (reference e P).2 from if_pos hp,
      show after e (c!"g", c!"g") G = G from if_neg hg] at hdiff
    by_contra hno
    refine hdiff (congrArg Outcome.ok (decide_eq_decide.mpr (exists_congr fun s => ?_)))
    refine and_congr_left fun hs => ?_
    exact (changed_named e P [s, obj, act]).resolve_right fun hn => hno ⟨s, hn, hs⟩
  by_cases hg : e.target = (c!"g", c!"g")
  · right
    refine ⟨hg, ?_⟩
    rw [show after e (c!"p", c!"p") P = P from if_neg hp,
      show after e (c!"g", c!"g") G = (reference e G).2 from if_pos hg] at hdiff
    by_contra hno
    refine hdiff (congrArg Outcome.ok (decide_eq_decide.mpr (exists_congr fun s => ?_)))
    refine and_congr_right fun hs => ?_
    have edge : ∀ {x : Str} {n : Nat}, n ≤ 9 → RM.Path (Grants G) n sub x → ∀ y,
        (Grants (reference e G).2 x y ↔ Grants G x y) := fun {x n} hn hx y =>
      exists_congr fun rest => (changed_named e G (x :: y :: rest)).resolve_right
        fun hn' => hno ⟨⟨s, hs⟩, x, y, rest, hn', n, hn, hx⟩
    refine exists_congr fun n => and_congr_right fun hn => ⟨fun hpath => ?_, fun hpath => ?_⟩
    · rcases first_missing (S := Grants G) hpath with h | ⟨x, y, k, hk, _, h2, h3, h4⟩
      · exact h
      · exact absurd ((edge (by omega) h2 y).mp h3) h4
    · rcases first_missing (S := Grants (reference e G).2) hpath with h | ⟨x, y, k, hk, h1, _, h3, h4⟩
      · exact h
      · exact absurd ((edge (by omega) h1 y).mpr h3) h4
  · rw [show after e (c!"p", c!"p") P = P from if_neg hp,
      show after e (c!"g", c!"g") G = G from if_neg hg] at hdiff
    exact absurd rfl hdiff

/-- C166: a call that puts rules in takes no permission away. -/
theorem C166_putsIn_partial (he : PutsIn e)
    (hyes : (E.enforce lib [.str sub, .str obj, .str act]).1 = .ok true) :
    ((e.run E).2.enforce lib [.str sub, .str obj, .str act]).1 = .ok true := by
  obtain ⟨h1, h2⟩ := answers hL h hf hok hlen hlen' sub obj act hne
  rw [h1] at hyes
  rw [h2]
  have hm : ∀ t rs, ∀ r ∈ rs, r ∈ after e t rs := by
    intro t rs r hr
    unfold after
    split
    · exact putsIn_mem he rs r hr
    · exact hr
  simp only [Outcome.ok.injEq, decide_eq_true_eq] at hyes ⊢
  obtain ⟨s, hs, n, hn, hpath⟩ := hyes
  exact ⟨s, hm _ _ _ hs, n, hn, path_mono (fun x y ⟨rest, hr⟩ => ⟨rest, hm _ _ _ hr⟩) hpath⟩

/-- C166: a call that takes rules out gives no permission. -/
theorem C166_takesOut_partial (he : TakesOut e)
    (hno : (E.enforce lib [.str sub, .str obj, .str act]).1 = .ok false) :
    ((e.run E).2.enforce lib [.str sub, .str obj, .str act]).1 = .ok false := by
  obtain ⟨h1, h2⟩ := answers hL h hf hok hlen hlen' sub obj act hne
  rw [h1] at hno
  rw [h2]
  have hm : ∀ t rs, ∀ r ∈ after e t rs, r ∈ rs := by
    intro t rs r hr
    unfold after at hr
    split at hr
    · exact takesOut_mem he rs r hr
    · exact hr
  simp only [Outcome.ok.injEq, decide_eq_false_iff_not] at hno ⊢
  rintro ⟨s, hs, n, hn, hpath⟩
  exact hno ⟨s, hm _ _ _ hs, n, hn, path_mono (fun x y ⟨rest, hr⟩ => ⟨rest, hm _ _ _ hr⟩) hpath⟩

/-- C166, for a user nobody has as a role: giving or taking a role of theirs changes only their own
answers. -/
theorem C166_user_partial (user : Str) (hno : ∀ x, ¬ Grants G x user)
    (hg : e.target = (c!"g", c!"g")) (hnames : ∀ x y rest, Names e (x :: y :: rest) → x = user)
    (hsub : sub ≠ user) :
    ((e.run E).2.enforce lib [.str sub, .str obj, .str act]).1 =
      (E.enforce lib [.str sub, .str obj, .str act]).1 := by
  by_contra hdiff
  rcases C166_partial hL h hf hok hlen hlen' sub obj act hne hdiff with ⟨hp, _⟩ | ⟨_, _, x, y, rest, hn, n, _, hx⟩
  · rw [hg] at hp; exact absurd hp (by decide)
  · rw [hnames x y rest hn] at hx
    exact last_edge hx hsub hno
end

/-! ## The states -/

/-- A new enforcer with rules `P` and `G`, after `BuildRoleLinks` and any faithful history. -/
theorem inStep_history (hG : ∀ r ∈ G, 2 ≤ r.length) (acts : List Deed)
    (hf : FaithfulDeeds lib acts (buildRoleLinks (rbac P G)).2) {P' G' : List Rule}
    (hP' : Holds (runDeeds lib acts (buildRoleLinks (rbac P G)).2) (c!"p", c!"p") P')
    (hG' : Holds (runDeeds lib acts (buildRoleLinks (rbac P G)).2) (c!"g", c!"g") G') :
    InStep lib (runDeeds lib acts (buildRoleLinks (rbac P G)).2) P' G' := by
  obtain ⟨p1, t1, v1, l1, s1⟩ := linked_rbac lib P G hG
  obtain ⟨p, t2, l2, v2, hv⟩ := l1.deeds acts hf
  have hvals := fun t => (strip_value (s1 t)).trans (v2 t)
  obtain ⟨q, hq, hq2⟩ := hP'
  obtain ⟨ga, hga, hga2⟩ := hG'
  refine ⟨⟨p, l2, t2.trans t1, ?_⟩, ⟨ga, hga, ?_, hga2⟩, fun t ht => ?_⟩
  · have : some p = some q := l2.setup.ready.state.defs.findP.symm.trans hq
    cases this
    exact hq2
  · have hgv := hvals c!"g"
    rw [show (rbacModel P G).find c!"g" c!"g" = some (gA G) from rfl, hga] at hgv
    simp only [Option.map_some, Option.some.injEq] at hgv
    rw [← hgv]; show countChar '_' c!"_, _" = 2; decide
  · have := hvals t
    have hnone : (rbacModel P G).find c!"g" t = none := by
      have ht' : ¬ c!"g" = t := fun e => ht e.symm
      simp [Model.find, rbacModel, UMap.get, ht']
    rw [hnone] at this
    cases hx : (runDeeds lib acts (buildRoleLinks (rbac P G)).2).model.find c!"g" t with
    | none => rfl
    | some a => rw [hx] at this; cases this

/-- A new enforcer with rules `P` and `G`, after `BuildRoleLinks`. -/
theorem inStep_new (lib : ExprLib) (P : List Rule) {G : List Rule} (hG : ∀ r ∈ G, 2 ≤ r.length) :
    InStep lib (buildRoleLinks (rbac P G)).2 P G := by
  obtain ⟨p, t, v, l, s⟩ := linked_rbac lib P G hG
  have hs := s c!"g"
  rw [show (rbacModel P G).find c!"g" c!"g" = some (gA G) from rfl] at hs
  cases hga : (buildRoleLinks (rbac P G)).2.model.find c!"g" c!"g" with
  | none => rw [hga] at hs; cases hs
  | some ga =>
    rw [hga] at hs
    simp only [Option.map_some, Option.some.injEq] at hs
    exact inStep_history hG [] trivial ⟨p, l.setup.ready.state.defs.findP, v⟩
      ⟨ga, hga, (congrArg (fun a : Assertion => a.policy) hs).symm⟩

/-! ## Where it stops -/

omit [IterOrder] in
/-- C166 read as "taking a rule out concerns only the requests of that rule" is false: the call also takes
out a rule that has the values in another order. -/
theorem C166_swapped_fails : ¬ ∀ (_ : IterOrder) (lib : ExprLib) (P : List Rule) (r : Rule)
    (sub obj act : Str), SoundLib lib → (∀ s ∈ P, s.length = 3) →
    (((Edit.remove false c!"p" r).run (buildRoleLinks (rbac P [])).2).2.enforce lib
        [.str sub, .str obj, .str act]).1 ≠
      ((buildRoleLinks (rbac P [])).2.enforce lib [.str sub, .str obj, .str act]).1 →
    r = [sub, obj, act] := by
  intro h
  have := h insertionOrder miniLib [alice, bob] aliceSwapped c!"alice" c!"data1" c!"read" miniLib_sound
    (by decide) (by decide +kernel)
  exact absurd this (by decide)

omit [IterOrder] in
/-- C166 read as "a call that answers `false` changes nothing" is false: a grouping rule that is refused
because its values are there in another order still gives the role. -/
theorem C166_refused_fails : ¬ ∀ (_ : IterOrder) (lib : ExprLib) (P G : List Rule) (r : Rule)
    (sub obj act : Str), SoundLib lib → (∀ s ∈ P, s.length = 3) → (∀ s ∈ r :: G, s.length = 2) →
    ((Edit.add true c!"g" r).run (buildRoleLinks (rbac P G)).2).1 = .ok false →
    (((Edit.add true c!"g" r).run (buildRoleLinks (rbac P G)).2).2.enforce lib
        [.str sub, .str obj, .str act]).1 =
      ((buildRoleLinks (rbac P G)).2.enforce lib [.str sub, .str obj, .str act]).1 := by
  intro h
  have := h insertionOrder miniLib [bob] [[c!"bob", c!"staff"]] [c!"staff", c!"bob"] c!"staff" c!"data2"
    c!"write" miniLib_sound (by decide) (by decide) (by decide +kernel)
  exact absurd this (by decide +kernel)

/-! ## Examples -/

/-- Alice's rule and a rule for a role. -/
def teamP : List Rule := [alice, [c!"staff", c!"data2", c!"write"]]
/-- Bob in the role. -/
def teamG : List Rule := [[c!"bob", c!"staff"]]
/-- The enforcer with them. -/
def team : Enforcer := (buildRoleLinks (rbac teamP teamG)).2

theorem inStep_team : InStep miniLib team teamP teamG := inStep_new miniLib teamP (by decide)

/-- Giving Carol the role. -/
def hire : Edit := .add true c!"g" [c!"carol", c!"staff"]

theorem hire_faithful : LinkProps.Faithful team hire := by
  intro a ha
  obtain ⟨ga, hg, h2, hG⟩ := (inStep_team).groups
  rw [hg] at ha
  cases ha
  refine ⟨by rw [h2]; decide, ?_⟩
  rw [hG]
  intro h; exact absurd h (by decide)

/-- It does not concern Alice, and it does Carol. -/
example : letI := insertionOrder
    ((hire.run team).2.enforce miniLib [.str c!"alice", .str c!"data2", .str c!"write"]).1 =
      (team.enforce miniLib [.str c!"alice", .str c!"data2", .str c!"write"]).1 ∧
    ((hire.run team).2.enforce miniLib [.str c!"carol", .str c!"data2", .str c!"write"]).1 ≠
      (team.enforce miniLib [.str c!"carol", .str c!"data2", .str c!"write"]).1 := by
  let _ := insertionOrder
  refine ⟨C166_user_partial miniLib_sound inStep_team hire_faithful (by decide +kernel) (by decide)
    ?_ _ _ _ (.inl (by decide)) c!"carol" ?_ rfl ?_ (by decide), by decide +kernel⟩
  · exact fun _ _ ht => absurd ht (by decide)
  · rintro x ⟨rest, hr⟩
    simp [teamG] at hr
  · intro x y rest hn
    exact (List.cons.inj (show x :: y :: rest = [c!"carol", c!"staff"] from hn)).1

/-- It takes nothing from Bob. -/
example : letI := insertionOrder
    ((hire.run team).2.enforce miniLib [.str c!"bob", .str c!"data2", .str c!"write"]).1 = .ok true := by
  let _ := insertionOrder
  exact C166_putsIn_partial miniLib_sound inStep_team hire_faithful (by decide +kernel) (by decide)
    (fun _ _ ht => absurd ht (by decide)) _ _ _ (.inl (by decide)) trivial (by decide +kernel)

/-- Taking the role from Bob gives nobody a permission. -/
example : letI := insertionOrder
    (((Edit.remove true c!"g" [c!"staff", c!"bob"]).run team).2.enforce miniLib
      [.str c!"bob", .str c!"data1", .str c!"read"]).1 = .ok false := by
  let _ := insertionOrder
  exact C166_takesOut_partial (e := .remove true c!"g" [c!"staff", c!"bob"]) miniLib_sound inStep_team
    (by unfold LinkProps.Faithful; trivial) (by decide +kernel) (by decide)
    (fun _ _ ht => absurd ht (by decide)) _ _ _ (.inl (by decide)) trivial (by decide +kernel)

end Locality
end Casbin
