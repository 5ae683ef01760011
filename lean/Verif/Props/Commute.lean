import Mathlib.Data.List.Perm.Basic
import Verif.Props.Tenants

/-!
# C174: calls about different rules can be made in either order

Two editing calls that name no rules with the same values, in whatever order these are, leave the same rules
whichever is made first, answer as they would have answered alone, and every request is decided alike.
-/

set_option linter.unusedSectionVars false

namespace Casbin
namespace Commute

open Enforcer Fixtures EndToEnd StoreProps Locality Tenants PolicyProps
open Model (FilterMatch)

variable [IterOrder] {lib : ExprLib} {E : Enforcer} {P G rs : List Rule} {e e1 e2 : Edit}

/-- No rule that one of the calls names has the values of a rule that the other names. -/
def Apart (e1 e2 : Edit) : Prop := ∀ r s, Names e1 r → Names e2 s → ¬ r.Perm s

/-- If the call has a filter, every rule is long enough for it. -/
def Enough : Edit → List Rule → Prop
  | .removeFiltered _ _ i vs, rs => ∀ r ∈ rs, ¬ Short r i vs
  | _, _ => True

/-- Both calls, in either order, find rules long enough for their filters. -/
structure Both (e1 e2 : Edit) (rs : List Rule) : Prop where
  apart : Apart e1 e2
  first : Enough e1 rs
  second : Enough e2 rs
  then1 : Enough e1 (reference e2 rs).2
  then2 : Enough e2 (reference e1 rs).2

/-! ## A call reaches only the rules it names -/

section
variable {A : Rule → Bool} (hA : ∀ s t : Rule, s.Perm t → A s = A t)
include hA

omit [IterOrder] in
theorem dropFirst_local {o : Rule} (ho : A o = true) : ∀ rs : List Rule,
    dropFirst o (rs.filter A) = (dropFirst o rs).map (List.filter A) ∧
    ∀ rs', dropFirst o rs = some rs' → rs'.filter (fun r => !A r) = rs.filter fun r => !A r
  | [] => ⟨rfl, fun _ h => by cases h⟩
  | s :: rs => by
    obtain ⟨h1, h2⟩ := dropFirst_local ho rs
    by_cases hp : o.Perm s
    · have hs : A s = true := (hA o s hp) ▸ ho
      constructor
      · rw [List.filter_cons_of_pos hs, dropFirst, dropFirst, if_pos hp, if_pos hp]; rfl
      · intro rs' h
        rw [dropFirst, if_pos hp] at h
        cases h
        rw [List.filter_cons_of_neg (by simp [hs])]
    · constructor
      · cases hs : A s with
        | true =>
          rw [List.filter_cons_of_pos hs, dropFirst, dropFirst, if_neg hp, if_neg hp, h1]
          cases dropFirst o rs with
          | none => rfl
          | some rs' => simp [List.filter_cons_of_pos hs]
        | false =>
          rw [List.filter_cons_of_neg (by simp [hs]), dropFirst, if_neg hp, h1]
          cases dropFirst o rs with
          | none => rfl
          | some rs' => simp [hs]
      · intro rs' h
        rw [dropFirst, if_neg hp] at h
        cases hd : dropFirst o rs with
        | none => rw [hd] at h; cases h
        | some rs'' =>
          rw [hd] at h
          cases h
          rw [List.filter_cons, List.filter_cons, h2 rs'' hd]

omit [IterOrder] in
theorem dropEach_local : ∀ (os rs : List Rule), (∀ o ∈ os, A o = true) →
    dropEach os (rs.filter A) = ((dropEach os rs).1, (dropEach os rs).2.filter A) ∧
    (dropEach os rs).2.filter (fun r => !A r) = rs.filter fun r => !A r
  | [], _, _ => ⟨rfl, rfl⟩
  | o :: os, rs, h => by
    obtain ⟨h1, h2⟩ := dropFirst_local hA (h o List.mem_cons_self) rs
    rw [dropEach, dropEach, h1]
    cases hd : dropFirst o rs with
    | none => exact ⟨rfl, rfl⟩
    | some rs' =>
      obtain ⟨h3, h4⟩ := dropEach_local os rs' fun o ho => h o (List.mem_cons_of_mem _ ho)
      exact ⟨h3, h4.trans (h2 rs' hd)⟩

omit [IterOrder] in
theorem appendNew_local {ns : List Rule} (hn : ∀ n ∈ ns, A n = true) (rs : List Rule) :
    appendNew ns (rs.filter A) = ((appendNew ns rs).1, (appendNew ns rs).2.filter A) ∧
    (appendNew ns rs).2.filter (fun r => !A r) = rs.filter fun r => !A r := by
  have hx : (∃ n ∈ ns, ∃ s ∈ rs.filter A, n.Perm s) ↔ ∃ n ∈ ns, ∃ s ∈ rs, n.Perm s := by
    constructor
    · rintro ⟨n, h1, s, h2, h3⟩
      exact ⟨n, h1, s, (List.mem_filter.mp h2).1, h3⟩
    · rintro ⟨n, h1, s, h2, h3⟩
      exact ⟨n, h1, s, List.mem_filter.mpr ⟨h2, hA n s h3 ▸ hn n h1⟩, h3⟩
  unfold appendNew
  by_cases h : ∃ n ∈ ns, ∃ s ∈ rs, n.Perm s
  · rw [if_pos h, if_pos (hx.mpr h)]
    exact ⟨rfl, rfl⟩
  · rw [if_neg h, if_neg fun h' => h (hx.mp h')]
    refine ⟨?_, ?_⟩
    · rw [List.filter_append, List.filter_eq_self.mpr hn]
    · rw [List.filter_append, (List.filter_eq_nil_iff (l := ns)).mpr fun n h => by simp [hn n h],
        List.append_nil]

omit [IterOrder] in
theorem reference_local (hn : ∀ s, Names e s → A s = true) (hl : Enough e rs) :
    reference e (rs.filter A) = ((reference e rs).1, (reference e rs).2.filter A) ∧
    (reference e rs).2.filter (fun r => !A r) = rs.filter fun r => !A r := by
  have one : ∀ {r : Rule}, A r = true → ∀ s ∈ [r], A s = true := by
    intro r h s hs
    rw [List.mem_singleton.mp hs]; exact h
  cases e with
  | add g pt r =>
    obtain ⟨h1, h2⟩ := appendNew_local hA (one (hn r rfl)) rs
    simp only [reference, h1]
    exact ⟨trivial, h2⟩
  | addMany g pt ns =>
    obtain ⟨h1, h2⟩ := appendNew_local hA (ns := ns) hn rs
    simp only [reference, h1]
    exact ⟨trivial, h2⟩
  | removeMany g pt ns =>
    obtain ⟨h1, h2⟩ := appendNew_local hA (ns := ns) hn rs
    simp only [reference, h1]
    exact ⟨trivial, h2⟩
  | remove g pt r =>
    obtain ⟨h1, h2⟩ := dropEach_local hA [r] rs (one (hn r (.refl r)))
    simp only [reference, h1]
    exact ⟨trivial, h2⟩
  | removeFiltered g pt i vs =>
    have hs : ¬ ∃ r ∈ rs, Short r i vs := by
      rintro ⟨r, hr, hs⟩
      exact hl r hr hs
    have hs' : ¬ ∃ r ∈ rs.filter A, Short r i vs := by
      rintro ⟨r, hr, hs⟩
      exact hl r (List.mem_filter.mp hr).1 hs
    have hm : (∃ r ∈ rs.filter A, FilterMatch r i vs) ↔ ∃ r ∈ rs, FilterMatch r i vs := by
      constructor
      · rintro ⟨r, hr, h⟩
        exact ⟨r, (List.mem_filter.mp hr).1, h⟩
      · rintro ⟨r, hr, h⟩
        exact ⟨r, List.mem_filter.mpr ⟨hr, hn r h⟩, h⟩
    simp only [reference, if_neg hs, if_neg hs', hm]
    refine ⟨?_, ?_⟩
    · rw [List.filter_filter, List.filter_filter]
      simp only [Prod.mk.injEq, true_and]
      exact List.filter_congr fun r _ => Bool.and_comm _ _
    · rw [List.filter_filter]
      refine List.filter_congr fun r _ => ?_
      by_cases h : FilterMatch r i vs
      · simp [hn r h]
      · simp [h]
  | update g pt o n =>
    obtain ⟨h1, h2⟩ := dropEach_local hA [o] rs (one (hn o (.inl (.refl o))))
    obtain ⟨h3, h4⟩ := appendNew_local hA (one (hn n (.inr rfl))) (dropEach [o] rs).2
    simp only [reference, h1]
    split
    · rw [h3]
      exact ⟨rfl, h4.trans h2⟩
    · exact ⟨rfl, h2⟩
  | updateMany pt os ns =>
    obtain ⟨h1, h2⟩ := dropEach_local hA os rs fun o ho => hn o (.inl ⟨o, ho, .refl o⟩)
    obtain ⟨h3, h4⟩ := appendNew_local hA (ns := ns) (fun n h => hn n (.inr h)) (dropEach os rs).2
    simp only [reference, h1]
    split
    · rw [h3]
      exact ⟨rfl, h4.trans h2⟩
    · exact ⟨rfl, h2⟩
end

open Classical in
/-- The rules with the values of one the call names. -/
noncomputable def touched (e : Edit) (s : Rule) : Bool := decide (∃ r, Names e r ∧ r.Perm s)

omit [IterOrder] in
theorem touched_perm (e : Edit) (s t : Rule) (h : s.Perm t) : touched e s = touched e t := by
  unfold touched
  rw [decide_eq_decide]
  constructor
  · rintro ⟨r, h1, h2⟩; exact ⟨r, h1, h2.trans h⟩
  · rintro ⟨r, h1, h2⟩; exact ⟨r, h1, h2.trans h.symm⟩

omit [IterOrder] in
theorem touched_named {s : Rule} (h : Names e s) : touched e s = true := by
  unfold touched
  simp only [decide_eq_true_eq]
  exact ⟨s, h, .refl s⟩

omit [IterOrder] in
theorem touched_apart (h : Apart e1 e2) {s : Rule} (hs : Names e2 s) : (!touched e1 s) = true := by
  unfold touched
  rw [Bool.not_eq_true', decide_eq_false_iff_not]
  rintro ⟨r, h1, h2⟩
  exact h r s h1 hs h2

omit [IterOrder] in
theorem not_not_filter (A : Rule → Bool) (rs : List Rule) :
    (rs.filter fun r => !(fun r => !A r) r) = rs.filter A := by simp

omit [IterOrder] in
/-- The reference of C150: either order gives the same rules and the same answers. -/
theorem reference_both (h : Both e1 e2 rs) :
    (reference e2 (reference e1 rs).2).2.Perm (reference e1 (reference e2 rs).2).2 ∧
    (reference e1 (reference e2 rs).2).1 = (reference e1 rs).1 ∧
    (reference e2 (reference e1 rs).2).1 = (reference e2 rs).1 := by
  have p1 := touched_perm e1
  have p2 : ∀ s t : Rule, s.Perm t → (!touched e1 s) = !touched e1 t := fun s t h => by rw [p1 s t h]
  have n1 : ∀ s, Names e1 s → touched e1 s = true := fun s => touched_named
  have n2 : ∀ s, Names e2 s → (!touched e1 s) = true := fun s => touched_apart h.apart
  obtain ⟨a1, a2⟩ := reference_local p1 n1 h.first
  obtain ⟨b1, b2⟩ := reference_local (A := fun r => !touched e1 r) p2 n2 h.second
  obtain ⟨c1, c2⟩ := reference_local p1 n1 h.then1
  obtain ⟨d1, d2⟩ := reference_local (A := fun r => !touched e1 r) p2 n2 h.then2
  rw [not_not_filter, not_not_filter] at b2 d2
  rw [b2, a1] at c1
  rw [a2, b1] at d1
  obtain ⟨c3, c4⟩ := Prod.mk.inj c1
  obtain ⟨d3, d4⟩ := Prod.mk.inj d1
  refine ⟨?_, c3.symm, d3.symm⟩
  refine (List.filter_append_perm (touched e1) _).symm.trans (.trans ?_ (List.filter_append_perm (touched e1) _))
  have x1 : (reference e2 (reference e1 rs).2).2.filter (touched e1)
      = (reference e1 (reference e2 rs).2).2.filter (touched e1) := by rw [d2, c4]
  have x2 : ((reference e2 (reference e1 rs).2).2.filter fun r => !touched e1 r)
      = (reference e1 (reference e2 rs).2).2.filter fun r => !touched e1 r := by rw [c2, ← d4]
  rw [x1, x2]

/-! ## C174 -/

omit [IterOrder] in
theorem holds_unique {t : Str × Str} {rs' : List Rule} (h : Holds E t rs) (h' : Holds E t rs') : rs = rs' := by
  obtain ⟨a, h1, h2⟩ := h
  obtain ⟨b, h3, h4⟩ := h'
  cases h1.symm.trans h3
  cases h2.symm.trans h4
  rfl

theorem holds_after {t : Str × Str} (h : Holds E t rs) (e : Edit) : Holds (e.run E).2 t (after e t rs) := by
  unfold after
  split
  · rename_i ht; subst ht; exact (C150_call e h).1
  · rename_i ht; exact (others_kept e E (Ne.symm ht)).mpr h

omit [IterOrder] in
theorem after_both {t : Str × Str} (h : e1.target = t → e2.target = t → Both e1 e2 rs) :
    (after e2 t (after e1 t rs)).Perm (after e1 t (after e2 t rs)) := by
  unfold after
  by_cases h1 : e1.target = t <;> by_cases h2 : e2.target = t <;> simp only [h1, h2, if_true, if_false]
  · exact (reference_both (h h1 h2)).1
  all_goals exact .refl _

/-- C174 for the rules of every policy type kept in a vector: they are the same up to their order, whatever
the adapter, the links and the exceptions. -/
theorem C174_rules {t : Str × Str} (ht : Holds E t rs) (h : e1.target = t → e2.target = t → Both e1 e2 rs) :
    ∃ rs1 rs2, Holds (e2.run (e1.run E).2).2 t rs1 ∧ Holds (e1.run (e2.run E).2).2 t rs2 ∧ rs1.Perm rs2 :=
  ⟨_, _, holds_after (holds_after ht e1) e2, holds_after (holds_after ht e2) e1, after_both h⟩

/-- C174 for the answers: a call answers as it would have answered before the other. -/
theorem C174_answer (ht : Holds E e1.target rs) (h : e1.target = e2.target → Both e1 e2 rs) {b b' : Bool}
    (hb : (e1.run E).1 = .ok b) (hb' : (e1.run (e2.run E).2).1 = .ok b') : b = b' := by
  have r1 := (C150_call e1 ht).2 b hb
  have r2 := (C150_call e1 (holds_after ht e2)).2 b' hb'
  unfold after at r2
  split at r2
  · next h2 =>
    rw [(reference_both (h h2.symm)).2.1] at r2
    exact Outcome.ok.inj (r1.symm.trans r2)
  · exact Outcome.ok.inj (r1.symm.trans r2)

open Classical in
/-- C174 for the decisions of the RBAC model. -/
theorem C174_decision (hL : SoundLib lib) (h : InStep lib E P G)
    (hp : e1.target = (c!"p", c!"p") → e2.target = (c!"p", c!"p") → Both e1 e2 P)
    (hg : e1.target = (c!"g", c!"g") → e2.target = (c!"g", c!"g") → Both e1 e2 G)
    (h12 : LinkProps.AllFaithful [e1, e2] E) (h21 : LinkProps.AllFaithful [e2, e1] E)
    (hlen : ∀ r ∈ after e2 (c!"p", c!"p") (after e1 (c!"p", c!"p") P), r.length = 3)
    (sub obj act : Str) (hne : obj ≠ [] ∨ act ≠ []) :
    ((e2.run (e1.run E).2).2.enforce lib [.str sub, .str obj, .str act]).1
      = ((e1.run (e2.run E).2).2.enforce lib [.str sub, .str obj, .str act]).1 := by
  have s1 := (h.edit h12.1 h12.2.1).edit h12.2.2.1 h12.2.2.2.1
  have s2 := (h.edit h21.1 h21.2.1).edit h21.2.2.1 h21.2.2.2.1
  have qp := after_both hp
  have qg := after_both hg
  rw [s1.answer hL hlen sub obj act hne,
    s2.answer hL (fun r hr => hlen r (qp.mem_iff.mpr hr)) sub obj act hne]
  have hgr : Grants (after e2 (c!"g", c!"g") (after e1 (c!"g", c!"g") G))
      = Grants (after e1 (c!"g", c!"g") (after e2 (c!"g", c!"g") G)) := by
    funext x y
    unfold Grants
    simp only [qg.mem_iff]
  rw [hgr]
  simp only [qp.mem_iff]

open Classical in
/-- C174 for the decisions of the model with domains. -/
theorem C174_domains_partial (hL : SoundLib lib) (h : InStepD lib E P G)
    (hp : e1.target = (c!"p", c!"p") → e2.target = (c!"p", c!"p") → Both e1 e2 P)
    (hg : e1.target = (c!"g", c!"g") → e2.target = (c!"g", c!"g") → Both e1 e2 G)
    (h12 : LinkProps.AllFaithful [e1, e2] E) (h21 : LinkProps.AllFaithful [e2, e1] E)
    (hlen : ∀ r ∈ after e2 (c!"p", c!"p") (after e1 (c!"p", c!"p") P), r.length = 4)
    (hD : PlainDomains (after e2 (c!"g", c!"g") (after e1 (c!"g", c!"g") G)))
    (sub d obj act : Str) (hd : ':' ∉ d) (hne : d ≠ []) :
    ((e2.run (e1.run E).2).2.enforce lib [.str sub, .str d, .str obj, .str act]).1
      = ((e1.run (e2.run E).2).2.enforce lib [.str sub, .str d, .str obj, .str act]).1 := by
  have s1 := (h.edit h12.1 h12.2.1).edit h12.2.2.1 h12.2.2.2.1
  have s2 := (h.edit h21.1 h21.2.1).edit h21.2.2.1 h21.2.2.2.1
  have qp := after_both hp
  have qg := after_both hg
  have hD' : PlainDomains (after e1 (c!"g", c!"g") (after e2 (c!"g", c!"g") G)) := by
    unfold PlainDomains at hD ⊢
    simpa only [qg.mem_iff] using hD
  rw [s1.answer hL hlen hD sub d obj act hd hne,
    s2.answer hL (fun r hr => hlen r (qp.mem_iff.mpr hr)) hD' sub d obj act hd hne]
  have hgr : GrantsIn (after e2 (c!"g", c!"g") (after e1 (c!"g", c!"g") G)) d
      = GrantsIn (after e1 (c!"g", c!"g") (after e2 (c!"g", c!"g") G)) d := by
    funext x y
    unfold GrantsIn
    simp only [qg.mem_iff]
  rw [hgr]
  simp only [qp.mem_iff]

/-! ## Witnesses and examples -/

omit [IterOrder] in
/-- It is not enough that the rules are different: of two with the same values in another order only the one
that comes first is added. -/
theorem C174_swapped_fails : ¬ ∀ (_ : IterOrder) (E : Enforcer) (rs : List Rule) (e1 e2 : Edit),
    Holds E (c!"p", c!"p") rs → e1.target = (c!"p", c!"p") → e2.target = (c!"p", c!"p") →
    (∀ r s, Names e1 r → Names e2 s → r ≠ s) →
    ∃ rs1 rs2, Holds (e2.run (e1.run E).2).2 (c!"p", c!"p") rs1 ∧
      Holds (e1.run (e2.run E).2).2 (c!"p", c!"p") rs2 ∧ rs1.Perm rs2 := by
  intro h
  let := insertionOrder
  have h0 : Holds (acl []) (c!"p", c!"p") [] := ⟨_, rfl, rfl⟩
  obtain ⟨rs1, rs2, h1, h2, hp⟩ := h insertionOrder (acl []) []
    (.add false c!"p" [c!"a", c!"b", c!"c"]) (.add false c!"p" [c!"b", c!"a", c!"c"]) h0 rfl rfl
    (by rintro r s rfl rfl; decide)
  have x1 := holds_unique h1 (holds_after (holds_after h0 _) _)
  have x2 := holds_unique h2 (holds_after (holds_after h0 _) _)
  subst x1 x2
  exact absurd hp (by decide)

/-- Taking Alice's rules out by a filter and putting Bob's in. -/
theorem both_filter : Both (.removeFiltered false c!"p" 0 [c!"alice"]) (.add false c!"p" bob) [alice] where
  apart r s hr hs hp := by
    cases hs
    have := hr 0 c!"alice" rfl (by decide)
    exact absurd (hp.mem_iff.mp (List.mem_of_getElem? this)) (by decide)
  first := by show ∀ r ∈ _, _; decide
  second := trivial
  then1 := by show ∀ r ∈ _, _; decide
  then2 := trivial

example {E : Enforcer} (h : Holds E (c!"p", c!"p") [alice]) :
    let e1 : Edit := .removeFiltered false c!"p" 0 [c!"alice"]
    let e2 : Edit := .add false c!"p" bob
    ∃ rs1 rs2, Holds (e2.run (e1.run E).2).2 (c!"p", c!"p") rs1 ∧
      Holds (e1.run (e2.run E).2).2 (c!"p", c!"p") rs2 ∧ rs1.Perm rs2 := C174_rules h fun _ _ => both_filter

example :
    letI := insertionOrder
    ((Edit.removeFiltered false c!"p" 0 [c!"alice"]).run (acl [alice])).1 = .ok true ∧
    ((Edit.removeFiltered false c!"p" 0 [c!"alice"]).run
      ((Edit.add false c!"p" bob).run (acl [alice])).2).1 = .ok true := by decide +kernel

/-- Bob, who has the role Alice, loses her rules by the filter whether they get their own before or after. -/
example (sub : Str) :
    letI := insertionOrder
    let E := (buildRoleLinks (rbac [alice] [[c!"bob", c!"alice"]])).2
    let e1 : Edit := .removeFiltered false c!"p" 0 [c!"alice"]
    let e2 : Edit := .add false c!"p" bob
    ((e2.run (e1.run E).2).2.enforce miniLib [.str sub, .str c!"data1", .str c!"read"]).1
      = ((e1.run (e2.run E).2).2.enforce miniLib [.str sub, .str c!"data1", .str c!"read"]).1 := by
  let := insertionOrder
  exact C174_decision miniLib_sound (inStep_new miniLib [alice] (by decide))
    (e1 := .removeFiltered false c!"p" 0 [c!"alice"]) (e2 := .add false c!"p" bob)
    (fun _ _ => both_filter) (fun h => absurd h (by decide))
    ⟨trivial, by decide +kernel, trivial, by decide +kernel, trivial⟩
    ⟨trivial, by decide +kernel, trivial, by decide +kernel, trivial⟩ (by decide) sub _ _ (.inl (by decide))

/-- Two roles in two domains, in either order. -/
theorem two_domains (sub : Str) {r1 r2 : Rule} (E : Enforcer) (h : InStepD lib E [] []) (hL : SoundLib lib)
    (h1 : r1 = [c!"alice", c!"admin", c!"d1"]) (h2 : r2 = [c!"alice", c!"admin", c!"d2"])
    (k1 : ((Edit.add true c!"g" r1).run E).1.IsOk) (k2 : ((Edit.add true c!"g" r2).run E).1.IsOk)
    (k12 : ((Edit.add true c!"g" r2).run ((Edit.add true c!"g" r1).run E).2).1.IsOk)
    (k21 : ((Edit.add true c!"g" r1).run ((Edit.add true c!"g" r2).run E).2).1.IsOk) :
    (((Edit.add true c!"g" r2).run ((Edit.add true c!"g" r1).run E).2).2.enforce lib
        [.str sub, .str c!"d1", .str c!"data1", .str c!"read"]).1
      = (((Edit.add true c!"g" r1).run ((Edit.add true c!"g" r2).run E).2).2.enforce lib
        [.str sub, .str c!"d1", .str c!"data1", .str c!"read"]).1 := by
  subst h1 h2
  have f1 := faithful_add h (r := [c!"alice", c!"admin", c!"d1"]) (by decide) (by simp)
  have f2 := faithful_add h (r := [c!"alice", c!"admin", c!"d2"]) (by decide) (by simp)
  have f12 := faithful_add (h.edit f1 k1) (r := [c!"alice", c!"admin", c!"d2"]) (by decide) (by decide)
  have f21 := faithful_add (h.edit f2 k2) (r := [c!"alice", c!"admin", c!"d1"]) (by decide) (by decide)
  refine C174_domains_partial hL h (e1 := .add true c!"g" [c!"alice", c!"admin", c!"d1"])
    (e2 := .add true c!"g" [c!"alice", c!"admin", c!"d2"]) (fun h => absurd h (by decide)) (fun _ _ => ⟨?_, trivial, trivial, trivial, trivial⟩)
    ⟨f1, k1, f12, k12, trivial⟩ ⟨f2, k2, f21, k21, trivial⟩ (by decide) ?_ sub _ _ _ (by decide) (by decide)
  · rintro r s rfl rfl; decide
  · intro x y d rest hm
    have e : after (Edit.add true c!"g" [c!"alice", c!"admin", c!"d2"]) (c!"g", c!"g")
        (after (Edit.add true c!"g" [c!"alice", c!"admin", c!"d1"]) (c!"g", c!"g") [])
        = [[c!"alice", c!"admin", c!"d1"], [c!"alice", c!"admin", c!"d2"]] := by decide
    rw [e] at hm
    simp only [List.mem_cons, List.cons.injEq, List.not_mem_nil, or_false] at hm
    rcases hm with ⟨_, _, rfl, _⟩ | ⟨_, _, rfl, _⟩ <;> decide

example (sub : Str) :
    letI := insertionOrder
    let E := (buildRoleLinks (enforcer (domModel [] []))).2
    let a : Edit := .add true c!"g" [c!"alice", c!"admin", c!"d1"]
    let b : Edit := .add true c!"g" [c!"alice", c!"admin", c!"d2"]
    ((b.run (a.run E).2).2.enforce miniLib [.str sub, .str c!"d1", .str c!"data1", .str c!"read"]).1
      = ((a.run (b.run E).2).2.enforce miniLib [.str sub, .str c!"d1", .str c!"data1", .str c!"read"]).1 := by
  let := insertionOrder
  exact two_domains sub _ (inStepD_new miniLib [] (by decide)) miniLib_sound rfl rfl (by decide +kernel)
    (by decide +kernel) (by decide +kernel) (by decide +kernel)

end Commute
end Casbin
