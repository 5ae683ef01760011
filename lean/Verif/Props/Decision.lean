import Verif.MiniLib
import Verif.EnforcerLemmas

/-!
# C01–C10, C12: decisions

The specification is `verdict` (DecisionSpec.lean): the value of the matcher's expression tree under
the names of the request and the rule, with `g` read as reachability in the role graph. `candidates`
are the rules the request is compared with: all rules of policy type `p`, or, with set storage, the
rule equal to the request.
-/

namespace Casbin
namespace DecisionProps

open Fixtures

variable [IterOrder] {lib : ExprLib} {E : Enforcer} {r p e : Assertion} {matcher exp : Str}
  {vals : List Str}

/-! ### C05 -/

/-- C05: `EnforceEx` explains with the first deciding rule, and answers by its effect; without one
the explanation is empty and the answer is the default of the effect expression. -/
theorem C05_explanation (hR : Request lib E r p e matcher exp vals) (hs : Supported e.value)
    (hne : candidates p vals ≠ [])
    (hev : ∀ rule ∈ candidates p vals, Evaluates lib E exp r p vals rule) (X : Rule) :
    ∃ b x, (E.enforceEx lib matcher (vals.map ReqVal.str) X).1 = .ok (b, x) ∧
      ((∃ i : Nat, (candidates p vals)[i]? = some x ∧ Decides lib E exp e.value r p vals x ∧
          (∀ j < i, ∀ y, (candidates p vals)[j]? = some y →
            ¬ Decides lib E exp e.value r p vals y) ∧
          (b = true ↔ HasEffect p.tokens x .allow)) ∨
       (x = [] ∧ (∀ y ∈ candidates p vals, ¬ Decides lib E exp e.value r p vals y) ∧
          (b = true ↔ e.value = exprDenyOverride))) := by
  obtain ⟨b, x, h1, h2⟩ := decision_main hR hs hne hev
  obtain ⟨ev', h3, _⟩ := enforceEx_decision hR (fun rule hr _ => (hev rule hr).text) X
  exact ⟨b, x, by rw [h3, h1], h2⟩

/-- C05: the explanation is empty exactly when no rule decided (rules are not empty). -/
theorem C05_empty_iff (hR : Request lib E r p e matcher exp vals) (hs : Supported e.value)
    (hne : candidates p vals ≠ []) (hp : p.tokens ≠ [])
    (hev : ∀ rule ∈ candidates p vals, Evaluates lib E exp r p vals rule) (X : Rule) :
    ∃ b x, (E.enforceEx lib matcher (vals.map ReqVal.str) X).1 = .ok (b, x) ∧
      (x = [] ↔ ∀ y ∈ candidates p vals, ¬ Decides lib E exp e.value r p vals y) := by
  obtain ⟨b, x, h1, h2⟩ := C05_explanation hR hs hne hev X
  refine ⟨b, x, h1, ?_⟩
  rcases h2 with ⟨i, hx, hd, _⟩ | ⟨hx, hno, _⟩
  · have hm := List.mem_of_getElem? hx
    constructor
    · intro h0
      have := (hev x hm).length
      rw [h0] at this
      exact absurd (List.length_eq_zero_iff.mp this.symm) hp
    · intro hall; exact absurd hd (hall x hm)
  · exact ⟨fun _ => hno, fun _ => hx⟩

/-! ### C01–C04 -/

/-- The answer of `Enforce`, from the explanation. -/
theorem enforce_main (hR : Request lib E r p e matcher exp vals) (hs : Supported e.value)
    (hne : candidates p vals ≠ [])
    (hev : ∀ rule ∈ candidates p vals, Evaluates lib E exp r p vals rule) :
    ∃ b, (E.enforceWithMatcher lib matcher (vals.map ReqVal.str)).1 = .ok b ∧
      ((∃ i : Nat, ∃ x, (candidates p vals)[i]? = some x ∧
          Decides lib E exp e.value r p vals x ∧
          (∀ j < i, ∀ y, (candidates p vals)[j]? = some y →
            ¬ Decides lib E exp e.value r p vals y) ∧
          (b = true ↔ HasEffect p.tokens x .allow)) ∨
       ((∀ y ∈ candidates p vals, ¬ Decides lib E exp e.value r p vals y) ∧
          (b = true ↔ e.value = exprDenyOverride))) := by
  obtain ⟨b, x, h1, h2⟩ := decision_main hR hs hne hev
  obtain ⟨ev', h3, _⟩ := enforceWithMatcher_decision hR (fun rule hr _ => (hev rule hr).text)
  refine ⟨b, by rw [h3, h1]; rfl, ?_⟩
  rcases h2 with ⟨i, h⟩ | ⟨_, h⟩
  · exact Or.inl ⟨i, x, h⟩
  · exact Or.inr h

omit [IterOrder] in
/-- A rule has one effect. -/
theorem effect_unique (hW : WellDefined E.model r p) {rule : Rule}
    (hl : rule.length = p.tokens.length) {w w' : Effect} (h : HasEffect p.tokens rule w)
    (h' : HasEffect p.tokens rule w') : w = w' := by
  obtain ⟨w0, _, hw⟩ := ruleEffect_spec (tokens_nodup hW) hl
  rw [(hw w).mp h, (hw w').mp h']

/-- C01: allow-override. -/
theorem C01_allow_override (hR : Request lib E r p e matcher exp vals)
    (heff : e.value = c!"some(where (p.eft == allow))") (hne : candidates p vals ≠ [])
    (hev : ∀ rule ∈ candidates p vals, Evaluates lib E exp r p vals rule) :
    ∃ b, (E.enforceWithMatcher lib matcher (vals.map ReqVal.str)).1 = .ok b ∧
      (b = true ↔ ∃ rule ∈ candidates p vals,
        Satisfies lib E exp r p vals rule ∧ HasEffect p.tokens rule .allow) := by
  have heff : e.value = exprAllowOverride := heff
  obtain ⟨b, h1, h2⟩ := enforce_main hR (Or.inl heff) hne hev
  have hD : ∀ y, Decides lib E exp e.value r p vals y ↔
      Satisfies lib E exp r p vals y ∧ HasEffect p.tokens y .allow := by
    intro y
    simp [Decides, heff, exprDeny_ne.symm, exprBoth_ne1.symm, exprPrio_ne1.symm]
  refine ⟨b, h1, ?_⟩
  rcases h2 with ⟨i, x, hx, hd, _, hb⟩ | ⟨hno, hb⟩
  · have := (hD x).mp hd
    exact ⟨fun _ => ⟨x, List.mem_of_getElem? hx, this⟩, fun _ => hb.mpr this.2⟩
  · constructor
    · intro h; exact absurd (hb.mp h) (by rw [heff]; exact exprDeny_ne.symm)
    · rintro ⟨y, hy, h⟩; exact absurd ((hD y).mpr h) (hno y hy)

/-- C02: deny-override. -/
theorem C02_deny_override (hR : Request lib E r p e matcher exp vals)
    (heff : e.value = c!"!some(where (p.eft == deny))") (hne : candidates p vals ≠ [])
    (hev : ∀ rule ∈ candidates p vals, Evaluates lib E exp r p vals rule) :
    ∃ b, (E.enforceWithMatcher lib matcher (vals.map ReqVal.str)).1 = .ok b ∧
      (b = false ↔ ∃ rule ∈ candidates p vals,
        Satisfies lib E exp r p vals rule ∧ HasEffect p.tokens rule .deny) := by
  have heff : e.value = exprDenyOverride := heff
  obtain ⟨b, h1, h2⟩ := enforce_main hR (Or.inr (Or.inl heff)) hne hev
  have hD : ∀ y, Decides lib E exp e.value r p vals y ↔
      Satisfies lib E exp r p vals y ∧ HasEffect p.tokens y .deny := by
    intro y
    simp [Decides, heff, exprDeny_ne, exprBoth_ne2.symm, exprPrio_ne2.symm]
  refine ⟨b, h1, ?_⟩
  rcases h2 with ⟨i, x, hx, hd, _, hb⟩ | ⟨hno, hb⟩
  · have hxm := List.mem_of_getElem? hx
    have := (hD x).mp hd
    refine ⟨fun _ => ⟨x, hxm, this⟩, fun _ => ?_⟩
    by_contra hbt
    have := effect_unique hR.state.defs (hev x hxm).length this.2 (hb.mp (by simpa using hbt))
    simp at this
  · constructor
    · intro h; rw [hb.mpr heff] at h; simp at h
    · rintro ⟨y, hy, h⟩; exact absurd ((hD y).mpr h) (hno y hy)

/-- C03: allow-and-deny. -/
theorem C03_allow_and_deny (hR : Request lib E r p e matcher exp vals)
    (heff : e.value = c!"some(where (p.eft == allow)) && !some(where (p.eft == deny))")
    (hne : candidates p vals ≠ [])
    (hev : ∀ rule ∈ candidates p vals, Evaluates lib E exp r p vals rule) :
    ∃ b, (E.enforceWithMatcher lib matcher (vals.map ReqVal.str)).1 = .ok b ∧
      (b = true ↔
        (∃ rule ∈ candidates p vals,
          Satisfies lib E exp r p vals rule ∧ HasEffect p.tokens rule .allow) ∧
        ¬ ∃ rule ∈ candidates p vals,
          Satisfies lib E exp r p vals rule ∧ HasEffect p.tokens rule .deny) := by
  have heff : e.value = exprAllowAndDeny := heff
  obtain ⟨b, h1, h2⟩ := enforce_main hR (Or.inr (Or.inr (Or.inl heff))) hne hev
  have hD : ∀ y, Decides lib E exp e.value r p vals y ↔
      Satisfies lib E exp r p vals y ∧ (HasEffect p.tokens y .deny ∨
      (HasEffect p.tokens y .allow ∧ ∀ rule' ∈ candidates p vals,
        ¬ (Satisfies lib E exp r p vals rule' ∧ HasEffect p.tokens rule' .deny))) := by
    intro y
    simp [Decides, heff, exprBoth_ne1, exprBoth_ne2, exprPrio_ne3.symm]
  refine ⟨b, h1, ?_⟩
  rcases h2 with ⟨i, x, hx, hd, _, hb⟩ | ⟨hno, hb⟩
  · have hxm := List.mem_of_getElem? hx
    obtain ⟨hsat, hdd⟩ := (hD x).mp hd
    constructor
    · intro hbt
      have hal := hb.mp hbt
      rcases hdd with hden | ⟨_, hnd⟩
      · have := effect_unique hR.state.defs (hev x hxm).length hal hden
        simp at this
      · exact ⟨⟨x, hxm, hsat, hal⟩, fun ⟨y, hy, h⟩ => hnd y hy h⟩
    · rintro ⟨_, hnd⟩
      rcases hdd with hden | ⟨hal, _⟩
      · exact absurd ⟨x, hxm, hsat, hden⟩ hnd
      · exact hb.mpr hal
  · constructor
    · intro h; exact absurd (hb.mp h) (by rw [heff]; exact exprBoth_ne2)
    · rintro ⟨⟨y, hy, hs, ha⟩, hnd⟩
      refine absurd ((hD y).mpr ⟨hs, Or.inr ⟨ha, ?_⟩⟩) (hno y hy)
      exact fun y' hy' h => hnd ⟨y', hy', h⟩

/-- C04: priority. -/
theorem C04_priority (hR : Request lib E r p e matcher exp vals)
    (heff : e.value = c!"priority(p.eft) || deny") (hne : candidates p vals ≠ [])
    (hev : ∀ rule ∈ candidates p vals, Evaluates lib E exp r p vals rule) :
    ∃ b, (E.enforceWithMatcher lib matcher (vals.map ReqVal.str)).1 = .ok b ∧
      (b = true ↔ ∃ i : Nat, ∃ rule, (candidates p vals)[i]? = some rule ∧
        Satisfies lib E exp r p vals rule ∧ HasEffect p.tokens rule .allow ∧
        ∀ j < i, ∀ rule', (candidates p vals)[j]? = some rule' →
          ¬ (Satisfies lib E exp r p vals rule' ∧
            (HasEffect p.tokens rule' .allow ∨ HasEffect p.tokens rule' .deny))) := by
  have heff : e.value = exprPriority := heff
  obtain ⟨b, h1, h2⟩ := enforce_main hR (Or.inr (Or.inr (Or.inr heff))) hne hev
  have hD : ∀ y, Decides lib E exp e.value r p vals y ↔
      Satisfies lib E exp r p vals y ∧
        (HasEffect p.tokens y .allow ∨ HasEffect p.tokens y .deny) := by
    intro y
    simp [Decides, heff, exprPrio_ne1, exprPrio_ne2, exprPrio_ne3]
  refine ⟨b, h1, ?_⟩
  rcases h2 with ⟨i, x, hx, hd, hmin, hb⟩ | ⟨hno, hb⟩
  · obtain ⟨hsat, hdd⟩ := (hD x).mp hd
    constructor
    · intro hbt
      exact ⟨i, x, hx, hsat, hb.mp hbt, fun j hj y hy h => hmin j hj y hy ((hD y).mpr h)⟩
    · rintro ⟨i', x', hx', hs', ha', hmin'⟩
      have hi : i = i' := by
        rcases Nat.lt_trichotomy i i' with h | h | h
        · exact absurd ⟨hsat, hdd⟩ (hmin' i h x hx)
        · exact h
        · exact absurd ((hD x').mpr ⟨hs', Or.inl ha'⟩) (hmin i' h x' hx')
      subst hi
      rw [hx] at hx'
      obtain rfl := Option.some.inj hx'
      exact hb.mpr ha'
  · constructor
    · intro h; exact absurd (hb.mp h) (by rw [heff]; exact exprPrio_ne2)
    · rintro ⟨i, y, hy, hs, ha, _⟩
      exact absurd ((hD y).mpr ⟨hs, Or.inl ha⟩) (hno y (List.mem_of_getElem? hy))

/-! ### Examples for C01–C05 -/

/-- Alice may read data1 by the second rule, and a third rule denies it. -/
def mixed : List Rule :=
  [[c!"bob", c!"data2", c!"write", c!"allow"], [c!"alice", c!"data1", c!"read", c!"allow"],
   [c!"alice", c!"data1", c!"read", c!"deny"]]

omit [IterOrder] in
theorem mixed_evaluates (eff : Str) (a b c : Str) :
    ∀ rule ∈ candidates (pE (.vector mixed)) [a, b, c],
      Evaluates miniLib (eft eff mixed) mAcl rA (pE (.vector mixed)) [a, b, c] rule := by
  intro rule hr
  simp only [candidates, pE, asrt, Policies.vector, mixed, Bool.false_eq_true, if_false,
    List.mem_cons, List.not_mem_nil, or_false] at hr
  rcases hr with rfl | rfl | rfl <;> exact evaluates_eft _ _ _ _ _ _ _ _ _

example : ∃ b, ((eft exprAllowOverride mixed).enforce miniLib
      [.str c!"alice", .str c!"data1", .str c!"read"]).1 = .ok b ∧
    (b = true ↔ ∃ rule ∈ mixed,
      Satisfies miniLib (eft exprAllowOverride mixed) mAcl rA (pE (.vector mixed))
        [c!"alice", c!"data1", c!"read"] rule ∧ HasEffect pTokE rule .allow) :=
  C01_allow_override (request_eft exprAllowOverride (.vector mixed) _ rfl) rfl (by decide)
    (mixed_evaluates _ _ _ _)
example : (letI := insertionOrder; (eft exprAllowOverride mixed).enforce miniLib
    [.str c!"alice", .str c!"data1", .str c!"read"]).1 = .ok true := by decide +kernel
example : (letI := insertionOrder; (eft exprAllowOverride mixed).enforce miniLib
    [.str c!"alice", .str c!"data2", .str c!"write"]).1 = .ok false := by decide +kernel

example : ∃ b, ((eft exprDenyOverride mixed).enforce miniLib
      [.str c!"alice", .str c!"data1", .str c!"read"]).1 = .ok b ∧
    (b = false ↔ ∃ rule ∈ mixed,
      Satisfies miniLib (eft exprDenyOverride mixed) mAcl rA (pE (.vector mixed))
        [c!"alice", c!"data1", c!"read"] rule ∧ HasEffect pTokE rule .deny) :=
  C02_deny_override (request_eft exprDenyOverride (.vector mixed) _ rfl) rfl (by decide)
    (mixed_evaluates _ _ _ _)
example : (letI := insertionOrder; (eft exprDenyOverride mixed).enforce miniLib
    [.str c!"alice", .str c!"data1", .str c!"read"]).1 = .ok false := by decide +kernel
example : (letI := insertionOrder; (eft exprDenyOverride mixed).enforce miniLib
    [.str c!"nobody", .str c!"data1", .str c!"read"]).1 = .ok true := by decide +kernel

example := C03_allow_and_deny (request_eft exprAllowAndDeny (.vector mixed)
  [c!"alice", c!"data1", c!"read"] rfl) rfl (by decide) (mixed_evaluates _ _ _ _)
example : (letI := insertionOrder; (eft exprAllowAndDeny mixed).enforce miniLib
    [.str c!"alice", .str c!"data1", .str c!"read"]).1 = .ok false := by decide +kernel
example : (letI := insertionOrder; (eft exprAllowAndDeny mixed).enforce miniLib
    [.str c!"bob", .str c!"data2", .str c!"write"]).1 = .ok true := by decide +kernel

example := C04_priority (request_eft exprPriority (.vector mixed)
  [c!"alice", c!"data1", c!"read"] rfl) rfl (by decide) (mixed_evaluates _ _ _ _)
example : (letI := insertionOrder; (eft exprPriority mixed).enforce miniLib
    [.str c!"alice", .str c!"data1", .str c!"read"]).1 = .ok true := by decide +kernel

example := C05_explanation (request_eft exprPriority (.vector mixed)
  [c!"alice", c!"data1", c!"read"] rfl) (by simp [Supported, eE, asrt]) (by decide)
  (mixed_evaluates _ _ _ _) []
example := C05_empty_iff (request_eft exprAllowAndDeny (.vector mixed)
  [c!"alice", c!"data1", c!"read"] rfl) (by simp [Supported, eE, asrt]) (by decide) (by decide)
  (mixed_evaluates _ _ _ _) []
example : (letI := insertionOrder; (eft exprAllowAndDeny mixed).enforceEx miniLib []
    [.str c!"alice", .str c!"data1", .str c!"read"] []).1
    = .ok (false, [c!"alice", c!"data1", c!"read", c!"deny"]) := by decide +kernel

end DecisionProps
end Casbin
