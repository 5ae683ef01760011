import Verif.Props.Matchers

/-!
# Helper lemmas for the example models
-/

namespace Casbin
namespace ModelProps

open Exprtk Enforcer DecisionProps Fixtures EndToEnd

/-- The value of a field; empty for an unknown one. -/
def valueOf (N : Naming) (x : Str) : Str :=
  match N.var (lower x) with
  | some v => v
  | none => []

/-- The meaning of a function of the model, as a condition. -/
noncomputable def callOf (lib : ExprLib) (heap : List RM) (N : Naming) (f : Str) (args : List Str) :
    Outcome Bool :=
  match N.fn (lower f) with
  | some fr => (fr.meaning lib heap (args.map Val.str)).map Val.truthy
  | none => .throw .parse

variable {lib : ExprLib} {heap : List RM}

theorem interprets {c : Cond} {N : Naming} (hv : ∀ x ∈ c.fields, (N.var (lower x)).isSome)
    (hf : ∀ f n, (f, n) ∈ c.calls → (N.fn (lower f)).map FunRef.arity = some n) :
    Interprets lib heap N c (valueOf N) (callOf lib heap N) where
  fields x hx := by
    have := hv x hx
    unfold valueOf
    cases h : N.var (lower x) with
    | none => rw [h] at this; cases this
    | some v => rfl
  calls f n h := by
    have := hf f n h
    cases h' : N.fn (lower f) with
    | none => rw [h'] at this; cases this
    | some fr =>
      rw [h'] at this
      refine ⟨fr, rfl, by simpa using this, fun args _ => ?_⟩
      simp [callOf, h']

/-- What a rule says under a matcher that is a written condition. -/
theorem verdict_written (hL : Faithful lib) {exp : Str} {c : Cond} (hc : c.WrittenAs exp)
    (hev : hasEval exp = false) {m : Model} {rt pt : List Str} {vals : List Str} {rule : Rule}
    (hv : ∀ x ∈ c.fields, ((naming m rt pt vals rule).var (lower x)).isSome)
    (hf : ∀ f n, (f, n) ∈ c.calls → (functions m (lower f)).map FunRef.arity = some n) :
    verdict lib m heap exp rt pt vals rule =
      c.meaning (valueOf (naming m rt pt vals rule)) (callOf lib heap (naming m rt pt vals rule)) := by
  simp only [verdict, ruleText, hev, Bool.false_eq_true, if_false, Outcome.ok_bind]
  exact holds_written hL hc (interprets hv hf)

/-- `g` of a model with grouping type `g = _, _`. -/
theorem g_known {m : Model} {t : Str} {ga : Assertion} (hg : m.find c!"g" t = some ga)
    (hb : UMap.get lowBuiltins t = none) (hl : lower t = t := by decide) :
    functions m (lower t) = some (.g ga.rm (countChar '_' ga.value)) := by
  simp [functions, hl, hb, hg]

theorem callOf_g {m : Model} {t : Str} {ga : Assertion} (hg : m.find c!"g" t = some ga)
    (hb : UMap.get lowBuiltins t = none) {rt pt vals : List Str} {rule : Rule} (x y : Str)
    (hl : lower t = t := by decide) :
    callOf lib heap (naming m rt pt vals rule) t [x, y] = .ok (linked heap ga.rm x y) := by
  have : (naming m rt pt vals rule).fn (lower t) = some (.g ga.rm (countChar '_' ga.value)) :=
    g_known hg hb hl
  simp [callOf, this, FunRef.meaning, allStrs]

theorem callOf_builtin {m : Model} {t : Str} {b : Builtin}
    (hb : UMap.get lowBuiltins (lower t) = some (.builtin b)) {rt pt vals : List Str} {rule : Rule}
    (x y : Str) (ha : (FunRef.builtin b).arity = 2) :
    callOf lib heap (naming m rt pt vals rule) t [x, y] =
      (lib.builtin b [x, y]).map Val.truthy := by
  have : (naming m rt pt vals rule).fn (lower t) = some (.builtin b) := by simp [naming, functions, hb]
  simp [callOf, this, FunRef.meaning, allStrs, ha]

/-- The answer under allow-override without an effect column when there are rules to look at and the
matcher has a value for each of them. -/
theorem allow_nonempty [IterOrder] {E : Enforcer} {r p e : Assertion} {exp : Str} {vals : List Str}
    (hR : Request lib E r p e [] exp vals) (heff : e.value = c!"some(where (p.eft == allow))")
    (hft : c!"p_eft" ∉ p.tokens) (hev : hasEval exp = false) (hne : candidates p vals ≠ [])
    (hlen : ∀ rule ∈ candidates p vals, rule.length = p.tokens.length) {V : Rule → Bool}
    (hV : ∀ rule ∈ candidates p vals,
      verdict lib E.model E.heap exp r.tokens p.tokens vals rule = .ok (V rule)) :
    (E.enforce lib (vals.map ReqVal.str)).1 = .ok ((candidates p vals).any V) := by
  obtain ⟨b, h1, h2⟩ := C01_allow_override hR heff hne (fun rule hr =>
    ⟨hlen rule hr, by simp [ruleText, hev, hR.nonempty], _, hV rule hr⟩)
  refine h1.trans (congrArg _ ?_)
  rw [Bool.eq_iff_iff, h2, List.any_eq_true]
  constructor
  · rintro ⟨rule, hr, hs, _⟩
    refine ⟨rule, hr, ?_⟩
    unfold Satisfies at hs
    rw [hV rule hr] at hs
    exact Outcome.ok.inj hs
  · rintro ⟨rule, hr, hs⟩
    refine ⟨rule, hr, ?_, .inl hft⟩
    unfold Satisfies
    rw [hV rule hr, hs]

theorem goodRoles_new {m : Model} (h : ∀ t a, m.find c!"g" t = some a → a.rm = none) :
    GoodRoles (enforcer m).model (enforcer m).heap := by
  refine ⟨by simp [enforcer, RM.WF_new], by simp [enforcer, RM.new], ?_⟩
  intro k a i hk hi
  rw [h k a hk] at hi
  cases hi

/-- What histories of faithful edits and requests keep of a linked enforcer. -/
theorem linked_history [IterOrder] {E : Enforcer} {r p e : Assertion} {exp : Str} {m : Model}
    (h : Linked lib E r p e exp)
    (hs : ∀ t, (m.find c!"g" t).map Assertion.strip = (E.model.find c!"g" t).map Assertion.strip)
    (acts : List Deed) (hf : FaithfulDeeds lib acts E) :
    ∃ p', (runDeeds lib acts E).model.find c!"p" c!"p" = some p' ∧ p'.tokens = p.tokens ∧
      (p.policy.hash = false → p'.policy.hash = false) ∧ Linked lib (runDeeds lib acts E) r p' e exp ∧
      (∀ t ga, m.find c!"g" t = some ga → ∃ ga', (runDeeds lib acts E).model.find c!"g" t = some ga' ∧
        ga'.value = ga.value) ∧
      (∀ t, m.find c!"g" t = none → (runDeeds lib acts E).model.find c!"g" t = none) := by
  obtain ⟨p', t2, l2, v2, hv⟩ := h.deeds acts hf
  have hvals := fun t => (strip_value (hs t)).trans (v2 t)
  refine ⟨p', l2.setup.ready.state.defs.findP, t2, hv, l2, ?_, ?_⟩
  · intro t ga hg
    have := hvals t
    rw [hg] at this
    cases hx : (runDeeds lib acts E).model.find c!"g" t with
    | none => rw [hx] at this; cases this
    | some a =>
      rw [hx] at this
      simp only [Option.map_some, Option.some.injEq] at this
      exact ⟨a, rfl, this.symm⟩
  · intro t hg
    have := hvals t
    rw [hg] at this
    cases hx : (runDeeds lib acts E).model.find c!"g" t with
    | none => rfl
    | some a => rw [hx] at this; cases this

end ModelProps
end Casbin
