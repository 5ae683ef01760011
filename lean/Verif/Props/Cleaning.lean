import Verif.CleaningLemmas
import Verif.MiniLib

/-!
# C164: an evaluator is as good as new after `Clean`

The caller keeps an evaluator, cleans it between requests, and expects each request to be answered as
with a new evaluator.
-/

namespace Casbin
namespace Kept

open Fixtures

variable [IterOrder]

/-- C164 for an evaluator that was never cleaned, in any state: a request is the one of the other
properties. -/
theorem C164_library (lib : ExprLib) (ev : Evaluator) (h : List RM) (values : List (Str × Str))
    (m : Model) (enabled : Bool) (matcher : Str) (X : Rule) :
    (request lib values m enabled matcher X ({ ev := ev, dead := [], live := true }, h)).1 =
      (libRequest lib values m enabled matcher X (ev, h)).1 :=
  (request_lib (whole_onEv _) (Custom.alike_mEnforce (whole_alike lib) Custom.alike_default m enabled
    matcher) X _ (ev, h) ⟨rfl, rfl, rfl, rfl⟩).1

/-- C164: after `Clean`, an evaluator with any history answers a request as a new one does, if the
matcher calls no function, neither itself nor by what `eval` puts in, and the text compiled before was
not a single variable. Missing: matchers with functions (`C164_fails`). -/
theorem C164_clean_partial (lib : ExprLib) (k : Kept) (hlone : ∀ x, k.ev.compiled ≠ some (.var x))
    (h : List RM) (values : List (Str × Str)) {m : Model} {matcher : Str}
    (hplain : ∀ t, Evaluated m matcher t → PlainText lib t) (enabled : Bool) (X : Rule) :
    (request lib values m enabled matcher X ((clean k).2, h)).1 =
      (libRequest lib values m enabled matcher X (Evaluator.new, h)).1 := by
  refine (request_lib (near_pushAll _) (near_mEnforce lib hplain enabled) X _ (Evaluator.new, h) ?_).1
  refine ⟨rfl, rfl, rfl, rfl, fun _ => ?_, .inl rfl⟩
  show lone k.ev.compiled = false
  unfold lone
  split
  · next x hx => exact absurd hx (hlone x)
  · rfl

/-- C164 is false as soon as the matcher calls a function: every evaluator that had the function before
`Clean`, as after any earlier request, still has it after, destroyed, and the next request calls it. -/
theorem C164_fails (lib : ExprLib) (k : Kept) {f : Str} (hf : k.ev.funs.has f = true) (h : List RM)
    {values : List (Str × Str)} (hv : ∀ xv ∈ values, Evaluator.validSymbol (c!"r." ++ xv.1) = true)
    {m : Model} {matcher exp t : Str} {r p e : Assertion} {rule : Rule} {rest : List Rule} {ast : Expr}
    (hexp : exp = matcher ∧ matcher ≠ [] ∨ matcher = [] ∧ ∃ a, m.find c!"m" c!"m" = some a ∧ exp = a.value)
    (hr : m.find c!"r" c!"r" = some r) (hp : m.find c!"p" c!"p" = some p)
    (he : m.find c!"e" c!"e" = some e) (hstore : p.policy = .vector (rule :: rest))
    (hlen : p.tokens.length = rule.length)
    (htok : ∀ t ∈ p.tokens, Evaluator.validSymbol (c!"p." ++ tokenName t) = true)
    (ht : ruleText exp p.tokens rule = .ok t) (hne : t ≠ []) (hparse : lib.parse t = some ast)
    (hcall : f ∈ ast.calls) (X : Rule) :
    (request lib values m true matcher X ((clean k).2, h)).1 = .ub .freed := by
  have hdead : f ∈ k.ev.funs.map Prod.fst := (UMap.has_iff _ _).mp hf
  have h0 : Hangs (k.ev.funs.map Prod.fst) ((clean k).2, h) := ⟨rfl, rfl⟩
  obtain ⟨h1, h1'⟩ := runs_pushAll _ hv _ h0
  simp only [request, M.bind_run, CallSt.on]
  rcases hs1 : onKept (onEv (pushAll values)) ((clean k).2, h) with ⟨o, s1⟩
  rw [hs1] at h1 h1'
  simp only at h1 h1'
  subst h1
  simp only [Custom.mEnforce, M.bind_run, M.modify_run, Bool.not_true, Bool.false_eq_true, if_false, CallSt.on]
  obtain ⟨h2, h2'⟩ := runs_addFunctions _ Evaluator.builtins s1 h1'
  rcases hs2 : (impl lib).loadFunctions s1 with ⟨o, s2⟩
  have hs2' : onKept (onEv (Evaluator.addFunctions Evaluator.builtins)) s1 = (o, s2) := hs2
  rw [hs2'] at h2 h2'
  simp only at h2 h2'
  subst h2
  obtain ⟨h3, h3'⟩ := runs_loadGs lib _ (IterOrder.iter (m.secMap c!"g")) s2 h2'
  rcases hs3 : Custom.loadGs (impl lib) (IterOrder.iter (m.secMap c!"g")) s2 with ⟨o, s3⟩
  rw [hs3] at h3 h3'
  simp only at h3 h3'
  subst h3
  have hrule : (Custom.ruleStep (impl lib) exp p.tokens rule s3).1 = .ub .freed := by
    obtain ⟨h4, h4'⟩ := runs_pushPolicy lib _ hlen htok s3 h3'
    rcases hs4 : Custom.pushPolicy (impl lib) p.tokens rule s3 with ⟨o, s4⟩
    rw [hs4] at h4 h4'
    simp only at h4 h4'
    subst h4
    have hev : (impl lib).eval t s4 = (.ub .freed, s4) := eval_hangs h4' hne hparse hcall hdead
    have hcl : (impl lib).clean s3 = (.ok (), s3) := rfl
    have hin : (impl lib).initialObject c!"p" s3 = (.ok (), s3) := rfl
    simp only [Custom.ruleStep, ne_eq, hlen, not_true_eq_false, if_false, M.bind_run, hcl, hin, hs4,
      M.lift_run, ht, hev]
  have hsel : Custom.selectPolicies (impl lib) m s3 = (.ok (rule :: rest), s3) := by
    simp only [Custom.selectPolicies, hp, hstore]; rfl
  rcases hs5 : Custom.ruleStep (impl lib) exp p.tokens rule s3 with ⟨o, s5⟩
  rw [hs5] at hrule
  simp only at hrule
  subst hrule
  rcases hexp with ⟨rfl, hm⟩ | ⟨hm, a, ha, rfl⟩
  · simp only [hs3, hm, if_false, Custom.pure_then, Custom.needAssertion, hr, hp, he, hsel, ne_eq,
      reduceCtorEq, not_false_eq_true, if_true, M.bind_run, CallSt.on, Custom.runRules, Custom.ruleLoop, hs5]
    rfl
  · simp only [hs3, hm, if_true, Custom.pure_then, Custom.needAssertion, ha, hr, hp, he, hsel, ne_eq,
      reduceCtorEq, not_false_eq_true, M.bind_run, CallSt.on, Custom.runRules, Custom.ruleLoop, hs5]
    rfl

/-- Asking for the value again after `Clean` uses what was destroyed, for every expression that names a
variable or a function. -/
theorem C164_value_fails (lib : ExprLib) (k : Kept) (h : List RM) {e : Expr}
    (he : k.ev.compiled = some e) (hn : e.named = true) :
    ((impl lib).getBoolean ((clean k).2, h)).1 = .ub .freed ∧
    ((impl lib).getFloat ((clean k).2, h)).1 = .ub .freed := by
  have hc : (clean k).2.ev.compiled = some e := he
  have hl : (clean k).2.live = false := rfl
  constructor <;>
    simp only [impl, M.bind_run, value, hc, hl, hn, Bool.not_false, Bool.and_self, if_true]

omit [IterOrder] in
/-- The role model: a granted request, `Clean`, and the same request again. -/
theorem C164_roles_fails : letI := insertionOrder
    let E := rbac [alice] [[c!"bob", c!"alice"]]
    let ask := request miniLib [(c!"sub", c!"alice"), (c!"obj", c!"data1"), (c!"act", c!"read")]
      E.model true [] []
    (ask (new, E.heap)).1 = .ok (true, alice) ∧
    (ask ((clean (ask (new, E.heap)).2.1).2, (ask (new, E.heap)).2.2)).1 = .ub .freed := by
  decide +kernel

omit [IterOrder] in
/-- Without `Clean` the values of the request before decide: a caller who does not set the subject is
granted what the subject before them may do; after `Clean` the request is an error, as with a new
evaluator. -/
theorem C164_leftover_fails : letI := insertionOrder
    let E := acl [alice]
    let ask := fun values => request miniLib values E.model true [] []
    let full := [(c!"sub", c!"alice"), (c!"obj", c!"data1"), (c!"act", c!"read")]
    let part := [(c!"obj", c!"data1"), (c!"act", c!"read")]
    let k := (ask full (new, E.heap)).2
    (ask part k).1 = .ok (true, alice) ∧ (ask part ((clean k.1).2, k.2)).1 = .throw .parse ∧
    (ask part (new, E.heap)).1 = .throw .parse := by
  decide +kernel

/-! ## Non-vacuity -/

omit [IterOrder] in
/-- The matcher of the access control list calls no function. -/
theorem evaluated_acl {P : List Rule} {t : Str} (h : Evaluated (acl P).model [] t) : PlainText miniLib t := by
  obtain ⟨exp, p, hexp, hp, ht⟩ := h
  rcases hexp with ⟨_, hm⟩ | ⟨_, a, ha, rfl⟩
  · exact absurd rfl hm
  · have ha' : (acl P).model.find c!"m" c!"m" = some (asrt c!"m" mAcl []) := rfl
    rw [ha'] at ha
    cases ha
    have hpl : PlainText miniLib mAcl := by
      refine ⟨by decide, ?_⟩
      exact ⟨_, rfl, by decide +kernel⟩
    rcases ht with rfl | ⟨rule, _, hr⟩
    · exact hpl
    · have hno : hasEval mAcl = false := by decide +kernel
      have : ruleText mAcl p.tokens rule = .ok mAcl := by
        simp only [ruleText, hno]; rfl
      have hr' : ruleText mAcl p.tokens rule = .ok t := hr
      rw [this] at hr'
      cases hr'
      exact hpl

omit [IterOrder] in
/-- Non-vacuity of `C164_fails`: the matcher of the role model calls `g`, which every request enters. -/
example : letI := insertionOrder
    (∃ ast, miniLib.parse mRbac = some ast ∧ c!"g" ∈ ast.calls) ∧
    (request miniLib [] (rbac [alice] []).model true [] [] (new, (rbac [alice] []).heap)).2.1.ev.funs.has
      c!"g" = true :=
  ⟨⟨_, rfl, by decide +kernel⟩, by decide +kernel⟩

omit [IterOrder] in
/-- Non-vacuity of `C164_value_fails`: after a request with the access control list. -/
example : letI := insertionOrder
    let k := (request miniLib [(c!"sub", c!"alice"), (c!"obj", c!"data1"), (c!"act", c!"read")]
      (acl [alice]).model true [] [] (new, [])).2.1
    (k.ev.compiled.map Expr.named) = some true ∧
    ((impl miniLib).getBoolean (k, [])).1 = .ok true ∧
    ((impl miniLib).getBoolean ((clean k).2, [])).1 = .ub .freed := by
  decide +kernel

/-- An evaluator of the caller with leftovers of any kind, cleaned. -/
example (k : Kept) (hlone : ∀ x, k.ev.compiled ≠ some (.var x)) (h : List RM) (values : List (Str × Str)) :
    (request miniLib values (acl [alice]).model true [] [] ((clean k).2, h)).1 =
      (libRequest miniLib values (acl [alice]).model true [] [] (Evaluator.new, h)).1 :=
  C164_clean_partial miniLib k hlone h values (fun _ => evaluated_acl) true []

end Kept
end Casbin
