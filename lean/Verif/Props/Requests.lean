import Verif.Props.Decision
import Verif.DecisionEdit

/-!
# C06–C13, C15, C16: requests in context

The vocabulary (`Request`, `Satisfies`, `Evaluates`, `candidates`) is that of Props/Decision.lean.
-/

namespace Casbin
namespace DecisionProps

open Fixtures

variable [IterOrder] {lib : ExprLib} {E E' : Enforcer} {r p e : Assertion} {matcher exp : Str}
  {vals : List Str}

/-! ### C06 -/

omit [IterOrder] in
theorem candidates_perm {P : Policies} (hh : P.hash = p.policy.hash)
    (hp : P.items.Perm p.policy.items) :
    (candidates { p with policy := P } vals).Perm (candidates p vals) := by
  unfold candidates
  simp only [hh]
  by_cases h : p.policy.hash = true
  · simp [h, hp.mem_iff]
  · simpa [h] using hp

/-- C06: an enforcer with the same rules in another order gives the same answer, for the three
effect expressions without priorities. -/
theorem C06_order_irrelevant (hR : Request lib E r p e matcher exp vals)
    (heff : e.value = c!"some(where (p.eft == allow))" ∨ e.value = c!"!some(where (p.eft == deny))" ∨
      e.value = c!"some(where (p.eft == allow)) && !some(where (p.eft == deny))")
    (hne : candidates p vals ≠ [])
    (hev : ∀ rule ∈ candidates p vals, Evaluates lib E exp r p vals rule)
    {P : Policies} (hh : P.hash = p.policy.hash) (hp : P.items.Perm p.policy.items)
    (hd : Differs E E' p P) :
    (E'.enforceWithMatcher lib matcher (vals.map ReqVal.str)).1
      = (E.enforceWithMatcher lib matcher (vals.map ReqVal.str)).1 := by
  have hperm := candidates_perm (vals := vals) hh hp
  have hR' := hR.differs hd
  have hne' : candidates { p with policy := P } vals ≠ [] := by
    intro h0; rw [h0] at hperm; exact hne hperm.symm.eq_nil
  have hev' : ∀ rule ∈ candidates { p with policy := P } vals,
      Evaluates lib E' exp r { p with policy := P } vals rule :=
    fun rule hr => (hd.evaluates rule).mpr (hev rule (hperm.mem_iff.mp hr))
  have hex : ∀ w, (∃ rule ∈ candidates { p with policy := P } vals,
        Satisfies lib E' exp r { p with policy := P } vals rule ∧ HasEffect p.tokens rule w) ↔
      ∃ rule ∈ candidates p vals, Satisfies lib E exp r p vals rule ∧ HasEffect p.tokens rule w := by
    intro w
    constructor
    · rintro ⟨x, hx, h1, h2⟩; exact ⟨x, hperm.mem_iff.mp hx, (hd.satisfies x).mp h1, h2⟩
    · rintro ⟨x, hx, h1, h2⟩; exact ⟨x, hperm.mem_iff.mpr hx, (hd.satisfies x).mpr h1, h2⟩
  have fin : ∀ {b b' : Bool} {Q : Prop}, (b = true ↔ Q) → (b' = true ↔ Q) → b' = b := by
    intro b b' Q h1 h2
    cases b <;> cases b' <;> simp_all
  have fin' : ∀ {b b' : Bool} {Q : Prop}, (b = false ↔ Q) → (b' = false ↔ Q) → b' = b := by
    intro b b' Q h1 h2
    cases b <;> cases b' <;> simp_all
  rcases heff with heff | heff | heff
  · obtain ⟨b, h1, h2⟩ := C01_allow_override hR heff hne hev
    obtain ⟨b', h1', h2'⟩ := C01_allow_override hR' heff hne' hev'
    rw [h1, h1', fin h2 (h2'.trans (hex .allow))]
  · obtain ⟨b, h1, h2⟩ := C02_deny_override hR heff hne hev
    obtain ⟨b', h1', h2'⟩ := C02_deny_override hR' heff hne' hev'
    rw [h1, h1', fin' h2 (h2'.trans (hex .deny))]
  · obtain ⟨b, h1, h2⟩ := C03_allow_and_deny hR heff hne hev
    obtain ⟨b', h1', h2'⟩ := C03_allow_and_deny hR' heff hne' hev'
    rw [h1, h1', fin h2 (h2'.trans (and_congr (hex .allow) (not_congr (hex .deny))))]

omit [IterOrder] in
/-- C06: with priorities the order matters. -/
theorem C06_priority_order :
    letI := insertionOrder
    ((eft exprPriority mixed).enforce miniLib
      [.str c!"alice", .str c!"data1", .str c!"read"]).1 = .ok true ∧
    ((eft exprPriority mixed.reverse).enforce miniLib
      [.str c!"alice", .str c!"data1", .str c!"read"]).1 = .ok false := by
  decide +kernel

example := C06_order_irrelevant (request_eft exprAllowAndDeny (.vector mixed)
  [c!"alice", c!"data1", c!"read"] rfl) (Or.inr (Or.inr rfl)) (by decide) (mixed_evaluates _ _ _ _)
  (P := .vector mixed.reverse) rfl (List.reverse_perm _)
  (differs_putRules _ _ _)

/-! ### C07 -/

/-- C07, allow-override: with more rules, a granted request stays granted. The part left out is the
empty policy, where the claim is false (`C07_allow_override_fails`). -/
theorem C07_allow_override_partial (hR : Request lib E r p e matcher exp vals)
    (heff : e.value = c!"some(where (p.eft == allow))") (hne : candidates p vals ≠ [])
    {P : Policies} (hh : P.hash = p.policy.hash) (hsub : ∀ x ∈ p.policy.items, x ∈ P.items)
    (hd : Differs E E' p P)
    (hev : ∀ rule ∈ candidates { p with policy := P } vals, Evaluates lib E exp r p vals rule)
    (hgrant : (E.enforceWithMatcher lib matcher (vals.map ReqVal.str)).1 = .ok true) :
    (E'.enforceWithMatcher lib matcher (vals.map ReqVal.str)).1 = .ok true := by
  have hmem : ∀ x ∈ candidates p vals, x ∈ candidates { p with policy := P } vals := by
    intro x hx
    unfold candidates at hx ⊢
    simp only [hh]
    by_cases h : p.policy.hash = true
    · simp only [h, if_true] at hx ⊢
      split at hx
      · rename_i hv
        rw [if_pos (hsub _ hv)]; exact hx
      · simp at hx
    · simp only [h] at hx ⊢
      exact hsub x hx
  have hne' : candidates { p with policy := P } vals ≠ [] := by
    obtain ⟨x, hx⟩ := List.exists_mem_of_ne_nil _ hne
    exact List.ne_nil_of_mem (hmem x hx)
  obtain ⟨b, h1, h2⟩ := C01_allow_override hR heff hne (fun x hx => hev x (hmem x hx))
  obtain ⟨b', h1', h2'⟩ := C01_allow_override (hR.differs hd) heff hne'
    (fun x hx => (hd.evaluates x).mpr (hev x hx))
  rw [h1] at hgrant
  obtain ⟨x, hx, hs, ha⟩ := h2.mp (by simpa using hgrant)
  rw [h1', h2'.mpr ⟨x, hmem x hx, (hd.satisfies x).mpr hs, ha⟩]

/-- C07, deny-override and allow-and-deny: with more rules, of which those not there before do not
have effect `allow`, a denied request stays denied. -/
theorem C07_deny (hR : Request lib E r p e matcher exp vals)
    (heff : e.value = c!"!some(where (p.eft == deny))" ∨
      e.value = c!"some(where (p.eft == allow)) && !some(where (p.eft == deny))")
    (hne : candidates p vals ≠ [])
    {P : Policies} (hh : P.hash = p.policy.hash) (hsub : ∀ x ∈ p.policy.items, x ∈ P.items)
    (hnew : ∀ x ∈ P.items, x ∉ p.policy.items → HasEffect p.tokens x .deny)
    (hd : Differs E E' p P)
    (hev : ∀ rule ∈ candidates { p with policy := P } vals, Evaluates lib E exp r p vals rule)
    (hdeny : (E.enforceWithMatcher lib matcher (vals.map ReqVal.str)).1 = .ok false) :
    (E'.enforceWithMatcher lib matcher (vals.map ReqVal.str)).1 = .ok false := by
  have hmem : ∀ x ∈ candidates p vals, x ∈ candidates { p with policy := P } vals := by
    intro x hx
    unfold candidates at hx ⊢
    simp only [hh]
    by_cases h : p.policy.hash = true
    · simp only [h, if_true] at hx ⊢
      split at hx
      · rename_i hv
        rw [if_pos (hsub _ hv)]; exact hx
      · simp at hx
    · simp only [h] at hx ⊢
      exact hsub x hx
  have hold : ∀ x ∈ candidates { p with policy := P } vals, HasEffect p.tokens x .allow →
      x ∈ candidates p vals := by
    intro x hx ha
    have hlen := (hev x hx).length
    have hxP : x ∈ P.items := by
      unfold candidates at hx
      simp only at hx
      by_cases h : P.hash = true
      · simp only [h, if_true] at hx
        split at hx
        · rename_i hv; rw [List.mem_singleton] at hx; rw [hx]; exact hv
        · simp at hx
      · simpa [h] using hx
    have hxp : x ∈ p.policy.items := by
      by_contra hn
      have := effect_unique hR.state.defs hlen ha (hnew x hxP hn)
      simp at this
    unfold candidates at hx ⊢
    simp only [hh] at hx
    by_cases h : p.policy.hash = true
    · simp only [h, if_true] at hx ⊢
      split at hx
      · rw [List.mem_singleton] at hx; subst hx; simp [hxp]
      · simp at hx
    · simp only [h] at hx ⊢
      exact hxp
  have hne' : candidates { p with policy := P } vals ≠ [] := by
    obtain ⟨x, hx⟩ := List.exists_mem_of_ne_nil _ hne
    exact List.ne_nil_of_mem (hmem x hx)
  have hev' := fun x hx => (hd.evaluates x).mpr (hev x hx)
  have hevo := fun x hx => hev x (hmem x hx)
  rcases heff with heff | heff
  · obtain ⟨b, h1, h2⟩ := C02_deny_override hR heff hne hevo
    obtain ⟨b', h1', h2'⟩ := C02_deny_override (hR.differs hd) heff hne' hev'
    rw [h1] at hdeny
    obtain ⟨x, hx, hs, ha⟩ := h2.mp (by simpa using hdeny)
    rw [h1', h2'.mpr ⟨x, hmem x hx, (hd.satisfies x).mpr hs, ha⟩]
  · obtain ⟨b, h1, h2⟩ := C03_allow_and_deny hR heff hne hevo
    obtain ⟨b', h1', h2'⟩ := C03_allow_and_deny (hR.differs hd) heff hne' hev'
    rw [h1] at hdeny
    rw [h1']
    congr 1
    by_contra hb
    obtain ⟨⟨x, hx, hs, ha⟩, hno⟩ := h2'.mp (by simpa using hb)
    have : b = true := h2.mpr ⟨⟨x, hold x hx ha, (hd.satisfies x).mp hs, ha⟩, by
      rintro ⟨y, hy, hsy, hdy⟩
      exact hno ⟨y, hmem y hy, (hd.satisfies y).mpr hsy, hdy⟩⟩
    simp [this] at hdeny

/-- C07 for the call itself: after `AddPolicy(rule)` with an allow rule, whatever the call returns,
a granted request stays granted under allow-override (storage in a vector). -/
theorem C07_addPolicy_partial (hR : Request lib E r p e matcher exp vals)
    (heff : e.value = c!"some(where (p.eft == allow))") (hh : p.policy.hash = false)
    (hne : p.policy.items ≠ [])
    (hev : ∀ rule ∈ p.policy.items, Evaluates lib E exp r p vals rule)
    {rule : Rule} (hrule : Evaluates lib E exp r p vals rule)
    (hgrant : (E.enforceWithMatcher lib matcher (vals.map ReqVal.str)).1 = .ok true) :
    ((E.addPolicy rule).2.enforceWithMatcher lib matcher (vals.map ReqVal.str)).1 = .ok true := by
  obtain ⟨P, hd, hP, hcase, _⟩ := addPolicy_differs hR.state.defs.findP rule
  refine C07_allow_override_partial hR heff (by simpa [candidates, hh] using hne) hP ?_ hd ?_ hgrant
  · intro x hx
    rcases hcase with rfl | rfl
    · exact hx
    · exact (Policies.mem_emplace _ _ _).mpr (Or.inl hx)
  · intro x hx
    simp only [candidates, hP, hh, Bool.false_eq_true, if_false] at hx
    rcases hcase with rfl | rfl
    · exact hev x hx
    · rcases (Policies.mem_emplace _ _ _).mp hx with h | rfl
      · exact hev x h
      · exact hrule

omit [IterOrder] in
/-- C07 fails for allow-override on the empty policy: the request with empty values is granted (the
matcher is evaluated on empty strings), and denied once a rule has been added. -/
theorem C07_allow_override_fails :
    letI := insertionOrder
    ((acl []).enforce miniLib [.str [], .str [], .str []]).1 = .ok true ∧
    (((acl []).addPolicy alice).1 = .ok true ∧
    (((acl []).addPolicy alice).2.enforce miniLib [.str [], .str [], .str []]).1 = .ok false) := by
  decide +kernel

example := C07_addPolicy_partial (lib := miniLib) (request_acl (.vector [alice])
  [c!"alice", c!"data1", c!"read"] rfl) rfl rfl (by decide)
  (by intro rule hr
      simp only [pA, asrt, Policies.vector, List.mem_singleton] at hr
      subst hr; exact evaluates_acl _ _ _ _ _ _ _) (rule := bob) (evaluates_acl _ _ _ _ _ _ _)
example : (letI := insertionOrder; (acl [alice]).enforce miniLib
    [.str c!"alice", .str c!"data1", .str c!"read"]).1 = .ok true := by decide +kernel

example := C07_deny (request_eft exprAllowAndDeny (.vector mixed)
  [c!"alice", c!"data1", c!"read"] rfl) (Or.inr rfl) (by decide)
  (P := .vector ([c!"bob", c!"data2", c!"write", c!"deny"] :: mixed)) rfl
  (by intro x hx; exact List.mem_cons_of_mem _ hx)
  (by
    intro x hx hn
    simp only [Policies.vector, List.mem_cons] at hx
    rcases hx with rfl | hx
    · exact ⟨3, rfl, rfl⟩
    · exact absurd (by simpa [pE, asrt, Policies.vector, mixed] using hx) hn)
  (differs_putRules _ _ _)
  (by
    intro rule hr
    simp only [candidates, Policies.vector, mixed, Bool.false_eq_true, if_false,
      List.mem_cons, List.not_mem_nil, or_false] at hr
    rcases hr with rfl | rfl | rfl | rfl <;> exact evaluates_eft _ _ _ _ _ _ _ _ _)

/-! ### C08, C09 -/

omit [IterOrder] in
theorem pushRequest_ok {ts : List Str} (hl : ∀ t ∈ ts, 2 ≤ t.length)
    (hv : ∀ t ∈ ts, Evaluator.validSymbol (reqName t) = true) :
    ∀ (vs : List ReqVal) (ev : Evaluator), ∃ ev', pushRequest ts vs ev = (.ok (), ev') := by
  induction ts with
  | nil => intro vs ev; exact ⟨ev, by simp [pushRequest]⟩
  | cons t ts ih =>
    intro vs ev
    cases vs with
    | nil => exact ⟨ev, by simp [pushRequest]⟩
    | cons v vs =>
      have h2 : ¬ t.length < 2 := by have := hl t (by simp); omega
      have hrec := ih (fun t ht => hl t (by simp [ht])) (fun t ht => hv t (by simp [ht])) vs
      simp only [pushRequest, h2, if_false]
      cases v with
      | json =>
        simpa [M.bind_run] using hrec ev
      | str s =>
        have hvalid : Evaluator.validSymbol (c!"r" ++ c!"." ++ t.drop 2) = true := by
          rw [← validSymbol_lower]
          exact hv t (by simp)
        simp only [M.bind_run, Evaluator.pushString, addIdentifier_run hvalid]
        exact hrec _

/-- C08: a disabled enforcer grants every request with the right number of values and does not
explain it, whatever the policy. What is missing is a wrong number of values: `C08_fails`. -/
theorem C08_disabled_partial (hdis : E.enabled = false) (hr : E.model.find c!"r" c!"r" = some r)
    (hl : ∀ t ∈ r.tokens, 2 ≤ t.length)
    (hv : ∀ t ∈ r.tokens, Evaluator.validSymbol (reqName t) = true)
    (vs : List ReqVal) (hlen : vs.length = r.tokens.length) (matcher : Str) (X : Rule) :
    (E.enforceEx lib matcher vs X).1 = .ok (true, []) := by
  unfold Enforcer.enforceEx
  obtain ⟨ev', h⟩ := pushRequest_ok hl hv vs E.evaluator
  simp only [M.bind_run, M.get_run, hr, hlen, ne_eq, not_true_eq_false, if_false,
    Enforcer.runRequest, ReqSt.onEv, h, hdis, mEnforce, M.modify_run, Bool.not_false, if_true,
    M.pure_run, Outcome.map_ok]

/-- C08 after the call of `EnableEnforce(false)`. -/
theorem C08_enableEnforce_partial (hr : E.model.find c!"r" c!"r" = some r)
    (hl : ∀ t ∈ r.tokens, 2 ≤ t.length)
    (hv : ∀ t ∈ r.tokens, Evaluator.validSymbol (reqName t) = true)
    (vs : List ReqVal) (hlen : vs.length = r.tokens.length) (matcher : Str) (X : Rule) :
    ((Enforcer.enableEnforce false E).2.enforceEx lib matcher vs X).1 = .ok (true, []) :=
  C08_disabled_partial (E := { E with enabled := false }) rfl hr hl hv vs hlen matcher X

omit [IterOrder] in
/-- C08 fails for a wrong number of values: the request is denied although the enforcer is
disabled. -/
theorem C08_fails :
    letI := insertionOrder
    ((Enforcer.enableEnforce false (acl [alice])).2.enforce miniLib [.str c!"alice"]).1
      = .ok false := by
  decide +kernel

example : ((Enforcer.enableEnforce false (acl [])).2.enforceEx lib [] [.json, .str c!"a", .json]
    alice).1 = .ok (true, []) :=
  C08_enableEnforce_partial (r := rA) rfl (by decide) (by decide) _ rfl _ _

/-- C09: a request with the wrong number of values is denied, and neither the enforcer nor the
explanation changes. -/
theorem C09_wrong_arity (hr : E.model.find c!"r" c!"r" = some r) (vs : List ReqVal)
    (hlen : vs.length ≠ r.tokens.length) (matcher : Str) (X : Rule) :
    E.enforceEx lib matcher vs X = (.ok (false, X), E) ∧
    E.enforceWithMatcher lib matcher vs = (.ok false, E) ∧ E.enforce lib vs = (.ok false, E) := by
  have h : ∀ matcher X, E.enforceEx lib matcher vs X = (.ok (false, X), E) := by
    intro matcher X
    simp [Enforcer.enforceEx, M.bind_run, hr, hlen]
  refine ⟨h matcher X, ?_, ?_⟩ <;>
    simp [Enforcer.enforce, Enforcer.enforceWithMatcher, M.bind_run, h]

example : (acl [alice]).enforce lib [.str c!"alice", .json] = (.ok false, acl [alice]) :=
  (C09_wrong_arity (r := rA) rfl _ (by decide) [] []).2.2

/-! ### C10, C16 -/

omit [IterOrder] in
theorem runRules_unsupported {σ : Type} (step : Rule → M σ (Bool × Effect)) {eff : Str}
    (hs : ¬ Supported eff) {rules : List Rule} (hne : rules ≠ []) (s : σ) :
    ¬ (runRules step eff rules s).1.IsOk := by
  have h1 : ¬ eff = exprAllowOverride := fun h => hs (Or.inl h)
  have h2 : ¬ eff = exprDenyOverride := fun h => hs (Or.inr (Or.inl h))
  have h3 : ¬ eff = exprAllowAndDeny := fun h => hs (Or.inr (Or.inr (Or.inl h)))
  have h4 : ¬ eff = exprPriority := fun h => hs (Or.inr (Or.inr (Or.inr h)))
  cases rules with
  | nil => exact absurd rfl hne
  | cons x xs =>
    simp only [runRules, ruleLoop, M.bind_run]
    rcases step x s with ⟨o, s'⟩
    cases o with
    | throw e => simp [Outcome.IsOk]
    | ub u => simp [Outcome.IsOk]
    | ok me => simp [mergeEffects, h1, h2, h3, h4, Outcome.IsOk]

omit [IterOrder] in
theorem exists_first {α : Type} (P : α → Prop) : ∀ (l : List α) (k : Nat) (x : α),
    l[k]? = some x → ¬ P x →
    ∃ pre b post, l = pre ++ b :: post ∧ ¬ P b ∧ (∀ y ∈ pre, P y) ∧ pre.length ≤ k := by
  intro l
  induction l with
  | nil => intro k x h; simp at h
  | cons a l ih =>
    intro k x h hx
    by_cases ha : P a
    · cases k with
      | zero => simp at h; subst h; exact absurd ha hx
      | succ k =>
        obtain ⟨pre, b, post, h1, h2, h3, h4⟩ := ih k x (by simpa using h) hx
        refine ⟨a :: pre, b, post, by simp [h1], h2, ?_, by simpa using h4⟩
        intro y hy
        rcases List.mem_cons.mp hy with rfl | hy
        · exact ha
        · exact h3 y hy
    · exact ⟨[], a, l, rfl, ha, by simp, by simp⟩

omit [IterOrder] in
/-- A rule that contributes something has the declared length and evaluates. -/
theorem judge_isOk {rule : Rule} {b : Bool} {w : Effect} (hW : WellDefined E.model r p)
    (h : judge lib E.model E.heap exp r p vals rule = .ok (b, w)) :
    rule.length = p.tokens.length ∧ (b = true → Satisfies lib E exp r p vals rule) ∧
      HasEffect p.tokens rule w := by
  unfold judge at h
  by_cases hl : p.tokens.length = rule.length
  · simp only [hl, ne_eq, not_true_eq_false, if_false] at h
    obtain ⟨b', h1, h2⟩ := Outcome.bind_eq_ok.mp h
    obtain ⟨w', h3, h4⟩ := Outcome.bind_eq_ok.mp h2
    simp only [Outcome.ok.injEq, Prod.mk.injEq] at h4
    obtain ⟨rfl, rfl⟩ := h4
    refine ⟨hl.symm, ?_, ?_⟩
    · rintro rfl; exact h1
    · obtain ⟨w0, hw0, hw⟩ := ruleEffect_spec (tokens_nodup hW) hl.symm
      rw [h3] at hw0
      exact (hw _).mpr (Outcome.ok.inj hw0)
  · simp [hl] at h

omit [IterOrder] in
theorem bad_decision (hW : WellDefined E.model r p) {k : Nat} {bad : Rule}
    (hk : (candidates p vals)[k]? = some bad)
    (hbad : ¬ (judge lib E.model E.heap exp r p vals bad).IsOk) {eff : Str} {b : Bool} {x : Rule}
    (h : decisionOf lib E.model E.heap exp eff r p vals = .ok (b, x)) :
    ∃ i < k, (candidates p vals)[i]? = some x ∧ x.length = p.tokens.length ∧
      Satisfies lib E exp r p vals x ∧ (b = true → HasEffect p.tokens x .allow) ∧
      (b = false → HasEffect p.tokens x .deny) := by
  have hne : candidates p vals ≠ [] := by intro h0; simp [h0] at hk
  unfold decisionOf at h
  rw [if_pos hne] at h
  by_cases hs : Supported eff
  · obtain ⟨pre, bad', post, hl, hb', hpre, hlen⟩ := exists_first
      (fun y => (judge lib E.model E.heap exp r p vals y).IsOk) _ k bad hk hbad
    set g : Rule → Bool × Effect := fun y =>
      match judge lib E.model E.heap exp r p vals y with
      | .ok q => q
      | _ => (false, .indeterminate) with hg
    have hpre' : ∀ y ∈ pre, judge lib E.model E.heap exp r p vals y = .ok (g y) := by
      intro y hy
      have := hpre y hy
      simp only [hg]
      cases hj : judge lib E.model E.heap exp r p vals y with
      | ok q => rfl
      | throw e => simp [hj, Outcome.IsOk] at this
      | ub u => simp [hj, Outcome.IsOk] at this
    rcases pureRules_bad hs _ g pre bad' post hb' hpre' with ⟨i, y, hy, h1, h2, h3⟩ | h3
    · rw [hl, h3] at h
      have hi : i < pre.length := (List.getElem?_eq_some_iff.mp hy).1
      have hy' : (pre ++ bad' :: post)[i]? = some y := by
        rw [List.getElem?_append_left hi]; exact hy
      simp only [conclude, explained, hy', Outcome.ok.injEq, Prod.mk.injEq] at h
      obtain ⟨hb, rfl⟩ := h
      have hj := hpre' y (List.mem_of_getElem? hy)
      obtain ⟨hlen', hsat, heff⟩ := judge_isOk (b := (g y).1) (w := (g y).2) hW hj
      refine ⟨i, by omega, by rw [hl]; exact hy', hlen', hsat h1, ?_, ?_⟩
      · intro hbt
        have : (g y).2 = .allow := by rw [hbt] at hb; simpa using hb
        rw [← this]; exact heff
      · intro hbf
        have h5 : (g y).2 ≠ .allow := by rw [hbf] at hb; simpa using hb
        have : (g y).2 = .deny := by
          cases hq : (g y).2 with
          | allow => exact absurd hq h5
          | indeterminate => exact absurd hq h2
          | deny => rfl
        rw [← this]; exact heff
    · rw [hl, h3] at h
      cases hj : judge lib E.model E.heap exp r p vals bad' with
      | ok q => exact absurd (by simp [hj, Outcome.IsOk]) hb'
      | throw e => simp [hj, conclude] at h
      | ub u => simp [hj, conclude] at h
  · have := runRules_unsupported (σ := Unit)
      (fun y => M.lift (judge lib E.model E.heap exp r p vals y)) hs hne ()
    change ¬ (pureRules _ eff _).IsOk at this
    cases hp : pureRules (judge lib E.model E.heap exp r p vals) eff (candidates p vals) with
    | ok q => rw [hp] at this; exact absurd (by simp [Outcome.IsOk]) this
    | throw e => simp [hp, conclude] at h
    | ub u => simp [hp, conclude] at h

/-- C10: when a stored rule does not have the declared number of fields, an answer is only given when
a well-formed satisfied rule before it decides: the answer is the effect of that rule. -/
theorem C10_malformed (hR : Request lib E r p e matcher exp vals)
    (htext : ∀ rule ∈ candidates p vals, rule.length = p.tokens.length →
      ruleText exp p.tokens rule ≠ .ok [])
    {k : Nat} {bad : Rule} (hk : (candidates p vals)[k]? = some bad)
    (hbad : bad.length ≠ p.tokens.length) (X : Rule) {b : Bool} {x : Rule}
    (h : (E.enforceEx lib matcher (vals.map ReqVal.str) X).1 = .ok (b, x)) :
    ∃ i < k, (candidates p vals)[i]? = some x ∧ x.length = p.tokens.length ∧
      Satisfies lib E exp r p vals x ∧ (b = true → HasEffect p.tokens x .allow) ∧
      (b = false → HasEffect p.tokens x .deny) := by
  obtain ⟨ev', h1, _⟩ := enforceEx_decision hR htext X
  rw [h1] at h
  refine bad_decision hR.state.defs hk ?_ h
  simp [judge, Ne.symm hbad, Outcome.IsOk]

/-- C10: when no rule before the malformed one decides anything, the request throws. -/
theorem C10_throws (hR : Request lib E r p e matcher exp vals) (hs : Supported e.value)
    (htext : ∀ rule ∈ candidates p vals, rule.length = p.tokens.length →
      ruleText exp p.tokens rule ≠ .ok [])
    {pre : List Rule} {bad : Rule} {post : List Rule}
    (hc : candidates p vals = pre ++ bad :: post)
    (hbad : bad.length ≠ p.tokens.length)
    (hpre : ∀ rule ∈ pre, Evaluates lib E exp r p vals rule ∧
      ¬ Satisfies lib E exp r p vals rule) (X : Rule) :
    (E.enforceEx lib matcher (vals.map ReqVal.str) X).1 = .throw .enforcer := by
  obtain ⟨ev', h1, _⟩ := enforceEx_decision hR htext X
  rw [h1]
  have hj : judge lib E.model E.heap exp r p vals bad = .throw .enforcer := by
    simp [judge, Ne.symm hbad]
  unfold decisionOf
  rw [if_pos (by simp [hc]), hc]
  rcases pureRules_bad hs (judge lib E.model E.heap exp r p vals) (pairOf lib E exp r p vals) pre bad
    post (by simp [hj, Outcome.IsOk]) (fun y hy => judge_pair hR.state.defs (hpre y hy).1) with
    ⟨i, y, hy, h2, _⟩ | h2
  · exact absurd ((pairOf_fst y).mp h2) (hpre y (List.mem_of_getElem? hy)).2
  · rw [h2, hj]; rfl

/-- A rule with too few fields after a good one. -/
def torn : List Rule := [[c!"alice", c!"data1", c!"read"], [c!"bob"]]

omit [IterOrder] in
theorem torn_text : ∀ rule ∈ candidates (pA (.vector torn)) vals,
    rule.length = (pA (.vector torn)).tokens.length →
      ruleText mAcl (pA (.vector torn)).tokens rule ≠ .ok [] :=
  fun _ _ _ => text_noEval (by decide) (by decide) _ _

example := C10_malformed (request_acl (.vector torn) [c!"alice", c!"data1", c!"read"] rfl)
  torn_text (k := 1) (bad := [c!"bob"]) rfl (by decide) [] (b := true) (x := alice)
example : (letI := insertionOrder; (acl torn).enforceEx miniLib []
    [.str c!"alice", .str c!"data1", .str c!"read"] []).1 = .ok (true, alice) := by decide +kernel
example : ((acl torn).enforceEx miniLib [] [.str c!"bob", .str c!"data1", .str c!"read"] []).1
    = .throw .enforcer :=
  C10_throws (request_acl (.vector torn) [c!"bob", c!"data1", c!"read"] rfl) (Or.inl rfl)
    torn_text (pre := [alice]) (bad := [c!"bob"]) (post := []) rfl (by decide) (by
      intro rule hr
      simp only [List.mem_singleton] at hr
      subst hr
      exact ⟨evaluates_acl _ _ _ _ _ _ _, fun h => absurd ((satisfies_acl _ _ _ _ _ _ _).mp h)
        (by decide)⟩) []

/-- C16: with an effect expression that is not one of the four, no request is granted, in any state
of an enabled enforcer. -/
theorem C16_unsupported_effect (hen : E.enabled = true) (he : E.model.find c!"e" c!"e" = some e)
    (heff : e.value ≠ c!"some(where (p.eft == allow))" ∧
      e.value ≠ c!"!some(where (p.eft == deny))" ∧
      e.value ≠ c!"some(where (p.eft == allow)) && !some(where (p.eft == deny))" ∧
      e.value ≠ c!"priority(p.eft) || deny")
    (matcher : Str) (vs : List ReqVal) (X : Rule) (b : Bool) (x : Rule)
    (h : (E.enforceEx lib matcher vs X).1 = .ok (b, x)) : b = false := by
  have hs : ¬ Supported e.value := by
    rintro (h1 | h1 | h1 | h1)
    · exact heff.1 h1
    · exact heff.2.1 h1
    · exact heff.2.2.1 h1
    · exact heff.2.2.2 h1
  have hme : ∀ c, mergeEmpty e.value c = .throw .unsupported := by
    intro c
    have h1 : ¬ e.value = exprAllowOverride := heff.1
    have h2 : ¬ e.value = exprDenyOverride := heff.2.1
    have h3 : ¬ e.value = exprAllowAndDeny := heff.2.2.1
    have h4 : ¬ e.value = exprPriority := heff.2.2.2
    simp [mergeEmpty, mergeEffects, h1, h2, h3, h4]
  have hempty : ∀ (ex : Str) (ts : List Str) (s : ReqSt) (c : Bool),
      (enforceEmpty lib ex ts e.value s).1 = .ok c → c = false := by
    intro ex ts s c hc
    unfold enforceEmpty at hc
    split at hc
    · simp at hc
    · obtain ⟨_, s1, _, hc⟩ := M.bind_ok_inv hc
      obtain ⟨valid, s2, _, hc⟩ := M.bind_ok_inv hc
      split at hc
      · simp at hc; exact hc
      · obtain ⟨v, s3, _, hc⟩ := M.bind_ok_inv hc
        simp [M.bind_run, hme] at hc
  have hmain : ∀ (s : ReqSt) (c : Bool), (mEnforce lib E.model true matcher s).1 = .ok c → c = false := by
    intro s c hc
    unfold mEnforce at hc
    obtain ⟨_, s1, _, hc⟩ := M.bind_ok_inv hc
    simp only [Bool.not_true, Bool.false_eq_true, if_false] at hc
    obtain ⟨_, s2, _, hc⟩ := M.bind_ok_inv hc
    obtain ⟨_, s3, _, hc⟩ := M.bind_ok_inv hc
    have tail : ∀ (ex : Str) (s : ReqSt), ((do
        let _ ← needAssertion E.model c!"r" c!"r"
        let p ← needAssertion E.model c!"p" c!"p"
        let s ← M.get
        let rules ← M.lift (selectPolicies E.model s.ev)
        let e ← needAssertion E.model c!"e" c!"e"
        if rules ≠ [] then do
          let res ← runRules (ruleStep lib ex p.tokens) e.value rules
          finish rules res
        else enforceEmpty lib ex p.tokens e.value : M ReqSt Bool) s).1 = .ok c → c = false := by
      intro ex s hc
      obtain ⟨_, s4, _, hc⟩ := M.bind_ok_inv hc
      obtain ⟨p, s5, _, hc⟩ := M.bind_ok_inv hc
      obtain ⟨_, s6, _, hc⟩ := M.bind_ok_inv hc
      obtain ⟨rules, s7, _, hc⟩ := M.bind_ok_inv hc
      obtain ⟨e', s8, hne, hc⟩ := M.bind_ok_inv hc
      have : e' = e := by
        simp only [needAssertion, he, M.pure_run, Prod.mk.injEq, Outcome.ok.injEq] at hne
        exact hne.1.symm
      subst this
      split at hc
      · rename_i hr
        obtain ⟨res, s9, hrr, hc⟩ := M.bind_ok_inv hc
        exact absurd (by rw [hrr]; simp [Outcome.IsOk])
          (runRules_unsupported (ruleStep lib ex p.tokens) hs hr s8)
      · exact hempty _ _ _ _ hc
    split at hc
    · obtain ⟨a, s4, _, hc⟩ := M.bind_ok_inv hc
      exact tail _ _ hc
    · exact tail _ _ hc
  unfold Enforcer.enforceEx at h
  simp only [M.bind_run, M.get_run] at h
  cases hr : E.model.find c!"r" c!"r" with
  | none => simp [hr] at h
  | some r =>
    simp only [hr] at h
    split at h
    · simp at h; exact h.1
    · simp only [Enforcer.runRequest, hen] at h
      generalize hq : (do
        ReqSt.onEv (pushRequest r.tokens vs)
        mEnforce lib E.model true matcher : M ReqSt Bool)
        { ev := E.evaluator, heap := E.heap, explain := X } = q at h
      obtain ⟨o, s'⟩ := q
      cases o with
      | throw e => simp at h
      | ub u => simp at h
      | ok c =>
        simp at h
        obtain ⟨_, s1, _, hc⟩ := M.bind_ok_inv (congrArg Prod.fst hq)
        rw [← h.1]
        exact hmain s1 c hc

/-- The ACL model with an effect expression nobody knows. -/
def oddEffect : Enforcer := enforcer (eftModel c!"any(where (p.eft == allow))" (.vector mixed))
example : (letI := insertionOrder; oddEffect.enforce miniLib
    [.str c!"alice", .str c!"data1", .str c!"read"]).1 = .throw .unsupported := by decide +kernel
example := C16_unsupported_effect (lib := miniLib) (E := oddEffect)
  (e := eE c!"any(where (p.eft == allow))") rfl rfl (by decide) []
  [.str c!"alice", .str c!"data1", .str c!"read"] []

/-- C16: a rule for which the matcher cannot be compiled or evaluated does not grant: an answer is
only given when a well-formed satisfied rule before it decides. -/
theorem C16_failed_rule (hR : Request lib E r p e matcher exp vals)
    (htext : ∀ rule ∈ candidates p vals, rule.length = p.tokens.length →
      ruleText exp p.tokens rule ≠ .ok [])
    {k : Nat} {bad : Rule} (hk : (candidates p vals)[k]? = some bad)
    (hbad : ∀ b, verdict lib E.model E.heap exp r.tokens p.tokens vals bad ≠ .ok b)
    (X : Rule) {b : Bool} {x : Rule}
    (h : (E.enforceEx lib matcher (vals.map ReqVal.str) X).1 = .ok (b, x)) :
    ∃ i < k, (candidates p vals)[i]? = some x ∧ x.length = p.tokens.length ∧
      Satisfies lib E exp r p vals x ∧ (b = true → HasEffect p.tokens x .allow) ∧
      (b = false → HasEffect p.tokens x .deny) := by
  obtain ⟨ev', h1, _⟩ := enforceEx_decision hR htext X
  rw [h1] at h
  refine bad_decision hR.state.defs hk ?_ h
  unfold judge
  split
  · simp [Outcome.IsOk]
  · cases hv : verdict lib E.model E.heap exp r.tokens p.tokens vals bad with
    | ok b => exact absurd hv (hbad b)
    | throw e => simp [Outcome.IsOk]
    | ub u => simp [Outcome.IsOk]

/-- C16: when the matcher can be evaluated for no rule (for instance because it is not an expression
over the names of the model), no request is granted, whatever is stored. The texts of `eval()` rules
must not be empty: `C16_empty_eval_fails`. -/
theorem C16_failed_matcher_partial (hR : Request lib E r p e matcher exp vals)
    (htext : ∀ rule ∈ candidates p vals, rule.length = p.tokens.length →
      ruleText exp p.tokens rule ≠ .ok [])
    (hbad : ∀ rule, rule.length = p.tokens.length →
      ∀ b, verdict lib E.model E.heap exp r.tokens p.tokens vals rule ≠ .ok b) (X x : Rule) :
    (E.enforceEx lib matcher (vals.map ReqVal.str) X).1 ≠ .ok (true, x) := by
  intro h
  cases hc : candidates p vals with
  | cons y ys =>
    by_cases hl : y.length = p.tokens.length
    · obtain ⟨i, hi, _⟩ := C16_failed_rule hR htext (k := 0) (by rw [hc]; rfl) (hbad y hl) X h
      omega
    · obtain ⟨i, hi, _⟩ := C10_malformed hR htext (k := 0) (by rw [hc]; rfl) hl X h
      omega
  | nil =>
    obtain ⟨ev', h1, _⟩ := enforceEx_decision hR htext X
    rw [h1] at h
    simp only [decisionOf, hc, ne_eq, not_true_eq_false, if_false, emptyDecision] at h
    by_cases hev : hasEval exp = true
    · simp [hev] at h
    · have hb := hbad (p.tokens.map fun _ => []) (by simp)
      simp only [verdict, ruleText, hev, Bool.false_eq_true, if_false, Outcome.ok_bind] at hb
      simp only [hev, Bool.false_eq_true, if_false] at h
      split at h
      · generalize holds lib E.heap
          (naming E.model r.tokens p.tokens vals (p.tokens.map fun _ => [])) exp = o at h hb
        cases o with
        | ok b => exact hb b rfl
        | throw e => simp at h
        | ub u => simp at h
      · simp at h

/-- A policy definition with one column, the text of a condition. -/
def pCond (P : Policies) : Assertion := asrt c!"p" c!"sub_rule" [c!"p_sub_rule"] P
/-- A model whose matcher is `eval(p.sub_rule)`. -/
def condModel (P : Policies) : Model :=
  [(c!"m", [(c!"m", asrt c!"m" mEval [])]), (c!"r", rDef), (c!"p", [(c!"p", pCond P)]),
   (c!"e", eDef)]

omit [IterOrder] in
/-- C16 fails for an empty `eval()` text on a new enforcer: the empty text is taken for the one
compiled last, the value of the null expression is NaN, and NaN counts as true. -/
theorem C16_empty_eval_fails :
    letI := insertionOrder
    miniLib.parse [] = none ∧
    ((enforcer (condModel (.vector [[c!""]]))).enforce miniLib
      [.str c!"mallory", .str c!"data1", .str c!"read"]).1 = .ok true := by
  refine ⟨by decide, ?_⟩
  decide +kernel

omit [IterOrder] in
theorem verdict_mBad (m : Model) (rule : Rule) (hl : rule.length = 3) (vals : List Str)
    (hv : vals.length = 3) (heap : List RM) (b : Bool) :
    verdict miniLib m heap mBad rA.tokens pTok vals rule ≠ .ok b := by
  match rule, hl, vals, hv with
  | [x, y, z], _, [a1, b1, c1], _ =>
    have hev : hasEval mBad = false := by decide
    have hp : miniLib.parse mBad = some (eqv c!"r.sub" c!"p.nobody") := by rfl
    simp only [verdict, ruleText, hev, Bool.false_eq_true, if_false, Outcome.ok_bind, holds, hp]
    rw [if_neg]
    · simp
    · intro h
      obtain ⟨_, ⟨v, hv⟩, _⟩ := h
      simp [naming, bindings, rA, asrt, pTok, reqName, polName, reqRaw, polRaw, lower, tokenName,
        findChar, UMap.get] at hv

example (x : Rule) : ((acl [alice]).enforceEx miniLib mBad
    [.str c!"alice", .str c!"data1", .str c!"read"] []).1 ≠ .ok (true, x) :=
  C16_failed_matcher_partial (vals := [c!"alice", c!"data1", c!"read"])
    ⟨consistent_acl _ _, rfl, rfl, rfl, by decide, rfl⟩
    (fun _ _ _ => text_noEval (by decide) (by decide) _ _)
    (fun rule hl b => verdict_mBad _ rule hl _ rfl _ b) [] x

/-! ### C11, C12 -/

/-- The enforcer after a history of requests (matcher and values each); exceptions are caught by the
caller. -/
def replay (lib : ExprLib) : List (Str × List ReqVal) → Enforcer → Enforcer
  | [], E => E
  | q :: qs, E => replay lib qs (E.enforceEx lib q.1 q.2 []).2

/-- A request made of strings whose matcher texts are not empty, or with a wrong number of values. -/
def Plain (m : Model) (r p : Assertion) (q : Str × List ReqVal) : Prop :=
  q.2.length ≠ r.tokens.length ∨
  ∃ vals exp, q.2 = vals.map ReqVal.str ∧ vals.length = r.tokens.length ∧
    matcherOf m q.1 = some exp ∧ exp ≠ [] ∧
    ∀ rule ∈ candidates p vals, rule.length = p.tokens.length → ruleText exp p.tokens rule ≠ .ok []

/-- A plain request gives the same answer in every state of the evaluator, and leaves such a state. -/
theorem plain_step {ev : Option Evaluator} (hC : Consistent lib E r p)
    (hC' : Consistent lib { E with eval := ev } r p)
    (hen : E.enabled = true) (he : E.model.find c!"e" c!"e" = some e)
    {q : Str × List ReqVal} (hq : Plain E.model r p q) (X : Rule) :
    ∃ ev', ({ E with eval := ev } : Enforcer).enforceEx lib q.1 q.2 X
        = ((E.enforceEx lib q.1 q.2 X).1, { E with eval := ev' }) ∧
      Consistent lib { E with eval := ev' } r p := by
  rcases hq with hq | ⟨vals, exp, hv, hl, hm, hne, ht⟩
  · rw [(C09_wrong_arity hC.defs.findR q.2 hq q.1 X).1,
      (C09_wrong_arity (E := { E with eval := ev }) hC'.defs.findR q.2 hq q.1 X).1]
    exact ⟨ev, rfl, hC'⟩
  · rw [hv]
    obtain ⟨ev1, h1, _⟩ := enforceEx_decision (E := E) ⟨hC, hen, he, hm, hne, hl⟩ ht X
    obtain ⟨ev2, h2, h3⟩ := enforceEx_decision (E := { E with eval := ev })
      ⟨hC', hen, he, hm, hne, hl⟩ ht X
    rw [h1]
    exact ⟨some ev2, h2, h3⟩

/-- C11: the answer to a request does not depend on the requests made before. Missing are requests
with JSON values or given as a map (`C11_json_fails`, `C11_poison_fails`) and empty matcher texts. -/
theorem C11_history_partial (hC : Consistent lib E r p) (hen : E.enabled = true)
    (he : E.model.find c!"e" c!"e" = some e) (hist : List (Str × List ReqVal))
    (hh : ∀ q ∈ hist, Plain E.model r p q) {q : Str × List ReqVal} (hq : Plain E.model r p q)
    (X : Rule) :
    ((replay lib hist E).enforceEx lib q.1 q.2 X).1 = (E.enforceEx lib q.1 q.2 X).1 := by
  have key : ∀ (hist : List (Str × List ReqVal)) (ev : Option Evaluator),
      Consistent lib { E with eval := ev } r p → (∀ q ∈ hist, Plain E.model r p q) →
      ((replay lib hist { E with eval := ev }).enforceEx lib q.1 q.2 X).1
        = (E.enforceEx lib q.1 q.2 X).1 := by
    intro hist
    induction hist with
    | nil =>
      intro ev hC' _
      obtain ⟨ev', h1, _⟩ := plain_step hC hC' hen he hq X
      simp only [replay, h1]
    | cons a hist ih =>
      intro ev hC' hh
      obtain ⟨ev', h1, h2⟩ := plain_step hC hC' hen he (hh a (by simp)) []
      simp only [replay, h1]
      exact ih ev' h2 (fun q hq => hh q (by simp [hq]))
  exact key hist E.eval hC hh

omit [IterOrder] in
/-- C11 fails for requests with JSON values: the value of `r.sub` left by an earlier request grants
a request that on its own does not compile. -/
theorem C11_json_fails :
    letI := insertionOrder
    ((acl [alice]).enforce miniLib [.json, .str c!"data1", .str c!"read"]).1 = .throw .parse ∧
    ((replay miniLib [([], [.str c!"alice", .str c!"data1", .str c!"read"])]
      (acl [alice])).enforce miniLib [.json, .str c!"data1", .str c!"read"]).1 = .ok true := by
  refine ⟨?_, ?_⟩ <;> decide +kernel

omit [IterOrder] in
/-- C11 fails for requests given as a map: after one that lacks a value, a complete request that
would be granted throws, because the text that failed to compile is not compiled again. -/
theorem C11_poison_fails :
    letI := insertionOrder
    ((acl [alice]).enforce miniLib [.str c!"alice", .str c!"data1", .str c!"read"]).1 = .ok true ∧
    (((acl [alice]).enforceMap miniLib [(c!"sub", .str c!"alice")]).2.enforce miniLib
      [.str c!"alice", .str c!"data1", .str c!"read"]).1 = .throw .parse := by
  refine ⟨?_, ?_⟩ <;> decide +kernel

omit [IterOrder] in
theorem plain_acl (P : Policies) (vals : List Str) (h : vals.length = 3) :
    Plain (aclModel P) rA (pA P) ([], vals.map ReqVal.str) :=
  Or.inr ⟨vals, mAcl, rfl, h, rfl, by decide, fun _ _ _ => text_noEval (by decide) (by decide) _ _⟩

example : ((replay miniLib [([], [.str c!"bob", .str c!"data1", .str c!"read"]), ([], [])]
      (acl [alice])).enforceEx miniLib [] [.str c!"alice", .str c!"data1", .str c!"read"] []).1
    = ((acl [alice]).enforceEx miniLib [] [.str c!"alice", .str c!"data1", .str c!"read"] []).1 :=
  C11_history_partial (r := rA) (p := pA (.vector [alice])) (e := eA) (consistent_acl _ _) rfl rfl _
    (by
      intro q hq
      simp only [List.mem_cons, List.not_mem_nil, or_false] at hq
      rcases hq with rfl | rfl
      · exact plain_acl _ [c!"bob", c!"data1", c!"read"] rfl
      · exact Or.inl (by decide))
    (q := ([], [.str c!"alice", .str c!"data1", .str c!"read"]))
    (plain_acl _ [c!"alice", c!"data1", c!"read"] rfl) []

/-- C12: a batch gives the answers the requests would get one by one on the enforcer as it is before
the batch, up to the first one that throws. -/
theorem C12_batch (hC : Consistent lib E r p) (hen : E.enabled = true)
    (he : E.model.find c!"e" c!"e" = some e) (matcher : Str) (reqs : List (List ReqVal))
    (hh : ∀ vs ∈ reqs, Plain E.model r p (matcher, vs)) :
    (E.batchEnforceWithMatcher lib matcher reqs).1
      = reqs.mapM (fun vs => (E.enforceWithMatcher lib matcher vs).1) := by
  have key : ∀ (reqs : List (List ReqVal)) (ev : Option Evaluator),
      Consistent lib { E with eval := ev } r p → (∀ vs ∈ reqs, Plain E.model r p (matcher, vs)) →
      (Enforcer.batchEnforceWithMatcher lib matcher reqs { E with eval := ev }).1
        = reqs.mapM (fun vs => (E.enforceWithMatcher lib matcher vs).1) := by
    intro reqs
    induction reqs with
    | nil => intro ev _ _; rfl
    | cons a reqs ih =>
      intro ev hC' hh
      obtain ⟨ev', h1, h2⟩ := plain_step hC hC' hen he (hh a (by simp)) []
      simp only [] at h1
      have hrec := ih ev' h2 (fun q hq => hh q (by simp [hq]))
      simp only [Enforcer.batchEnforceWithMatcher, Enforcer.enforceWithMatcher, M.bind_run, h1,
        List.mapM_cons]
      cases ha : (E.enforceEx lib matcher a []) with
      | mk o s =>
        cases o with
        | throw e => rfl
        | ub u => rfl
        | ok bx =>
          simp only [M.pure_run, Outcome.ok_bind]
          have hrec' : (Enforcer.batchEnforceWithMatcher lib matcher reqs
              { E with eval := ev' }).1
            = reqs.mapM (fun vs => (E.enforceWithMatcher lib matcher vs).1) := hrec
          simp only [Enforcer.enforceWithMatcher, M.bind_run, M.pure_run] at hrec'
          rw [← hrec']
          cases Enforcer.batchEnforceWithMatcher lib matcher reqs { E with eval := ev' } with
          | mk o s => cases o <;> rfl
  exact key reqs E.eval hC hh

/-- `BatchEnforce` is `BatchEnforceWithMatcher` with the model's matcher. -/
theorem C12_batchEnforce (hC : Consistent lib E r p) (hen : E.enabled = true)
    (he : E.model.find c!"e" c!"e" = some e) (reqs : List (List ReqVal))
    (hh : ∀ vs ∈ reqs, Plain E.model r p ([], vs)) :
    (E.batchEnforce lib reqs).1 = reqs.mapM (fun vs => (E.enforce lib vs).1) := by
  have : ∀ (reqs : List (List ReqVal)) (E : Enforcer),
      E.batchEnforce lib reqs = E.batchEnforceWithMatcher lib [] reqs := by
    intro reqs
    induction reqs with
    | nil => intro E; rfl
    | cons a reqs ih =>
      intro E
      simp only [Enforcer.batchEnforce, Enforcer.batchEnforceWithMatcher, Enforcer.enforce,
        M.bind_run, ih]
  rw [this]
  exact C12_batch hC hen he [] reqs hh

example := C12_batchEnforce (lib := miniLib) (r := rA) (p := pA (.vector [alice, bob])) (e := eA)
  (consistent_acl _ _) rfl rfl
  [[.str c!"alice", .str c!"data1", .str c!"read"], [], [.str c!"bob", .str c!"d", .str c!"read"]]
  (by
    intro q hq
    simp only [List.mem_cons, List.not_mem_nil, or_false] at hq
    rcases hq with rfl | rfl | rfl
    · exact plain_acl _ [c!"alice", c!"data1", c!"read"] rfl
    · exact Or.inl (by decide)
    · exact plain_acl _ [c!"bob", c!"d", c!"read"] rfl)
example : (letI := insertionOrder; (acl [alice, bob]).batchEnforce miniLib
    [[.str c!"alice", .str c!"data1", .str c!"read"], [],
     [.str c!"bob", .str c!"d", .str c!"read"]]).1 = .ok [true, false, false] := by
  decide +kernel

/-! ### C13, C15 -/

/-- C13: without rules a request is denied, when the effect expression is not deny-override and the
matcher is not satisfied by a rule of empty fields. Without these conditions the claim is false:
`C13_fails`. -/
theorem C13_empty_partial (hR : Request lib E r p e matcher exp vals) (hs : Supported e.value)
    (hempty : p.policy.items = []) (heff : e.value ≠ c!"!some(where (p.eft == deny))")
    (hnoeval : hasEval exp = false)
    (hm : verdict lib E.model E.heap exp r.tokens p.tokens vals (p.tokens.map fun _ => [])
      = .ok false) :
    (E.enforceWithMatcher lib matcher (vals.map ReqVal.str)).1 = .ok false := by
  have hc : candidates p vals = [] := by simp [candidates, hempty]
  obtain ⟨ev', h1, _⟩ := enforceWithMatcher_decision hR (by simp [hc])
  rw [h1]
  simp only [verdict, ruleText, hnoeval, Bool.false_eq_true, if_false, Outcome.ok_bind] at hm
  have hcomp : Compiles lib (naming E.model r.tokens p.tokens vals (p.tokens.map fun _ => [])) exp := by
    unfold holds at hm
    cases hp : lib.parse exp with
    | none => simp [hp] at hm
    | some x =>
      simp only [hp] at hm
      split at hm
      · rename_i hk; exact ⟨x, hp, hk⟩
      · simp at hm
  simp only [decisionOf, hc, ne_eq, not_true_eq_false, if_false, emptyDecision, hnoeval,
    Bool.false_eq_true, if_pos hcomp, hm]
  have h2 : e.value ≠ exprDenyOverride := heff
  rcases hs with h | h | h | h
  · simp [mergeEmpty, mergeEffects, h, vecAt, conclude, explained]
  · exact absurd h h2
  · simp [mergeEmpty, mergeEffects, h, exprBoth_ne1, exprBoth_ne2, vecAt, conclude, explained,
      scanAllow]
  · simp [mergeEmpty, mergeEffects, h, exprPrio_ne1, exprPrio_ne2, exprPrio_ne3, vecAt, conclude,
      explained, scanBack]

omit [IterOrder] in
/-- C13 fails: without rules, deny-override grants everything, and allow-override grants the request
with empty values. -/
theorem C13_fails :
    letI := insertionOrder
    ((eft exprDenyOverride []).enforce miniLib
      [.str c!"mallory", .str c!"data1", .str c!"read"]).1 = .ok true ∧
    ((acl []).enforce miniLib [.str c!"", .str c!"", .str c!""]).1 = .ok true := by
  refine ⟨?_, ?_⟩ <;> decide +kernel

example : ((acl []).enforceWithMatcher miniLib []
    [.str c!"alice", .str c!"data1", .str c!"read"]).1 = .ok false :=
  C13_empty_partial (request_acl (.vector []) [c!"alice", c!"data1", c!"read"] rfl) (Or.inl rfl) rfl
    (by decide) (by decide)
    ((verdict_mAcl miniLib_sound _ _ [] c!"alice" c!"data1" c!"read" [] [] [] []).trans (by decide))

/-- C15: with storage in a vector, a custom matcher is evaluated against the stored rules: the first
rule that decides under it gives the answer. With a set it is not: `C15_fails`. -/
theorem C15_custom_matcher_partial (hR : Request lib E r p e matcher matcher vals)
    (hs : Supported e.value) (hh : p.policy.hash = false) (hne : p.policy.items ≠ [])
    (hev : ∀ rule ∈ p.policy.items, Evaluates lib E matcher r p vals rule) :
    ∃ b, (E.enforceWithMatcher lib matcher (vals.map ReqVal.str)).1 = .ok b ∧
      ((∃ i : Nat, ∃ x, p.policy.items[i]? = some x ∧
          Decides lib E matcher e.value r p vals x ∧
          (∀ j < i, ∀ y, p.policy.items[j]? = some y →
            ¬ Decides lib E matcher e.value r p vals y) ∧
          (b = true ↔ HasEffect p.tokens x .allow)) ∨
       ((∀ y ∈ p.policy.items, ¬ Decides lib E matcher e.value r p vals y) ∧
          (b = true ↔ e.value = exprDenyOverride))) := by
  have hc : candidates p vals = p.policy.items := by simp [candidates, hh]
  have := enforce_main hR hs (by rw [hc]; exact hne) (by rw [hc]; exact hev)
  rw [hc] at this
  exact this

omit [IterOrder] in
/-- C15 fails with a set: under a custom matcher that only looks at the subject, Alice's rule for
`data1` is not found for a request about `data2`, though a vector of the same rules grants it. -/
theorem C15_fails :
    letI := insertionOrder
    ((acl [alice]).enforceWithMatcher miniLib mSub
      [.str c!"alice", .str c!"data2", .str c!"write"]).1 = .ok true ∧
    ((aclHash [alice]).enforceWithMatcher miniLib mSub
      [.str c!"alice", .str c!"data2", .str c!"write"]).1 = .ok false := by
  refine ⟨?_, ?_⟩ <;> decide +kernel

end DecisionProps
end Casbin
