import Verif.DecisionRun
import Verif.EffectDecide

/-!
# The decision of a request, in terms of the rules

Helper lemmas for `Props/Decision.lean`.
-/

namespace Casbin

theorem tokenIndex_spec (t : Str) (l : List Str) (k : Nat) :
    match tokenIndex t l k with
    | some i => k ≤ i ∧ l[i - k]? = some t
    | none => t ∉ l := by
  induction l generalizing k with
  | nil => simp [tokenIndex]
  | cons x xs ih =>
    have := ih (k + 1)
    simp only [tokenIndex]
    cases h : tokenIndex t xs (k + 1) with
    | some i =>
      simp only [h] at this ⊢
      refine ⟨by omega, ?_⟩
      rw [show i - k = (i - (k + 1)) + 1 by omega]; simpa using this.2
    | none =>
      simp only [h] at this ⊢
      by_cases hx : x = t
      · simp [hx]
      · simp only [hx, if_false, List.mem_cons, not_or]
        exact ⟨fun e => hx e.symm, this⟩

/-- A rule of the declared length has exactly one effect. -/
theorem ruleEffect_spec {pt : List Str} (hn : pt.Nodup) {rule : Rule}
    (hl : rule.length = pt.length) :
    ∃ w, ruleEffect pt rule = .ok w ∧ ∀ w', HasEffect pt rule w' ↔ w' = w := by
  have hi := tokenIndex_spec c!"p_eft" pt 0
  unfold ruleEffect
  cases h : tokenIndex c!"p_eft" pt 0 with
  | none =>
    simp only [h] at hi ⊢
    refine ⟨.allow, rfl, ?_⟩
    intro w'
    have hno : ∀ j : Nat, pt[j]? ≠ some c!"p_eft" := fun j hj => hi (List.mem_of_getElem? hj)
    cases w' with
    | allow => simp [HasEffect, hi]
    | deny => simp only [HasEffect, reduceCtorEq, iff_false]; rintro ⟨j, hj, _⟩; exact hno j hj
    | indeterminate =>
      simp only [HasEffect, reduceCtorEq, iff_false]; rintro ⟨j, v, hj, _⟩; exact hno j hj
  | some j =>
    simp only [h, Nat.sub_zero] at hi ⊢
    have hjl : j < pt.length := (List.getElem?_eq_some_iff.mp hi.2).1
    have hjr : j < rule.length := by omega
    have huniq : ∀ j' : Nat, pt[j']? = some c!"p_eft" → j' = j := by
      intro j' hj'
      obtain ⟨h1, h2⟩ := List.getElem?_eq_some_iff.mp hj'
      obtain ⟨h3, h4⟩ := List.getElem?_eq_some_iff.mp hi.2
      exact (List.Nodup.getElem_inj_iff hn).mp (h2.trans h4.symm)
    have hmem : c!"p_eft" ∈ pt := List.mem_of_getElem? hi.2
    have hgr : rule[j]? = some rule[j] := List.getElem?_eq_getElem hjr
    rw [vecAt_ok hjr]
    simp only [Outcome.ok_bind]
    have hA : HasEffect pt rule .allow ↔ rule[j] = c!"allow" := by
      simp only [HasEffect, hmem, not_true_eq_false, false_or]
      constructor
      · rintro ⟨j', h1, h2⟩
        have := huniq j' h1
        subst this
        rw [hgr] at h2; exact Option.some.inj h2
      · intro he; exact ⟨j, hi.2, by rw [hgr, he]⟩
    have hD : HasEffect pt rule .deny ↔ rule[j] = c!"deny" := by
      simp only [HasEffect]
      constructor
      · rintro ⟨j', h1, h2⟩
        have := huniq j' h1
        subst this
        rw [hgr] at h2; exact Option.some.inj h2
      · intro he; exact ⟨j, hi.2, by rw [hgr, he]⟩
    have hI : HasEffect pt rule .indeterminate ↔ rule[j] ≠ c!"allow" ∧ rule[j] ≠ c!"deny" := by
      simp only [HasEffect]
      constructor
      · rintro ⟨j', v, h1, h2, h3⟩
        have := huniq j' h1
        subst this
        rw [hgr] at h2
        rw [Option.some.inj h2]; exact h3
      · intro he; exact ⟨j, rule[j], hi.2, hgr, he⟩
    by_cases h1 : rule[j] = c!"allow"
    · refine ⟨.allow, by simp [h1], ?_⟩
      intro w'
      cases w'
      · simp [hA, h1]
      · simp [hI, h1]
      · simp [hD, h1]
    · by_cases h2 : rule[j] = c!"deny"
      · refine ⟨.deny, by simp [h2], ?_⟩
        intro w'
        cases w'
        · simp [hA, h1]
        · simp [hI, h2]
        · simp [hD, h2]
      · refine ⟨.indeterminate, by simp [h1, h2], ?_⟩
        intro w'
        cases w'
        · simp [hA, h1]
        · simp [hI, h1, h2]
        · simp [hD, h2]

/-- The rule satisfies the matcher for the request. -/
def Satisfies (lib : ExprLib) (E : Enforcer) (exp : Str) (r p : Assertion) (vals : List Str)
    (rule : Rule) : Prop :=
  verdict lib E.model E.heap exp r.tokens p.tokens vals rule = .ok true

/-- The rule has the declared number of fields, and the matcher can be evaluated for it. -/
structure Evaluates (lib : ExprLib) (E : Enforcer) (exp : Str) (r p : Assertion) (vals : List Str)
    (rule : Rule) : Prop where
  length : rule.length = p.tokens.length
  text : ruleText exp p.tokens rule ≠ .ok []
  value : ∃ b, verdict lib E.model E.heap exp r.tokens p.tokens vals rule = .ok b

/-- A request with the right number of values, on an enforcer in a consistent state. `matcher` is
the custom matcher (empty: none was given), `exp` the matcher text in force. -/
structure Request (lib : ExprLib) (E : Enforcer) (r p e : Assertion) (matcher exp : Str)
    (vals : List Str) : Prop where
  state : Consistent lib E r p
  enabled : E.enabled = true
  effect : E.model.find c!"e" c!"e" = some e
  matcher : matcherOf E.model matcher = some exp
  nonempty : exp ≠ []
  arity : vals.length = r.tokens.length

/-- The rule decides the request under the effect expression `eff`. -/
def Decides (lib : ExprLib) (E : Enforcer) (exp eff : Str) (r p : Assertion) (vals : List Str)
    (rule : Rule) : Prop :=
  Satisfies lib E exp r p vals rule ∧
  ((eff = exprAllowOverride ∧ HasEffect p.tokens rule .allow) ∨
   (eff = exprDenyOverride ∧ HasEffect p.tokens rule .deny) ∨
   (eff = exprAllowAndDeny ∧ (HasEffect p.tokens rule .deny ∨
      (HasEffect p.tokens rule .allow ∧ ∀ rule' ∈ candidates p vals,
        ¬ (Satisfies lib E exp r p vals rule' ∧ HasEffect p.tokens rule' .deny)))) ∨
   (eff = exprPriority ∧ (HasEffect p.tokens rule .allow ∨ HasEffect p.tokens rule .deny)))

section
variable [IterOrder] {lib : ExprLib} {E : Enforcer} {r p e : Assertion} {matcher exp : Str}
  {vals : List Str}

omit [IterOrder] in
theorem tokens_nodup {m : Model} (h : WellDefined m r p) : p.tokens.Nodup := h.pNodup.of_map _

omit [IterOrder] in
/-- What a rule that evaluates contributes. -/
theorem judge_ok (hW : WellDefined E.model r p) {rule : Rule}
    (h : Evaluates lib E exp r p vals rule) :
    ∃ b w, judge lib E.model E.heap exp r p vals rule = .ok (b, w) ∧
      (b = true ↔ Satisfies lib E exp r p vals rule) ∧
      ∀ w', HasEffect p.tokens rule w' ↔ w' = w := by
  obtain ⟨b, hb⟩ := h.value
  obtain ⟨w, hw, hw'⟩ := ruleEffect_spec (tokens_nodup hW) h.length
  refine ⟨b, w, ?_, ?_, hw'⟩
  · simp [judge, h.length, hb, hw]
  · simp [Satisfies, hb]

open Classical in
/-- The pair a rule contributes. -/
noncomputable def pairOf (lib : ExprLib) (E : Enforcer) (exp : Str) (r p : Assertion)
    (vals : List Str) (rule : Rule) : Bool × Effect :=
  (decide (Satisfies lib E exp r p vals rule),
    if HasEffect p.tokens rule .allow then .allow
    else if HasEffect p.tokens rule .deny then .deny else .indeterminate)

omit [IterOrder] in
theorem judge_pair (hW : WellDefined E.model r p) {rule : Rule}
    (h : Evaluates lib E exp r p vals rule) :
    judge lib E.model E.heap exp r p vals rule = .ok (pairOf lib E exp r p vals rule) := by
  obtain ⟨b, w, h1, h2, h3⟩ := judge_ok hW h
  rw [h1]
  unfold pairOf
  congr 2
  · cases b <;> simp_all
  · cases w <;> simp [h3]

omit [IterOrder] in
theorem pairOf_fst (rule : Rule) :
    (pairOf lib E exp r p vals rule).1 = true ↔ Satisfies lib E exp r p vals rule := by
  simp [pairOf]

omit [IterOrder] in
theorem pairOf_snd (hW : WellDefined E.model r p) {rule : Rule}
    (hl : rule.length = p.tokens.length) (w : Effect) :
    (pairOf lib E exp r p vals rule).2 = w ↔ HasEffect p.tokens rule w := by
  obtain ⟨w0, _, hw'⟩ := ruleEffect_spec (tokens_nodup hW) hl
  unfold pairOf
  simp only [hw']
  cases w0 <;> cases w <;> simp

omit [IterOrder] in
theorem decPair_iff (hW : WellDefined E.model r p) {eff : Str}
    (hl : ∀ rule ∈ candidates p vals, rule.length = p.tokens.length) {rule : Rule}
    (hr : rule ∈ candidates p vals) :
    DecPair eff ((candidates p vals).map (pairOf lib E exp r p vals))
        (pairOf lib E exp r p vals rule) ↔
      Decides lib E exp eff r p vals rule := by
  unfold DecPair Decides
  rw [pairOf_fst, pairOf_snd hW (hl rule hr), pairOf_snd hW (hl rule hr)]
  have h1 : (pairOf lib E exp r p vals rule).2 ≠ .indeterminate ↔
      HasEffect p.tokens rule .allow ∨ HasEffect p.tokens rule .deny := by
    rw [← pairOf_snd (lib := lib) (exp := exp) (vals := vals) hW (hl rule hr),
      ← pairOf_snd (lib := lib) (exp := exp) (vals := vals) hW (hl rule hr)]
    cases (pairOf lib E exp r p vals rule).2 <;> simp
  have h2 : (∀ q' ∈ (candidates p vals).map (pairOf lib E exp r p vals),
        ¬ (q'.1 = true ∧ q'.2 = .deny)) ↔
      ∀ rule' ∈ candidates p vals,
        ¬ (Satisfies lib E exp r p vals rule' ∧ HasEffect p.tokens rule' .deny) := by
    simp only [List.mem_map, forall_exists_index, and_imp, forall_apply_eq_imp_iff₂]
    constructor
    · intro h rule' hr'
      have := h rule' hr'
      rw [pairOf_fst, pairOf_snd hW (hl rule' hr')] at this
      exact this
    · intro h rule' hr'
      rw [pairOf_fst, pairOf_snd hW (hl rule' hr')]
      exact h rule' hr'
  rw [h1, h2]

omit [IterOrder] in
/-- The decision of a request whose candidate rules all evaluate. -/
theorem decision_main (hR : Request lib E r p e matcher exp vals)
    (hs : Supported e.value) (hne : candidates p vals ≠ [])
    (hev : ∀ rule ∈ candidates p vals, Evaluates lib E exp r p vals rule) :
    ∃ b x, decisionOf lib E.model E.heap exp e.value r p vals = .ok (b, x) ∧
      ((∃ i : Nat, (candidates p vals)[i]? = some x ∧ Decides lib E exp e.value r p vals x ∧
          (∀ j < i, ∀ y, (candidates p vals)[j]? = some y →
            ¬ Decides lib E exp e.value r p vals y) ∧
          (b = true ↔ HasEffect p.tokens x .allow)) ∨
       (x = [] ∧ (∀ y ∈ candidates p vals, ¬ Decides lib E exp e.value r p vals y) ∧
          (b = true ↔ e.value = exprDenyOverride))) := by
  have hW := hR.state.defs
  have hl := fun rule hr => (hev rule hr).length
  obtain ⟨res, hres, hfd⟩ := pureRules_decide hs (pairOf lib E exp r p vals) (candidates p vals) hne
  have hpr : pureRules (judge lib E.model E.heap exp r p vals) e.value (candidates p vals)
      = .ok (some res) := by
    rw [← hres]
    exact pureRules_congr _ _ (fun rule hr => judge_pair hW (hev rule hr))
  unfold decisionOf
  rw [if_pos hne, hpr]
  rcases hfd with ⟨i, q, hq, hd, hmin, rfl⟩ | ⟨hno, rfl⟩
  · rw [List.getElem?_map, Option.map_eq_some_iff] at hq
    obtain ⟨x, hx, rfl⟩ := hq
    have hxm := List.mem_of_getElem? hx
    refine ⟨decide ((pairOf lib E exp r p vals x).2 = .allow), x, ?_, Or.inl ⟨i, hx, (decPair_iff hW hl hxm).mp hd, ?_, ?_⟩⟩
    · simp only [conclude, explained, hx]
    · intro j hj y hy hdy
      refine hmin j hj (pairOf lib E exp r p vals y) (by rw [List.getElem?_map, hy]; rfl) ?_
      exact (decPair_iff hW hl (List.mem_of_getElem? hy)).mpr hdy
    · simp only [decide_eq_true_eq]
      exact pairOf_snd hW (hl x hxm) .allow
  · refine ⟨decide (defaultEffect e.value = .allow), [], ?_, Or.inr ⟨rfl, ?_, ?_⟩⟩
    · simp only [conclude, explained]
    · intro y hy hd
      exact hno _ (List.mem_map_of_mem hy) ((decPair_iff hW hl hy).mpr hd)
    · simp only [defaultEffect]
      by_cases h : e.value = exprDenyOverride <;> simp [h]

/-- The code computes `decisionOf`. -/
theorem enforceEx_decision (hR : Request lib E r p e matcher exp vals)
    (htext : ∀ rule ∈ candidates p vals, rule.length = p.tokens.length →
      ruleText exp p.tokens rule ≠ .ok []) (X : Rule) :
    ∃ ev', E.enforceEx lib matcher (vals.map ReqVal.str) X
        = (decisionOf lib E.model E.heap exp e.value r p vals, { E with eval := some ev' }) ∧
      Consistent lib { E with eval := some ev' } r p := by
  obtain ⟨ev', h1, h2⟩ := enforceEx_run lib hR.state hR.enabled hR.effect hR.arity hR.matcher
    hR.nonempty (fun rule hr hl t ht hnil => htext rule hr hl (by rw [ht, hnil])) X
  exact ⟨ev', h1, ⟨hR.state.defs, hR.state.roles, h2⟩⟩

theorem enforceWithMatcher_decision (hR : Request lib E r p e matcher exp vals)
    (htext : ∀ rule ∈ candidates p vals, rule.length = p.tokens.length →
      ruleText exp p.tokens rule ≠ .ok []) :
    ∃ ev', E.enforceWithMatcher lib matcher (vals.map ReqVal.str)
        = ((decisionOf lib E.model E.heap exp e.value r p vals).map Prod.fst,
            { E with eval := some ev' }) ∧
      Consistent lib { E with eval := some ev' } r p := by
  obtain ⟨ev', h1, h2⟩ := enforceEx_decision hR htext []
  refine ⟨ev', ?_, h2⟩
  unfold Enforcer.enforceWithMatcher
  simp only [M.bind_run, h1]
  cases decisionOf lib E.model E.heap exp e.value r p vals <;> rfl

end

end Casbin
