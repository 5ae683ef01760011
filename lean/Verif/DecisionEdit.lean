import Verif.DecisionMain
import Verif.EnforcerLemmas

/-!
# Edits of the policy between requests

Changing the rules of policy type `p` leaves an enforcer consistent and does not change whether a
given rule satisfies the matcher.
-/

namespace Casbin

/-- `functions` only depends on the grouping types. -/
theorem functions_congr {m m' : Model} (h : ∀ k, m'.find c!"g" k = m.find c!"g" k) :
    functions m' = functions m := by
  funext f
  simp [functions, h]

theorem stdNames_congr {r p p' : Assertion} (h : p'.tokens = p.tokens) :
    stdNames r p' = stdNames r p := by simp [stdNames, h]

theorem fullNaming_congr {m m' : Model} {r p p' : Assertion} (hf : functions m' = functions m)
    (ht : p'.tokens = p.tokens) (N : Naming) : FullNaming m' r p' N ↔ FullNaming m r p N := by
  simp [FullNaming, hf, stdNames_congr ht]

theorem EvOK.congr {lib : ExprLib} {m m' : Model} {r p p' : Assertion} {ev : Evaluator}
    (hf : functions m' = functions m) (ht : p'.tokens = p.tokens) (h : EvOK lib m r p ev) :
    EvOK lib m' r p' ev where
  vars := by rw [stdNames_congr ht]; exact h.vars
  names := ⟨by
    have : rawNames r p' = rawNames r p := by simp [rawNames, ht]
    rw [this]; exact h.names.known, h.names.entered⟩
  funs := by rw [hf]; exact h.funs
  text := by
    refine ⟨?_, ?_⟩
    · intro h1 h2 e he N hN
      exact h.text.bad h1 h2 e he N ((fullNaming_congr hf ht N).mp hN)
    · intro h1 h2
      obtain ⟨e, he, hc, hk⟩ := h.text.good h1 h2
      exact ⟨e, he, hc, fun N hN => hk N ((fullNaming_congr hf ht N).mp hN)⟩

theorem verdict_congr {lib : ExprLib} {m m' : Model} {heap : List RM} (exp : Str)
    (hf : functions m' = functions m) (rt pt vals : List Str) (rule : Rule) :
    verdict lib m' heap exp rt pt vals rule = verdict lib m heap exp rt pt vals rule := by
  simp [verdict, naming, hf]

/-- The model with other rules of policy type `p`. -/
def setRules (m : Model) (p : Assertion) (P : Policies) : Model :=
  m.put c!"p" c!"p" { p with policy := P }

theorem find_setRules_ne (m : Model) (p : Assertion) (P : Policies) {s t : Str} (h : s ≠ c!"p") :
    (setRules m p P).find s t = m.find s t :=
  Model.find_put_ne _ _ (fun h' => h h'.1.symm)

theorem functions_setRules (m : Model) (p : Assertion) (P : Policies) :
    functions (setRules m p P) = functions m :=
  functions_congr fun _ => find_setRules_ne m p P (by decide)

theorem secMap_put_ne (m : Model) {s s' t : Str} (a : Assertion) (h : s ≠ s') :
    (m.put s t a).secMap s' = m.secMap s' := by
  unfold Model.put Model.secMap
  cases m.get s <;> simp [UMap.get_set, h]

theorem WellDefined.setRules {m : Model} {r p : Assertion} (h : WellDefined m r p) (P : Policies) :
    WellDefined (setRules m p P) r { p with policy := P } where
  findR := by rw [find_setRules_ne _ _ _ (by decide)]; exact h.findR
  findP := Model.find_put_self _ _ _ _
  rLen := h.rLen
  rValid := h.rValid
  pValid := h.pValid
  rNodup := h.rNodup
  pNodup := h.pNodup
  gNodup := by
    unfold Casbin.setRules
    rw [secMap_put_ne _ _ (by decide)]; exact h.gNodup
  gLower := fun k a hk => h.gLower k a (by rwa [find_setRules_ne _ _ _ (by decide)] at hk)

theorem GoodRoles.setRules {m : Model} {heap : List RM} (h : GoodRoles m heap) (p : Assertion)
    (P : Policies) : GoodRoles (setRules m p P) heap :=
  ⟨h.wf, h.plain, fun k a i hk => h.ptr k a i (by rwa [find_setRules_ne _ _ _ (by decide)] at hk)⟩

/-- An enforcer that differs from `E` only in the rules of policy type `p`, its adapter, its watcher
and its other flags. -/
structure Differs (E E' : Enforcer) (p : Assertion) (P : Policies) : Prop where
  model : E'.model = setRules E.model p P
  heap : E'.heap = E.heap
  eval : E'.eval = E.eval
  enabled : E'.enabled = E.enabled

section
variable {lib : ExprLib} {E E' : Enforcer} {r p e : Assertion} {matcher exp : Str}
  {vals : List Str} {P : Policies}

theorem Consistent.differs (h : Consistent lib E r p) (hd : Differs E E' p P) :
    Consistent lib E' r { p with policy := P } where
  defs := by rw [hd.model]; exact h.defs.setRules P
  roles := by rw [hd.model, hd.heap]; exact h.roles.setRules p P
  eval := by
    rw [hd.model]
    have : E'.evaluator = E.evaluator := by simp [Enforcer.evaluator, hd.eval]
    rw [this]
    exact EvOK.congr (p := p) (functions_setRules _ _ _) rfl h.eval

theorem matcherOf_setRules (m : Model) (p : Assertion) (P : Policies) (matcher : Str) :
    matcherOf (setRules m p P) matcher = matcherOf m matcher := by
  unfold matcherOf
  rw [find_setRules_ne _ _ _ (by decide)]

theorem Request.differs (h : Request lib E r p e matcher exp vals) (hd : Differs E E' p P) :
    Request lib E' r { p with policy := P } e matcher exp vals where
  state := h.state.differs hd
  enabled := by rw [hd.enabled]; exact h.enabled
  effect := by rw [hd.model, find_setRules_ne _ _ _ (by decide)]; exact h.effect
  matcher := by rw [hd.model, matcherOf_setRules]; exact h.matcher
  nonempty := h.nonempty
  arity := h.arity

theorem Differs.satisfies (hd : Differs E E' p P) (rule : Rule) :
    Satisfies lib E' exp r { p with policy := P } vals rule ↔
      Satisfies lib E exp r p vals rule := by
  unfold Satisfies
  rw [hd.model, hd.heap, verdict_congr exp (functions_setRules _ _ _)]

theorem Differs.evaluates (hd : Differs E E' p P) (rule : Rule) :
    Evaluates lib E' exp r { p with policy := P } vals rule ↔
      Evaluates lib E exp r p vals rule := by
  have : ∀ b, verdict lib E'.model E'.heap exp r.tokens p.tokens vals rule = .ok b ↔
      verdict lib E.model E.heap exp r.tokens p.tokens vals rule = .ok b := by
    intro b
    rw [hd.model, hd.heap, verdict_congr exp (functions_setRules _ _ _)]
  constructor
  · rintro ⟨h1, h2, b, h3⟩; exact ⟨h1, h2, b, (this b).mp h3⟩
  · rintro ⟨h1, h2, b, h3⟩; exact ⟨h1, h2, b, (this b).mpr h3⟩

theorem differs_putRules (E : Enforcer) (p : Assertion) (P : Policies) :
    Differs E { E with model := setRules E.model p P } p P := ⟨rfl, rfl, rfl, rfl⟩

theorem Differs.core {E'' : Enforcer} (hd : Differs E E' p P) (hc : Enforcer.SameCore E' E'') :
    Differs E E'' p P := by
  obtain ⟨h1, h2, h3, h4, h5, _⟩ := hc
  exact ⟨h1.trans hd.model, h2.trans hd.heap, h4.trans hd.eval, h5.trans hd.enabled⟩

/-- `AddPolicy` changes an enforcer only by putting the rule into the policy, if it was not there. -/
theorem addPolicy_differs [IterOrder] (hp : E.model.find c!"p" c!"p" = some p) (rule : Rule) :
    ∃ P, Differs E (E.addPolicy rule).2 p P ∧ P.hash = p.policy.hash ∧
      (P = p.policy ∨ P = p.policy.emplace rule) ∧
      ((E.addPolicy rule).1 = .ok true → P = p.policy.emplace rule) := by
  unfold Enforcer.addPolicy Enforcer.addNamedPolicy
  by_cases hs : p.policy.Similar rule
  · rw [Enforcer.addPolicyI_p_similar hp hs]
    refine ⟨p.policy, ⟨?_, rfl, rfl, rfl⟩, rfl, Or.inl rfl, by simp⟩
    unfold setRules
    rw [show ({ p with policy := p.policy } : Assertion) = p from rfl, Model.put_self _ _ _ _ hp]
  · rw [Enforcer.addPolicyI_p_new hp hs]
    exact ⟨_, (differs_putRules E p _).core (Enforcer.saveNotify_core _ _),
      Policies.emplace_hash _ _, Or.inr rfl, fun _ => rfl⟩

end
end Casbin
