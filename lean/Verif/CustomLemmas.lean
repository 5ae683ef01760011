import Verif.Custom

/-!
# The general request with the classes of the library

Helper lemmas: a simulation between `Custom.mEnforce` on `ExprtkEvaluator` and `DefaultEffector` and
`mEnforce`.
-/

namespace Casbin
namespace Custom

open CallSt

/-- The state of `Enforce.lean` for the objects of the library. -/
def toReq (s : CallSt LibObj) : ReqSt := { ev := s.obj.1, heap := s.obj.2, explain := s.explain }

/-- Two programs with the same results on corresponding states. -/
def Sim {α : Type} (f : M (CallSt LibObj) α) (g : M ReqSt α) : Prop :=
  ∀ s, (f s).1 = (g (toReq s)).1 ∧ toReq (f s).2 = (g (toReq s)).2

theorem Sim.pure {α : Type} (a : α) : Sim (Pure.pure a) (Pure.pure a) := fun _ => ⟨rfl, rfl⟩

theorem Sim.ub {α : Type} (u : UB) : Sim (M.ub u : M (CallSt LibObj) α) (M.ub u) :=
  fun _ => ⟨rfl, rfl⟩

theorem Sim.throw {α : Type} (e : Exn) : Sim (M.throw e : M (CallSt LibObj) α) (M.throw e) :=
  fun _ => ⟨rfl, rfl⟩

theorem Sim.lift {α : Type} (o : Outcome α) :
    Sim (M.lift o : M (CallSt LibObj) α) (M.lift o) := by
  cases o <;> exact fun _ => ⟨rfl, rfl⟩

theorem Sim.bind {α β : Type} {f : M (CallSt LibObj) α} {g : M ReqSt α}
    {f' : α → M (CallSt LibObj) β} {g' : α → M ReqSt β} (h : Sim f g)
    (h' : ∀ a, Sim (f' a) (g' a)) : Sim (f >>= f') (g >>= g') := by
  intro s
  obtain ⟨h1, h2⟩ := h s
  simp only [M.bind_run]
  rcases hf : f s with ⟨o, s1⟩
  rcases hg : g (toReq s) with ⟨o', s1'⟩
  rw [hf, hg] at h1 h2
  simp only at h1 h2
  subst h1; subst h2
  cases o with
  | ok a => exact h' a s1
  | throw e => exact ⟨rfl, rfl⟩
  | ub u => exact ⟨rfl, rfl⟩

/-- The same when the second program returns its result in another form. -/
theorem Sim.bindMap {α β γ : Type} {f : M (CallSt LibObj) γ} {g : M ReqSt α} (k : α → γ)
    {f' : γ → M (CallSt LibObj) β} {g' : α → M ReqSt β}
    (h : Sim f (do let a ← g; Pure.pure (k a)))
    (h' : ∀ a, Sim (f' (k a)) (g' a)) : Sim (f >>= f') (g >>= g') := by
  intro s
  obtain ⟨h1, h2⟩ := h s
  simp only [M.bind_run] at h1 h2 ⊢
  rcases hf : f s with ⟨o, s1⟩
  rcases hg : g (toReq s) with ⟨o', s1'⟩
  rw [hf, hg] at h1 h2
  cases o' with
  | ok a =>
    simp only [M.pure_run] at h1 h2
    subst h1; subst h2
    exact h' a s1
  | throw e => simp only at h1 h2; subst h1; subst h2; exact ⟨rfl, rfl⟩
  | ub u => simp only at h1 h2; subst h1; subst h2; exact ⟨rfl, rfl⟩

theorem bind_bind {σ α β γ : Type} (f : M σ α) (g : α → M σ β) (h : β → M σ γ) :
    (f >>= g) >>= h = f >>= fun a => g a >>= h := by
  funext s
  simp only [M.bind_run]
  rcases f s with ⟨o, s1⟩
  cases o <;> rfl

theorem pure_then {σ α β : Type} (a : α) (f : α → M σ β) : (Pure.pure a >>= f) = f a := rfl

theorem on_bind {σ α β : Type} (f : M σ α) (g : α → M σ β) :
    on (f >>= g) = on f >>= fun a => on (g a) := by
  funext s
  simp only [on, M.bind_run]
  cases h : (f s.obj).1 <;> rcases hf : f s.obj with ⟨o, s1⟩ <;> rw [hf] at h <;>
    simp only at h <;> subst h <;> rfl

theorem on_pure {σ α : Type} (a : α) : on (Pure.pure a : M σ α) = Pure.pure a := rfl

theorem on_lift {σ α : Type} (o : Outcome α) : on (M.lift o : M σ α) = M.lift o := by
  cases o <;> rfl

theorem on_throw {σ α : Type} (e : Exn) : on (M.throw e : M σ α) = M.throw e := rfl

theorem on_ub {σ α : Type} (u : UB) : on (M.ub u : M σ α) = M.ub u := rfl

theorem on_ite {σ α : Type} (c : Prop) [Decidable c] (f g : M σ α) :
    on (if c then f else g) = if c then on f else on g := by
  split <;> rfl

theorem Sim.ite {α : Type} (c : Prop) [Decidable c] {f f' : M (CallSt LibObj) α} {g g' : M ReqSt α}
    (h : Sim f g) (h' : Sim f' g') : Sim (if c then f else f') (if c then g else g') := by
  split <;> assumption

theorem sim_onEv {α : Type} (f : M Evaluator α) : Sim (on (onEv f)) (ReqSt.onEv f) :=
  fun _ => ⟨rfl, rfl⟩

variable [IterOrder]

theorem sim_exprValue (lib : ExprLib) : Sim (on (exprValue lib)) (Casbin.exprValue lib) := by
  intro s
  simp only [on, exprValue, Casbin.exprValue, toReq]
  cases h : s.obj.1.compiled with
  | none => exact ⟨rfl, rfl⟩
  | some e => exact ⟨rfl, rfl⟩

theorem sim_isBool (lib : ExprLib) : Sim (on (exprtk lib).isBool) (isBoolType lib) := by
  intro s
  simp only [exprtk, isBoolType, on_bind, M.bind_run]
  show _ ∧ _
  have hget : (on (M.get : M LibObj LibObj)) s = (.ok s.obj, s) := rfl
  rw [hget]
  simp only [M.get_run]
  show (on _ s).1 = _ ∧ _
  rw [on_ite]
  have : s.obj.1.err = (toReq s).ev.err := rfl
  rw [← this]
  split
  · exact ⟨rfl, rfl⟩
  · rw [on_bind]
    refine Sim.bind (sim_exprValue lib) ?_ s
    intro v
    rw [on_ite]
    refine Sim.ite _ (Sim.pure _) ?_
    rw [on_bind]
    exact Sim.bind (sim_exprValue lib) (fun v => Sim.pure _)

theorem sim_truthy (lib : ExprLib) : Sim (on (do let v ← exprValue lib; Pure.pure v.truthy))
    (do let v ← Casbin.exprValue lib; Pure.pure v.truthy) := by
  rw [on_bind]
  exact Sim.bind (sim_exprValue lib) (fun v => Sim.pure _)

theorem sim_matcherResult (lib : ExprLib) :
    Sim (on (matcherResult (exprtk lib))) (Casbin.matcherResult lib) := by
  simp only [matcherResult, Casbin.matcherResult, on_bind, on_ite]
  refine Sim.bind (sim_isBool lib) (fun b => Sim.ite _ (sim_truthy lib) ?_)
  exact Sim.bind (sim_isBool lib) (fun b => Sim.ite _ (sim_truthy lib) (Sim.throw _))

theorem pushPolicy_eq (lib : ExprLib) (ts vs : List Str) :
    pushPolicy (exprtk lib) ts vs = onEv (Casbin.pushPolicy ts vs) := by
  induction ts generalizing vs with
  | nil => rfl
  | cons t ts ih =>
    cases vs with
    | nil => rfl
    | cons v vs =>
      simp only [pushPolicy, ih, Casbin.pushPolicy]
      funext s
      simp only [M.bind_run, exprtk, onEv]
      cases h : (Evaluator.pushString c!"p" (tokenName t) v s.1).1 <;>
        rcases hf : Evaluator.pushString c!"p" (tokenName t) v s.1 with ⟨o, s1⟩ <;> rw [hf] at h <;>
        simp only at h <;> subst h <;> rfl

theorem loadGs_eq (lib : ExprLib) (l : List (Str × Assertion)) :
    loadGs (exprtk lib) l = onEv (Evaluator.addFunctions
      (l.map fun ka => (ka.1, FunRef.g ka.2.rm (countChar '_' ka.2.value)))) := by
  induction l with
  | nil => rfl
  | cons ka l ih =>
    obtain ⟨name, a⟩ := ka
    simp only [loadGs, ih, List.map_cons, Evaluator.addFunctions]
    rfl

theorem sim_ruleStep (lib : ExprLib) (exp : Str) (tokens : List Str) (rule : Rule) :
    Sim (on (ruleStep (exprtk lib) exp tokens rule)) (Casbin.ruleStep lib exp tokens rule) := by
  simp only [ruleStep, Casbin.ruleStep, on_ite, on_bind, pushPolicy_eq, on_lift, on_throw]
  refine Sim.ite _ (Sim.throw _) ?_
  show Sim (on (onEv (Casbin.pushPolicy tokens rule)) >>= _) _
  refine Sim.bind (sim_onEv _) (fun _ => Sim.bind (Sim.lift _) (fun text => ?_))
  refine Sim.bind (sim_onEv _) (fun _ => Sim.bind (sim_matcherResult lib) (fun m => ?_))
  exact Sim.bind (Sim.lift _) (fun e => Sim.pure _)

/-- The variables `effect` and `explainIndex` of the general loop for those of the default one. -/
def pairUp : Option (Effect × Option Nat) → Option Effect × Option (Option Nat)
  | none => (none, none)
  | some r => (some r.1, some r.2)

theorem sim_ruleLoop (lib : ExprLib) (exp : Str) (tokens : List Str) (expr : Str) (len : Nat)
    (rs : List Rule) : ∀ (idx : Nat) (es : List Effect) (ms : List Bool)
      (last : Option (Effect × Option Nat)),
    Sim (on (ruleLoop default (ruleStep (exprtk lib) exp tokens) expr len rs idx es ms
        (pairUp last).1 (pairUp last).2))
      (do let r ← Casbin.ruleLoop (Casbin.ruleStep lib exp tokens) expr len rs idx es ms last
          Pure.pure (pairUp r)) := by
  induction rs with
  | nil => intro idx es ms last; exact Sim.pure _
  | cons r rs ih =>
    intro idx es ms last
    simp only [ruleLoop, Casbin.ruleLoop, on_bind, bind_bind]
    refine Sim.bind (sim_ruleStep lib exp tokens r) (fun me => ?_)
    simp only [default, on_bind, on_lift, bind_bind, on_pure, pure_then]
    refine Sim.bind (Sim.lift _) (fun res => ?_)
    rw [on_ite]
    by_cases h : res.1 ≠ .indeterminate
    · rw [if_pos h, if_pos h]
      exact Sim.pure _
    · rw [if_neg h, if_neg h]
      exact ih (idx + 1) _ _ (some res)

omit [IterOrder] in
theorem sim_finish (rules : List Rule) (r : Option (Effect × Option Nat)) :
    Sim (finish rules (pairUp r)) (Casbin.finish rules r) := by
  intro s
  cases r with
  | none => exact ⟨rfl, rfl⟩
  | some r =>
    obtain ⟨eff, idx⟩ := r
    cases idx with
    | none => exact ⟨rfl, rfl⟩
    | some i =>
      simp only [finish, Casbin.finish, pairUp]
      cases rules[i]? <;> exact ⟨rfl, rfl⟩

omit [IterOrder] in
theorem sim_needAssertion (m : Model) (sec ptype : Str) :
    Sim (needAssertion m sec ptype) (Casbin.needAssertion m sec ptype) := by
  simp only [needAssertion, Casbin.needAssertion]
  cases m.find sec ptype with
  | none => exact Sim.ub _
  | some a => exact Sim.pure _

theorem sim_enforceEmpty (lib : ExprLib) (exp : Str) (tokens : List Str) (eff : Str) :
    Sim (enforceEmpty (exprtk lib) default exp tokens eff)
      (Casbin.enforceEmpty lib exp tokens eff) := by
  simp only [enforceEmpty, Casbin.enforceEmpty, pushPolicy_eq]
  refine Sim.ite _ (Sim.throw _) ?_
  show Sim (on (onEv (Casbin.pushPolicy tokens _)) >>= _) _
  refine Sim.bind (sim_onEv _) (fun _ => Sim.bind (sim_onEv _) (fun valid => ?_))
  refine Sim.ite _ (Sim.pure _) ?_
  simp only [exprtk, on_bind, bind_bind, on_pure, pure_then, default, on_lift]
  refine Sim.bind (sim_exprValue lib) (fun v => ?_)
  refine Sim.bind (Sim.lift _) (fun res => ?_)
  exact sim_finish [] (some res)

theorem sim_selectPolicies (lib : ExprLib) (m : Model) :
    Sim (on (selectPolicies (exprtk lib) m))
      (do let s ← M.get; M.lift (Casbin.selectPolicies m s.ev)) := by
  intro s
  simp only [selectPolicies, Casbin.selectPolicies, M.bind_run, M.get_run]
  cases hp : m.find c!"p" c!"p" with
  | none => exact ⟨rfl, rfl⟩
  | some p =>
    simp only
    split
    · cases hr : m.find c!"r" c!"r" with
      | none => exact ⟨rfl, rfl⟩
      | some r =>
        have e : ∀ (g : UMap Str Str → M LibObj (List Rule)),
            ((exprtk lib).requestValues >>= g) s.obj =
              match s.obj.1.requestValues with
              | .ok v => g v s.obj
              | .throw e => (.throw e, s.obj)
              | .ub u => (.ub u, s.obj) := by
          intro g
          have hv : (exprtk lib).requestValues s.obj = (s.obj.1.requestValues, s.obj) := rfl
          rw [M.bind_run, hv]
          cases s.obj.1.requestValues <;> rfl
        simp only [on, e, toReq]
        cases hv : s.obj.1.requestValues with
        | throw e => exact ⟨rfl, rfl⟩
        | ub u => exact ⟨rfl, rfl⟩
        | ok vals =>
          simp only [Outcome.ok_bind]
          cases requestedPolicy vals r.tokens <;> exact ⟨rfl, rfl⟩
    · exact ⟨rfl, rfl⟩

theorem sim_mEnforce (lib : ExprLib) (m : Model) (enabled : Bool) (matcher : Str) :
    Sim (mEnforce (exprtk lib) default m enabled matcher)
      (Casbin.mEnforce lib m enabled matcher) := by
  simp only [mEnforce, Casbin.mEnforce]
  refine Sim.bind (fun s => ⟨rfl, rfl⟩) (fun _ => ?_)
  refine Sim.ite _ (Sim.pure _) ?_
  refine Sim.bind (sim_onEv _) (fun _ => ?_)
  rw [loadGs_eq]
  refine Sim.bind (sim_onEv _) (fun _ => ?_)
  have hc : ∀ exp : Str, Sim (do
      let _ ← needAssertion m c!"r" c!"r"
      let p ← needAssertion m c!"p" c!"p"
      let rules ← on (selectPolicies (exprtk lib) m)
      let e ← needAssertion m c!"e" c!"e"
      if rules ≠ [] then do
        let res ← on (runRules default (ruleStep (exprtk lib) exp p.tokens) e.value rules)
        finish rules res
      else enforceEmpty (exprtk lib) default exp p.tokens e.value) (do
      let _ ← Casbin.needAssertion m c!"r" c!"r"
      let p ← Casbin.needAssertion m c!"p" c!"p"
      let s ← M.get
      let rules ← M.lift (Casbin.selectPolicies m s.ev)
      let e ← Casbin.needAssertion m c!"e" c!"e"
      if rules ≠ [] then do
        let res ← Casbin.runRules (Casbin.ruleStep lib exp p.tokens) e.value rules
        Casbin.finish rules res
      else Casbin.enforceEmpty lib exp p.tokens e.value) := by
    intro exp
    refine Sim.bind (sim_needAssertion m _ _) (fun _ => ?_)
    refine Sim.bind (sim_needAssertion m _ _) (fun p => ?_)
    rw [← bind_bind]
    refine Sim.bind (sim_selectPolicies lib m) (fun rules => ?_)
    refine Sim.bind (sim_needAssertion m _ _) (fun e => ?_)
    refine Sim.ite _ ?_ (sim_enforceEmpty lib _ _ _)
    exact Sim.bindMap pairUp (sim_ruleLoop lib exp p.tokens e.value rules.length rules 0
      (List.replicate rules.length .indeterminate) (List.replicate rules.length false) none)
      (fun r => sim_finish rules r)
  refine Sim.ite _ (Sim.bind (sim_needAssertion m _ _) (fun a => hc a.value)) (hc matcher)

end Custom
end Casbin
