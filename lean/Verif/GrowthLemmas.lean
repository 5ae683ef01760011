import Verif.Growth
import Verif.CustomAgree

/-!
# Invariants of an evaluator through a request

Helper lemmas for `Props/Growth`.
-/

namespace Casbin
namespace Custom
namespace Growth

open CallSt

/-- The program keeps a property of the state. -/
def Keeps {σ α : Type} (P : σ → Prop) (f : M σ α) : Prop := ∀ s, P s → P (f s).2

variable {σ : Type} {P : σ → Prop}

theorem Keeps.pure {α : Type} (a : α) : Keeps P (Pure.pure a : M σ α) := fun _ h => h

theorem Keeps.ub {α : Type} (u : UB) : Keeps P (M.ub u : M σ α) := fun _ h => h

theorem Keeps.throw {α : Type} (e : Exn) : Keeps P (M.throw e : M σ α) := fun _ h => h

theorem Keeps.lift {α : Type} (o : Outcome α) : Keeps P (M.lift o : M σ α) := by
  cases o <;> exact fun _ h => h

theorem Keeps.bind {α β : Type} {f : M σ α} {g : α → M σ β} (h : Keeps P f)
    (h' : ∀ a, Keeps P (g a)) : Keeps P (f >>= g) := by
  intro s hs
  have h1 := h s hs
  simp only [M.bind_run]
  rcases hf : f s with ⟨o, s1⟩
  rw [hf] at h1
  cases o with
  | ok a => exact h' a s1 h1
  | throw e => exact h1
  | ub u => exact h1

theorem Keeps.ite {α : Type} (c : Prop) [Decidable c] {f g : M σ α} (h : Keeps P f)
    (h' : Keeps P g) : Keeps P (if c then f else g) := by split <;> assumption

theorem Keeps.on {α : Type} {f : M σ α} (h : Keeps P f) :
    Keeps (fun s : CallSt σ => P s.obj) (on f) := fun s hs => h s.obj hs

/-- The methods called after the functions have been loaded keep the property. -/
structure KeepsEv (P : σ → Prop) (ev : EvalImpl σ) (tokens : List Str) : Prop where
  eval : ∀ text, Keeps P (ev.eval text)
  initialObject : ∀ o, Keeps P (ev.initialObject o)
  pushString : ∀ t ∈ tokens, ∀ v, Keeps P (ev.pushString c!"p" (tokenName t) v)
  isBool : Keeps P ev.isBool
  getBoolean : Keeps P ev.getBoolean
  getFloat : Keeps P ev.getFloat
  clean : Keeps P ev.clean
  requestValues : Keeps P ev.requestValues

variable {ev : EvalImpl σ} {ef : EffImpl σ} {tokens : List Str}

theorem keeps_pushPolicy : ∀ (ts vs : List Str), (∀ t ∈ ts, ∀ v, Keeps P (ev.pushString c!"p" (tokenName t) v)) →
    Keeps P (pushPolicy ev ts vs)
  | [], vs, _ => by cases vs <;> exact Keeps.pure _
  | _ :: _, [], _ => Keeps.ub _
  | t :: ts, v :: vs, h => Keeps.bind (h t (by simp) v) fun _ =>
      keeps_pushPolicy ts vs fun t ht => h t (by simp [ht])

theorem keeps_ruleStep (H : KeepsEv P ev tokens) (exp : Str) (r : Rule) :
    Keeps P (ruleStep ev exp tokens r) :=
  Keeps.ite _ (Keeps.throw _) <|
    Keeps.bind H.clean fun _ => Keeps.bind (H.initialObject _) fun _ =>
    Keeps.bind (keeps_pushPolicy _ _ H.pushString) fun _ => Keeps.bind (Keeps.lift _) fun _ =>
    Keeps.bind (H.eval _) fun _ =>
    Keeps.bind (Keeps.bind H.isBool fun _ => Keeps.ite _ H.getBoolean
      (Keeps.bind H.isBool fun _ => Keeps.ite _ H.getFloat (Keeps.throw _))) fun _ =>
    Keeps.bind (Keeps.lift _) fun _ => Keeps.pure _

theorem keeps_ruleLoop (G : ∀ x es ms i n, Keeps P (ef.merge x es ms i n))
    {step : Rule → M σ (Bool × Effect)} (h : ∀ r, Keeps P (step r)) (expr : Str) (len : Nat)
    (rs : List Rule) : ∀ idx es ms last ix, Keeps P (ruleLoop ef step expr len rs idx es ms last ix) := by
  induction rs with
  | nil => intro idx es ms last ix; exact Keeps.pure _
  | cons r rs ih =>
    intro idx es ms last ix
    exact Keeps.bind (h r) fun me => Keeps.bind (G _ _ _ _ _) fun res =>
      Keeps.ite _ (Keeps.pure _) (ih _ _ _ _ _)

theorem keeps_runRules (G : ∀ x es ms i n, Keeps P (ef.merge x es ms i n))
    {step : Rule → M σ (Bool × Effect)} (h : ∀ r, Keeps P (step r)) (expr : Str) (rs : List Rule) :
    Keeps P (runRules ef step expr rs) := keeps_ruleLoop G h expr rs.length rs 0 _ _ none none

theorem keeps_finish (rules : List Rule) (res : Option Effect × Option (Option Nat)) :
    Keeps (fun s : CallSt σ => P s.obj) (finish rules res) := by
  obtain ⟨x, ix⟩ := res
  have hx : Keeps (fun s : CallSt σ => P s.obj) (match x with
      | none => M.ub .uninit
      | some eff => (Pure.pure (decide (eff = .allow)) : M (CallSt σ) Bool)) := by
    cases x
    · exact Keeps.ub _
    · exact Keeps.pure _
  cases ix with
  | none => exact Keeps.ub _
  | some i =>
    cases i with
    | none => exact hx
    | some i =>
      simp only [finish]
      cases rules[i]? with
      | none => exact hx
      | some r => exact Keeps.bind (fun _ h => h) fun _ => hx

theorem keeps_enforceEmpty (H : KeepsEv P ev tokens)
    (G : ∀ x es ms i n, Keeps P (ef.merge x es ms i n)) (exp eff : Str) :
    Keeps (fun s : CallSt σ => P s.obj) (enforceEmpty ev ef exp tokens eff) :=
  Keeps.ite _ (Keeps.throw _) <|
    Keeps.bind H.clean.on fun _ => Keeps.bind (H.initialObject _).on fun _ =>
    Keeps.bind (keeps_pushPolicy _ _ H.pushString).on fun _ => Keeps.bind (H.eval _).on fun _ =>
    Keeps.ite _ (Keeps.pure _) <|
    Keeps.bind H.getBoolean.on fun _ => Keeps.bind (G _ _ _ _ _).on fun _ => keeps_finish _ _

theorem keeps_selectPolicies (H : Keeps P ev.requestValues) (m : Model) :
    Keeps P (selectPolicies ev m) := by
  simp only [selectPolicies]
  cases m.find c!"p" c!"p" with
  | none => exact Keeps.ub _
  | some p =>
    refine Keeps.ite _ ?_ (Keeps.pure _)
    cases m.find c!"r" c!"r" with
    | none => exact Keeps.ub _
    | some r => exact Keeps.bind H fun _ => Keeps.bind (Keeps.lift _) fun _ => Keeps.pure _

theorem keeps_needAssertion (m : Model) (sec ptype : Str) :
    Keeps (fun s : CallSt σ => P s.obj) (needAssertion m sec ptype) := by
  simp only [needAssertion]
  cases m.find sec ptype
  · exact Keeps.ub _
  · exact Keeps.pure _

/-- A request: what holds after the functions have been loaded holds at the end. -/
theorem mEnforce_keeps [IterOrder] (m : Model)
    (H : ∀ p, m.find c!"p" c!"p" = some p → KeepsEv P ev p.tokens)
    (hreq : Keeps P ev.requestValues)
    (G : ∀ x es ms i n, Keeps P (ef.merge x es ms i n)) (matcher : Str) (s : CallSt σ) (t1 t2 : σ)
    (h1 : ev.loadFunctions s.obj = (.ok (), t1))
    (h2 : loadGs ev (IterOrder.iter (m.secMap c!"g")) t1 = (.ok (), t2)) (hP : P t2) :
    P (mEnforce ev ef m true matcher s).2.obj := by
  have htail : ∀ exp : Str, Keeps (fun s : CallSt σ => P s.obj) (do
      let _ ← needAssertion m c!"r" c!"r"
      let p ← needAssertion m c!"p" c!"p"
      let rules ← on (selectPolicies ev m)
      let e ← needAssertion m c!"e" c!"e"
      if rules ≠ [] then do
        let res ← on (runRules ef (ruleStep ev exp p.tokens) e.value rules)
        finish rules res
      else enforceEmpty ev ef exp p.tokens e.value : M (CallSt σ) Bool) := by
    intro exp
    refine Keeps.bind (keeps_needAssertion m _ _) fun _ => ?_
    cases hp : m.find c!"p" c!"p" with
    | none =>
      have : (needAssertion m c!"p" c!"p" : M (CallSt σ) Assertion) = M.ub .nullDeref := by
        simp only [needAssertion, hp]
      rw [this]
      exact fun s hs => hs
    | some p =>
      have : (needAssertion m c!"p" c!"p" : M (CallSt σ) Assertion) = Pure.pure p := by
        simp only [needAssertion, hp]
      rw [this, pure_then]
      refine Keeps.bind (keeps_selectPolicies hreq m).on fun rules => ?_
      refine Keeps.bind (keeps_needAssertion m _ _) fun e => ?_
      exact Keeps.ite _ (Keeps.bind (keeps_runRules G (keeps_ruleStep (H p hp) exp) _ _).on fun _ =>
        keeps_finish _ _) (keeps_enforceEmpty (H p hp) G _ _)
  simp only [mEnforce, M.bind_run, M.modify_run, Bool.not_true, Bool.false_eq_true, if_false]
  simp only [on, h1, h2]
  split
  · exact Keeps.bind (keeps_needAssertion m _ _) (fun a => htail a.value) _ hP
  · exact htail matcher _ hP

end Growth
end Custom
end Casbin
