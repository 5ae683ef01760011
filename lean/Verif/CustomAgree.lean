import Verif.CustomLemmas

/-!
# Evaluators that answer alike

Helper lemmas for `Props/Custom`: two implementations whose methods give the same answers on
corresponding objects give the same results through the whole of a request.
-/

namespace Casbin
namespace Custom

open CallSt

variable {σ τ : Type}

/-- Two programs with the same results on corresponding objects. -/
def Alike {α : Type} (R : σ → τ → Prop) (f : M σ α) (g : M τ α) : Prop :=
  ∀ s t, R s t → (f s).1 = (g t).1 ∧ R (f s).2 (g t).2

/-- Corresponding objects with the same explanation. -/
def Both (R : σ → τ → Prop) (s : CallSt σ) (t : CallSt τ) : Prop :=
  R s.obj t.obj ∧ s.explain = t.explain

/-- Two evaluators whose methods give the same answers on corresponding objects. -/
structure EvalAlike (R : σ → τ → Prop) (ev : EvalImpl σ) (ev' : EvalImpl τ) : Prop where
  eval : ∀ text, Alike R (ev.eval text) (ev'.eval text)
  initialObject : ∀ o, Alike R (ev.initialObject o) (ev'.initialObject o)
  pushString : ∀ o p v, Alike R (ev.pushString o p v) (ev'.pushString o p v)
  loadFunctions : Alike R ev.loadFunctions ev'.loadFunctions
  loadG : ∀ rm name n, Alike R (ev.loadG rm name n) (ev'.loadG rm name n)
  isBool : Alike R ev.isBool ev'.isBool
  getBoolean : Alike R ev.getBoolean ev'.getBoolean
  getFloat : Alike R ev.getFloat ev'.getFloat
  clean : Alike R ev.clean ev'.clean
  requestValues : Alike R ev.requestValues ev'.requestValues

/-- Two effectors giving the same answers. -/
def EffAlike (R : σ → τ → Prop) (ef : EffImpl σ) (ef' : EffImpl τ) : Prop :=
  ∀ x es ms i n, Alike R (ef.merge x es ms i n) (ef'.merge x es ms i n)

variable {R : σ → τ → Prop}

theorem Alike.pure {α : Type} (a : α) : Alike R (Pure.pure a) (Pure.pure a) :=
  fun _ _ h => ⟨rfl, h⟩

theorem Alike.ub {α : Type} (u : UB) : Alike R (M.ub u : M σ α) (M.ub u) := fun _ _ h => ⟨rfl, h⟩

theorem Alike.throw {α : Type} (e : Exn) : Alike R (M.throw e : M σ α) (M.throw e) :=
  fun _ _ h => ⟨rfl, h⟩

theorem Alike.lift {α : Type} (o : Outcome α) : Alike R (M.lift o : M σ α) (M.lift o) := by
  cases o <;> exact fun _ _ h => ⟨rfl, h⟩

theorem Alike.bind {α β : Type} {f : M σ α} {g : M τ α} {f' : α → M σ β} {g' : α → M τ β}
    (h : Alike R f g) (h' : ∀ a, Alike R (f' a) (g' a)) : Alike R (f >>= f') (g >>= g') := by
  intro s t hr
  obtain ⟨h1, h2⟩ := h s t hr
  simp only [M.bind_run]
  rcases hf : f s with ⟨o, s1⟩
  rcases hg : g t with ⟨o', t1⟩
  rw [hf, hg] at h1 h2
  simp only at h1 h2
  subst h1
  cases o with
  | ok a => exact h' a s1 t1 h2
  | throw e => exact ⟨rfl, h2⟩
  | ub u => exact ⟨rfl, h2⟩

theorem Alike.ite {α : Type} (c : Prop) [Decidable c] {f f' : M σ α} {g g' : M τ α}
    (h : Alike R f g) (h' : Alike R f' g') :
    Alike R (if c then f else f') (if c then g else g') := by
  split <;> assumption

theorem Alike.on {α : Type} {f : M σ α} {g : M τ α} (h : Alike R f g) :
    Alike (Both R) (on f) (on g) := fun s t hr =>
  ⟨(h s.obj t.obj hr.1).1, (h s.obj t.obj hr.1).2, hr.2⟩

variable {ev : EvalImpl σ} {ev' : EvalImpl τ} {ef : EffImpl σ} {ef' : EffImpl τ}

theorem alike_pushPolicy (H : EvalAlike R ev ev') (ts vs : List Str) :
    Alike R (pushPolicy ev ts vs) (pushPolicy ev' ts vs) := by
  induction ts generalizing vs with
  | nil => cases vs <;> exact Alike.pure _
  | cons t ts ih =>
    cases vs with
    | nil => exact Alike.ub _
    | cons v vs => exact Alike.bind (H.pushString _ _ _) (fun _ => ih vs)

theorem alike_matcherResult (H : EvalAlike R ev ev') :
    Alike R (matcherResult ev) (matcherResult ev') :=
  Alike.bind H.isBool (fun _ => Alike.ite _ H.getBoolean
    (Alike.bind H.isBool (fun _ => Alike.ite _ H.getFloat (Alike.throw _))))

theorem alike_ruleStep (H : EvalAlike R ev ev') (exp : Str) (tokens : List Str) (r : Rule) :
    Alike R (ruleStep ev exp tokens r) (ruleStep ev' exp tokens r) :=
  Alike.ite _ (Alike.throw _) <|
    Alike.bind H.clean fun _ => Alike.bind (H.initialObject _) fun _ =>
    Alike.bind (alike_pushPolicy H _ _) fun _ => Alike.bind (Alike.lift _) fun _ =>
    Alike.bind (H.eval _) fun _ => Alike.bind (alike_matcherResult H) fun _ =>
    Alike.bind (Alike.lift _) fun _ => Alike.pure _

theorem alike_ruleLoop (G : EffAlike R ef ef') {step : Rule → M σ (Bool × Effect)}
    {step' : Rule → M τ (Bool × Effect)} (h : ∀ r, Alike R (step r) (step' r)) (expr : Str)
    (len : Nat) (rs : List Rule) : ∀ idx es ms last ix,
    Alike R (ruleLoop ef step expr len rs idx es ms last ix)
      (ruleLoop ef' step' expr len rs idx es ms last ix) := by
  induction rs with
  | nil => intro idx es ms last ix; exact Alike.pure _
  | cons r rs ih =>
    intro idx es ms last ix
    exact Alike.bind (h r) fun me => Alike.bind (G _ _ _ _ _) fun res =>
      Alike.ite _ (Alike.pure _) (ih _ _ _ _ _)

theorem alike_runRules (G : EffAlike R ef ef') {step : Rule → M σ (Bool × Effect)}
    {step' : Rule → M τ (Bool × Effect)} (h : ∀ r, Alike R (step r) (step' r)) (expr : Str)
    (rs : List Rule) : Alike R (runRules ef step expr rs) (runRules ef' step' expr rs) :=
  alike_ruleLoop G h expr rs.length rs 0 _ _ none none

theorem alike_loadGs (H : EvalAlike R ev ev') (l : List (Str × Assertion)) :
    Alike R (loadGs ev l) (loadGs ev' l) := by
  induction l with
  | nil => exact Alike.pure _
  | cons x l ih => exact Alike.bind (H.loadG _ _ _) fun _ => ih

theorem alike_selectPolicies (H : EvalAlike R ev ev') (m : Model) :
    Alike R (selectPolicies ev m) (selectPolicies ev' m) := by
  simp only [selectPolicies]
  cases m.find c!"p" c!"p" with
  | none => exact Alike.ub _
  | some p =>
    refine Alike.ite _ ?_ (Alike.pure _)
    cases m.find c!"r" c!"r" with
    | none => exact Alike.ub _
    | some r =>
      exact Alike.bind H.requestValues fun _ => Alike.bind (Alike.lift _) fun _ => Alike.pure _

theorem alike_explain (r : Rule) :
    Alike (Both R) (M.modify fun s => { s with explain := r }) (M.modify fun s => { s with explain := r }) :=
  fun _ _ h => ⟨rfl, h.1, rfl⟩

theorem alike_finish (rules : List Rule) (res : Option Effect × Option (Option Nat)) :
    Alike (Both R) (finish rules res) (finish rules res) := by
  obtain ⟨x, ix⟩ := res
  have hx : Alike (Both R) (match x with
      | none => M.ub .uninit
      | some eff => (Pure.pure (decide (eff = .allow)) : M (CallSt σ) Bool))
      (match x with
      | none => M.ub .uninit
      | some eff => (Pure.pure (decide (eff = .allow)) : M (CallSt τ) Bool)) := by
    cases x
    · exact Alike.ub _
    · exact Alike.pure _
  cases ix with
  | none => exact Alike.ub _
  | some i =>
    cases i with
    | none => exact hx
    | some i =>
      simp only [finish]
      cases rules[i]? with
      | none => exact hx
      | some r => exact Alike.bind (alike_explain r) fun _ => hx

theorem alike_enforceEmpty (H : EvalAlike R ev ev') (G : EffAlike R ef ef') (exp : Str)
    (tokens : List Str) (eff : Str) :
    Alike (Both R) (enforceEmpty ev ef exp tokens eff) (enforceEmpty ev' ef' exp tokens eff) :=
  Alike.ite _ (Alike.throw _) <|
    Alike.bind H.clean.on fun _ => Alike.bind (H.initialObject _).on fun _ =>
    Alike.bind (alike_pushPolicy H _ _).on fun _ => Alike.bind (H.eval _).on fun _ =>
    Alike.ite _ (Alike.pure _) <|
    Alike.bind H.getBoolean.on fun _ => Alike.bind (G _ _ _ _ _).on fun _ => alike_finish _ _

theorem alike_needAssertion (m : Model) (sec ptype : Str) :
    Alike (Both R) (needAssertion m sec ptype) (needAssertion m sec ptype) := by
  simp only [needAssertion]
  cases m.find sec ptype
  · exact Alike.ub _
  · exact Alike.pure _

theorem alike_mEnforce [IterOrder] (H : EvalAlike R ev ev') (G : EffAlike R ef ef') (m : Model)
    (enabled : Bool) (matcher : Str) :
    Alike (Both R) (mEnforce ev ef m enabled matcher) (mEnforce ev' ef' m enabled matcher) := by
  simp only [mEnforce]
  refine Alike.bind (alike_explain []) fun _ => Alike.ite _ (Alike.pure _) ?_
  refine Alike.bind H.loadFunctions.on fun _ => Alike.bind (alike_loadGs H _).on fun _ => ?_
  have hc : ∀ exp : Str, Alike (Both R) _ _ := fun exp =>
    Alike.bind (alike_needAssertion m c!"r" c!"r") fun _ =>
    Alike.bind (alike_needAssertion m c!"p" c!"p") fun p =>
    Alike.bind (alike_selectPolicies H m).on fun rules =>
    Alike.bind (alike_needAssertion m c!"e" c!"e") fun e =>
    Alike.ite (rules ≠ []) (Alike.bind
      (alike_runRules G (alike_ruleStep H exp p.tokens) e.value rules).on
      fun res => alike_finish rules res) (alike_enforceEmpty H G exp p.tokens e.value)
  exact Alike.ite _ (Alike.bind (alike_needAssertion m _ _) fun a => hc a.value) (hc matcher)

/-- The effector of the library on any objects. -/
theorem alike_default : EffAlike R default default := fun _ _ _ _ _ =>
  Alike.bind (Alike.lift _) fun _ => Alike.pure _

end Custom
end Casbin
