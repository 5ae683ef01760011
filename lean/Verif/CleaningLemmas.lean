import Verif.Cleaning
import Verif.CustomAgree

/-!
# Lemmas about cleaned evaluators

Helper lemmas for `Props/Cleaning`.
-/

namespace Casbin

mutual
theorem resolves_plain (vars : UMap Str Str) (funs funs' : UMap Str FunRef) : ∀ {e : Expr}, e.calls = [] →
    resolves vars funs e = resolves vars funs' e
  | .str _, _ => rfl
  | .num _, _ => rfl
  | .var _, _ => rfl
  | .call _ _, h => by simp [Expr.calls] at h
  | .op _ args, h => by
    simp only [Expr.calls] at h
    simpa only [resolves] using resolvesAll_plain vars funs funs' h

theorem resolvesAll_plain (vars : UMap Str Str) (funs funs' : UMap Str FunRef) : ∀ {es : List Expr},
    Expr.callsAll es = [] → resolvesAll vars funs es = resolvesAll vars funs' es
  | [], _ => rfl
  | e :: es, h => by
    simp only [Expr.callsAll, List.append_eq_nil_iff] at h
    simp only [resolvesAll, resolves_plain vars funs funs' h.1, resolvesAll_plain vars funs funs' h.2]
end

mutual
theorem evalExpr_plain [IterOrder] (lib : ExprLib) (vars : UMap Str Str) (funs funs' : UMap Str FunRef) :
    ∀ {e : Expr}, e.calls = [] → evalExpr lib vars funs e = evalExpr lib vars funs' e
  | .str _, _ => by simp only [evalExpr]
  | .num _, _ => by simp only [evalExpr]
  | .var _, _ => by simp only [evalExpr]
  | .call _ _, h => by simp [Expr.calls] at h
  | .op _ args, h => by
    simp only [Expr.calls] at h
    simp only [evalExpr, evalArgs_plain lib vars funs funs' h]

theorem evalArgs_plain [IterOrder] (lib : ExprLib) (vars : UMap Str Str) (funs funs' : UMap Str FunRef) :
    ∀ {es : List Expr}, Expr.callsAll es = [] → evalArgs lib vars funs es = evalArgs lib vars funs' es
  | [], _ => by simp only [evalArgs]
  | e :: es, h => by
    simp only [Expr.callsAll, List.append_eq_nil_iff] at h
    simp only [evalArgs, evalExpr_plain lib vars funs funs' h.1, evalArgs_plain lib vars funs funs' h.2]
end

namespace Kept

open Custom CallSt

variable [IterOrder]

/-! ## Evaluators that were never cleaned -/

/-- The evaluator of the library, never cleaned. -/
def Whole (s : Objs) (t : LibObj) : Prop := s.1.ev = t.1 ∧ s.1.dead = [] ∧ s.1.live = true ∧ s.2 = t.2

omit [IterOrder] in
theorem whole_onEv {α : Type} (f : M Evaluator α) : Alike Whole (onKept (onEv f)) (Custom.onEv f) := by
  rintro ⟨k, h⟩ ⟨ev, h'⟩ ⟨h1, h2, h3, h4⟩
  simp only at h1 h2 h3 h4
  subst h1; subst h4
  exact ⟨rfl, rfl, h2, h3, rfl⟩

theorem whole_value (lib : ExprLib) : Alike Whole (value lib) (Custom.exprValue lib) := by
  rintro ⟨k, h⟩ ⟨ev, h'⟩ ⟨h1, h2, h3, h4⟩
  simp only at h1 h2 h3 h4
  subst h1; subst h4
  simp only [value, Custom.exprValue]
  cases hc : k.ev.compiled with
  | none => exact ⟨rfl, rfl, h2, h3, rfl⟩
  | some e => simp only [h3]; exact ⟨rfl, rfl, h2, h3, rfl⟩

omit [IterOrder] in
theorem whole_eval (lib : ExprLib) (t : Str) :
    Alike Whole (onKept (eval lib t)) (Custom.onEv (Evaluator.eval lib t)) := by
  rintro ⟨k, h⟩ ⟨ev, h'⟩ ⟨h1, h2, h3, h4⟩
  simp only at h1 h2 h3 h4
  subst h1; subst h4
  have hd : callsOne lib t k.dead = false := by
    rw [h2, callsOne]; cases lib.parse t <;> simp
  have hl : (!k.live && lone k.ev.compiled) = false := by rw [h3]; rfl
  show (eval lib t k).1 = _ ∧ Whole ((eval lib t k).2, h) _
  unfold eval
  rw [hd, hl]
  by_cases he : k.ev.exprStr = t
  · rw [if_pos he]; exact ⟨rfl, rfl, h2, h3, rfl⟩
  · rw [if_neg he, if_neg (by simp)]
    split
    · exact ⟨rfl, rfl, h2, rfl, rfl⟩
    · exact ⟨rfl, rfl, h2, h3, rfl⟩

theorem whole_isBool (lib : ExprLib) : Alike Whole (impl lib).isBool (exprtk lib).isBool := by
  intro s t hst
  have hv := whole_value lib
  simp only [impl, exprtk, M.bind_run, M.get_run]
  rw [show s.1.ev = t.1 from hst.1]
  split
  · exact ⟨rfl, hst⟩
  · exact Alike.bind hv (fun v => Alike.ite _ (Alike.pure _) (Alike.bind hv fun v => Alike.pure _)) s t hst

theorem whole_alike (lib : ExprLib) : EvalAlike Whole (impl lib) (exprtk lib) where
  eval t := whole_eval lib t
  initialObject _ := Alike.pure _
  pushString _ _ _ := whole_onEv _
  loadFunctions := whole_onEv _
  loadG _ _ _ := whole_onEv _
  isBool := whole_isBool lib
  getBoolean := Alike.bind (whole_value lib) fun _ => Alike.pure _
  getFloat := Alike.bind (whole_value lib) fun _ => Alike.pure _
  clean := Alike.pure _
  requestValues := fun s t h => ⟨by show s.1.ev.requestValues = t.1.requestValues; rw [h.1], h⟩

/-! ## Cleaned evaluators -/

/-- The two have compiled the same text, without calls. -/
def Synced (k : Kept) (ev : Evaluator) : Prop :=
  k.ev.err = ev.err ∧ (ev.err = false →
    k.ev.compiled = ev.compiled ∧ k.live = true ∧ ∃ e, ev.compiled = some e ∧ e.calls = [])

/-- Any evaluator beside one of the library with the same variables, that have compiled the same text
or nothing yet. -/
def Near (s : Objs) (t : LibObj) : Prop :=
  s.2 = t.2 ∧ s.1.ev.vars = t.1.vars ∧ s.1.ev.names = t.1.names ∧ s.1.ev.exprStr = t.1.exprStr ∧
  (s.1.live = false → lone s.1.ev.compiled = false) ∧ (t.1.exprStr = [] ∨ Synced s.1 t.1)

/-- The same, and they have compiled the same text. -/
def Close (s : Objs) (t : LibObj) : Prop := Near s t ∧ Synced s.1 t.1

omit [IterOrder] in
theorem near_push (x y v : Str) : Alike Near (onKept (onEv (Evaluator.pushString x y v)))
    (Custom.onEv (Evaluator.pushString x y v)) := by
  rintro ⟨k, h⟩ ⟨ev, h'⟩ ⟨h1, h2, h3, h4, h5, h6⟩
  simp only at h1 h2 h3 h4 h5 h6
  subst h1
  simp only [onKept, onEv, Custom.onEv, Evaluator.pushString, Evaluator.addIdentifier]
  rw [h2]
  split
  · exact ⟨rfl, rfl, rfl, h3, h4, h5, h6⟩
  · split
    · exact ⟨rfl, rfl, rfl, by simp [h3], h4, h5, h6⟩
    · exact ⟨rfl, rfl, h2, h3, h4, h5, h6⟩

omit [IterOrder] in
theorem near_addFunction (n : Str) (f : FunRef) : Alike Near (onKept (onEv (Evaluator.addFunction n f)))
    (Custom.onEv (Evaluator.addFunction n f)) := by
  rintro ⟨k, h⟩ ⟨ev, h'⟩ ⟨h1, h2, h3, h4, h5, h6⟩
  simp only at h1 h2 h3 h4 h5 h6
  subst h1
  refine ⟨rfl, rfl, ?_⟩
  simp only [onKept, onEv, Custom.onEv, Evaluator.addFunction, M.modify]
  split <;> split <;> exact ⟨h2, h3, h4, h5, h6⟩

omit [IterOrder] in
theorem onKept_bind {α β : Type} (f : M Kept α) (g : α → M Kept β) :
    onKept (f >>= g) = onKept f >>= fun a => onKept (g a) := by
  funext s
  simp only [onKept, M.bind_run]
  cases h : (f s.1).1 <;> rcases hf : f s.1 with ⟨o, s1⟩ <;> rw [hf] at h <;> simp only at h <;>
    subst h <;> rfl

omit [IterOrder] in
theorem onEv_bind {α β : Type} (f : M Evaluator α) (g : α → M Evaluator β) :
    onEv (f >>= g) = onEv f >>= fun a => onEv (g a) := by
  funext s
  simp only [onEv, M.bind_run]
  cases h : (f s.ev).1 <;> rcases hf : f s.ev with ⟨o, s1⟩ <;> rw [hf] at h <;> simp only at h <;>
    subst h <;> rfl

omit [IterOrder] in
theorem libEv_bind {α β : Type} (f : M Evaluator α) (g : α → M Evaluator β) :
    Custom.onEv (f >>= g) = Custom.onEv f >>= fun a => Custom.onEv (g a) := by
  funext s
  simp only [Custom.onEv, M.bind_run]
  cases h : (f s.1).1 <;> rcases hf : f s.1 with ⟨o, s1⟩ <;> rw [hf] at h <;> simp only at h <;>
    subst h <;> rfl

omit [IterOrder] in
theorem near_addFunctions : ∀ l : List (Str × FunRef),
    Alike Near (onKept (onEv (Evaluator.addFunctions l))) (Custom.onEv (Evaluator.addFunctions l))
  | [] => fun _ _ h => ⟨rfl, h⟩
  | (n, f) :: l => by
    simp only [Evaluator.addFunctions, onEv_bind, onKept_bind, libEv_bind]
    exact Alike.bind (near_addFunction n f) fun _ => near_addFunctions l

/-- The text names no function. -/
def PlainText (lib : ExprLib) (t : Str) : Prop := t ≠ [] ∧ ∃ e, lib.parse t = some e ∧ e.calls = []

omit [IterOrder] in
theorem near_eval {lib : ExprLib} {t : Str} (ht : PlainText lib t) {s : Objs} {u : LibObj} (h : Near s u) :
    (onKept (eval lib t) s).1 = (Custom.onEv (Evaluator.eval lib t) u).1 ∧
    Close (onKept (eval lib t) s).2 (Custom.onEv (Evaluator.eval lib t) u).2 ∧
    ∃ b, (Custom.onEv (Evaluator.eval lib t) u).1 = .ok b ∧
      (Custom.onEv (Evaluator.eval lib t) u).2.1.err = !b := by
  obtain ⟨k, hp⟩ := s
  obtain ⟨ev, hp'⟩ := u
  obtain ⟨h1, h2, h3, h4, h5, h6⟩ := h
  simp only at h1 h2 h3 h4 h5 h6
  subst h1
  obtain ⟨hne, e, he, hcalls⟩ := ht
  simp only [onKept, Custom.onEv]
  unfold eval
  by_cases hx : k.ev.exprStr = t
  · have hx' : ev.exprStr = t := h4 ▸ hx
    have hs : Synced k ev := h6.resolve_left (by rw [hx']; exact hne)
    rw [if_pos hx]
    simp only [onEv, Evaluator.eval, hx, hx', ne_eq, not_true_eq_false, if_false]
    exact ⟨by rw [hs.1], ⟨⟨rfl, h2, h3, h4, h5, h6⟩, hs⟩, _, rfl, by simp⟩
  · have hx' : ev.exprStr ≠ t := h4 ▸ hx
    have hc : compile lib k.ev.vars k.ev.funs t = compile lib ev.vars ev.funs t := by
      simp only [compile, he, h2, resolves_plain ev.vars k.ev.funs ev.funs hcalls]
    have hl : (!k.live && lone k.ev.compiled) = false := by
      cases hlv : k.live with
      | true => rfl
      | false => simp [h5 hlv]
    rw [if_neg hx]
    simp only [callsOne, he, hcalls, List.any_nil, hl]
    rw [if_neg (by simp)]
    simp only [Evaluator.eval, onEv, ne_eq, hx, hx', not_false_eq_true, if_true, hc]
    have hce : compile lib ev.vars ev.funs t = if resolves ev.vars ev.funs e then some e else none := by
      simp only [compile, he, hne, if_false]
    rw [hce]
    by_cases hr : resolves ev.vars ev.funs e = true
    · simp only [hr, if_true, Bool.false_eq_true, if_false]
      have hs : Synced { k with ev := { k.ev with exprStr := t, compiled := some e, err := false }, live := true }
          { ev with exprStr := t, compiled := some e, err := false } :=
        ⟨rfl, fun _ => ⟨rfl, rfl, e, rfl, hcalls⟩⟩
      exact ⟨trivial, ⟨⟨rfl, h2, h3, rfl, by simp, .inr hs⟩, hs⟩, _, rfl, rfl⟩
    · simp only [hr, Bool.false_eq_true, if_false]
      have hs : Synced { k with ev := { k.ev with exprStr := t, err := true } }
          { ev with exprStr := t, err := true } := ⟨rfl, fun h => by cases h⟩
      exact ⟨trivial, ⟨⟨rfl, h2, h3, rfl, h5, .inr hs⟩, hs⟩, _, rfl, rfl⟩

/-- Close, and the text compiled. -/
def Good (s : Objs) (t : LibObj) : Prop := Close s t ∧ t.1.err = false

theorem good_value (lib : ExprLib) : Alike Good (value lib) (Custom.exprValue lib) := by
  rintro ⟨k, h⟩ ⟨ev, h'⟩ ⟨⟨⟨h1, h2, h3, h4, h5, h6⟩, hs⟩, herr⟩
  simp only at h1 h2 h3 h4 h5 h6 hs herr
  subst h1
  obtain ⟨hc, hl, e, he, hcalls⟩ := hs.2 herr
  simp only [value, Custom.exprValue, hc, he, hl]
  rw [if_neg (by simp), h2, evalExpr_plain lib ev.vars k.ev.funs ev.funs hcalls]
  exact ⟨rfl, ⟨⟨rfl, h2, h3, h4, h5, h6⟩, hs⟩, herr⟩

theorem good_truthy (lib : ExprLib) : Alike Good (impl lib).getBoolean (exprtk lib).getBoolean :=
  Alike.bind (good_value lib) fun _ => Alike.pure _

theorem good_isBool (lib : ExprLib) : Alike Good (impl lib).isBool (exprtk lib).isBool := by
  intro s t hst
  have hv := good_value lib
  simp only [impl, exprtk, M.bind_run, M.get_run]
  rw [show s.1.ev.err = t.1.err from hst.1.2.1, hst.2]
  simp only [Bool.false_eq_true, if_false]
  exact Alike.bind hv (fun v => Alike.ite _ (Alike.pure _) (Alike.bind hv fun v => Alike.pure _)) s t hst

theorem close_matcherResult (lib : ExprLib) {s : Objs} {t : LibObj} (h : Close s t) :
    (Custom.matcherResult (impl lib) s).1 = (Custom.matcherResult (exprtk lib) t).1 ∧
    Close (Custom.matcherResult (impl lib) s).2 (Custom.matcherResult (exprtk lib) t).2 := by
  cases he : t.1.err with
  | false =>
    have := Alike.bind (good_isBool lib) (fun b => Alike.ite (b = true) (good_truthy lib)
      (Alike.bind (good_isBool lib) fun b => Alike.ite ((!b) = true)
        (good_truthy lib) (Alike.throw .enforcer))) s t ⟨h, he⟩
    exact ⟨this.1, this.2.1⟩
  | true =>
    have hk : s.1.ev.err = true := h.2.1.trans he
    have h1 : (impl lib).isBool s = (.throw .parse, s) := by
      simp only [impl, M.bind_run, M.get_run, hk, if_true]; rfl
    have h2 : (exprtk lib).isBool t = (.throw .parse, t) := by
      simp only [exprtk, M.bind_run, M.get_run, he, if_true]; rfl
    simp only [Custom.matcherResult, M.bind_run, h1, h2]
    exact ⟨trivial, h⟩

theorem near_pushPolicy (lib : ExprLib) (ts vs : List Str) :
    Alike Near (Custom.pushPolicy (impl lib) ts vs) (Custom.pushPolicy (exprtk lib) ts vs) := by
  induction ts generalizing vs with
  | nil => cases vs <;> exact Alike.pure _
  | cons t ts ih =>
    cases vs with
    | nil => exact Alike.ub _
    | cons v vs => exact Alike.bind (near_push _ _ _) (fun _ => ih vs)

theorem near_evalThen {α : Type} {lib : ExprLib} {t : Str} (ht : PlainText lib t) {f : Bool → M Objs α}
    {g : Bool → M LibObj α}
    (hfg : ∀ b s u, Close s u → u.1.err = !b → (f b s).1 = (g b u).1 ∧ Near (f b s).2 (g b u).2) :
    Alike Near ((impl lib).eval t >>= f) ((exprtk lib).eval t >>= g) := by
  intro s u h
  obtain ⟨h1, h2, b, hb, herr⟩ := near_eval ht h
  show ((onKept (eval lib t) >>= f) s).1 = ((Custom.onEv (Evaluator.eval lib t) >>= g) u).1 ∧
    Near ((onKept (eval lib t) >>= f) s).2 ((Custom.onEv (Evaluator.eval lib t) >>= g) u).2
  simp only [M.bind_run]
  rcases hs : onKept (eval lib t) s with ⟨o, s1⟩
  rcases hu : Custom.onEv (Evaluator.eval lib t) u with ⟨o', u1⟩
  rw [hs, hu] at h1 h2
  rw [hu] at hb herr
  simp only at h1 h2 hb herr
  subst h1; subst hb
  exact hfg b s1 u1 h2 herr

theorem near_ruleStep (lib : ExprLib) {exp : Str} {tokens : List Str} {r : Rule}
    (h : ∀ t, ruleText exp tokens r = .ok t → PlainText lib t) :
    Alike Near (Custom.ruleStep (impl lib) exp tokens r) (Custom.ruleStep (exprtk lib) exp tokens r) := by
  refine Alike.ite _ (Alike.throw _) ?_
  refine Alike.bind (f := (impl lib).clean) (g := (exprtk lib).clean) (Alike.pure ()) fun _ => ?_
  refine Alike.bind (f := (impl lib).initialObject _) (g := (exprtk lib).initialObject _)
    (Alike.pure ()) fun _ => ?_
  refine Alike.bind (near_pushPolicy lib _ _) fun _ => ?_
  cases ht : ruleText exp tokens r with
  | throw e => exact fun s u hsu => ⟨rfl, hsu⟩
  | ub e => exact fun s u hsu => ⟨rfl, hsu⟩
  | ok t =>
    refine near_evalThen (h t ht) (fun b s u hc _ => ?_)
    obtain ⟨h1, h2⟩ := close_matcherResult lib hc
    simp only [M.bind_run]
    rcases hs : Custom.matcherResult (impl lib) s with ⟨o, s1⟩
    rcases hu : Custom.matcherResult (exprtk lib) u with ⟨o', u1⟩
    rw [hs, hu] at h1 h2
    simp only at h1 h2
    subst h1
    cases o with
    | ok m =>
      exact Alike.bind (Alike.lift (R := Near) (ruleEffect tokens r)) (fun _ => Alike.pure _) s1 u1 h2.1
    | throw e => exact ⟨rfl, h2.1⟩
    | ub e => exact ⟨rfl, h2.1⟩

omit [IterOrder] in
/-- As `alike_ruleLoop`, for the rules of the list. -/
theorem alike_ruleLoop_mem {σ τ : Type} {R : σ → τ → Prop} {ef : EffImpl σ} {ef' : EffImpl τ}
    (G : EffAlike R ef ef') {step : Rule → M σ (Bool × Effect)}
    {step' : Rule → M τ (Bool × Effect)} (expr : Str) (len : Nat) (rs : List Rule)
    (h : ∀ r ∈ rs, Alike R (step r) (step' r)) : ∀ idx es ms last ix,
    Alike R (Custom.ruleLoop ef step expr len rs idx es ms last ix)
      (Custom.ruleLoop ef' step' expr len rs idx es ms last ix) := by
  induction rs with
  | nil => intro idx es ms last ix; exact Alike.pure _
  | cons r rs ih =>
    intro idx es ms last ix
    exact Alike.bind (h r (by simp)) fun me => Alike.bind (G _ _ _ _ _) fun res =>
      Alike.ite _ (Alike.pure _) (ih (fun r hr => h r (by simp [hr])) _ _ _ _ _)

theorem near_enforceEmpty (lib : ExprLib) {exp : Str} (h : PlainText lib exp) (tokens : List Str)
    (eff : Str) : Alike (Both Near) (Custom.enforceEmpty (impl lib) default exp tokens eff)
      (Custom.enforceEmpty (exprtk lib) default exp tokens eff) := by
  refine Alike.ite _ (Alike.throw _) ?_
  refine Alike.bind (f := on (impl lib).clean) (g := on (exprtk lib).clean) (Alike.pure ()) fun _ => ?_
  refine Alike.bind (f := on ((impl lib).initialObject _)) (g := on ((exprtk lib).initialObject _))
    (Alike.pure ()) fun _ => ?_
  refine Alike.bind (near_pushPolicy lib _ _).on fun _ => ?_
  intro s u hsu
  obtain ⟨h1, h2, b, hb, herr⟩ := near_eval h hsu.1
  simp only [M.bind_run, on]
  rcases hs : (impl lib).eval exp s.obj with ⟨o, s1⟩
  rcases hu : (exprtk lib).eval exp u.obj with ⟨o', u1⟩
  have hs' : onKept (eval lib exp) s.obj = (o, s1) := hs
  have hu' : Custom.onEv (Evaluator.eval lib exp) u.obj = (o', u1) := hu
  rw [hs', hu'] at h1 h2
  rw [hu'] at hb herr
  simp only at h1 h2 hb herr
  subst h1; subst hb
  cases b with
  | false => exact ⟨rfl, h2.1, hsu.2⟩
  | true =>
    have hg : Good s1 u1 := ⟨h2, by simpa using herr⟩
    have := Alike.bind (good_truthy lib).on (fun v =>
      Alike.bind (alike_default (R := Good) eff [if v then .allow else .indeterminate] [true] 0 1).on fun res =>
        alike_finish [] (some res.1, written none res.2))
      { s with obj := s1 } { u with obj := u1 } ⟨hg, hsu.2⟩
    exact ⟨this.1, this.2.1.1.1, this.2.2⟩

/-- The texts a request evaluates: the matcher, with each rule put in. -/
def Evaluated (m : Model) (matcher t : Str) : Prop :=
  ∃ exp p, (exp = matcher ∧ matcher ≠ [] ∨ matcher = [] ∧ ∃ a, m.find c!"m" c!"m" = some a ∧ exp = a.value) ∧
    m.find c!"p" c!"p" = some p ∧
    (t = exp ∨ ∃ rule ∈ p.policy.items, ruleText exp p.tokens rule = .ok t)

theorem near_mEnforce (lib : ExprLib) {m : Model} {matcher : Str}
    (h : ∀ t, Evaluated m matcher t → PlainText lib t) (enabled : Bool) :
    Alike (Both Near) (Custom.mEnforce (impl lib) default m enabled matcher)
      (Custom.mEnforce (exprtk lib) default m enabled matcher) := by
  simp only [Custom.mEnforce]
  refine Alike.bind (alike_explain []) fun _ => Alike.ite _ (Alike.pure _) ?_
  refine Alike.bind (near_addFunctions _).on fun _ => ?_
  have hg : ∀ l, Alike Near (Custom.loadGs (impl lib) l) (Custom.loadGs (exprtk lib) l) := by
    intro l
    induction l with
    | nil => exact Alike.pure _
    | cons x l ih => exact Alike.bind (near_addFunction _ _) fun _ => ih
  refine Alike.bind (hg _).on fun _ => ?_
  have hsel : Alike Near (Custom.selectPolicies (impl lib) m) (Custom.selectPolicies (exprtk lib) m) := by
    simp only [Custom.selectPolicies]
    cases m.find c!"p" c!"p" with
    | none => exact Alike.ub _
    | some p =>
      refine Alike.ite _ ?_ (Alike.pure _)
      cases m.find c!"r" c!"r" with
      | none => exact Alike.ub _
      | some r =>
        refine Alike.bind (f := (impl lib).requestValues) (g := (exprtk lib).requestValues) ?_ fun _ =>
          Alike.bind (Alike.lift _) fun _ => Alike.pure _
        intro s u hsu
        refine ⟨?_, hsu⟩
        show s.1.ev.requestValues = u.1.requestValues
        simp only [Evaluator.requestValues, hsu.2.1, hsu.2.2.1]
  have hc : ∀ exp : Str, (exp = matcher ∧ matcher ≠ [] ∨
      matcher = [] ∧ ∃ a, m.find c!"m" c!"m" = some a ∧ exp = a.value) → Alike (Both Near) (do
      let _ ← Custom.needAssertion m c!"r" c!"r"
      let p ← Custom.needAssertion m c!"p" c!"p"
      let rules ← on (Custom.selectPolicies (impl lib) m)
      let e ← Custom.needAssertion m c!"e" c!"e"
      if rules ≠ [] then do
        let res ← on (Custom.runRules default (Custom.ruleStep (impl lib) exp p.tokens) e.value rules)
        Custom.finish rules res
      else Custom.enforceEmpty (impl lib) default exp p.tokens e.value) (do
      let _ ← Custom.needAssertion m c!"r" c!"r"
      let p ← Custom.needAssertion m c!"p" c!"p"
      let rules ← on (Custom.selectPolicies (exprtk lib) m)
      let e ← Custom.needAssertion m c!"e" c!"e"
      if rules ≠ [] then do
        let res ← on (Custom.runRules default (Custom.ruleStep (exprtk lib) exp p.tokens) e.value rules)
        Custom.finish rules res
      else Custom.enforceEmpty (exprtk lib) default exp p.tokens e.value) := by
    intro exp hexp
    refine Alike.bind (alike_needAssertion m _ _) fun _ => ?_
    cases hp : m.find c!"p" c!"p" with
    | none => simp only [Custom.needAssertion, hp]; exact fun s u hsu => ⟨rfl, hsu⟩
    | some p =>
      simp only [Custom.needAssertion, hp, pure_then]
      intro s u hsu
      obtain ⟨h1, h2⟩ := hsel.on s u hsu
      simp only [M.bind_run]
      rcases hs : on (Custom.selectPolicies (impl lib) m) s with ⟨o, s1⟩
      rcases hu : on (Custom.selectPolicies (exprtk lib) m) u with ⟨o', u1⟩
      have hmem : ∀ rules, o' = .ok rules → ∀ r ∈ rules, r ∈ p.policy.items := by
        intro rules ho r hr
        have hu1 : (on (Custom.selectPolicies (exprtk lib) m) u).1 = .ok rules := by rw [hu]; exact ho
        simp only [on, Custom.selectPolicies, hp] at hu1
        split at hu1
        · cases hr' : m.find c!"r" c!"r" with
          | none => simp [hr', M.ub] at hu1
          | some r' =>
            simp only [hr', M.bind_run] at hu1
            rcases hq : (exprtk lib).requestValues u.obj with ⟨q, u2⟩
            rw [hq] at hu1
            cases q with
            | throw e => cases hu1
            | ub e => cases hu1
            | ok vals =>
              simp only [M.lift_run] at hu1
              cases hreq : requestedPolicy vals r'.tokens with
              | throw e => rw [hreq] at hu1; cases hu1
              | ub e => rw [hreq] at hu1; cases hu1
              | ok req =>
                rw [hreq] at hu1
                simp only [M.pure_run, Outcome.ok.injEq] at hu1
                subst hu1
                split at hr
                · next hcn =>
                  simp only [List.mem_singleton] at hr
                  subst hr
                  simpa [Policies.contains] using hcn
                · cases hr
        · simp only [M.pure_run, Outcome.ok.injEq] at hu1
          rw [hu1]; exact hr
      rw [hs, hu] at h1 h2
      simp only at h1 h2
      subst h1
      cases o with
      | throw e => exact ⟨rfl, h2⟩
      | ub e => exact ⟨rfl, h2⟩
      | ok rules =>
        simp only
        cases he : m.find c!"e" c!"e" with
        | none => exact ⟨rfl, h2⟩
        | some e =>
          simp only [M.pure_run]
          refine Alike.ite (rules ≠ []) (Alike.bind (Alike.on ?_) fun res => alike_finish rules res)
            (near_enforceEmpty lib (h exp ⟨exp, p, hexp, hp, .inl rfl⟩) _ _) s1 u1 h2
          refine alike_ruleLoop_mem alike_default _ _ _ (fun r hr => near_ruleStep lib fun t ht => ?_) _ _ _ _ _
          exact h t ⟨exp, p, hexp, hp, .inr ⟨r, hmem rules rfl r hr, ht⟩⟩
  by_cases hm : matcher = []
  · simp only [hm, if_true]
    cases ha : m.find c!"m" c!"m" with
    | none => simp only [Custom.needAssertion, ha]; exact fun s u hsu => ⟨rfl, hsu⟩
    | some a => simp only [Custom.needAssertion, ha, pure_then]; exact hc a.value (.inr ⟨hm, a, ha, rfl⟩)
  · simp only [hm, if_false, pure_then]; exact hc matcher (.inl ⟨rfl, hm⟩)

omit [IterOrder] in
theorem near_pushAll : ∀ l : List (Str × Str),
    Alike Near (onKept (onEv (pushAll l))) (Custom.onEv (pushAll l))
  | [] => fun _ _ h => ⟨rfl, h⟩
  | (x, v) :: l => by
    simp only [pushAll, onEv_bind, onKept_bind, libEv_bind]
    exact Alike.bind (near_push _ x v) fun _ => near_pushAll l

/-- Requests on corresponding objects, from the parts. -/
theorem request_lib {lib : ExprLib} {R : Objs → LibObj → Prop} {values : List (Str × Str)} {m : Model}
    {enabled : Bool} {matcher : Str}
    (hp : Alike R (onKept (onEv (pushAll values))) (Custom.onEv (pushAll values)))
    (hm : Alike (Both R) (Custom.mEnforce (impl lib) default m enabled matcher)
      (Custom.mEnforce (exprtk lib) default m enabled matcher)) (X : Rule) :
    Alike R (request lib values m enabled matcher X) (libRequest lib values m enabled matcher X) := by
  intro s t hst
  have h1 := Alike.bind hp.on (fun _ => hm) { obj := s, explain := X } { obj := t, explain := X } ⟨hst, rfl⟩
  have h2 := Sim.bind (sim_onEv (pushAll values)) (fun _ => Custom.sim_mEnforce lib m enabled matcher)
    { obj := t, explain := X }
  obtain ⟨h1, h3, h4⟩ := h1
  obtain ⟨h5, h6⟩ := h2
  simp only [request, libRequest]
  rw [h1, h4, h5]
  have h7 := congrArg ReqSt.ev h6
  have h8 := congrArg ReqSt.heap h6
  have h9 := congrArg ReqSt.explain h6
  simp only [toReq] at h7 h8 h9
  refine ⟨by rw [h9]; rfl, ?_⟩
  have h10 : ∀ x : LibObj, x = (x.1, x.2) := fun _ => rfl
  rw [h10 (CallSt.obj _), h7, h8] at h3
  exact h3

/-! ## Calls of destroyed functions -/

/-- The destroyed functions `fs` are in the table, nothing is compiled since. -/
def Hangs (fs : List Str) (s : Objs) : Prop := s.1.dead = fs ∧ s.1.ev.exprStr = []

/-- The program ends well and keeps `Hangs`. -/
def Runs (fs : List Str) (f : M Objs Unit) : Prop :=
  ∀ s, Hangs fs s → (f s).1 = .ok () ∧ Hangs fs (f s).2

omit [IterOrder] in
theorem Runs.pure (fs : List Str) : Runs fs (Pure.pure ()) := fun _ h => ⟨rfl, h⟩

omit [IterOrder] in
theorem Runs.bind {fs : List Str} {f : M Objs Unit} {g : M Objs Unit} (hf : Runs fs f)
    (hg : Runs fs g) : Runs fs (f >>= fun _ => g) := by
  intro s h
  obtain ⟨h1, h2⟩ := hf s h
  simp only [M.bind_run]
  rcases hfs : f s with ⟨o, s1⟩
  rw [hfs] at h1 h2
  simp only at h1 h2
  subst h1
  exact hg s1 h2

omit [IterOrder] in
theorem runs_push (fs : List Str) {x y : Str} (hx : Evaluator.validSymbol (x ++ c!"." ++ y) = true)
    (v : Str) : Runs fs (onKept (onEv (Evaluator.pushString x y v))) := by
  rintro ⟨k, h⟩ ⟨h1, h2⟩
  simp only [onKept, onEv, Evaluator.pushString, Evaluator.addIdentifier, hx, if_true]
  split <;> exact ⟨rfl, h1, h2⟩

omit [IterOrder] in
theorem runs_addFunction (fs : List Str) (n : Str) (f : FunRef) :
    Runs fs (onKept (onEv (Evaluator.addFunction n f))) := by
  rintro ⟨k, h⟩ ⟨h1, h2⟩
  refine ⟨rfl, h1, ?_⟩
  simp only [onKept, onEv, Evaluator.addFunction, M.modify]
  split <;> exact h2

omit [IterOrder] in
theorem runs_pushAll (fs : List Str) : ∀ {l : List (Str × Str)},
    (∀ xv ∈ l, Evaluator.validSymbol (c!"r." ++ xv.1) = true) → Runs fs (onKept (onEv (pushAll l)))
  | [], _ => fun _ h => ⟨rfl, h⟩
  | (x, v) :: l, h => by
    simp only [pushAll, onEv_bind, onKept_bind]
    exact (runs_push fs (x := c!"r") (h (x, v) (by simp)) v).bind
      (runs_pushAll fs fun xv hx => h xv (by simp [hx]))

omit [IterOrder] in
theorem runs_addFunctions (fs : List Str) : ∀ l : List (Str × FunRef),
    Runs fs (onKept (onEv (Evaluator.addFunctions l)))
  | [] => fun _ h => ⟨rfl, h⟩
  | (n, f) :: l => by
    simp only [Evaluator.addFunctions, onEv_bind, onKept_bind]
    exact (runs_addFunction fs n f).bind (runs_addFunctions fs l)

theorem runs_loadGs (lib : ExprLib) (fs : List Str) : ∀ l : List (Str × Assertion),
    Runs fs (Custom.loadGs (impl lib) l)
  | [] => Runs.pure fs
  | _ :: l => (runs_addFunction fs _ _).bind (runs_loadGs lib fs l)

theorem runs_pushPolicy (lib : ExprLib) (fs : List Str) : ∀ {ts vs : List Str}, ts.length = vs.length →
    (∀ t ∈ ts, Evaluator.validSymbol (c!"p." ++ tokenName t) = true) →
    Runs fs (Custom.pushPolicy (impl lib) ts vs)
  | [], [], _, _ => Runs.pure fs
  | _ :: _, [], h, _ => by simp at h
  | [], _ :: _, h, _ => by simp at h
  | t :: ts, v :: vs, h, ht =>
    (runs_push fs (x := c!"p") (ht t (by simp)) v).bind
      (runs_pushPolicy lib fs (by simpa using h) fun t h => ht t (by simp [h]))

omit [IterOrder] in
theorem eval_hangs {lib : ExprLib} {fs : List Str} {s : Objs} (h : Hangs fs s) {t f : Str} {e : Expr}
    (hne : t ≠ []) (he : lib.parse t = some e) (hf : f ∈ e.calls) (hd : f ∈ fs) :
    onKept (eval lib t) s = (.ub .freed, s) := by
  have : callsOne lib t s.1.dead = true := by
    simp only [callsOne, he, List.any_eq_true, decide_eq_true_eq]
    exact ⟨f, hf, h.1 ▸ hd⟩
  simp only [onKept, eval, h.2, this, if_true]
  rw [if_neg (Ne.symm hne)]

end Kept
end Casbin
