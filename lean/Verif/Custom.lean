import Verif.Enforce

/-!
# A request with an evaluator and an effector of the user

`Enforcer::m_enforce` calls its evaluator through `IEvaluator` and its effector through `Effector`;
`Enforce.lean` has the two classes of the library built in. Here they are arguments: any
implementations, working on any objects. `Props/Custom` shows that with the classes of the library
the two models agree. An implementation that changes the model of the enforcer while a request
runs is left out.
-/

namespace Casbin

/-- An implementation of `IEvaluator` (include/casbin/model/evaluator.h 33–63) whose methods work on
objects of type `σ`. `isBool` is `CheckType() == Type::Bool`, `getFloat` whether `GetFloat()` is not
zero, which is all that is used. `clean` is `Clean` with `after_enforce = false`, the only call in
the library. -/
structure EvalImpl (σ : Type) where
  eval : Str → M σ Bool
  initialObject : Str → M σ Unit
  pushString : Str → Str → Str → M σ Unit
  loadFunctions : M σ Unit
  loadG : Option Nat → Str → Nat → M σ Unit
  isBool : M σ Bool
  getBoolean : M σ Bool
  getFloat : M σ Bool
  clean : M σ Unit
  requestValues : M σ (UMap Str Str)

/-- An implementation of `Effector` (include/casbin/effect/effector.h): `MergeEffects` returns an
effect and may write `explainIndex`, given by reference: `none` when it does not, `some none` when
it writes a negative number. -/
structure EffImpl (σ : Type) where
  merge : Str → List Effect → List Bool → Nat → Nat → M σ (Effect × Option (Option Nat))

/-- The objects of the user and the caller's `explain` vector. -/
structure CallSt (σ : Type) where
  obj : σ
  explain : Rule

/-- Run a method of the user's objects. -/
def CallSt.on {σ α : Type} (f : M σ α) : M (CallSt σ) α := fun s =>
  ((f s.obj).1, { s with obj := (f s.obj).2 })

namespace Custom

open CallSt

variable {σ : Type}

/-- The loop pushing the policy values (enforcer.cpp 114–118, 197–201). -/
def pushPolicy (ev : EvalImpl σ) : List Str → List Str → M σ Unit
  | t :: ts, v :: vs => do
    ev.pushString c!"p" (tokenName t) v
    pushPolicy ev ts vs
  | [], _ => pure ()
  | _ :: _, [] => M.ub .outOfBounds

/-- The result of the matcher for one rule (enforcer.cpp 143–158). -/
def matcherResult (ev : EvalImpl σ) : M σ Bool := do
  let b ← ev.isBool
  if b then ev.getBoolean
  else do
    let b ← ev.isBool
    if !b then ev.getFloat
    else M.throw .enforcer

/-- One round of the rule loop before `MergeEffects` (enforcer.cpp 105–172); what `Eval` returns is
not looked at. -/
def ruleStep (ev : EvalImpl σ) (exp : Str) (tokens : List Str) (rule : Rule) :
    M σ (Bool × Effect) := do
  if tokens.length ≠ rule.length then M.throw .enforcer
  else do
    ev.clean
    ev.initialObject c!"p"
    pushPolicy ev tokens rule
    let text ← M.lift (ruleText exp tokens rule)
    let _ ← ev.eval text
    let m ← matcherResult ev
    let e ← M.lift (ruleEffect tokens rule)
    pure (m, e)

/-- The value of `explainIndex` after a call of `MergeEffects`. -/
def written (before : Option (Option Nat)) : Option (Option Nat) → Option (Option Nat)
  | some j => some j
  | none => before

/-- The loop over the candidate rules (enforcer.cpp 104–181), as `ruleLoop`; `last` and `ix` are the
variables `effect` and `explainIndex`, not initialised before the first call. -/
def ruleLoop (ef : EffImpl σ) (step : Rule → M σ (Bool × Effect)) (expr : Str) (len : Nat) :
    List Rule → Nat → List Effect → List Bool → Option Effect → Option (Option Nat) →
    M σ (Option Effect × Option (Option Nat))
  | [], _, _, _, last, ix => pure (last, ix)
  | r :: rs, idx, effects, matchs, _, ix => do
    let me ← step r
    let matchs := matchs.set idx me.1
    let effects := effects.set idx me.2
    let res ← ef.merge expr effects matchs idx len
    if res.1 ≠ .indeterminate then pure (some res.1, written ix res.2)
    else ruleLoop ef step expr len rs (idx + 1) effects matchs (some res.1) (written ix res.2)

/-- The whole non-empty branch (enforcer.cpp 99–183). -/
def runRules (ef : EffImpl σ) (step : Rule → M σ (Bool × Effect)) (expr : Str)
    (rules : List Rule) : M σ (Option Effect × Option (Option Nat)) :=
  ruleLoop ef step expr rules.length rules 0
    (List.replicate rules.length .indeterminate) (List.replicate rules.length false) none none

/-- Setting the explanation (enforcer.cpp 224–227) and the answer (229–235). -/
def finish (rules : List Rule) (res : Option Effect × Option (Option Nat)) :
    M (CallSt σ) Bool := do
  match res.2 with
  | none => M.ub .uninit
  | some idx => do
    match idx with
    | none => pure ()
    | some i =>
      match rules[i]? with
      | some r => M.modify (fun s => { s with explain := r })
      | none => pure ()
    match res.1 with
    | none => M.ub .uninit
    | some eff => pure (decide (eff = .allow))

/-- The branch for an empty candidate policy (enforcer.cpp 184–219). -/
def enforceEmpty (ev : EvalImpl σ) (ef : EffImpl σ) (exp : Str) (tokens : List Str) (eff : Str) :
    M (CallSt σ) Bool := do
  if hasEval exp then M.throw .enforcer
  else do
    on ev.clean
    on (ev.initialObject c!"p")
    on (pushPolicy ev tokens (tokens.map fun _ => []))
    let valid ← on (ev.eval exp)
    if !valid then pure false
    else do
      let v ← on ev.getBoolean
      let res ← on (ef.merge eff [if v then .allow else .indeterminate] [true] 0 1)
      finish [] (some res.1, written none res.2)

/-- Registering the grouping functions (enforcer.cpp 56–63). -/
def loadGs (ev : EvalImpl σ) : List (Str × Assertion) → M σ Unit
  | [] => pure ()
  | (name, a) :: rest => do
    ev.loadG a.rm name (countChar '_' a.value)
    loadGs ev rest

/-- `SelectedPolicies::operator*` (selected_policies.cpp 45–54). -/
def selectPolicies (ev : EvalImpl σ) (m : Model) : M σ (List Rule) :=
  match m.find c!"p" c!"p" with
  | none => M.ub .nullDeref
  | some p =>
    if p.policy.hash then
      match m.find c!"r" c!"r" with
      | none => M.ub .nullDeref
      | some r => do
        let vals ← ev.requestValues
        let req ← M.lift (requestedPolicy vals r.tokens)
        pure (if p.policy.contains req then [req] else [])
    else pure p.policy.items

/-- Reading an assertion the request needs; a missing one is a null dereference. -/
def needAssertion (m : Model) (sec ptype : Str) : M (CallSt σ) Assertion :=
  match m.find sec ptype with
  | some a => pure a
  | none => M.ub .nullDeref

/-- `Enforcer::m_enforce` (enforcer.cpp 42–236) with the evaluator and the effector as arguments. -/
def mEnforce [IterOrder] (ev : EvalImpl σ) (ef : EffImpl σ) (m : Model) (enabled : Bool)
    (matcher : Str) : M (CallSt σ) Bool := do
  M.modify (fun s => { s with explain := [] })
  if !enabled then pure true
  else do
    on ev.loadFunctions
    on (loadGs ev (IterOrder.iter (m.secMap c!"g")))
    let exp ← if matcher = [] then do
        let a ← needAssertion m c!"m" c!"m"
        pure a.value
      else pure matcher
    let _ ← needAssertion m c!"r" c!"r"
    let p ← needAssertion m c!"p" c!"p"
    let rules ← on (selectPolicies ev m)
    let e ← needAssertion m c!"e" c!"e"
    if rules ≠ [] then do
      let res ← on (runRules ef (ruleStep ev exp p.tokens) e.value rules)
      finish rules res
    else enforceEmpty ev ef exp p.tokens e.value

/-! ### The classes of the library -/

/-- The objects `ExprtkEvaluator` works on: itself and the role managers. -/
abbrev LibObj := Evaluator × List RM

/-- Run a method of the evaluator. -/
def onEv {α : Type} (f : M Evaluator α) : M LibObj α := fun s => ((f s.1).1, (f s.1).2, s.2)

/-- `expression.value()`, as `exprValue`. -/
def exprValue [IterOrder] (lib : ExprLib) : M LibObj Val := fun s =>
  match s.1.compiled with
  | none => (.ok .nan, s)
  | some e => ((evalExpr lib s.1.vars s.1.funs e s.2).1, s.1, (evalExpr lib s.1.vars s.1.funs e s.2).2)

/-- `ExprtkEvaluator` (casbin/model/evaluator.cpp) as an implementation of `IEvaluator`. -/
def exprtk [IterOrder] (lib : ExprLib) : EvalImpl LibObj where
  eval s := onEv (Evaluator.eval lib s)
  initialObject _ := pure ()
  pushString t p v := onEv (Evaluator.pushString t p v)
  loadFunctions := onEv Evaluator.loadFunctions
  loadG rm name narg := onEv (Evaluator.addFunction name (.g rm narg))
  isBool := do
    let s ← M.get
    if s.1.err then M.throw .parse
    else do
      let v ← exprValue lib
      if v = .num 0 then pure true
      else do
        let v ← exprValue lib
        pure (decide (v = .num 1))
  getBoolean := do
    let v ← exprValue lib
    pure v.truthy
  getFloat := do
    let v ← exprValue lib
    pure v.truthy
  clean := pure ()
  requestValues := fun s => (s.1.requestValues, s)

/-- `DefaultEffector` (casbin/effect/default_effector.cpp) as an implementation of `Effector`: it
always writes `explainIndex`. -/
def default {σ : Type} : EffImpl σ where
  merge expr effects matchs i len := do
    let r ← M.lift (mergeEffects expr effects matchs i len)
    pure (r.1, some r.2)

end Custom
end Casbin
