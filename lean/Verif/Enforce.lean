import Verif.Effect
import Verif.Evaluator
import Verif.Model

/-!
# The decision procedure `Enforcer::m_enforce`

Models `casbin/enforcer.cpp` 42–236 and `casbin/selected_policies.cpp`.
-/

namespace Casbin

/-- What a request works on: the evaluator object, the role manager objects, and the caller's
`explain` vector. -/
structure ReqSt where
  ev : Evaluator
  heap : List RM
  explain : Rule

namespace ReqSt

/-- Run a method of the evaluator. -/
def onEv {α : Type} (f : M Evaluator α) : M ReqSt α := fun s =>
  ((f s.ev).1, { s with ev := (f s.ev).2 })

/-- Run code that only touches role managers. -/
def onRms {α : Type} (f : M (List RM) α) : M ReqSt α := fun s =>
  ((f s.heap).1, { s with heap := (f s.heap).2 })

end ReqSt

open ReqSt

variable [IterOrder]

/-- `expression.value()`: of the compiled expression, NaN for a new object's null expression. -/
def exprValue (lib : ExprLib) : M ReqSt Val := fun s =>
  match s.ev.compiled with
  | none => (.ok .nan, s)
  | some e => onRms (evalExpr lib s.ev.vars s.ev.funs e) s

/-- `ExprtkEvaluator::CheckType() == Type::Bool` (evaluator.cpp 87–96); otherwise the type is
`Float`. -/
def isBoolType (lib : ExprLib) : M ReqSt Bool := do
  let s ← M.get
  if s.ev.err then M.throw .parse
  else do
    let v ← exprValue lib
    if v = .num 0 then pure true
    else do
      let v ← exprValue lib
      pure (decide (v = .num 1))

/-- The result of the matcher for one rule (enforcer.cpp 143–158). -/
def matcherResult (lib : ExprLib) : M ReqSt Bool := do
  let b ← isBoolType lib
  if b then do
    let v ← exprValue lib
    pure v.truthy
  else do
    let b ← isBoolType lib
    if !b then do
      let v ← exprValue lib
      pure v.truthy
    else M.throw .enforcer

/-- `p_tokens[j].substr(p_tokens[j].find('_') + 1)` (enforcer.cpp 115–116, 198–199): the whole text when
there is no `_`. -/
def tokenName (t : Str) : Str :=
  match findChar '_' t with
  | some i => t.drop (i + 1)
  | none => t

/-- The loop pushing the policy values (enforcer.cpp 114–118, 197–201). -/
def pushPolicy : List Str → List Str → M Evaluator Unit
  | t :: ts, v :: vs => do
    Evaluator.pushString c!"p" (tokenName t) v
    pushPolicy ts vs
  | [], _ => pure ()
  | _ :: _, [] => M.ub .outOfBounds

/-- `p_int_tokens` (enforcer.cpp 80–86): the last index of a token. -/
def tokenIndex (t : Str) : List Str → Nat → Option Nat
  | [], _ => none
  | x :: xs, i =>
    match tokenIndex t xs (i + 1) with
    | some j => some j
    | none => if x = t then some i else none

/-- The replacement table for `eval()` (enforcer.cpp 121–134). -/
def evalTable (tokens : List Str) (rule : Rule) : List Str → UMap Str Str → Outcome (UMap Str Str)
  | [], acc => .ok acc
  | name :: names, acc =>
    match tokenIndex (escapeAssertion name) tokens 0 with
    | some i => do
      let v ← vecAt rule i
      evalTable tokens rule names (acc.set name v)
    | none => .throw .enforcer

/-- The text that is evaluated for one rule (enforcer.cpp 120–141). -/
def ruleText (exp : Str) (tokens : List Str) (rule : Rule) : Outcome Str :=
  if hasEval exp then do
    let sets ← evalTable tokens rule (getEvalValue exp) []
    .ok (replaceEval sets exp)
  else .ok exp

/-- The effect of a rule (enforcer.cpp 160–172). -/
def ruleEffect (tokens : List Str) (rule : Rule) : Outcome Effect :=
  match tokenIndex c!"p_eft" tokens 0 with
  | some j => do
    let eft ← vecAt rule j
    if eft = c!"allow" then .ok .allow
    else if eft = c!"deny" then .ok .deny
    else .ok .indeterminate
  | none => .ok .allow

/-- One round of the rule loop before `MergeEffects` (enforcer.cpp 105–172). -/
def ruleStep (lib : ExprLib) (exp : Str) (tokens : List Str) (rule : Rule) :
    M ReqSt (Bool × Effect) := do
  if tokens.length ≠ rule.length then M.throw .enforcer
  else do
    onEv (pushPolicy tokens rule)
    let text ← M.lift (ruleText exp tokens rule)
    let _ ← onEv (Evaluator.eval lib text)
    let m ← matcherResult lib
    let e ← M.lift (ruleEffect tokens rule)
    pure (m, e)

/-- The grouping functions of the model (enforcer.cpp 56–63). -/
def gFunctions (m : Model) : List (Str × FunRef) :=
  (IterOrder.iter (m.secMap c!"g")).map
    (fun ka => (ka.1, FunRef.g ka.2.rm (countChar '_' ka.2.value)))

/-- `SelectedPolicies::requestedPolicy` (selected_policies.cpp 20–38). -/
def requestedPolicy (vals : UMap Str Str) : List Str → Outcome Rule
  | [] => .ok []
  | t :: ts =>
    if t.length < 2 then .throw .outOfRange
    else match vals.get (t.drop 2) with
      | some v => do
        let vs ← requestedPolicy vals ts
        .ok (v :: vs)
      | none => .throw .logic

/-- `SelectedPolicies::operator*` (selected_policies.cpp 45–54), as the sequence of rules the loop
visits. -/
def selectPolicies (m : Model) (ev : Evaluator) : Outcome (List Rule) :=
  match m.find c!"p" c!"p" with
  | none => .ub .nullDeref
  | some p =>
    if p.policy.hash then
      match m.find c!"r" c!"r" with
      | none => .ub .nullDeref
      | some r => do
        let vals ← ev.requestValues
        let req ← requestedPolicy vals r.tokens
        .ok (if p.policy.contains req then [req] else [])
    else .ok p.policy.items

/-- Reading an assertion the request needs; a missing one is a null dereference. -/
def needAssertion (m : Model) (sec ptype : Str) : M ReqSt Assertion :=
  match m.find sec ptype with
  | some a => pure a
  | none => M.ub .nullDeref

/-- Setting the explanation (enforcer.cpp 224–227) and the answer (229–235). -/
def finish (rules : List Rule) (res : Option (Effect × Option Nat)) : M ReqSt Bool := do
  match res with
  | none => M.ub .uninit
  | some (eff, idx) => do
    match idx with
    | none => pure ()
    | some i =>
      match rules[i]? with
      | some r => M.modify (fun s => { s with explain := r })
      | none => pure ()
    pure (decide (eff = .allow))

/-- The branch for an empty candidate policy (enforcer.cpp 184–219). -/
def enforceEmpty (lib : ExprLib) (exp : Str) (tokens : List Str) (eff : Str) : M ReqSt Bool := do
  if hasEval exp then M.throw .enforcer
  else do
    onEv (pushPolicy tokens (tokens.map fun _ => []))
    let valid ← onEv (Evaluator.eval lib exp)
    if !valid then pure false
    else do
      let v ← exprValue lib
      let res ← M.lift (mergeEmpty eff v.truthy)
      finish [] (some res)

/-- `Enforcer::m_enforce` (enforcer.cpp 42–236). An empty `matcher` means the model's. The
effect definition is read here once, before the loop; the code reads it at each `MergeEffects` (174,
215), so in a model without one an exception of the first rule comes before the null dereference. -/
def mEnforce (lib : ExprLib) (m : Model) (enabled : Bool) (matcher : Str) : M ReqSt Bool := do
  M.modify (fun s => { s with explain := [] })
  if !enabled then pure true
  else do
    onEv Evaluator.loadFunctions
    onEv (Evaluator.addFunctions (gFunctions m))
    let exp ← if matcher = [] then do
        let a ← needAssertion m c!"m" c!"m"
        pure a.value
      else pure matcher
    let _ ← needAssertion m c!"r" c!"r"
    let p ← needAssertion m c!"p" c!"p"
    let s ← M.get
    let rules ← M.lift (selectPolicies m s.ev)
    let e ← needAssertion m c!"e" c!"e"
    if rules ≠ [] then do
      let res ← runRules (ruleStep lib exp p.tokens) e.value rules
      finish rules res
    else enforceEmpty lib exp p.tokens e.value

/-- A request value (include/casbin/data_types.h 26): a string or a JSON object. -/
inductive ReqVal
  | str (s : Str)
  | json
  deriving DecidableEq, Repr

/-- The loop pushing the request values (enforcer.cpp 601–612, 634–647). `PushObjectJson` does
nothing (evaluator.cpp 62–65), but the name is still cut out of the token, which throws when the
token has fewer than two characters. -/
def pushRequest : List Str → List ReqVal → M Evaluator Unit
  | t :: ts, v :: vs => do
    if t.length < 2 then M.throw .outOfRange
    else do
      match v with
      | .str s => Evaluator.pushString c!"r" (t.drop 2) s
      | .json => pure ()
      pushRequest ts vs
  | _, _ => pure ()

/-- The loop pushing a `DataMap` (enforcer.cpp 660–667). -/
def pushMap : List (Str × ReqVal) → M Evaluator Unit
  | [] => pure ()
  | (x, v) :: rest => do
    match v with
    | .str s => Evaluator.pushString c!"r" x s
    | .json => pure ()
    pushMap rest

end Casbin
