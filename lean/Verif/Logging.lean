import Verif.Calls

/-!
# Logging (include/casbin/log/, casbin/logger.cpp, and the calls of it in enforcer.cpp)

The request of Enforce.lean and Enforcer.lean once more, now with its three calls of `LogPrint`.
-/

namespace Casbin

/-- `DefaultLogger` (include/casbin/log/default_logger.h 24–44, Logger.h 24–43): its one member. -/
structure Logger where
  enabled : Bool
  deriving DecidableEq, Repr

namespace Logger

/-- `DefaultLogger LogUtil::s_logger` (casbin/logger.cpp 23): an object of static storage, so
`m_enable` is zero before the program starts. -/
def initial : Logger := ⟨false⟩

/-- `DefaultLogger::EnableLog` (default_logger.h 26). -/
def enableLog (b : Bool) (_ : Logger) : Logger := ⟨b⟩

/-- The first `n` nested calls of `DefaultLogger::Print(Object...)` (default_logger.h 30–35); `none`
means that the outermost call has not returned. In `Print(objects...)` at line 33 the template
`Print(Object...)` itself fits the arguments of all calls in the library (a string literal and a
vector) without a conversion, `Print(std::string, Object...)` at line 38 needs one, and both hide
`Logger::Print`; so the call is to the function itself. -/
def printCalls : Nat → Logger → Option Unit
  | 0, _ => none
  | n + 1, l => if l.enabled then printCalls n l else some ()

/-- `LogUtil::LogPrint` (include/casbin/log/log_util.h 38–41): the call returns, or the recursion
has no bound (`printCalls_ends`). -/
def print (l : Logger) : Outcome Unit := if l.enabled then .ub .unbounded else .ok ()

/-- The call returns exactly when some number of nested calls is enough. -/
theorem printCalls_ends (l : Logger) :
    (∃ n, (printCalls n l).isSome = true) ↔ l.print = .ok () := by
  obtain ⟨b⟩ := l
  cases b with
  | false => exact iff_of_true ⟨1, rfl⟩ rfl
  | true =>
    refine iff_of_false ?_ (by simp [print])
    rintro ⟨n, hn⟩
    induction n with
    | zero => simp [printCalls] at hn
    | succ n ih => exact ih (by simpa [printCalls] using hn)

end Logger

variable [IterOrder]

open ReqSt

/-- One round of the loop (enforcer.cpp 105–172): `LogPrint("Policy Rule: ", p_vals)`, then
`ruleStep`. -/
def ruleStepL (l : Logger) (lib : ExprLib) (exp : Str) (tokens : List Str) (rule : Rule) :
    M ReqSt (Bool × Effect) := do
  M.lift l.print
  ruleStep lib exp tokens rule

/-- The branch for an empty candidate policy (enforcer.cpp 184–219) with the call of `LogPrint` at
218, which an invalid matcher does not reach (line 206). -/
def enforceEmptyL (l : Logger) (lib : ExprLib) (exp : Str) (tokens : List Str) (eff : Str) :
    M ReqSt Bool := do
  if hasEval exp then M.throw .enforcer
  else do
    onEv (pushPolicy tokens (tokens.map fun _ => []))
    let valid ← onEv (Evaluator.eval lib exp)
    if !valid then pure false
    else do
      let v ← exprValue lib
      let res ← M.lift (mergeEmpty eff v.truthy)
      M.lift l.print
      finish [] (some res)

/-- `Enforcer::m_enforce` (enforcer.cpp 42–236) with the calls of `LogPrint` at 105, 183 and 218. -/
def mEnforceL (l : Logger) (lib : ExprLib) (m : Model) (enabled : Bool) (matcher : Str) :
    M ReqSt Bool := do
  M.modify (fun s => { s with explain := [] })
  if !enabled then pure true
  else do
    onEv Evaluator.loadFunctions
    onEv (Evaluator.addFunctions (gFunctions m))
    let exp ← if matcher = [] then do
        let a ← needAssertion m c!"m" c!"m"
        pure a.value
      else pure matcher
    let _ ← needAssertion m c!"r" c!"r"
    let p ← needAssertion m c!"p" c!"p"
    let s ← M.get
    let rules ← M.lift (selectPolicies m s.ev)
    let e ← needAssertion m c!"e" c!"e"
    if rules ≠ [] then do
      let res ← runRules (ruleStepL l lib exp p.tokens) e.value rules
      M.lift l.print
      finish rules res
    else enforceEmptyL l lib exp p.tokens e.value

namespace Enforcer

/-- `enforceEx` (enforcer.cpp 586–652) on `mEnforceL`. -/
def enforceExL (l : Logger) (lib : ExprLib) (matcher : Str) (vals : List ReqVal) (explain : Rule) :
    M Enforcer (Bool × Rule) := do
  let E ← M.get
  match E.model.find c!"r" c!"r" with
  | none => M.ub .nullDeref
  | some r =>
    if vals.length ≠ r.tokens.length then pure (false, explain)
    else runRequest explain (do
      ReqSt.onEv (pushRequest r.tokens vals)
      mEnforceL l lib E.model E.enabled matcher)

/-- `enforceExMap` (enforcer.cpp 653–672) on `mEnforceL`. -/
def enforceExMapL (l : Logger) (lib : ExprLib) (matcher : Str) (vals : UMap Str ReqVal)
    (explain : Rule) : M Enforcer (Bool × Rule) := do
  let E ← M.get
  runRequest explain (do
    ReqSt.onEv (pushMap (IterOrder.iter vals))
    mEnforceL l lib E.model E.enabled matcher)

/-- `enforceWithMatcher` (enforcer.cpp 544–555) on `mEnforceL`. -/
def enforceWithMatcherL (l : Logger) (lib : ExprLib) (matcher : Str) (vals : List ReqVal) :
    M Enforcer Bool := do
  let r ← enforceExL l lib matcher vals []
  pure r.1

/-- `batchEnforceWithMatcher` (enforcer.cpp 686–693) on `mEnforceL`. -/
def batchEnforceWithMatcherL (l : Logger) (lib : ExprLib) (matcher : Str) : List (List ReqVal) →
    M Enforcer (List Bool)
  | [] => pure []
  | r :: rs => do
    let b ← enforceWithMatcherL l lib matcher r
    let bs ← batchEnforceWithMatcherL l lib matcher rs
    pure (b :: bs)

/-- `implicitUsersLoop` (rbac_api.cpp 237–243) on `mEnforceL`. -/
def implicitUsersLoopL (l : Logger) (lib : ExprLib) (perm : List Str) : List Str →
    M Enforcer (List Str)
  | [] => pure []
  | s :: ss => do
    let p0 ← M.lift (vecAt perm 0)
    let p1 ← M.lift (vecAt perm 1)
    let b ← enforceWithMatcherL l lib [] [.str s, .str p0, .str p1]
    let rest ← implicitUsersLoopL l lib perm ss
    pure (if b then s :: rest else rest)

/-- `getImplicitUsersForPermission` (rbac_api.cpp 227–247) on `mEnforceL`. -/
def getImplicitUsersForPermissionL (l : Logger) (lib : ExprLib) (perm : List Str) :
    M Enforcer (List Str) := do
  let pSubjects ← getAllSubjects
  let gInherit ← onModel (Model.getValuesForFieldAllTypes c!"g" 1)
  let gSubjects ← onModel (Model.getValuesForFieldAllTypes c!"g" 0)
  let subjects := arrayRemoveDuplicates (pSubjects ++ gSubjects)
  let res ← implicitUsersLoopL l lib perm subjects
  pure (setSubtract res gInherit)

end Enforcer

/-- A method of the enforcer with the calls of `LogPrint`. All of them are in `m_enforce`, so only
the methods that make requests differ from `Method.run`. -/
def Method.runL (l : Logger) (lib : ExprLib) : Method → M Enforcer Answer
  | .ask matcher vals => do
    let b ← Enforcer.enforceWithMatcherL l lib matcher vals
    pure (.bool b)
  | .askEx matcher vals ex => do
    let r ← Enforcer.enforceExL l lib matcher vals ex
    pure (.explained r.1 r.2)
  | .askMap matcher vals ex => do
    let r ← Enforcer.enforceExMapL l lib matcher vals ex
    pure (.explained r.1 r.2)
  | .batch matcher rs => do
    let bs ← Enforcer.batchEnforceWithMatcherL l lib matcher rs
    pure (.bools bs)
  | .implicitUsers perm => do
    let ns ← Enforcer.getImplicitUsersForPermissionL l lib perm
    pure (.names ns)
  | c => c.run lib

/-- A program: an enforcer, and the static logger of the library. -/
structure LogProg where
  enforcer : Enforcer
  logger : Logger

/-- What a program does. `newLogged` is the constructor with the flag `enable_log`
(enforcer.cpp 307–309) after the delegation to the other constructor, whose result is given. -/
inductive LogCall
  | call (c : Method)
  | enableLog (b : Bool)
  | setLogger (l : Logger)
  | newLogged (E : Enforcer) (b : Bool)

namespace LogCall

/-- `LogUtil::GetLogger` (log_util.h 35): by value, a copy. -/
def getLogger (P : LogProg) : Logger := P.logger

/-- `Enforcer::EnableLog` (enforcer.cpp 485–487): the copy is switched and then destroyed. -/
def enable (b : Bool) (P : LogProg) : LogProg :=
  let _copy := (getLogger P).enableLog b
  P

/-- One call. The constructor ends with `EnableLog` (enforcer.cpp 308); `SetLogger` is log_util.h 32. -/
def run (lib : ExprLib) : LogCall → LogProg → Outcome Answer × LogProg
  | call c, P =>
    let r := c.runL P.logger lib P.enforcer
    (r.1, { P with enforcer := r.2 })
  | enableLog b, P => (.ok .done, enable b P)
  | setLogger l, P => (.ok .done, { P with logger := l })
  | newLogged E b, P => (.ok .done, enable b { P with enforcer := E })

/-- How each call of a history ends. -/
def answers (lib : ExprLib) : List LogCall → LogProg → List (Outcome Answer)
  | [], _ => []
  | c :: cs, P => (c.run lib P).1 :: answers lib cs (c.run lib P).2

/-- The program after a history. -/
def after (lib : ExprLib) : List LogCall → LogProg → LogProg
  | [], P => P
  | c :: cs, P => after lib cs (c.run lib P).2

end LogCall

/-! ## With the logger off -/

theorem ruleStepL_off (lib : ExprLib) (exp : Str) (tokens : List Str) :
    ruleStepL ⟨false⟩ lib exp tokens = ruleStep lib exp tokens := rfl

theorem enforceEmptyL_off (lib : ExprLib) (exp : Str) (tokens : List Str) (eff : Str) :
    enforceEmptyL ⟨false⟩ lib exp tokens eff = enforceEmpty lib exp tokens eff := rfl

theorem mEnforceL_off (lib : ExprLib) (m : Model) (enabled : Bool) (matcher : Str) :
    mEnforceL ⟨false⟩ lib m enabled matcher = mEnforce lib m enabled matcher := rfl

theorem Enforcer.enforceExL_off (lib : ExprLib) (matcher : Str) (vals : List ReqVal) (ex : Rule) :
    enforceExL ⟨false⟩ lib matcher vals ex = enforceEx lib matcher vals ex := by
  unfold enforceExL enforceEx
  refine congrArg _ (funext fun E => ?_)
  cases E.model.find c!"r" c!"r" <;> simp only [mEnforceL_off]

theorem Enforcer.enforceExMapL_off (lib : ExprLib) (matcher : Str) (vals : UMap Str ReqVal)
    (ex : Rule) : enforceExMapL ⟨false⟩ lib matcher vals ex = enforceExMap lib matcher vals ex := by
  unfold enforceExMapL enforceExMap
  simp only [mEnforceL_off]

theorem Enforcer.enforceWithMatcherL_off (lib : ExprLib) (matcher : Str) (vals : List ReqVal) :
    enforceWithMatcherL ⟨false⟩ lib matcher vals = enforceWithMatcher lib matcher vals := by
  unfold enforceWithMatcherL enforceWithMatcher
  rw [enforceExL_off]

theorem Enforcer.batchL_off (lib : ExprLib) (matcher : Str) (rs : List (List ReqVal)) :
    batchEnforceWithMatcherL ⟨false⟩ lib matcher rs = batchEnforceWithMatcher lib matcher rs := by
  induction rs with
  | nil => rfl
  | cons r rs ih =>
    simp only [batchEnforceWithMatcherL, batchEnforceWithMatcher, enforceWithMatcherL_off, ih]

theorem Enforcer.implicitUsersLoopL_off (lib : ExprLib) (perm ss : List Str) :
    implicitUsersLoopL ⟨false⟩ lib perm ss = implicitUsersLoop lib perm ss := by
  induction ss with
  | nil => rfl
  | cons s ss ih => simp only [implicitUsersLoopL, implicitUsersLoop, enforceWithMatcherL_off, ih, enforce]

theorem Method.runL_off (lib : ExprLib) (c : Method) : c.runL ⟨false⟩ lib = c.run lib := by
  cases c <;> simp only [Method.runL, Method.run, Enforcer.enforceWithMatcherL_off,
    Enforcer.enforceExL_off, Enforcer.enforceExMapL_off, Enforcer.batchL_off,
    Enforcer.getImplicitUsersForPermissionL, Enforcer.getImplicitUsersForPermission,
    Enforcer.implicitUsersLoopL_off]

/-! ## With the logger on -/

/-- With the logger on: the request does not return, or it ends as without logging and is not
granted. -/
def Swallows {σ : Type} (fL f : M σ Bool) (s : σ) : Prop :=
  (fL s).1 = .ub .unbounded ∨ fL s = f s ∧ (f s).1 ≠ .ok true

omit [IterOrder] in
theorem Swallows.bind {σ α : Type} {m : M σ α} {fL f : α → M σ Bool} {s : σ}
    (h : ∀ a s', m s = (.ok a, s') → Swallows (fL a) (f a) s') :
    Swallows (m >>= fL) (m >>= f) s := by
  unfold Swallows
  cases hm : m s with
  | mk o s' =>
    cases o with
    | ok a => rw [M.bind_run_ok hm, M.bind_run_ok hm]; exact h a s' hm
    | throw e => rw [M.bind_run_throw hm, M.bind_run_throw hm]; exact .inr ⟨rfl, by simp⟩
    | ub u => rw [M.bind_run_ub hm, M.bind_run_ub hm]; exact .inr ⟨rfl, by simp⟩

omit [IterOrder] in
theorem swallows_print {σ : Type} (f g : M σ Bool) (s : σ) :
    Swallows (M.lift (Logger.print ⟨true⟩) >>= fun _ => f) g s := .inl rfl

theorem runRules_on (lib : ExprLib) (exp : Str) (tokens : List Str) (e : Str) {rules : List Rule}
    (h : rules ≠ []) (s : ReqSt) :
    (runRules (ruleStepL ⟨true⟩ lib exp tokens) e rules s).1 = .ub .unbounded := by
  cases rules with
  | nil => exact absurd rfl h
  | cons r rs => rfl

theorem enforceEmptyL_on (lib : ExprLib) (exp : Str) (tokens : List Str) (eff : Str) (s : ReqSt) :
    Swallows (enforceEmptyL ⟨true⟩ lib exp tokens eff) (enforceEmpty lib exp tokens eff) s := by
  unfold enforceEmptyL enforceEmpty
  by_cases h : hasEval exp = true
  · rw [if_pos h, if_pos h]
    exact .inr ⟨rfl, by simp [M.throw]⟩
  rw [if_neg h, if_neg h]
  refine Swallows.bind fun _ s1 _ => Swallows.bind fun valid s2 _ => ?_
  cases valid with
  | false => exact .inr ⟨rfl, by simp [pure, M.pure]⟩
  | true => exact Swallows.bind fun v s3 _ => Swallows.bind fun res s4 _ => swallows_print _ _ _

theorem mEnforceL_on_rest (lib : ExprLib) (m : Model) (exp : Str) (s4 : ReqSt) : Swallows (do
      let _ ← needAssertion m c!"r" c!"r"
      let p ← needAssertion m c!"p" c!"p"
      let s ← M.get
      let rules ← M.lift (selectPolicies m s.ev)
      let e ← needAssertion m c!"e" c!"e"
      if rules ≠ [] then do
        let res ← runRules (ruleStepL ⟨true⟩ lib exp p.tokens) e.value rules
        M.lift (Logger.print ⟨true⟩)
        finish rules res
      else enforceEmptyL ⟨true⟩ lib exp p.tokens e.value) (do
      let _ ← needAssertion m c!"r" c!"r"
      let p ← needAssertion m c!"p" c!"p"
      let s ← M.get
      let rules ← M.lift (selectPolicies m s.ev)
      let e ← needAssertion m c!"e" c!"e"
      if rules ≠ [] then do
        let res ← runRules (ruleStep lib exp p.tokens) e.value rules
        finish rules res
      else enforceEmpty lib exp p.tokens e.value) s4 := by
  refine Swallows.bind fun _ s5 _ => Swallows.bind fun p s6 _ => Swallows.bind fun st s7 _ =>
    Swallows.bind fun rules s8 _ => Swallows.bind fun e s9 _ => ?_
  by_cases h : rules ≠ []
  · rw [if_pos h, if_pos h]
    left
    have := runRules_on lib exp p.tokens e.value h s9
    cases hr : runRules (ruleStepL ⟨true⟩ lib exp p.tokens) e.value rules s9 with
    | mk o s' =>
      rw [hr] at this
      simp only at this
      subst this
      rw [M.bind_run_ub hr]
  · rw [if_neg h, if_neg h]
    exact enforceEmptyL_on lib exp p.tokens e.value s9

theorem mEnforceL_on (lib : ExprLib) (m : Model) (matcher : Str) (s : ReqSt) :
    Swallows (mEnforceL ⟨true⟩ lib m true matcher) (mEnforce lib m true matcher) s := by
  unfold mEnforceL mEnforce
  refine Swallows.bind fun _ s1 _ => ?_
  refine Swallows.bind fun _ s2 _ => Swallows.bind fun _ s3 _ => ?_
  by_cases hm : matcher = []
  · rw [if_pos hm, if_pos hm]
    exact Swallows.bind fun a s4 _ => mEnforceL_on_rest lib m a.value s4
  · rw [if_neg hm, if_neg hm]
    exact mEnforceL_on_rest lib m matcher s3

/-- `mEnforceL` with enforcement off logs nothing. -/
theorem mEnforceL_disabled (l : Logger) (lib : ExprLib) (m : Model) (matcher : Str) :
    mEnforceL l lib m false matcher = mEnforce lib m false matcher := by
  unfold mEnforceL mEnforce
  simp only [Bool.not_false, if_true]

end Casbin
