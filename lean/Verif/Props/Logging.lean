import Verif.Logging
import Verif.Fixtures
import Verif.ConditionFixtures

/-!
# C124: logging

`EnableLog` decides whether the library writes messages, and it changes no answer. It changes no
answer (`C124_enableLog_partial`), because it switches a copy of the logger (`C124_enableLog_fails`);
a logger that has been switched on and handed to `SetLogger` ends the service (`C124_setLogger_fails`).
-/

namespace Casbin.LoggingProps

open Casbin Casbin.Fixtures Casbin.Enforcer

variable [IterOrder]

/-- How the calls of a history end in a library without a logger. -/
def unlogged (lib : ExprLib) : List LogCall → Enforcer → List (Outcome Answer)
  | [], _ => []
  | .call c :: cs, E => (c.run lib E).1 :: unlogged lib cs (c.run lib E).2
  | .newLogged E' _ :: cs, _ => .ok .done :: unlogged lib cs E'
  | .enableLog _ :: cs, E => .ok .done :: unlogged lib cs E
  | .setLogger _ :: cs, E => .ok .done :: unlogged lib cs E

/-- C124 as far as it is true: from the start of the program on, `EnableLog`, the constructor with
the flag `enable_log`, and `SetLogger` with loggers that are off change no answer. -/
theorem C124_enableLog_partial (lib : ExprLib) (cs : List LogCall) (E : Enforcer)
    (hcs : ∀ l, .setLogger l ∈ cs → l.enabled = false) :
    LogCall.answers lib cs ⟨E, Logger.initial⟩ = unlogged lib cs E := by
  induction cs generalizing E with
  | nil => rfl
  | cons c cs ih =>
    have ih' := fun E => ih E fun l hl => hcs l (List.mem_cons_of_mem _ hl)
    cases c with
    | call c =>
      have h : c.runL Logger.initial lib = c.run lib := Method.runL_off lib c
      simp only [LogCall.answers, LogCall.run, unlogged, h, ih']
    | enableLog b => simp only [LogCall.answers, LogCall.run, LogCall.enable, unlogged, ih']
    | newLogged E' b => simp only [LogCall.answers, LogCall.run, LogCall.enable, unlogged, ih']
    | setLogger l =>
      obtain ⟨b⟩ := l
      obtain rfl : b = false := hcs ⟨b⟩ (List.mem_cons_self ..)
      exact congrArg _ (ih' E)

/-- C124 is false for the logger: no history of method calls, `EnableLog` and constructors with
`enable_log` changes it, whatever the flags; so from the start of the program on it stays off. -/
theorem C124_enableLog_fails (lib : ExprLib) (cs : List LogCall) (P : LogProg)
    (hcs : ∀ l, .setLogger l ∉ cs) : (LogCall.after lib cs P).logger = P.logger := by
  induction cs generalizing P with
  | nil => rfl
  | cons c cs ih =>
    refine (ih _ fun l hl => hcs l (List.mem_cons_of_mem _ hl)).trans ?_
    cases c with
    | setLogger l => exact absurd (List.mem_cons_self ..) (hcs l)
    | _ => rfl

omit [IterOrder] in
theorem runRequest_on {fL f : M ReqSt Bool} (ex : Rule) (E : Enforcer)
    (h : Swallows fL f { ev := E.evaluator, heap := E.heap, explain := ex }) :
    (runRequest ex fL E).1 = .ub .unbounded ∨
      runRequest ex fL E = runRequest ex f E ∧ ∀ ex', (runRequest ex f E).1 ≠ .ok (true, ex') := by
  unfold runRequest
  rcases h with h | ⟨h1, h2⟩
  · left
    simp only [h, Outcome.map]
  · right
    refine ⟨by simp only [h1], fun ex' => ?_⟩
    simp only
    cases hf : (f { ev := E.evaluator, heap := E.heap, explain := ex }).1 with
    | ok b =>
      simp only [Outcome.map, ne_eq, Outcome.ok.injEq, Prod.mk.injEq, not_and]
      rintro rfl
      exact absurd hf h2
    | throw e => simp [Outcome.map]
    | ub u => simp [Outcome.map]

/-- With a logger that is on and enforcement on, a request does not return, or it ends as without
logging and is not granted. -/
theorem C124_on (lib : ExprLib) (matcher : Str) (vals : List ReqVal) (ex : Rule) (E : Enforcer)
    (hE : E.enabled = true) :
    (enforceExL ⟨true⟩ lib matcher vals ex E).1 = .ub .unbounded ∨
      enforceExL ⟨true⟩ lib matcher vals ex E = enforceEx lib matcher vals ex E ∧
        ∀ ex', (enforceEx lib matcher vals ex E).1 ≠ .ok (true, ex') := by
  cases hr : E.model.find c!"r" c!"r" with
  | none =>
    right
    have h1 : enforceExL ⟨true⟩ lib matcher vals ex E = (.ub .nullDeref, E) := by
      simp only [enforceExL, M.bind_run, M.get, hr, M.ub]
    have h2 : enforceEx lib matcher vals ex E = (.ub .nullDeref, E) := by
      simp only [enforceEx, M.bind_run, M.get, hr, M.ub]
    rw [h1, h2]
    exact ⟨rfl, by simp⟩
  | some r =>
    by_cases hn : vals.length ≠ r.tokens.length
    · right
      have h1 : enforceExL ⟨true⟩ lib matcher vals ex E = (.ok (false, ex), E) := by
        simp only [enforceExL, M.bind_run, M.get, hr, if_pos hn]; rfl
      have h2 : enforceEx lib matcher vals ex E = (.ok (false, ex), E) := by
        simp only [enforceEx, M.bind_run, M.get, hr, if_pos hn]; rfl
      rw [h1, h2]
      exact ⟨rfl, by simp⟩
    · have h1 : enforceExL ⟨true⟩ lib matcher vals ex E = runRequest ex (do
          ReqSt.onEv (pushRequest r.tokens vals)
          mEnforceL ⟨true⟩ lib E.model true matcher) E := by
        simp only [enforceExL, M.bind_run, M.get, hr, if_neg hn, hE]
      have h2 : enforceEx lib matcher vals ex E = runRequest ex (do
          ReqSt.onEv (pushRequest r.tokens vals)
          mEnforce lib E.model true matcher) E := by
        simp only [enforceEx, M.bind_run, M.get, hr, if_neg hn, hE]
      rw [h1, h2]
      exact runRequest_on ex E (Swallows.bind fun _ s _ => mEnforceL_on lib E.model matcher s)

/-- C124 is false after `SetLogger` with a logger that is on: every request that would have been
granted does not return (the stack overflows), and no request is granted. -/
theorem C124_setLogger_fails (lib : ExprLib) (matcher : Str) (vals : List ReqVal) (ex : Rule)
    (P : LogProg) (hE : P.enforcer.enabled = true) (ex' : Rule) :
    ((Method.askEx matcher vals ex).run lib P.enforcer).1 = .ok (.explained true ex') →
    LogCall.answers lib [.setLogger ⟨true⟩, .call (.askEx matcher vals ex)] P =
      [.ok .done, .ub .unbounded] := by
  intro h
  have h0 : ∃ e, (enforceEx lib matcher vals ex P.enforcer).1 = .ok (true, e) := by
    obtain ⟨r, s, h1, h2⟩ := M.bind_ok_inv h
    obtain ⟨rb, re⟩ := r
    simp only [pure, M.pure, Outcome.ok.injEq, Answer.explained.injEq] at h2
    exact ⟨re, by rw [h1, h2.1]⟩
  obtain ⟨e, he⟩ := h0
  rcases C124_on lib matcher vals ex P.enforcer hE with hu | ⟨-, hne⟩
  · have : ((Method.askEx matcher vals ex).runL ⟨true⟩ lib P.enforcer).1 = .ub .unbounded := by
      cases hr : enforceExL ⟨true⟩ lib matcher vals ex P.enforcer with
      | mk o s =>
        rw [hr] at hu
        simp only at hu
        subst hu
        simp only [Method.runL, M.bind_run_ub hr]
    simp only [LogCall.answers, LogCall.run, this]
  · exact absurd he (hne e)

/-- With enforcement off nothing is logged: the logger does not matter. -/
theorem C124_disabled (l : Logger) (lib : ExprLib) (matcher : Str) (vals : List ReqVal) (ex : Rule)
    (E : Enforcer) (hE : E.enabled = false) :
    enforceExL l lib matcher vals ex E = enforceEx lib matcher vals ex E := by
  unfold enforceExL enforceEx
  simp only [M.bind_run, M.get]
  cases E.model.find c!"r" c!"r" <;> simp only [hE, mEnforceL_disabled]

/-- Non-vacuity of C124: the request of alice is granted, also after `EnableLog(true)`, which leaves
the logger off; after `SetLogger` the same request does not return; one with too few values does. -/
example : (let _ := insertionOrder
    let E := enforcer (aclModel (.vector [alice]))
    let ask := LogCall.call (.askEx [] (alice.map .str) [])
    let P := LogProg.mk E Logger.initial
    (LogCall.answers (stdLib noRx) [ask, .enableLog true, ask, .newLogged E true, ask,
        .setLogger ⟨true⟩, ask, .call (.ask [] []), .enableLog false, ask] P,
      (LogCall.after (stdLib noRx) [.enableLog true, ask] P).logger)) =
    ([.ok (.explained true alice), .ok .done, .ok (.explained true alice), .ok .done,
      .ok (.explained true alice), .ok .done, .ub .unbounded, .ok (.bool false), .ok .done,
      .ub .unbounded], ⟨false⟩) := by
  decide +kernel

end Casbin.LoggingProps
