import Verif.Threads

/-!
# Bodies of the calls of the synchronised enforcer

How the text of a method is cut into steps, for the executions with several threads.
-/

namespace Casbin
namespace Threads

variable [IterOrder]

/-- The result of a call that has returned; a call with undefined behaviour (here: taking the lock
twice) does not return. -/
def returned (r : Outcome Ret) : Option (Outcome Ret) :=
  match r with
  | .ub _ => none
  | o => some o

/-- The body of any call as one step. -/
def whole (lib : ExprLib) (c : Call) : Op Enforcer (Outcome Ret) where
  kind := lockOf c
  Loc := Option (Outcome Ret)
  init := none
  step l E := match l with
    | none => (some (SyncedEnforcer.run lib c ⟨E, none, none⟩).1,
        (SyncedEnforcer.run lib c ⟨E, none, none⟩).2.base)
    | some r => (some r, E)
  out l := l.bind returned

/-- Where a request stands. -/
inductive Stage
  | start
  | pushed
  | done (r : Outcome Ret)

/-- The inherited `EnforceWithMatcher` for a list or a vector, cut in two: first the values of the
request are written to the evaluator, which is a member of the enforcer (enforcer.cpp 586–612,
619–647), then `m_enforce` evaluates the matcher with that evaluator (614, 649). -/
def enforceInTwo (lib : ExprLib) (matcher : Str) (vals : List ReqVal) :
    Op Enforcer (Outcome Ret) where
  kind := lockOf (.enforceWithMatcher matcher vals)
  Loc := Stage
  init := .start
  step l E := match l with
    | .start =>
      match E.model.find c!"r" c!"r" with
      | none => (.done (.ub .nullDeref), E)
      | some r =>
        if vals.length ≠ r.tokens.length then (.done (.ok (.bool false)), E)
        else
          let x := Enforcer.runRequest [] (do
            ReqSt.onEv (pushRequest r.tokens vals)
            pure false) E
          match x.1 with
          | .ok _ => (.pushed, x.2)
          | .throw e => (.done (.throw e), x.2)
          | .ub u => (.done (.ub u), x.2)
    | .pushed =>
      let x := Enforcer.runRequest [] (mEnforce lib E.model E.enabled matcher) E
      (.done (x.1.map fun b => .bool b.1), x.2)
    | .done r => (.done r, E)
  out
    | .done r => returned r
    | _ => none

end Threads
end Casbin
