import Verif.Growth

/-!
# The work of an evaluator

`ExprtkEvaluator` with a record of the texts it was given, of its calls of `parser.compile` and of
its calls of `expression.value()`. `Props/Effort` shows that the answers are those of the evaluator
without the record.
-/

namespace Casbin
namespace Custom
namespace Effort

/-- What the evaluator did: it was given a text by `Eval`, it compiled one, it evaluated the compiled
expression, with the result of that. -/
inductive Event
  | text (s : Str)
  | compiled (s : Str)
  | value (v : Outcome Val)

/-- An `ExprtkEvaluator` with the role managers, and the record. -/
abbrev Obj := LibObj × List Event

/-- Run a method that neither compiles nor evaluates. -/
def onLib {α : Type} (f : M LibObj α) : M Obj α := fun s => ((f s.1).1, (f s.1).2, s.2)

/-- `Eval` (casbin/model/evaluator.cpp 23–41): `parser.compile` (line 37) is called when the text is
not the one of the last call. -/
def eval (lib : ExprLib) (t : Str) : M Obj Bool := fun s =>
  ((onEv (Evaluator.eval lib t) s.1).1, (onEv (Evaluator.eval lib t) s.1).2,
    s.2 ++ .text t :: if s.1.1.exprStr ≠ t then [.compiled t] else [])

variable [IterOrder]

/-- `expression.value()`; `bool(expression)` calls it too (exprtk.hpp 21721–21724). -/
def value (lib : ExprLib) : M Obj Val := fun s =>
  ((exprValue lib s.1).1, (exprValue lib s.1).2, s.2 ++ [.value (exprValue lib s.1).1])

/-- `CheckType() == Type::Bool` (casbin/model/evaluator.cpp 87–96): `||` evaluates its right side when
the left one is false. -/
def isBool (lib : ExprLib) : M Obj Bool := do
  let s ← M.get
  if s.1.1.err then M.throw .parse
  else do
    let v ← value lib
    if v = .num 0 then pure true
    else do
      let v ← value lib
      pure (decide (v = .num 1))

/-- `GetBoolean` and `GetFloat` (casbin/model/evaluator.cpp 98–104). -/
def truth (lib : ExprLib) : M Obj Bool := do
  let v ← value lib
  pure v.truthy

/-- `ExprtkEvaluator` with the record. -/
def exprtk (lib : ExprLib) : EvalImpl Obj where
  eval := eval lib
  initialObject o := onLib ((Custom.exprtk lib).initialObject o)
  pushString t p v := onLib ((Custom.exprtk lib).pushString t p v)
  loadFunctions := onLib (Custom.exprtk lib).loadFunctions
  loadG rm name narg := onLib ((Custom.exprtk lib).loadG rm name narg)
  isBool := isBool lib
  getBoolean := truth lib
  getFloat := truth lib
  clean := onLib (Custom.exprtk lib).clean
  requestValues := onLib (Custom.exprtk lib).requestValues

end Effort
end Custom
end Casbin
