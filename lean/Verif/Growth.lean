import Verif.Custom

/-!
# What an evaluator keeps

`ExprtkEvaluator` with the vector `Functions` of the function objects it owns, which
`Evaluator.lean` leaves out, and a series of requests to one enforcer. `Props/Growth` shows that the
answers are those of the evaluator without the vector.
-/

namespace Casbin
namespace Custom
namespace Growth

open CallSt

/-- An `ExprtkEvaluator` with the role managers, and the objects in its member `Functions`
(include/casbin/model/evaluator.h 79). -/
abbrev Obj := LibObj × List FunRef

/-- Run a method that does not touch `Functions`. -/
def onLib {α : Type} (f : M LibObj α) : M Obj α := fun s => ((f s.1).1, (f s.1).2, s.2)

/-- `AddFunction` (casbin/model/evaluator.cpp 123–128): the object is kept in `Functions` whether or
not the symbol table takes it. The objects are new ones each time: `GetExprtkFunction` empties its
pool before it returns (include/casbin/model/exprtk_config.h 301). `Clean` with
`after_enforce = true`, which empties the vector (evaluator.cpp 116–120), is called by nothing in the
library. -/
def addFunction (name : Str) (f : FunRef) : M Obj Unit := do
  M.modify (fun s => (s.1, s.2 ++ [f]))
  onLib (onEv (Evaluator.addFunction name f))

/-- Several in order. -/
def addFunctions : List (Str × FunRef) → M Obj Unit
  | [] => pure ()
  | (n, f) :: fs => do
    addFunction n f
    addFunctions fs

/-- `ExprtkEvaluator` with `Functions`. -/
def exprtk [IterOrder] (lib : ExprLib) : EvalImpl Obj where
  eval s := onLib ((Custom.exprtk lib).eval s)
  initialObject o := onLib ((Custom.exprtk lib).initialObject o)
  pushString t p v := onLib ((Custom.exprtk lib).pushString t p v)
  loadFunctions := addFunctions Evaluator.builtins
  loadG rm name narg := addFunction name (.g rm narg)
  isBool := onLib (Custom.exprtk lib).isBool
  getBoolean := onLib (Custom.exprtk lib).getBoolean
  getFloat := onLib (Custom.exprtk lib).getFloat
  clean := onLib (Custom.exprtk lib).clean
  requestValues := onLib (Custom.exprtk lib).requestValues

/-- A request: the matcher of the call (empty for that of the model) and the values with the names of
their fields. -/
structure Ask where
  matcher : Str
  fields : List (Str × Str)

/-- The loop pushing the values of a request (casbin/enforcer.cpp 601–612). -/
def pushAll {σ : Type} (ev : EvalImpl σ) : List (Str × Str) → M σ Unit
  | [] => pure ()
  | (k, v) :: rest => do
    ev.pushString c!"r" k v
    pushAll ev rest

/-- `EnforceExWithMatcher` with the right number of values (casbin/enforcer.cpp 594–616); the
evaluator is the member `m_evalator`, made at the first request and kept. -/
def serve {σ : Type} [IterOrder] (ev : EvalImpl σ) (ef : EffImpl σ) (m : Model) (enabled : Bool)
    (q : Ask) : M (CallSt σ) Bool := do
  on (ev.initialObject c!"r")
  on (pushAll ev q.fields)
  mEnforce ev ef m enabled q.matcher

/-- A series of requests by a caller that goes on after exceptions: the answers and the state. -/
def serveAll {σ : Type} [IterOrder] (ev : EvalImpl σ) (ef : EffImpl σ) (m : Model)
    (enabled : Bool) : List Ask → CallSt σ → List (Outcome Bool) × CallSt σ
  | [], s => ([], s)
  | q :: qs, s =>
    let r := serve ev ef m enabled q s
    let rest := serveAll ev ef m enabled qs r.2
    (r.1 :: rest.1, rest.2)

end Growth
end Custom
end Casbin
