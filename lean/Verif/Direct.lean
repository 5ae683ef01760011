import Verif.Custom
import Verif.Exprtk
import Verif.DecisionLemmas

/-!
# The evaluator used directly

Programs may use an `ExprtkEvaluator` without an enforcer, as tests/built_in_functions_test.cpp does: enter
identifiers and functions, give it a text, ask for the value. In requests all identifiers contain a dot,
so the words and constants of exprtk play no part in `Evaluator.lean`; here they do.
-/

namespace Casbin
namespace Direct

open Custom

/-- The names exprtk has for itself: its words, and the constants of `add_constants` (exprtk.hpp 21071–21076,
evaluator.h 76). Case does not matter (20387–20390). -/
def taken : List Str := Exprtk.reservedSymbols ++ [c!"pi", c!"epsilon", c!"inf"]

/-- `AddIdentifier` (evaluator.cpp 158–164): for a word of exprtk `symbol_exists` answers yes (exprtk.hpp
21191–21214), nothing is entered, and the null result of `get_stringvar` is dereferenced. -/
def addIdentifier (x v : Str) : M Evaluator Unit := fun ev =>
  if !ev.vars.has (lower x) && decide (lower x ∈ taken) then (.ub .nullDeref, ev)
  else Evaluator.addIdentifier x v ev

/-- May `add_function` take a function of this name (`valid_symbol`, `symbol_exists`; exprtk.hpp
20835–20844)? -/
def accepts (ev : Evaluator) (name : Str) : Bool :=
  Evaluator.validSymbol name && !decide (lower name ∈ taken) && !ev.vars.has (lower name)

/-- `AddFunction` (evaluator.cpp 123–128); the answer of `add_function` is not looked at. -/
def addFunction (name : Str) (f : FunRef) : M Evaluator Unit := fun ev =>
  if accepts ev name then Evaluator.addFunction name f ev else (.ok (), ev)

/-- Register a list of functions in order. -/
def addFunctions : List (Str × FunRef) → M Evaluator Unit
  | [] => pure ()
  | (n, f) :: fs => do
    addFunction n f
    addFunctions fs

/-- What a program does with the evaluator: enter an identifier or set its value, enter a function
(`AddFunction`, `LoadGFunction`), `LoadFunctions`, `Eval`, or ask for the value. -/
inductive Use
  | ident (x v : Str)
  | func (name : Str) (f : FunRef)
  | load
  | eval (s : Str)
  | value

variable [IterOrder]

/-- One call. A name that is both an identifier and a function, which the parser would take for the
identifier, is outside the model of `compile`. -/
def Use.run (lib : ExprLib) : Use → M LibObj Unit
  | .ident x v => onEv (addIdentifier x v)
  | .func name f => onEv (addFunction name f)
  | .load => onEv (addFunctions Evaluator.builtins)
  | .eval s => do
    let _ ← (exprtk lib).eval s
    pure ()
  | .value => do
    let _ ← (exprtk lib).getBoolean
    pure ()

/-- Calls one after another. -/
def runAll (lib : ExprLib) : List Use → M LibObj Unit
  | [] => pure ()
  | u :: us => do
    u.run lib
    runAll lib us

end Direct
end Casbin
