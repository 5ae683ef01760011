import Verif.Direct

/-!
# The string an evaluator gets

`EnableGet` gives the evaluator a variable of its own, to which an expression such as
`key_get_result := keyGet(key1, key2);` assigns; `GetString` answers with its value
(tests/built_in_functions_test.cpp 48–60, 118–131, 208–219).

The reader of texts (`ExprLib.parse`) gives the tree `:=` over a variable and an expression for an
assignment. Assignments inside of other expressions, and several in a text, are outside the model.
exprtk refuses to assign a number to a string (exprtk.hpp 31892–31910), so that for the reader there is no
such tree.
-/

namespace Casbin
namespace Getting

open Custom

/-- The state of an evaluator with what `EnableGet` works on: `own` are the names (in lower case) of
`glbl_variable_symbol_table`, all of them names of `key_get_result`, the value of which is `result`.
`bound` are the names that the compiled expression takes for it: those of `own` that were not identifiers
as well when it was compiled. -/
structure Obj where
  ev : Evaluator
  heap : List RM
  own : List Str
  result : Str
  bound : List Str

/-- A new object (evaluator.h 63–78). -/
def Obj.new (h : List RM) : Obj := { ev := Evaluator.new, heap := h, own := [], result := [], bound := [] }

/-- The words exprtk does not take for a name: `add_stringvar` (exprtk.hpp 20798–20808) asks
`symbol_exists`, which knows the reserved symbols (21210). The second table has no constants
(evaluator.h 77). -/
def free (s : Obj) (n : Str) : Bool :=
  Evaluator.validSymbol n && !decide (lower n ∈ s.own) && !decide (lower n ∈ Exprtk.reservedSymbols)

/-- `EnableGet` (evaluator.cpp 47–54); the answer of `add_stringvar` is not looked at. -/
def enableGet (x : Str) : M Obj Unit := M.modify fun s =>
  let n := if x = [] then c!"key_get_result" else x
  if free s n then { s with own := s.own ++ [lower n] } else s

/-- The constants of the first table (exprtk.hpp 21071–21076, evaluator.h 77). -/
def constants : List Str := [c!"pi", c!"epsilon", c!"inf"]

/-- The names of `own` that are neither identifiers nor constants: those are looked for first
(evaluator.cpp 24–27, exprtk.hpp 22975–22999, 30642–30674). -/
def visible (s : Obj) : List Str := s.own.filter fun n => !s.ev.vars.has n && !decide (n ∈ constants)

/-- The two symbol tables together. -/
def tables (s : Obj) (names : List Str) : UMap Str Str := names.map (fun n => (n, s.result)) ++ s.ev.vars

/-- `Eval` (evaluator.cpp 23–41), with both tables registered. -/
def eval (lib : ExprLib) (t : Str) : M Obj Bool := fun s =>
  let r := Evaluator.eval lib t { s.ev with vars := tables s (visible s) }
  (r.1, { s with
    ev := { r.2 with vars := s.ev.vars }
    bound := if s.ev.exprStr ≠ t ∧ r.2.err = false then visible s else s.bound })

/-- The text of a string: a function that gives none leaves it empty (exprtk_config.h 163, 204). -/
def text : Val → Str
  | .str w => w
  | _ => []

/-- `AssignmentProcess::execute` of `assignment_string_node` (exprtk.hpp 11033–11049): the variable is
`key_get_result` or an identifier. -/
def store (x w : Str) (s : Obj) : Obj :=
  if lower x ∈ s.bound then { s with result := w }
  else { s with ev := { s.ev with vars := s.ev.vars.set (lower x) w } }

/-- Is an expression an assignment? -/
def assignment : Expr → Option (Str × Expr)
  | .op o [.var x, e] => if o = c!":=" then some (x, e) else none
  | _ => none

variable [IterOrder]

/-- `expression.value()`; the value of an assignment is NaN (exprtk.hpp 11051). -/
def exprValue (lib : ExprLib) : M Obj Val := fun s =>
  match s.ev.compiled with
  | none => (.ok .nan, s)
  | some e =>
    match assignment e with
    | none =>
      let r := evalExpr lib (tables s s.bound) s.ev.funs e s.heap
      (r.1, { s with heap := r.2 })
    | some (x, e) =>
      match evalExpr lib (tables s s.bound) s.ev.funs e s.heap with
      | (.ok v, h) => (.ok .nan, store x (text v) { s with heap := h })
      | (.throw e, h) => (.throw e, { s with heap := h })
      | (.ub u, h) => (.ub u, { s with heap := h })

/-- `GetString` (evaluator.cpp 106–109). -/
def getString (lib : ExprLib) : M Obj Str := do
  let _ ← exprValue lib
  let s ← M.get
  pure s.result

/-- `GetBoolean` (evaluator.cpp 98–100). -/
def getBoolean (lib : ExprLib) : M Obj Bool := do
  let v ← exprValue lib
  pure v.truthy

/-- Run a method of the evaluator that does not look at the variable of its own. -/
def onEv {α : Type} (f : M Evaluator α) : M Obj α := fun s => ((f s.ev).1, { s with ev := (f s.ev).2 })

/-- What a program does with the evaluator. -/
inductive Call
  | ident (x v : Str)
  | func (name : Str) (f : FunRef)
  | load
  | enable (x : Str)
  | eval (t : Str)
  | value
  | string

/-- One call. As in `Direct.lean`, no name is that of a variable and of a function. -/
def Call.run (lib : ExprLib) : Call → M Obj Unit
  | .ident x v => onEv (Direct.addIdentifier x v)
  | .func name f => onEv (Direct.addFunction name f)
  | .load => onEv (Direct.addFunctions Evaluator.builtins)
  | .enable x => enableGet x
  | .eval t => do
    let _ ← Getting.eval lib t
    pure ()
  | .value => do
    let _ ← getBoolean lib
    pure ()
  | .string => do
    let _ ← getString lib
    pure ()

/-- Calls one after another. -/
def runAll (lib : ExprLib) : List Call → M Obj Unit
  | [] => pure ()
  | c :: cs => do
    c.run lib
    runAll lib cs

end Getting
end Casbin
