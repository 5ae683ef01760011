import Verif.RoleManager
import Verif.EvalSub

/-!
# Expressions and casbin's wrapper around the expression library

Models `casbin/model/evaluator.cpp` (`ExprtkEvaluator`) and
`include/casbin/model/exprtk_config.h` (the functions registered with exprtk).

Here exprtk's parser is an arbitrary function from texts to expression trees (`ExprLib.parse`), its
operators are arbitrary functions on values (`ExprLib.prim`). How exprtk reads a text is modelled in
`Exprtk.lean`. Expressions that assign to variables, loop or define local variables are
outside the model.
-/

namespace Casbin

/-- Values of expressions: a number (floats are modelled by integers plus NaN) or a string. -/
inductive Val
  | num (n : Int)
  | nan
  | str (s : Str)
  deriving DecidableEq, Repr

/-- `value() != 0`, as used by `bool(expression)` and by enforcer.cpp 152: NaN counts as true, and
an expression of string type has the numerical value NaN. -/
def Val.truthy : Val → Bool
  | .num n => decide (n ≠ 0)
  | _ => true

/-- The conversion `numerical_type(res)` of a boolean. -/
def Val.ofBool (b : Bool) : Val := .num (if b then 1 else 0)

@[simp] theorem Val.truthy_ofBool (b : Bool) : (Val.ofBool b).truthy = b := by
  cases b <;> simp [Val.ofBool, Val.truthy]

/-- Expression trees. `op` covers all operators; they are strict (exprtk's `and`/`or`, to which
evaluator.cpp 32–33 rewrites `&&`/`||`, evaluate both operands). -/
inductive Expr
  | str (s : Str)
  | num (n : Int)
  | var (x : Str)
  | call (f : Str) (args : List Expr)
  | op (o : Str) (args : List Expr)

/-- The nine functions registered by `LoadFunctions` (evaluator.cpp 67–77). -/
inductive Builtin
  | keyMatch | keyMatch2 | keyMatch3 | keyMatch4 | regexMatch | ipMatch | keyGet | keyGet2 | keyGet3
  deriving DecidableEq, Repr

/-- What a function name of the symbol table is bound to. A grouping function remembers the role
manager pointer it was created with (exprtk_config.h 44–49) and its number of parameters. -/
inductive FunRef
  | builtin (b : Builtin)
  | g (rm : Option Nat) (narg : Nat)
  deriving DecidableEq, Repr

/-- Number of parameters (the identifier `"SS..."`, exprtk_config.h 247; evaluator.cpp 68–76). exprtk
does not check calls against an empty sequence (exprtk.hpp 28219–28600), so a function whose role
definition has no `_` takes any arguments; here it takes none. `BuildRoleLinks` refuses such a
definition (assertion.cpp 59–60). -/
def FunRef.arity : FunRef → Nat
  | .builtin .keyGet2 => 3
  | .builtin .keyGet3 => 3
  | .builtin _ => 2
  | .g _ n => n

/-- The expression library: arbitrary parser, operators and builtin matching functions. `parse`
includes the textual replacements of evaluator.cpp 32–35. -/
structure ExprLib where
  parse : Str → Option Expr
  prim : Str → List Val → Val
  builtin : Builtin → List Str → Outcome Val

/-- Names are compared without regard to case (`imatch`, `ilesscompare`, exprtk.hpp 188–230). -/
def lower (s : Str) : Str := s.map Char.toLower

/-- All arguments as strings, if they are strings (the type checks of exprtk_config.h 66–74). -/
def allStrs : List Val → Option (List Str)
  | [] => some []
  | .str s :: vs => (allStrs vs).map (s :: ·)
  | _ :: _ => none

/-- Run a method of the role manager object number `p`. -/
def onHeap {α : Type} (p : Nat) (f : M RM α) : M (List RM) α := fun h =>
  match h[p]? with
  | none => (.ub .nullDeref, h)
  | some rm => ((f rm).1, h.set p (f rm).2)

/-- Call of a registered function: `ExprtkGFunction::operator()` (exprtk_config.h 58–94) or one of
the matching functions (119–146, 164–190, 209–237). -/
def callFun [IterOrder] (lib : ExprLib) : FunRef → List Val → M (List RM) Val
  | .builtin b, args =>
    if args.length ≠ (FunRef.builtin b).arity then pure (.num 0)
    else match allStrs args with
      | none => pure (.num 0)
      | some ss => M.lift (lib.builtin b ss)
  | .g rm _, args =>
    match allStrs args with
    | some [n1, n2] =>
      match rm with
      | none => pure (Val.ofBool (decide (n1 = n2)))
      | some p => do
        let b ← onHeap p (RM.hasLink n1 n2 [])
        pure (Val.ofBool b)
    | some [n1, n2, d] =>
      match rm with
      | none => pure (Val.ofBool (decide (n1 = n2)))
      | some p => do
        let b ← onHeap p (RM.hasLink n1 n2 [d])
        pure (Val.ofBool b)
    | _ => pure (.num 0)

mutual
/-- Evaluation of a compiled expression. A variable or function that is not bound cannot occur in
a compiled expression. The tables have the lower case of the names as keys. -/
def evalExpr [IterOrder] (lib : ExprLib) (vars : UMap Str Str) (funs : UMap Str FunRef) :
    Expr → M (List RM) Val
  | .str s => pure (.str s)
  | .num n => pure (.num n)
  | .var x =>
    match vars.get (lower x) with
    | some v => pure (.str v)
    | none => M.ub .nullDeref
  | .call f args => do
    let vs ← evalArgs lib vars funs args
    match funs.get (lower f) with
    | some fr => callFun lib fr vs
    | none => M.ub .nullDeref
  | .op o args => do
    let vs ← evalArgs lib vars funs args
    pure (lib.prim o vs)

/-- Evaluation of an argument list, left to right. -/
def evalArgs [IterOrder] (lib : ExprLib) (vars : UMap Str Str) (funs : UMap Str FunRef) :
    List Expr → M (List RM) (List Val)
  | [] => pure []
  | e :: es => do
    let v ← evalExpr lib vars funs e
    let vs ← evalArgs lib vars funs es
    pure (v :: vs)
end

mutual
/-- The name resolution part of compilation: every variable is in the symbol table, every
function is and gets the right number of arguments. -/
def resolves (vars : UMap Str Str) (funs : UMap Str FunRef) : Expr → Bool
  | .str _ => true
  | .num _ => true
  | .var x => vars.has (lower x)
  | .call f args =>
    (match funs.get (lower f) with
     | some fr => decide (args.length = fr.arity)
     | none => false) && resolvesAll vars funs args
  | .op _ args => resolvesAll vars funs args

def resolvesAll (vars : UMap Str Str) (funs : UMap Str FunRef) : List Expr → Bool
  | [] => true
  | e :: es => resolves vars funs e && resolvesAll vars funs es
end

/-- `parser.compile`: fails on the empty text, on a syntax error and on an unknown name. -/
def compile (lib : ExprLib) (vars : UMap Str Str) (funs : UMap Str FunRef) (s : Str) :
    Option Expr :=
  if s = [] then none
  else match lib.parse s with
    | none => none
    | some e => if resolves vars funs e then some e else none

/-- The state of an `ExprtkEvaluator`: symbol table (`vars`, `funs`), `expression_string_`, the
compiled expression (`none`: the null expression of a new object, whose value is NaN) and whether
`parser.error_count() != 0`. Variables are never removed (`Clean` is only called with
`after_enforce = false` and then does nothing), so looking a variable up by name is the same as
the reference held by the compiled expression. The table is a `std::map` ordered by `ilesscompare`
(exprtk.hpp 19962): its entries are found by the lower case of the name, which is the key here;
`names` are the names as they were written when they were entered. `EnableGet`: `Getting.lean`. -/
structure Evaluator where
  vars : UMap Str Str
  names : List Str
  funs : UMap Str FunRef
  exprStr : Str
  compiled : Option Expr
  err : Bool

namespace Evaluator

/-- A new object. -/
def new : Evaluator := { vars := [], names := [], funs := [], exprStr := [], compiled := none, err := false }

/-- exprtk's rule for symbol names (exprtk.hpp 21413–21437): a letter, then letters, digits, `_`,
and `.` except at the end. -/
def validSymbol : Str → Bool
  | [] => false
  | c :: s => c.isAlpha &&
      (s.dropLast.all (fun c => c.isAlphanum || c == '_' || c == '.')) &&
      (match s.getLast? with
       | none => true
       | some c => c.isAlphanum || c == '_')

/-- `AddIdentifier` (evaluator.cpp 158–164): an invalid name is not entered into the symbol table
and the null result of `get_stringvar` is dereferenced. -/
def addIdentifier (x v : Str) : M Evaluator Unit := fun ev =>
  if ev.vars.has (lower x) then (.ok (), { ev with vars := ev.vars.set (lower x) v })
  else if validSymbol x then
    (.ok (), { ev with vars := ev.vars.set (lower x) v, names := ev.names ++ [x] })
  else (.ub .nullDeref, ev)

/-- `PushObjectString` (evaluator.cpp 56–60). -/
def pushString (target prop v : Str) : M Evaluator Unit :=
  addIdentifier (target ++ c!"." ++ prop) v

/-- `AddFunction` (evaluator.cpp 123–128): a name already in the symbol table is not replaced. -/
def addFunction (name : Str) (f : FunRef) : M Evaluator Unit :=
  M.modify fun ev =>
    if ev.funs.has (lower name) then ev else { ev with funs := ev.funs.set (lower name) f }

/-- The names registered by `LoadFunctions` (evaluator.cpp 67–77). -/
def builtins : List (Str × FunRef) :=
  [(c!"keyMatch", .builtin .keyMatch), (c!"keyMatch2", .builtin .keyMatch2),
   (c!"keyMatch3", .builtin .keyMatch3), (c!"keyMatch4", .builtin .keyMatch4),
   (c!"regexMatch", .builtin .regexMatch), (c!"ipMatch", .builtin .ipMatch),
   (c!"keyGet", .builtin .keyGet), (c!"keyGet2", .builtin .keyGet2),
   (c!"keyGet3", .builtin .keyGet3)]

/-- Register a list of functions in order. -/
def addFunctions : List (Str × FunRef) → M Evaluator Unit
  | [] => pure ()
  | (n, f) :: fs => do
    addFunction n f
    addFunctions fs

/-- `LoadFunctions` (evaluator.cpp 67–77). -/
def loadFunctions : M Evaluator Unit := addFunctions builtins

/-- `Eval` (evaluator.cpp 23–41): compiles only when the text differs from the last one; after a
failed compilation the previously compiled expression stays. -/
def eval (lib : ExprLib) (s : Str) : M Evaluator Bool := fun ev =>
  if ev.exprStr ≠ s then
    match compile lib ev.vars ev.funs s with
    | some e => (.ok true, { ev with exprStr := s, compiled := some e, err := false })
    | none => (.ok false, { ev with exprStr := s, err := true })
  else (.ok (!ev.err), ev)

/-- A `std::string` made from `s.c_str()`: it ends before the first NUL character. -/
def cString (s : Str) : Str := s.takeWhile (fun c => c != '\x00')

/-- `requestValues` (evaluator.cpp 143–155): the variables whose name, as it was entered, starts with
`r`; the token is the name without its first two characters and the value is looked up under `r.` +
token (a missing one is a null dereference). The value goes through `c_str()`. -/
def requestValues (ev : Evaluator) : Outcome (UMap Str Str) :=
  (ev.names.filter (fun x => x.head? == some 'r')).foldlM
    (fun acc x =>
      match ev.vars.get (lower (c!"r." ++ x.drop 2)) with
      | some v => .ok (if acc.has (x.drop 2) then acc else acc.set (x.drop 2) (cString v))
      | none => .ub .nullDeref) []

end Evaluator
end Casbin
