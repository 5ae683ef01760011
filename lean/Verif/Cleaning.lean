import Verif.Custom

/-!
# `Clean` on an evaluator of the caller

`ExprtkEvaluator::Clean` with `after_enforce = true` (casbin/model/evaluator.cpp 111–121) is called by
nothing in the library; callers who keep an evaluator may call it. It empties the symbol table by
`symbol_table::clear` and destroys the variables and the functions. Two things stay behind: the compiled
expression, and, since `clear_functions` (exprtk.hpp 20513–20516) empties `function_store` only, the
entries of `generic_function_store` and `string_function_store`, where all functions of casbin are
(20835–20862). The entries point to destroyed objects, and `add_function` does not replace them
(`type_store::add`, 20133–20175).
-/

namespace Casbin

mutual
/-- The functions an expression calls, in lower case. -/
def Expr.calls : Expr → List Str
  | .str _ => []
  | .num _ => []
  | .var _ => []
  | .call f args => lower f :: Expr.callsAll args
  | .op _ args => Expr.callsAll args

def Expr.callsAll : List Expr → List Str
  | [] => []
  | e :: es => Expr.calls e ++ Expr.callsAll es
end

mutual
/-- Does an expression name a variable or a function? -/
def Expr.named : Expr → Bool
  | .str _ => false
  | .num _ => false
  | .var _ => true
  | .call _ _ => true
  | .op _ args => Expr.namedAny args

def Expr.namedAny : List Expr → Bool
  | [] => false
  | e :: es => Expr.named e || Expr.namedAny es
end

/-- An evaluator that may have been cleaned. `dead`: the entries of the function stores whose functions
were destroyed. `live`: whether the variables and functions of the compiled expression are there. -/
structure Kept where
  ev : Evaluator
  dead : List Str
  live : Bool

namespace Kept

/-- A new evaluator (evaluator.h 75–79). -/
def new : Kept := { ev := Evaluator.new, dead := [], live := true }

/-- `Clean` (evaluator.cpp 111–121). The constants `pi`, `epsilon`, `inf`, which it removes too, are left
out of the model. -/
def clean : M Kept Unit := M.modify fun k =>
  { ev := { k.ev with vars := [], names := [], exprStr := [] }
    dead := k.ev.funs.map Prod.fst
    live := false }

/-- Run a method of the evaluator that neither compiles nor evaluates. -/
def onEv {α : Type} (f : M Evaluator α) : M Kept α := fun k => ((f k.ev).1, { k with ev := (f k.ev).2 })

/-- Is the compiled expression a single variable? Its node belongs to the symbol table. -/
def lone : Option Expr → Bool
  | some (.var _) => true
  | _ => false

/-- Does the text call one of the functions? -/
def callsOne (lib : ExprLib) (s : Str) (fs : List Str) : Bool :=
  match lib.parse s with
  | some e => e.calls.any fun f => decide (f ∈ fs)
  | none => false

/-- `Eval` (evaluator.cpp 23–41). Compiling a call reads the function (`parse_generic_function_call`).
A new expression destroys the old one, which looks at its root (exprtk.hpp 21780–21794, 5852–5857).
A text that does not parse or resolve is taken as an ordinary failure unless it calls a destroyed
function anywhere. -/
def eval (lib : ExprLib) (s : Str) : M Kept Bool := fun k =>
  if k.ev.exprStr = s then onEv (Evaluator.eval lib s) k
  else if callsOne lib s k.dead then (.ub .freed, k)
  else match compile lib k.ev.vars k.ev.funs s with
    | some _ =>
      if !k.live && lone k.ev.compiled then (.ub .freed, k)
      else ((Evaluator.eval lib s k.ev).1, { k with ev := (Evaluator.eval lib s k.ev).2, live := true })
    | none => onEv (Evaluator.eval lib s) k

/-- The objects of a request: the evaluator and the role managers. -/
abbrev Objs := Kept × List RM

/-- Run a method of the evaluator. -/
def onKept {α : Type} (f : M Kept α) : M Objs α := fun s => ((f s.1).1, (f s.1).2, s.2)

/-- `expression.value()`: an expression that names anything uses destroyed nodes after `Clean`. -/
def value [IterOrder] (lib : ExprLib) : M Objs Val := fun s =>
  match s.1.ev.compiled with
  | none => (.ok .nan, s)
  | some e =>
    if !s.1.live && e.named then (.ub .freed, s)
    else ((evalExpr lib s.1.ev.vars s.1.ev.funs e s.2).1, s.1,
      (evalExpr lib s.1.ev.vars s.1.ev.funs e s.2).2)

/-- `ExprtkEvaluator` as an implementation of `IEvaluator`, as `Custom.exprtk`. -/
def impl [IterOrder] (lib : ExprLib) : EvalImpl Objs where
  eval s := onKept (eval lib s)
  initialObject _ := pure ()
  pushString t p v := onKept (onEv (Evaluator.pushString t p v))
  loadFunctions := onKept (onEv Evaluator.loadFunctions)
  loadG rm name narg := onKept (onEv (Evaluator.addFunction name (.g rm narg)))
  isBool := do
    let s ← M.get
    if s.1.ev.err then M.throw .parse
    else do
      let v ← value lib
      if v = .num 0 then pure true
      else do
        let v ← value lib
        pure (decide (v = .num 1))
  getBoolean := do
    let v ← value lib
    pure v.truthy
  getFloat := do
    let v ← value lib
    pure v.truthy
  clean := pure ()
  requestValues := fun s => (s.1.ev.requestValues, s)

/-- `PushObjectString("r", x, v)` for each pair. -/
def pushAll : List (Str × Str) → M Evaluator Unit
  | [] => pure ()
  | (x, v) :: rest => do
    Evaluator.pushString c!"r" x v
    pushAll rest

/-- The caller sets the values of the request and asks an enforcer with this evaluator (enforcer.cpp
537–541, 582–584). -/
def request [IterOrder] (lib : ExprLib) (values : List (Str × Str)) (m : Model) (enabled : Bool)
    (matcher : Str) (explain : Rule) : M Objs (Bool × Rule) := fun s =>
  let r := (do
    CallSt.on (onKept (onEv (pushAll values)))
    Custom.mEnforce (impl lib) Custom.default m enabled matcher) { obj := s, explain := explain }
  (r.1.map fun b => (b, r.2.explain), r.2.obj)

/-- The same with an evaluator that was never cleaned, on the functions of `Enforce.lean`. -/
def libRequest [IterOrder] (lib : ExprLib) (values : List (Str × Str)) (m : Model) (enabled : Bool)
    (matcher : Str) (explain : Rule) : M Custom.LibObj (Bool × Rule) := fun s =>
  let r := (do
    ReqSt.onEv (pushAll values)
    Casbin.mEnforce lib m enabled matcher) { ev := s.1, heap := s.2, explain := explain }
  (r.1.map fun b => (b, r.2.explain), r.2.ev, r.2.heap)

end Kept
end Casbin
