import Verif.ExprtkSpec

/-!
# Conditions

The matchers people write: comparisons of fields and texts and calls of functions, combined by `&&`
and `||`; and what such a condition says about the values of the fields.
-/

namespace Casbin

/-- A field of the request or of the rule, or a text. -/
inductive Operand
  | field (x : Str)
  | lit (s : Str)
  deriving DecidableEq, Repr

/-- Conditions; `group` is a condition in parentheses. -/
inductive Cond
  | eq (a b : Operand)
  | ne (a b : Operand)
  | test (f : Str) (a : Operand) (more : List Operand)
  | and (a b : Cond)
  | or (a b : Cond)
  | group (a : Cond)

/-- The value of an operand. -/
def Operand.val (field : Str → Str) : Operand → Str
  | .field x => field x
  | .lit s => s

/-- What a condition says, given the values of the fields and the functions. Both sides of a
connective are always evaluated, the left one first. -/
def Cond.meaning (field : Str → Str) (fn : Str → List Str → Outcome Bool) : Cond → Outcome Bool
  | .eq a b => .ok (decide (a.val field = b.val field))
  | .ne a b => .ok (decide (a.val field ≠ b.val field))
  | .test f a more => fn f (a.val field :: more.map (Operand.val field))
  | .and a b => do
    let x ← a.meaning field fn
    let y ← b.meaning field fn
    pure (x && y)
  | .or a b => do
    let x ← a.meaning field fn
    let y ← b.meaning field fn
    pure (x || y)
  | .group a => a.meaning field fn

/-- The fields of an operand. -/
def Operand.fields : Operand → List Str
  | .field x => [x]
  | .lit _ => []

/-- The fields of a condition. -/
def Cond.fields : Cond → List Str
  | .eq a b => a.fields ++ b.fields
  | .ne a b => a.fields ++ b.fields
  | .test _ a more => a.fields ++ more.flatMap Operand.fields
  | .and a b => a.fields ++ b.fields
  | .or a b => a.fields ++ b.fields
  | .group a => a.fields

/-- The functions of a condition with their numbers of arguments. -/
def Cond.calls : Cond → List (Str × Nat)
  | .eq _ _ => []
  | .ne _ _ => []
  | .test f _ more => [(f, more.length + 1)]
  | .and a b => a.calls ++ b.calls
  | .or a b => a.calls ++ b.calls
  | .group a => a.calls

open Exprtk

/-- An operand as a matcher. -/
def Operand.ast : Operand → Ast
  | .field x => .var x
  | .lit s => .str s

/-- A condition as a matcher. -/
def Cond.ast : Cond → Ast
  | .eq a b => .bin .eq a.ast b.ast
  | .ne a b => .bin .ne a.ast b.ast
  | .test f a more => .call f a.ast (more.map Operand.ast)
  | .and a b => .bin .and a.ast b.ast
  | .or a b => .bin .or a.ast b.ast
  | .group a => .group a.ast

/-- Names and texts are what they should be. -/
def Operand.WF : Operand → Prop
  | .field x => VarName x
  | .lit s => Literal s

/-- Names and texts are what they should be; the functions answer yes or no. -/
def Cond.WF : Cond → Prop
  | .eq a b => a.WF ∧ b.WF
  | .ne a b => a.WF ∧ b.WF
  | .test f a more => FunName f ∧ lower f ∉ [c!"keyget", c!"keyget2", c!"keyget3"] ∧ a.WF ∧
      ∀ x ∈ more, x.WF
  | .and a b => a.WF ∧ b.WF
  | .or a b => a.WF ∧ b.WF
  | .group a => a.WF

/-- `text` is the condition written with white space where it is needed and parentheses where they
are needed or where the condition has them, within the size limits of exprtk (400 nested calls of its parser, 10000 words). -/
structure Cond.WrittenAs (c : Cond) (text : Str) : Prop where
  wf : c.WF
  depth : c.ast.depth 0 ≤ 400
  size : (c.ast.words 0).length ≤ 10000
  laidOut : ∃ l z, LaysOut (c.ast.words 0) l z ∧ text = layout l z

end Casbin
