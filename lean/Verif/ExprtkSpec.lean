import Verif.Exprtk

/-!
# What a matcher text means

An independent description of matcher texts: abstract expressions, the usual ranking of operators,
how an expression is written as a sequence of tokens with no more parentheses than needed, and how a
sequence of tokens is laid out as text.
-/

namespace Casbin
namespace Exprtk

/-- Abstract matchers; `group` is an expression the writer has put into parentheses. -/
inductive Ast
  | str (s : Str)
  | num (digits : List (Fin 10))
  | var (x : Str)
  | call (f : Str) (a : Ast) (more : List Ast)
  | bin (o : BinOp) (a b : Ast)
  | group (e : Ast)

/-- The value of a sequence of decimal digits. -/
def decimalValue (ds : List (Fin 10)) : Nat := ds.foldl (fun n d => 10 * n + d.val) 0

mutual
/-- The tree of an abstract matcher. -/
def Ast.tree : Ast → Expr
  | .str s => .str s
  | .num ds => .num (decimalValue ds)
  | .var x => .var x
  | .call f a more => .call f (a.tree :: trees more)
  | .bin o a b => .op o.name [a.tree, b.tree]
  | .group e => e.tree
def trees : List Ast → List Expr
  | [] => []
  | e :: es => e.tree :: trees es
end

/-- How tightly operators bind: disjunctions, conjunctions, membership, comparisons, sums, products,
powers. -/
def rank : BinOp → Nat
  | .or | .nor | .xor | .xnor => 1
  | .and | .nand => 2
  | .in_ | .like | .ilike => 3
  | .lt | .lte | .eq | .ne | .gte | .gt => 4
  | .add | .sub => 5
  | .mul | .div | .mod => 6
  | .pow => 7

/-- The operators that group to the right. -/
def groupsRight : BinOp → Bool
  | .in_ | .like | .ilike | .pow => true
  | _ => false

/-- The rank the left operand needs to be written without parentheses. -/
def leftRank (o : BinOp) : Nat := if groupsRight o then rank o + 1 else rank o
/-- The rank the right operand needs to be written without parentheses. -/
def rightRank (o : BinOp) : Nat := if groupsRight o then rank o else rank o + 1

/-- The token of a sequence of digits. -/
def numTok (ds : List (Fin 10)) : Tok := .num (decimalValue ds)

/-- Words of a written matcher: tokens, with numbers as digits. -/
inductive Word
  | sym (s : Str)
  | digits (ds : List (Fin 10))
  | str (s : Str)
  | op (o : BinOp)
  | lpar | rpar | comma
  deriving DecidableEq

mutual
/-- An expression written as words in a place where rank `p` is needed: parentheses only where the
operator binds less tightly. -/
def Ast.words (p : Nat) : Ast → List Word
  | .str s => [.str s]
  | .num ds => [.digits ds]
  | .var x => [.sym x]
  | .call f a more => .sym f :: .lpar :: (a.words 0 ++ wordsMore more ++ [.rpar])
  | .bin o a b =>
    if rank o < p then
      .lpar :: (a.words (leftRank o) ++ .op o :: b.words (rightRank o)) ++ [.rpar]
    else a.words (leftRank o) ++ .op o :: b.words (rightRank o)
  | .group e => .lpar :: e.words 0 ++ [.rpar]
/-- Further arguments, each after a comma. -/
def wordsMore : List Ast → List Word
  | [] => []
  | e :: es => .comma :: (e.words 0 ++ wordsMore es)
end

/-! ## Layout -/

/-- How an operator is written in a matcher of casbin. -/
def opText : BinOp → Str
  | .and => c!"&&"
  | .or => c!"||"
  | o => o.name

/-- How a word is written. -/
def Word.text : Word → Str
  | .sym s => s
  | .digits ds => ds.map (fun d => Char.ofNat (48 + d.val))
  | .str s => '"' :: s ++ c!"\""
  | .op o => opText o
  | .lpar => c!"("
  | .rpar => c!")"
  | .comma => c!","

/-- The operators that exprtk reads as words. -/
def wordOps : List BinOp := [.and, .nand, .or, .nor, .xor, .xnor, .in_, .like, .ilike]

/-- Words made of letters and digits for exprtk: `&&` and `||` are among them. -/
def Word.lettered : Word → Bool
  | .sym _ => true
  | .digits _ => true
  | .op o => decide (o ∈ wordOps)
  | _ => false

/-- A text: words, each with the white space before it, and the white space at the end. -/
def layout : List (Str × Word) → Str → Str
  | [], z => z
  | (b, w) :: ws, z => b ++ w.text ++ layout ws z

/-- White space. -/
def Blank (s : Str) : Prop := ∀ c ∈ s, c = ' ' ∨ c = '\t' ∨ c = '\n' ∨ c = '\r'

/-- Is there white space wherever two neighbouring words are both lettered? -/
def Spaced : List (Str × Word) → Prop
  | [] => True
  | [_] => True
  | (_, v) :: (b, w) :: ws => (v.lettered ∧ w.lettered → b ≠ []) ∧ Spaced ((b, w) :: ws)

/-- `ws` written with arbitrary white space, at least one where it is needed. -/
structure LaysOut (ws : List Word) (l : List (Str × Word)) (z : Str) : Prop where
  words : l.map Prod.snd = ws
  blank : ∀ b ∈ l.map Prod.fst, Blank b
  last : Blank z
  spaced : Spaced l

/-! ## Well-formed matchers -/

/-- Name of a variable of casbin: `r.` or `p.` … and a name; no two dots in a row. -/
structure VarName (x : Str) : Prop where
  valid : Evaluator.validSymbol x = true
  dot : '.' ∈ x
  noDots : ¬ c!".." <:+: x

/-- Name of a function: letters, digits and `_`, not one of exprtk's own names in any case. -/
structure FunName (f : Str) : Prop where
  valid : Evaluator.validSymbol f = true
  noDot : '.' ∉ f
  free : f.map Char.toLower ∉ reservedSymbols

/-- Text of a string literal: printable ASCII without quotes and backslash, and with neither `&&` nor
`||` inside. -/
structure Literal (s : Str) : Prop where
  chars : ∀ c ∈ s, ' ' ≤ c ∧ c ≤ '~' ∧ c ≠ '"' ∧ c ≠ '\'' ∧ c ≠ '\\'
  noAnd : ¬ c!"&&" <:+: s
  noOr : ¬ c!"||" <:+: s

mutual
/-- Names, literals and numbers are what they should be. -/
def Ast.WF : Ast → Prop
  | .str s => Literal s
  | .num ds => ds ≠ [] ∧ decimalValue ds < 2 ^ 24
  | .var x => VarName x
  | .call f a more => FunName f ∧ a.WF ∧ allWF more
  | .bin _ a b => a.WF ∧ b.WF
  | .group e => e.WF
def allWF : List Ast → Prop
  | [] => True
  | e :: es => e.WF ∧ allWF es
end

/-- Operators that compare. -/
def comparisons : List BinOp := [.lt, .lte, .eq, .ne, .gte, .gt]
/-- Operators that test membership. -/
def memberships : List BinOp := [.in_, .like, .ilike]

mutual
/-- Typing: strings may be compared, tested and appended; everything else is numeric. The arguments
of functions are strings. -/
inductive Typed : Ast → Ty → Prop
  | str (s) : Typed (.str s) .str
  | num (ds) : Typed (.num ds) .num
  | var (x) : Typed (.var x) .str
  | call {f a more} : Typed a .str → TypedAll more →
      Typed (.call f a more) (if lower f ∈ [c!"keyget", c!"keyget2", c!"keyget3"] then .str else .num)
  | cmp {o a b} : o ∈ comparisons ++ memberships → Typed a .str → Typed b .str →
      Typed (.bin o a b) .num
  | append {a b} : Typed a .str → Typed b .str → Typed (.bin .add a b) .str
  | num2 {o a b} : o ∉ memberships → Typed a .num → Typed b .num → Typed (.bin o a b) .num
  | group {e t} : Typed e t → Typed (.group e) t
inductive TypedAll : List Ast → Prop
  | nil : TypedAll []
  | cons {e es} : Typed e .str → TypedAll es → TypedAll (e :: es)
end

mutual
/-- How many nested calls of the parser reading `Ast.words p` takes: two for a leaf, two more inside
parentheses or arguments, one more for a right operand. -/
def Ast.depth (p : Nat) : Ast → Nat
  | .str _ => 2
  | .num _ => 2
  | .var _ => 2
  | .call _ a more => 2 + max (a.depth 0) (depthMore more)
  | .bin o a b =>
    (if rank o < p then 2 else 0) + max (a.depth (leftRank o)) (1 + b.depth (rightRank o))
  | .group e => 2 + e.depth 0
def depthMore : List Ast → Nat
  | [] => 0
  | e :: es => max (e.depth 0) (depthMore es)
end

end Exprtk
end Casbin
