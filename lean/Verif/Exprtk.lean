import Verif.Evaluator

/-!
# How exprtk reads a matcher text

Models the part of `include/casbin/exprtk/exprtk.hpp` that turns the text of a matcher into an
expression tree: the lexer (2403–3099), the token passes run before parsing (24600–24700) and the
precedence parser (24904–25342, 31099–31300), together with the textual replacements casbin makes
before (`casbin/model/evaluator.cpp` 32–36).

The library is large; texts using other features (assignments, brackets `[]`/`{}`, `?:`, comments,
escapes in strings, fractions, unary signs, control structures, exprtk's own functions) are answered
with `outside`: the model says nothing about them. `reject` is an error reported by exprtk, `ok` a
tree.
-/

namespace Casbin
namespace Exprtk

/-- Result of reading a text: a value, a reported error, or a text outside the modelled part. -/
inductive Read (α : Type) where
  | ok (a : α)
  | reject
  | outside
  deriving DecidableEq, Repr

namespace Read
def bind {α β : Type} : Read α → (α → Read β) → Read β
  | .ok a, f => f a
  | .reject, _ => .reject
  | .outside, _ => .outside
instance : Monad Read where
  pure := .ok
  bind := Read.bind
@[simp] theorem ok_bind {α β : Type} (a : α) (f : α → Read β) : (Read.ok a >>= f) = f a := rfl
@[simp] theorem reject_bind {α β : Type} (f : α → Read β) : (Read.reject >>= f) = .reject := rfl
@[simp] theorem outside_bind {α β : Type} (f : α → Read β) : (Read.outside >>= f) = .outside := rfl
@[simp] theorem pure_eq {α : Type} (a : α) : (pure a : Read α) = .ok a := rfl
end Read

/-! ## The textual replacements of casbin -/

/-- `std::regex_replace(s, std::regex("&&"), "and")` and `std::regex("\\|{2}")`, `"or"`
(evaluator.cpp 32–33): every occurrence of the doubled character `c`, from the left, becomes `w`. -/
def replaceDouble (c : Char) (w : Str) : Str → Str
  | [] => []
  | [a] => [a]
  | a :: b :: s =>
    if a = c ∧ b = c then w ++ replaceDouble c w s else a :: replaceDouble c w (b :: s)

/-- The text given to exprtk (evaluator.cpp 32–35): `&&` becomes `and`, `||` becomes `or`, `"`
becomes `'`. -/
def prep (s : Str) : Str :=
  (replaceDouble '|' c!"or" (replaceDouble '&' c!"and" s)).map (fun c => if c = '"' then '\'' else c)

/-! ## Operators and tokens -/

/-- The binary operators of `parse_expression` (exprtk.hpp 25084–25195) except assignments, swap
and the short-circuit forms `&`, `|`. -/
inductive BinOp
  | lt | lte | eq | ne | gte | gt | add | sub | div | mul | mod | pow
  | and | nand | or | nor | xor | xnor | in_ | like | ilike
  deriving DecidableEq, Repr

/-- The level up to which an operator is taken by the loop: first component of `current_state.set`
(exprtk.hpp 25091–25192). -/
def BinOp.left : BinOp → Nat
  | .lt | .lte | .eq | .ne | .gte | .gt => 5
  | .add | .sub => 7
  | .div | .mul | .mod => 10
  | .pow => 12
  | .and | .nand => 3
  | .or | .nor | .xor | .xnor => 1
  | .in_ | .like | .ilike => 4

/-- The level at which the right operand is read: second component of `current_state.set`
(exprtk.hpp 25091–25192). -/
def BinOp.right : BinOp → Nat
  | .lt | .lte | .eq | .ne | .gte | .gt => 6
  | .add | .sub => 8
  | .div | .mul | .mod => 11
  | .pow => 12
  | .and | .nand => 4
  | .or | .nor | .xor | .xnor => 2
  | .in_ | .like | .ilike => 4

/-- The name of an operator (exprtk.hpp 31630–31665), used in the trees. -/
def BinOp.name : BinOp → Str
  | .lt => c!"<" | .lte => c!"<=" | .eq => c!"==" | .ne => c!"!=" | .gte => c!">=" | .gt => c!">"
  | .add => c!"+" | .sub => c!"-" | .div => c!"/" | .mul => c!"*" | .mod => c!"%" | .pow => c!"^"
  | .and => c!"and" | .nand => c!"nand" | .or => c!"or" | .nor => c!"nor" | .xor => c!"xor"
  | .xnor => c!"xnor" | .in_ => c!"in" | .like => c!"like" | .ilike => c!"ilike"

/-- Tokens (exprtk.hpp 2170–2260). `bang` is a lone `!`. -/
inductive Tok
  | sym (s : Str)
  | num (n : Nat)
  | str (s : Str)
  | op (o : BinOp)
  | lpar | rpar | comma | bang
  deriving DecidableEq, Repr

/-! ## The lexer -/

/-- `is_whitespace` (exprtk.hpp 103–109). -/
def isBlank (c : Char) : Bool :=
  c == ' ' || c == '\n' || c == '\r' || c == '\t' || c == '\x08' || c == '\x0b' || c == '\x0c'

/-- `is_valid_string_char` (exprtk.hpp 170–174): printable in the C locale, or white space. -/
def isStringChar (c : Char) : Bool := (decide (' ' ≤ c) && decide (c ≤ '~')) || isBlank c

/-- A character inside a symbol: letter, digit or `_`. -/
def isSymChar (c : Char) : Bool := c.isAlphanum || c == '_'

/-- May a `.` be part of a symbol when this text follows it (exprtk.hpp 2811–2822)? -/
def dotOk : Str → Bool
  | [] => true
  | d :: _ => isSymChar d

/-- `scan_symbol` (exprtk.hpp 2801–2831): the symbol and the rest. -/
def symSpan : Str → Str × Str
  | [] => ([], [])
  | c :: cs =>
    if isSymChar c || (c == '.' && dotOk cs) then (c :: (symSpan cs).1, (symSpan cs).2)
    else ([], c :: cs)

/-- The digits of `scan_number` (exprtk.hpp 2833–2942) and the rest. -/
def digitSpan : Str → Str × Str
  | [] => ([], [])
  | c :: cs =>
    if c.isDigit then (c :: (digitSpan cs).1, (digitSpan cs).2) else ([], c :: cs)

/-- The value of a digit string (`string_to_real`). -/
def digitsVal (s : Str) : Nat := s.foldl (fun n c => 10 * n + (c.toNat - 48)) 0

/-- `scan_number` (exprtk.hpp 2833–2942), integers only: a fraction or an exponent is outside, and
so is a number that a `float` may not represent exactly. -/
def scanNumber (s : Str) : Read (Nat × Str) :=
  match (digitSpan s).2 with
  | '.' :: _ => .outside
  | 'e' :: _ => .outside
  | 'E' :: _ => .outside
  | rest => if digitsVal (digitSpan s).1 < 2 ^ 24 then .ok (digitsVal (digitSpan s).1, rest)
            else .outside

/-- `scan_string` (exprtk.hpp 2982–3081) after the opening quote: up to the next `'`; an invalid
character or the end of the text is an error; escapes are outside. -/
def scanString : Str → Read (Str × Str)
  | [] => .reject
  | c :: cs =>
    if !isStringChar c then .reject
    else if c = '\\' then .outside
    else if c = '\'' then .ok ([], cs)
    else (scanString cs).bind fun r => .ok (c :: r.1, r.2)

/-- `scan_operator` (exprtk.hpp 2736–2799) and the comment test (2560–2577, 2681): the token and the
rest. Assignments, shifts, swap, comments, brackets other than `(`/`)`, `:`, `?`, `;`, `&`, `|`, `.`,
`$` and `~` are outside; any other character is an error token (2727–2733). -/
def scanOperator : Str → Read (Tok × Str)
  | '<' :: '=' :: '>' :: _ => .outside
  | '<' :: '=' :: s => .ok (.op .lte, s)
  | '>' :: '=' :: s => .ok (.op .gte, s)
  | '<' :: '>' :: s => .ok (.op .ne, s)
  | '!' :: '=' :: s => .ok (.op .ne, s)
  | '=' :: '=' :: s => .ok (.op .eq, s)
  | '<' :: '<' :: _ => .outside
  | '>' :: '>' :: _ => .outside
  | '+' :: '=' :: _ => .outside
  | '-' :: '=' :: _ => .outside
  | '*' :: '=' :: _ => .outside
  | '/' :: '=' :: _ => .outside
  | '%' :: '=' :: _ => .outside
  | '/' :: '/' :: _ => .outside
  | '/' :: '*' :: _ => .outside
  | '<' :: s => .ok (.op .lt, s)
  | '>' :: s => .ok (.op .gt, s)
  | '=' :: s => .ok (.op .eq, s)
  | '+' :: s => .ok (.op .add, s)
  | '-' :: s => .ok (.op .sub, s)
  | '*' :: s => .ok (.op .mul, s)
  | '/' :: s => .ok (.op .div, s)
  | '%' :: s => .ok (.op .mod, s)
  | '^' :: s => .ok (.op .pow, s)
  | '!' :: s => .ok (.bang, s)
  | '(' :: s => .ok (.lpar, s)
  | ')' :: s => .ok (.rpar, s)
  | ',' :: s => .ok (.comma, s)
  | c :: _ => if c ∈ c!"[]{}:?;&|.$~#" then .outside else .reject
  | [] => .reject

/-- `scan_token` (exprtk.hpp 2673–2734) and the loop of `process` (2430–2449). `n` bounds the number
of tokens; it starts at the length of the text and never runs out. -/
def lexN : Nat → Str → Read (List Tok)
  | _, [] => .ok []
  | 0, _ :: _ => .outside
  | n + 1, c :: cs =>
    if isBlank c then lexN n cs
    else if c.isAlpha then
      (lexN n (symSpan (c :: cs)).2).bind fun ts => .ok (.sym (symSpan (c :: cs)).1 :: ts)
    else if c.isDigit then
      (scanNumber (c :: cs)).bind fun r => (lexN n r.2).bind fun ts => .ok (.num r.1 :: ts)
    else if c = '\'' then
      (scanString cs).bind fun r => (lexN n r.2).bind fun ts => .ok (.str r.1 :: ts)
    else
      (scanOperator (c :: cs)).bind fun r => (lexN n r.2).bind fun ts => .ok (r.1 :: ts)

/-- `generator::process` (exprtk.hpp 2430–2449). -/
def lex (s : Str) : Read (List Tok) := lexN s.length s

/-! ## The token passes before parsing -/

/-- `reserved_words` (exprtk.hpp 433–440) without `&` and `|`. -/
def reservedWords : List Str :=
  [c!"assert", c!"break", c!"case", c!"continue", c!"const", c!"default", c!"false", c!"for",
   c!"if", c!"else", c!"ilike", c!"in", c!"like", c!"and", c!"nand", c!"nor", c!"not", c!"null",
   c!"or", c!"repeat", c!"return", c!"shl", c!"shr", c!"swap", c!"switch", c!"true", c!"until",
   c!"var", c!"while", c!"xnor", c!"xor"]

/-- `reserved_symbols` (exprtk.hpp 444–459) without `&` and `|`. -/
def reservedSymbols : List Str :=
  [c!"abs", c!"acos", c!"acosh", c!"and", c!"asin", c!"asinh", c!"assert", c!"atan", c!"atanh",
   c!"atan2", c!"avg", c!"break", c!"case", c!"ceil", c!"clamp", c!"continue", c!"const", c!"cos",
   c!"cosh", c!"cot", c!"csc", c!"default", c!"deg2grad", c!"deg2rad", c!"equal", c!"erf",
   c!"erfc", c!"exp", c!"expm1", c!"false", c!"floor", c!"for", c!"frac", c!"grad2deg", c!"hypot",
   c!"iclamp", c!"if", c!"else", c!"ilike", c!"in", c!"inrange", c!"like", c!"log", c!"log10",
   c!"log2", c!"logn", c!"log1p", c!"mand", c!"max", c!"min", c!"mod", c!"mor", c!"mul", c!"ncdf",
   c!"nand", c!"nor", c!"not", c!"not_equal", c!"null", c!"or", c!"pow", c!"rad2deg", c!"repeat",
   c!"return", c!"root", c!"round", c!"roundn", c!"sec", c!"sgn", c!"shl", c!"shr", c!"sin",
   c!"sinc", c!"sinh", c!"sqrt", c!"sum", c!"swap", c!"switch", c!"tan", c!"tanh", c!"true",
   c!"trunc", c!"until", c!"var", c!"while", c!"xnor", c!"xor"]

/-- A symbol that the multiplication inserter ignores (exprtk.hpp 3499–3517). -/
def Tok.ignored : Tok → Bool
  | .sym s => decide (lower s ∈ reservedWords)
  | _ => false

/-- `commutative_inserter::insert` (exprtk.hpp 3492–3532): is a `*` put between two tokens? -/
def mulBetween (a b : Tok) : Bool :=
  !a.ignored && !b.ignored &&
  (match a, b with
   | .num _, .sym _ => true
   | .num _, .lpar => true
   | .sym _, .num _ => true
   | .rpar, .num _ => true
   | .rpar, .sym _ => true
   | .sym _, .sym _ => true
   | _, _ => false)

/-- `token_inserter::process` (exprtk.hpp 3251–3316) with the inserter above. -/
def insertMul : List Tok → List Tok
  | [] => []
  | [t] => [t]
  | a :: b :: ts =>
    if mulBetween a b then a :: .op .mul :: insertMul (b :: ts) else a :: insertMul (b :: ts)

/-- Does `operator_joiner` (exprtk.hpp 3547–3695) replace this pair of tokens by one? -/
def joinable : Tok → Tok → Bool
  | .op o, .op .eq => decide (o ∈ [.add, .sub, .mul, .div, .mod, .gt, .lt, .eq])
  | .bang, .op .eq => true
  | .op .lt, .op .gt => true
  | .op .lte, .op .gt => true
  | .op .add, .op .sub => true
  | .op .sub, .op .add => true
  | .op .sub, .op .sub => true
  | _, _ => false

/-- Does some pair of neighbours satisfy `f`? -/
def somePair (f : Tok → Tok → Bool) : List Tok → Bool
  | [] => false
  | [_] => false
  | a :: b :: ts => f a b || somePair f (b :: ts)

/-- `symbol_replacer` with its two entries (exprtk.hpp 24390–24397). -/
def replaceTok : Tok → Tok
  | .sym s => if lower s = c!"true" then .num 1 else if lower s = c!"false" then .num 0 else .sym s
  | t => t

/-- The pairs `sequence_validator` refuses and the parser below would accept as two statements
(exprtk.hpp 3945–3948); everything else it refuses is refused by the parser as well. -/
def badPair : Tok → Tok → Bool
  | .num _, .num _ => true
  | .str _, .str _ => true
  | .num _, .str _ => true
  | .str _, .num _ => true
  | _, _ => false

/-- A group directly after a group, where `post_bracket_process` (exprtk.hpp 30563–30612) inserts a
multiplication. -/
def groupPair : Tok → Tok → Bool
  | .rpar, .lpar => true
  | _, _ => false

/-- `run_assemblies` (exprtk.hpp 24600–24700): inserter, joiner, replacer, checks, in this order. A
text with joined tokens is outside, and so is one with more than 10000 tokens (the depth limit of
trees, exprtk.hpp 23756, 25333). -/
def assemble (ts : List Tok) : Read (List Tok) :=
  if somePair joinable (insertMul ts) then .outside
  else if somePair groupPair ts || decide (10000 < (insertMul ts).length) then .outside
  else if somePair badPair ((insertMul ts).map replaceTok) then .reject
  else .ok ((insertMul ts).map replaceTok)

/-! ## The parser -/

/-- The operators that are words (exprtk.hpp 25113–25192). -/
def wordOp (s : Str) : Option BinOp :=
  if lower s = c!"and" then some .and
  else if lower s = c!"nand" then some .nand
  else if lower s = c!"or" then some .or
  else if lower s = c!"nor" then some .nor
  else if lower s = c!"xor" then some .xor
  else if lower s = c!"xnor" then some .xnor
  else if lower s = c!"in" then some .in_
  else if lower s = c!"like" then some .like
  else if lower s = c!"ilike" then some .ilike
  else none

/-- The operator a token stands for in operator position. -/
def Tok.binop : Tok → Option BinOp
  | .op o => some o
  | .sym s => wordOp s
  | _ => none

/-- What remains to be read after a subexpression. -/
abbrev Parsed := Expr × List Tok

/-- The arguments of a call after `(` (exprtk.hpp 28530–28562): expressions separated by `,` up to
`)`; `pe` reads an expression. The bound `n` is the number of tokens and never runs out. -/
def readArgs (pe : List Tok → Read Parsed) : Nat → List Tok → Read (List Expr × List Tok)
  | 0, _ => .outside
  | n + 1, ts =>
    (pe ts).bind fun r =>
      match r.2 with
      | .rpar :: rest => .ok ([r.1], rest)
      | .comma :: rest => (readArgs pe n rest).bind fun q => .ok (r.1 :: q.1, q.2)
      | _ => .reject

/-- `parse_branch` (exprtk.hpp 31099–31300) with `parse_symbol` (30973–31097): numbers, strings,
variables, calls and groups. casbin's variables have a `.` in their name and its functions do not;
other uses of a symbol, exprtk's own names and unary signs are outside. `pe` is
`parse_expression()`. -/
def branch (pe : List Tok → Read Parsed) : List Tok → Read Parsed
  | .num n :: ts => .ok (.num n, ts)
  | .str s :: ts => .ok (.str s, ts)
  | .sym s :: ts =>
    if lower s ∈ reservedSymbols then .outside
    else match ts with
      | .lpar :: rest =>
        if '.' ∈ s then .outside
        else (readArgs pe rest.length rest).bind fun q => .ok (.call s q.1, q.2)
      | _ => if '.' ∈ s then .ok (.var s, ts) else .outside
  | .lpar :: ts =>
    (pe ts).bind fun r =>
      match r.2 with
      | .rpar :: rest => .ok (r.1, rest)
      | _ => .reject
  | .op .sub :: _ => .outside
  | .op .add :: _ => .outside
  | _ => .reject

/-- The loop of `parse_expression` (exprtk.hpp 25084–25331): while the next token is an operator of
at least level `p`, read its right operand and combine. The word `not` in operator position (25186)
is outside. -/
def opLoop (pe : Nat → List Tok → Read Parsed) (p : Nat) : Nat → Expr → List Tok → Read Parsed
  | 0, _, _ => .outside
  | n + 1, e, ts =>
    match ts with
    | [] => .ok (e, [])
    | t :: rest =>
      match t.binop with
      | none => if t = .sym c!"not" then .outside else .ok (e, ts)
      | some o =>
        if o.left < p then .ok (e, ts)
        else (pe o.right rest).bind fun r => opLoop pe p n (.op o.name [e, r.1]) r.2

/-- `parse_expression` (exprtk.hpp 25065–25345). The first argument is what is left of the maximal
stack depth: `parse_expression` and `parse_branch` each take one (22785–22797). -/
def parseE : Nat → Nat → List Tok → Read Parsed
  | 0, _, _ => .reject
  | 1, _, _ => .reject
  | d + 2, p, ts =>
    (branch (fun us => parseE d 0 us) ts).bind fun r =>
      opLoop (fun q us => parseE (d + 1) q us) p (r.2.length + 1) r.1 r.2

/-! ## Types -/

/-- Types of expressions. -/
inductive Ty
  | num | str
  deriving DecidableEq, Repr

/-- The functions whose result is a string (exprtk_config.h 281–289), in small letters as names
ignore case. -/
def stringFunctions : List Str := [c!"keyget", c!"keyget2", c!"keyget3"]

/-- The type of an operator application (exprtk.hpp 31607–31622, 31892–31910, 32009–32140): both
operands have the same type, strings allow comparison, `in`, `like`, `ilike` and `+`. -/
def opTy (o : Str) : Ty → Ty → Read Ty
  | .num, .num => if o ∈ [c!"in", c!"like", c!"ilike"] then .outside else .ok .num
  | .str, .str =>
    if o ∈ [c!"==", c!"!=", c!"<", c!"<=", c!">", c!">=", c!"in", c!"like", c!"ilike"] then .ok .num
    else if o = c!"+" then .ok .str
    else .reject
  | _, _ => .reject

mutual
/-- The type of an expression; all variables of casbin are strings (evaluator.cpp 158–164), and so
are the parameters of its functions (exprtk_config.h 247): a call with a number among the arguments
is outside (it is refused unless the user has added such a function). -/
def typeOf : Expr → Read Ty
  | .str _ => .ok .str
  | .num _ => .ok .num
  | .var _ => .ok .str
  | .call f args =>
    (typesOf args).bind fun ts =>
      if .num ∈ ts then .outside else .ok (if lower f ∈ stringFunctions then .str else .num)
  | .op o args => (typesOf args).bind fun ts =>
    match ts with
    | [a, b] => opTy o a b
    | _ => .reject
def typesOf : List Expr → Read (List Ty)
  | [] => .ok []
  | e :: es => (typeOf e).bind fun t => (typesOf es).bind fun ts => .ok (t :: ts)
end

mutual
/-- Does an expression contain a call? -/
def hasCall : Expr → Bool
  | .call _ _ => true
  | .op _ args => hasCalls args
  | _ => false
def hasCalls : List Expr → Bool
  | [] => false
  | e :: es => hasCall e || hasCalls es
end

/-- A statement as a number: a call of a function that gives a string has the number the function
returns (`string_function_node::value`, exprtk.hpp 15115–15135), for `keyGet` and the like 0
(exprtk_config.h 184, 226); other strings have NaN. The operator `value` stands for this. -/
def numeric : Expr → Expr
  | .call f args =>
    if lower f ∈ stringFunctions then .op c!"value" [.call f args] else .call f args
  | e => e

/-- `parse_corpus` (exprtk.hpp 24904–24972): expressions are read until the tokens are used up. The
names and types of all of them are checked. -/
def corpus : Nat → List Tok → Read (List Expr)
  | 0, _ => .outside
  | n + 1, ts =>
    (parseE 400 0 ts).bind fun r => (typeOf r.1).bind fun _ =>
      match r.2 with
      | [] => .ok [numeric r.1]
      | rest => (corpus n rest).bind fun es => .ok (r.1 :: es)

/-- The expression of a list of statements: `simplify` (exprtk.hpp 24967, 27458–27525) keeps the last
one; the others, which have no effect, only have their names checked. They are kept in the tree, as
the operator `;`, whose value is that of its last operand. A call in one of them is outside. -/
def sequence : List Expr → Read Expr
  | [] => .reject
  | [e] => .ok e
  | es => if hasCalls es.dropLast then .outside else .ok (.op c!";" es)

/-- `parser.compile` (exprtk.hpp 24443–24553) without name resolution, applied to the text after
casbin's replacements (evaluator.cpp 32–37). -/
def read (text : Str) : Read Expr :=
  (lex (prep text)).bind fun ts =>
    if ts = [] then .reject
    else (assemble ts).bind fun us => (corpus us.length us).bind sequence

end Exprtk
end Casbin
