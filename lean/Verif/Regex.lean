import Verif.KeyPatterns

/-!
# The regular expressions of `RegexMatch`

`RegexMatch` (`casbin/util/built_in_functions.cpp` 208–211) makes a `std::regex` of its second
argument and asks `std::regex_match` for its first. The class is not part of the project; modelled
after the C++ standard (ECMAScript, locale "C") are the expressions of characters, `.`, escaped
characters, `\d` `\D` `\w` `\W`, classes in brackets of characters and ranges of ASCII characters,
groups, alternatives and the quantifiers `*` `+` `?`, greedy or lazy. Others (assertions, back
references, counts in braces, a quantifier after a quantifier, classes with signs of their own) are up to the
library. Only whether there is a match is modelled, so it does not matter whether a quantifier is
lazy. The depth of the recursion of the matcher is not limited here.
-/

namespace Casbin.Regex

/-- A set of characters: the ranges, or all characters outside of them. -/
structure Chars where
  neg : Bool
  ranges : List (Char × Char)
  deriving DecidableEq, Repr

/-- Whether a character is in the set. -/
def Chars.has (k : Chars) (c : Char) : Bool :=
  (k.ranges.any fun r => decide (r.1 ≤ c ∧ c ≤ r.2)) != k.neg

/-- A regular expression. -/
inductive Rx
  | eps
  | one (k : Chars)
  | seq (a b : Rx)
  | alt (a b : Rx)
  | star (a : Rx)
  | plus (a : Rx)
  | opt (a : Rx)
  deriving DecidableEq, Repr

/-! ## Matching -/

/-- Any number of rounds of `f`, each of which takes at least one character (ECMAScript,
RepeatMatcher: a round that takes nothing is refused); the first argument limits the rounds. -/
def rounds (f : Str → List Str) : Nat → Str → List Str
  | 0, s => [s]
  | n + 1, s => ((f s).filter fun t => t.length < s.length).flatMap (rounds f n) ++ [s]

/-- What may be left of the text after a match at its start, in the order in which the matcher
tries. -/
def Rx.ends : Rx → Str → List Str
  | .eps, s => [s]
  | .one _, [] => []
  | .one k, c :: s => if k.has c then [s] else []
  | .seq a b, s => (a.ends s).flatMap b.ends
  | .alt a b, s => a.ends s ++ b.ends s
  | .star a, s => rounds a.ends s.length s
  | .plus a, s => (a.ends s).flatMap fun t => rounds a.ends t.length t
  | .opt a, s => a.ends s ++ [s]

/-- `std::regex_match`: whether the whole text is matched. -/
def Rx.run (r : Rx) (s : Str) : Bool := (r.ends s).any (·.isEmpty)

/-! ## Reading -/

/-- The outcome of reading: a result, a `std::regex_error`, or an expression that is not modelled. -/
inductive Rd (α : Type) where
  | ok (a : α)
  | bad
  | unknown
  deriving DecidableEq, Repr

/-- Sequencing. -/
def Rd.bind {α β : Type} : Rd α → (α → Rd β) → Rd β
  | .ok a, f => f a
  | .bad, _ => .bad
  | .unknown, _ => .unknown

instance : Monad Rd where
  pure := .ok
  bind := Rd.bind

/-- The characters that have a meaning of their own. -/
def syntaxChars : Str := c!"^$\\.*+?()[]{}|"

/-- A character that stands for itself. NUL is left out: libstdc++ takes it for a special one. -/
def plain (c : Char) : Bool := c ∉ syntaxChars && c ≠ '\x00'

/-- Digits, and the characters of names. -/
def digits : List (Char × Char) := [('0', '9')]
def wordChars : List (Char × Char) := [('a', 'z'), ('A', 'Z'), ('0', '9'), ('_', '_')]

/-- The set of one character. -/
def single (c : Char) : Chars := ⟨false, [(c, c)]⟩

/-- What follows a backslash. -/
def escaped (c : Char) : Rd Chars :=
  if c ∈ syntaxChars then .ok (single c)
  else if c = 'd' then .ok ⟨false, digits⟩
  else if c = 'D' then .ok ⟨true, digits⟩
  else if c = 'w' then .ok ⟨false, wordChars⟩
  else if c = 'W' then .ok ⟨true, wordChars⟩
  else .unknown

/-- A character that stands for itself in brackets. -/
def classPlain (c : Char) : Bool := c ∉ c!"^\\[]-" && c ≠ '\x00' && c.toNat < 128

/-- The characters and ranges of a class up to the closing bracket. A range whose ends are in the
wrong order is an error. -/
def classItems : Str → Rd (List (Char × Char) × Str)
  | ']' :: s => .ok ([], s)
  | c :: '-' :: d :: s =>
    if classPlain c && classPlain d then
      if c ≤ d then do
        let (rs, s) ← classItems s
        pure ((c, d) :: rs, s)
      else .bad
    else .unknown
  | c :: s =>
    if classPlain c then do
      let (rs, s) ← classItems s
      pure ((c, c) :: rs, s)
    else .unknown
  | [] => .bad

/-- The sign of the complement at the start of a class. -/
def classSign : Str → Bool × Str
  | '^' :: s => (true, s)
  | s => (false, s)

/-- A class after its opening bracket; the empty ones are not modelled. -/
def classOf (s : Str) : Rd (Chars × Str) :=
  if (classSign s).2.head? = some ']' then .unknown
  else do
    let (rs, s') ← classItems (classSign s).2
    pure (⟨(classSign s).1, rs⟩, s')

/-- Whether the text begins with a quantifier. -/
def quantNext : Str → Bool
  | c :: _ => c ∈ c!"*+?{"
  | [] => false

/-- The quantifier after an atom, and what follows it. -/
def quantSign (a : Rx) : Str → Rx × Str
  | '*' :: '?' :: s => (Rx.star a, s)
  | '+' :: '?' :: s => (Rx.plus a, s)
  | '?' :: '?' :: s => (Rx.opt a, s)
  | '*' :: s => (Rx.star a, s)
  | '+' :: s => (Rx.plus a, s)
  | '?' :: s => (Rx.opt a, s)
  | s => (a, s)

/-- An atom with its quantifier. -/
def quantified (a : Rx) (s : Str) : Rd (Rx × Str) :=
  if quantNext (quantSign a s).2 then .unknown else .ok (quantSign a s)

/-- What follows the opening parenthesis of a group: a group without a number begins with `?:`;
assertions are not modelled. -/
def groupStart : Str → Rd Str
  | '?' :: ':' :: s => .ok s
  | '?' :: _ => .unknown
  | s => .ok s

/-- The end of a group. -/
def groupEnd (x : Rx × Str) : Rd (Rx × Str) :=
  match x.2 with
  | ')' :: s => quantified x.1 s
  | _ => .bad

/-- What is read: alternatives, a sequence, or an atom with its quantifier. -/
inductive Part
  | alts
  | terms
  | term
  deriving DecidableEq, Repr

/-- Reading with the recursive descent of the grammar of ECMAScript. The first argument limits the
depth; `parse` gives enough. -/
def read : Nat → Part → Str → Rd (Rx × Str)
  | 0, _, _ => .unknown
  | n + 1, .alts, s => do
    let (a, s) ← read n .terms s
    match s with
    | '|' :: s => do
      let (b, s) ← read n .alts s
      pure (.alt a b, s)
    | s => pure (a, s)
  | n + 1, .terms, s =>
    match s with
    | [] => .ok (.eps, s)
    | c :: _ =>
      if c = '|' ∨ c = ')' then .ok (.eps, s)
      else do
        let (a, s) ← read n .term s
        let (b, s) ← read n .terms s
        pure (.seq a b, s)
  | n + 1, .term, s =>
    match s with
    | [] => .unknown
    | '(' :: s => do
      let s ← groupStart s
      let x ← read n .alts s
      groupEnd x
    | '[' :: s => do
      let (k, s) ← classOf s
      quantified (.one k) s
    | '\\' :: c :: s => do
      let k ← escaped c
      quantified (.one k) s
    | '.' :: s => quantified (.one ⟨true, [('\n', '\n'), ('\r', '\r')]⟩) s
    | c :: s =>
      if plain c then quantified (.one (single c)) s
      else if c ∈ c!"*+?" then .bad
      else .unknown

/-- The regular expression of a text: a closing parenthesis too many is an error. -/
def parse (t : Str) : Rd Rx := do
  let (r, s) ← read (3 * t.length + 3) .alts t
  match s with
  | [] => pure r
  | _ => .bad

/-- A library that reads regular expressions and matches them as above and leaves the others to
`rx`. The groups of a match are not modelled; `RegexMatch` does not ask for them. -/
def stdRx (rx : RxLib) : RxLib := fun pat s =>
  match parse pat with
  | .ok r => .ok (if r.run s then some [] else none)
  | .bad => .throw .regex
  | .unknown => rx pat s

end Casbin.Regex
