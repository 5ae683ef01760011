import Verif.Util

/-!
# The matching functions that use regular expressions

Models `KeyMatch2`, `KeyMatch3`, `KeyMatch4`, `KeyGet2`, `KeyGet3` and `RegexMatch` of
`casbin/util/built_in_functions.cpp`.

`std::regex` is modelled for the regular expressions these functions make of path templates:
sequences of ordinary characters, `.` and `[^/]`, each once or with `*` or `+` (greedy or lazy),
and groups of one such item. The meaning is the one of ECMAScript: the choices are tried in order,
longest first for a greedy item and shortest first for a lazy one. Any other regular expression is
up to a parameter.
-/

namespace Casbin

/-! ## Regular expressions -/

/-- What one item of a regular expression matches. -/
inductive CharClass
  | char (c : Char)
  | any
  | notSlash
  deriving DecidableEq, Repr

/-- Whether a character is in the class; `.` is not a line end. -/
def CharClass.has : CharClass → Char → Bool
  | .char d, c => c = d
  | .any, c => c ≠ '\n' && c ≠ '\r'
  | .notSlash, c => c ≠ '/'

/-- How often an item may match. -/
inductive Quant
  | one
  | star
  | plus
  deriving DecidableEq, Repr

/-- An item of a regular expression. -/
structure RxItem where
  cls : CharClass
  quant : Quant := .one
  lazy : Bool := false
  group : Bool := false
  deriving DecidableEq, Repr

/-- The numbers of characters the item may take from the start of `s`, in the order they are
tried. -/
def RxItem.choices (it : RxItem) (s : Str) : List Nat :=
  let m := (s.takeWhile it.cls.has).length
  let ns := match it.quant with
    | .one => if 1 ≤ m then [1] else []
    | .star => List.range (m + 1)
    | .plus => (List.range m).map (· + 1)
  if it.lazy then ns else ns.reverse

/-- `std::regex_match` of the whole text: the texts of the groups of the first successful choice. -/
def rxRun : List RxItem → Str → Option (List Str)
  | [], s => if s = [] then some [] else none
  | it :: its, s =>
    (it.choices s).findSome? fun n =>
      (rxRun its (s.drop n)).map fun gs => if it.group then s.take n :: gs else gs

/-- A character that stands for itself in a regular expression. -/
def rxPlain (c : Char) : Bool := c ∉ c!"^$\\.*+?()[]{}|"

/-- A quantifier at the start of the text. -/
def rxQuant : Str → Quant × Bool × Str
  | '*' :: '?' :: s => (.star, true, s)
  | '+' :: '?' :: s => (.plus, true, s)
  | '*' :: s => (.star, false, s)
  | '+' :: s => (.plus, false, s)
  | s => (.one, false, s)

/-- A character class at the start of the text. -/
def rxClass : Str → Option (CharClass × Str)
  | '[' :: '^' :: '/' :: ']' :: s => some (.notSlash, s)
  | '\\' :: '{' :: s => some (.char '{', s)
  | '\\' :: '}' :: s => some (.char '}', s)
  | '.' :: s => some (.any, s)
  | c :: s => if rxPlain c then some (.char c, s) else none
  | [] => none

/-- An item at the start of the text. -/
def rxItem (s : Str) : Option (RxItem × Str) :=
  match s with
  | '(' :: s => do
    let (cls, s) ← rxClass s
    let (q, l, s) := rxQuant s
    match s with
    | ')' :: s => some ({ cls := cls, quant := q, lazy := l, group := true }, s)
    | _ => none
  | s => do
    let (cls, s) ← rxClass s
    let (q, l, s) := rxQuant s
    some ({ cls := cls, quant := q, lazy := l }, s)

/-- The regular expression a text stands for, if it is of the kind modelled. Each round takes at
least one character, so the fuel does not run out. -/
def rxParse : Nat → Str → Option (List RxItem)
  | _, [] => some []
  | 0, _ :: _ => none
  | fuel + 1, s => do
    let (it, s) ← rxItem s
    let its ← rxParse fuel s
    some (it :: its)

/-- What the library does with a regular expression that is not modelled: text of the expression
and subject to groups, no match, or an exception. -/
abbrev RxLib := Str → Str → Outcome (Option (List Str))

/-- `std::regex_match(subject, std::regex("^" + pat + "$"))`. -/
def rxMatch (rx : RxLib) (pat subject : Str) : Outcome (Option (List Str)) :=
  match rxParse pat.length pat with
  | some its => .ok (rxRun its subject)
  | none => rx pat subject

/-! ## Templates -/

/-- `ReplacePattern` (built_in_functions.cpp 41–50): every occurrence, from left to right; the
counter is the rest of the current occurrence. -/
def replacePattern (pat rep : Str) : Nat → Str → Str
  | _, [] => []
  | k + 1, _ :: s => replacePattern pat rep k s
  | 0, c :: s =>
    if pat.isPrefixOf (c :: s) then rep ++ replacePattern pat rep (pat.length - 1) s
    else c :: replacePattern pat rep 0 s

/-- `PrepareWildCardMatching` (built_in_functions.cpp 52–54). -/
def prepareWildCard (s : Str) : Str := replacePattern c!"/*" c!"/.*" 0 s

/-- `EscapeCurlyBraces` (built_in_functions.cpp 56–59). -/
def escapeBraces (s : Str) : Str :=
  replacePattern c!"}" c!"\\}" 0 (replacePattern c!"{" c!"\\{" 0 s)

/-- The names of the matches of `:[^/]+` in a text (built_in_functions.cpp 109–115), without the
colon. A match that is going on has its name so far as first argument. -/
def colonNames : Option Str → Str → List Str
  | none, [] => []
  | some nm, [] => [nm]
  | some nm, c :: s => if c = '/' then nm :: colonNames none s else colonNames (some (nm ++ [c])) s
  | none, c :: s =>
    if c = ':' ∧ s.head? ≠ none ∧ s.head? ≠ some '/' then colonNames (some []) s
    else colonNames none s

/-- `regex_replace(s, "(.*?):[^/]+(.*?)", "$1" + rep + "$2")` (built_in_functions.cpp 38, 96, 117):
every `:` that is followed by something other than `/`, with all that follows up to the next `/`,
becomes `rep`. The flag says that a match is going on. -/
def replaceColon (rep : Str) : Bool → Str → Str
  | _, [] => []
  | true, c :: s => if c = '/' then '/' :: replaceColon rep false s else replaceColon rep true s
  | false, c :: s =>
    if c = ':' ∧ s.head? ≠ none ∧ s.head? ≠ some '/' then rep ++ replaceColon rep true s
    else c :: replaceColon rep false s

/-- The name of a placeholder, given what follows `{`: the shortest non-empty text without `/` up to
a `}`. -/
def placeName (s : Str) : Option Str :=
  match s with
  | [] => none
  | c :: s =>
    if c = '/' then none
    else
      let t := s.takeWhile fun d => d ≠ '}' && d ≠ '/'
      if (s.drop t.length).head? = some '}' then some (c :: t) else none

/-- The placeholders `\{[^/]+?\}` of a text, by name (built_in_functions.cpp 147–153). The counter
is the rest of the current match. -/
def placeNames : Nat → Str → List Str
  | _, [] => []
  | k + 1, _ :: s => placeNames k s
  | 0, c :: s =>
    if c = '{' then
      match placeName s with
      | some nm => nm :: placeNames (nm.length + 1) s
      | none => placeNames 0 s
    else placeNames 0 s

/-- `regex_replace(s, "(.*?)\\{[^/]+?\\}(.*?)", "$1" + rep + "$2")` (built_in_functions.cpp 39, 137,
155, 184). -/
def replacePlaces (rep : Str) : Nat → Str → Str
  | _, [] => []
  | k + 1, _ :: s => replacePlaces rep k s
  | 0, c :: s =>
    if c = '{' then
      match placeName s with
      | some nm => rep ++ replacePlaces rep (nm.length + 1) s
      | none => c :: replacePlaces rep 0 s
    else c :: replacePlaces rep 0 s

/-- The end of the last `}` before the next `/`, given what follows `{`: the longest text of
`\{([^/]+)\}` (built_in_functions.cpp 180). -/
def greedyToken (s : Str) : Option Str :=
  let t := s.takeWhile (· ≠ '/')
  match (List.range t.length).reverse.find? fun i => i ≥ 1 && t[i]? = some '}' with
  | some i => some (t.take i)
  | none => none

/-- The tokens of `KeyMatch4` (built_in_functions.cpp 179–182), without their braces. -/
def greedyTokens : Nat → Str → List Str
  | _, [] => []
  | k + 1, _ :: s => greedyTokens k s
  | 0, c :: s =>
    if c = '{' then
      match greedyToken s with
      | some nm => nm :: greedyTokens (nm.length + 1) s
      | none => greedyTokens 0 s
    else greedyTokens 0 s

/-! ## The functions -/

/-- `RegexMatch` (built_in_functions.cpp 208–211) for any pattern is up to the library. -/
def regexMatch (rx : RxLib) (key1 key2 : Str) : Outcome Bool := do
  let r ← rx key2 key1
  pure r.isSome

/-- `KeyMatch2` (built_in_functions.cpp 94–103). -/
def keyMatch2 (rx : RxLib) (key1 key2 : Str) : Outcome Bool := do
  let k2 := escapeBraces (replaceColon c!"[^/]+" false (prepareWildCard key2))
  let k2 := if k2 = c!"*" then c!"(.*)" else k2
  let r ← rxMatch rx k2 key1
  pure r.isSome

/-- The search of the `KeyGet` functions for the variable (built_in_functions.cpp 126–130,
164–168): the group at the position of the first key with the name, empty if there is no such
group. -/
def groupOf (keys : List Str) (groups : Option (List Str)) (v : Str) : Str :=
  match keys.findIdx? (· = v) with
  | none => []
  | some i =>
    match groups with
    | none => []
    | some gs =>
      match gs[i]? with
      | some g => g
      | none => []

/-- `KeyGet2` (built_in_functions.cpp 108–131). -/
def keyGet2 (rx : RxLib) (key1 key2 v : Str) : Outcome Str := do
  let k2 := prepareWildCard key2
  let keys := colonNames none k2
  let k2 := escapeBraces (replaceColon c!"([^/]+)" false k2)
  let k2 := if k2 = c!"*" then c!"(.*)" else k2
  let r ← rxMatch rx k2 key1
  pure (groupOf keys r v)

/-- `KeyMatch3` (built_in_functions.cpp 135–141). -/
def keyMatch3 (rx : RxLib) (key1 key2 : Str) : Outcome Bool := do
  let k2 := escapeBraces (replacePlaces c!"[^/]+" 0 (prepareWildCard key2))
  let r ← rxMatch rx k2 key1
  pure r.isSome

/-- `KeyGet3` (built_in_functions.cpp 146–169). -/
def keyGet3 (rx : RxLib) (key1 key2 v : Str) : Outcome Str := do
  let k2 := prepareWildCard key2
  let keys := placeNames 0 k2
  let k2 := escapeBraces (replacePlaces c!"([^/]+?)" 0 k2)
  let k2 := if k2 = c!"*" then c!"(.*)" else k2
  let r ← rxMatch rx k2 key1
  pure (groupOf keys r v)

/-- The loop of `KeyMatch4` over tokens and values (built_in_functions.cpp 196–204); the map keeps
the first value of a token. -/
def sameValues : List (Str × Str) → List (Str × Str) → Bool
  | _, [] => true
  | seen, (t, v) :: rest =>
    match seen.find? (·.1 = t) with
    | none => sameValues ((t, v) :: seen) rest
    | some (_, w) => if w = v then sameValues seen rest else false

/-- `KeyMatch4` (built_in_functions.cpp 176–205). -/
def keyMatch4 (rx : RxLib) (key1 key2 : Str) : Outcome Bool := do
  let k2 := prepareWildCard key2
  let tokens := greedyTokens 0 k2
  let k2 := escapeBraces (replacePlaces c!"([^/]+)" 0 k2)
  let r ← rxMatch rx k2 key1
  match r with
  | none => pure false
  | some gs =>
    if tokens.length ≠ gs.length then .throw .text
    else pure (sameValues [] (tokens.zip gs))

end Casbin
