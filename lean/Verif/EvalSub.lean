import Verif.Util

/-!
# `eval()` substitution and `EscapeAssertion`

Models `casbin/util/eval.cpp` and `casbin/util/escape_assertion.cpp`. The only regular expressions
involved are the two literal ones quoted below; their matching is written out.
-/

namespace Casbin

/-- A word character of the regex escape `\b`. -/
def isWordChar (c : Char) : Bool := c.isAlphanum || c == '_'

/-- `eval(` compared case-insensitively (`std::regex_constants::icase`, eval.cpp 29–30), at the
start of the text; returns what follows. -/
def afterEvalOpen : Str → Option Str
  | a :: b :: c :: d :: '(' :: rest =>
    if (a = 'e' ∨ a = 'E') ∧ (b = 'v' ∨ b = 'V') ∧ (c = 'a' ∨ c = 'A') ∧ (d = 'l' ∨ d = 'L')
    then some rest else none
  | _ => none

/-- One match of the regex `\beval\(([^)]*)\)` (eval.cpp 29–30). -/
structure EvalMatch where
  pre : Str      -- m.prefix()
  whole : Str       -- m[0]
  key : Str         -- m[1]
  post : Str      -- m.suffix()
  deriving DecidableEq, Repr

/-- The regex tried at the start of the text (`boundary`: is there a `\b` here). -/
def evalMatchHere (boundary : Bool) (s : Str) : Option EvalMatch :=
  if boundary then
    match afterEvalOpen s with
    | none => none
    | some rest =>
      match findChar ')' rest with
      | none => none
      | some i =>
        some { pre := [], whole := s.take 5 ++ rest.take (i + 1), key := rest.take i,
               post := rest.drop (i + 1) }
  else none

/-- `std::regex_search(s, m, evalReg)`: the leftmost match. `boundary` is whether the character
before `s` is absent or not a word character (`e` is a word character, so that is `\b`). -/
def evalSearch (boundary : Bool) : Str → Option EvalMatch
  | [] => none
  | c :: s =>
    match evalMatchHere boundary (c :: s) with
    | some m => some m
    | none => (evalSearch (!isWordChar c) s).map (fun m => { m with pre := c :: m.pre })

/-- `HasEval` (eval.cpp 32–34). -/
def hasEval (s : Str) : Bool := (evalSearch true s).isSome

theorem evalMatchHere_post {b : Bool} {s : Str} {m : EvalMatch} (h : evalMatchHere b s = some m) :
    m.post.length < s.length := by
  unfold evalMatchHere at h
  cases b with
  | false => simp at h
  | true =>
    simp only [if_true] at h
    cases ha : afterEvalOpen s with
    | none => simp [ha] at h
    | some rest =>
      cases hf : findChar ')' rest with
      | none => simp [ha, hf] at h
      | some i =>
        simp only [ha, hf, Option.some.injEq] at h
        subst h
        have : rest.length < s.length := by
          unfold afterEvalOpen at ha
          split at ha
          · split at ha
            · simp only [Option.some.injEq] at ha; subst ha; simp; omega
            · simp at ha
          · simp at ha
        simp only [List.length_drop]
        omega

theorem evalSearch_post {s : Str} : ∀ {b : Bool} {m : EvalMatch}, evalSearch b s = some m →
    m.post.length < s.length := by
  induction s with
  | nil => intro b m h; simp [evalSearch] at h
  | cons c s ih =>
    intro b m h
    simp only [evalSearch] at h
    cases hh : evalMatchHere b (c :: s) with
    | some m' =>
      simp only [hh, Option.some.injEq] at h
      subst h
      exact evalMatchHere_post hh
    | none =>
      simp only [hh] at h
      cases hs : evalSearch (!isWordChar c) s with
      | none => simp [hs] at h
      | some m' =>
        simp only [hs, Option.map_some, Option.some.injEq] at h
        subst h
        have := ih hs
        simp only [List.length_cons]
        omega

/-- The loop of `ReplaceEvalWithMap` (eval.cpp 42–58), with a bound on the number of rounds. After
each match the search goes on in `m.suffix()`, whose first position counts as a word boundary. -/
def replaceEvalLoop (sets : UMap Str Str) : Nat → Str → Str
  | 0, s => s
  | n + 1, s =>
    match evalSearch true s with
    | none => s
    | some m =>
      m.pre ++ (match sets.get m.key with | some v => v | none => m.whole) ++
        replaceEvalLoop sets n m.post

/-- `ReplaceEvalWithMap` (eval.cpp 37–61). Every round shortens the text, so the bound is never
reached (`replaceEval_unfold`). -/
def replaceEval (sets : UMap Str Str) (s : Str) : Str := replaceEvalLoop sets (s.length + 1) s

theorem replaceEvalLoop_enough (sets : UMap Str Str) : ∀ (n m : Nat) (s : Str), s.length < n →
    s.length < m → replaceEvalLoop sets n s = replaceEvalLoop sets m s := by
  intro n
  induction n with
  | zero => intro m s h; omega
  | succ n ih =>
    intro m s h1 h2
    cases m with
    | zero => omega
    | succ m =>
      simp only [replaceEvalLoop]
      cases hs : evalSearch true s with
      | none => rfl
      | some mt =>
        have := evalSearch_post hs
        simp only
        rw [ih m mt.post (by omega) (by omega)]

theorem replaceEval_unfold (sets : UMap Str Str) (s : Str) :
    replaceEval sets s = match evalSearch true s with
      | none => s
      | some m =>
        m.pre ++ (match sets.get m.key with | some v => v | none => m.whole) ++
          replaceEval sets m.post := by
  rw [replaceEval, replaceEvalLoop]
  cases hs : evalSearch true s with
  | none => rfl
  | some m =>
    have := evalSearch_post hs
    simp only [replaceEval]
    rw [replaceEvalLoop_enough sets s.length (m.post.length + 1) m.post (by omega) (by omega)]

/-- The loop of `GetEvalValue` (eval.cpp 69–77), with a bound on the number of rounds. -/
def getEvalLoop : Nat → Str → List Str
  | 0, _ => []
  | n + 1, s =>
    match evalSearch true s with
    | none => []
    | some m => m.key :: getEvalLoop n m.post

/-- `GetEvalValue` (eval.cpp 64–80). -/
def getEvalValue (s : Str) : List Str := getEvalLoop (s.length + 1) s

theorem getEvalLoop_enough : ∀ (n m : Nat) (s : Str), s.length < n →
    s.length < m → getEvalLoop n s = getEvalLoop m s := by
  intro n
  induction n with
  | zero => intro m s h; omega
  | succ n ih =>
    intro m s h1 h2
    cases m with
    | zero => omega
    | succ m =>
      simp only [getEvalLoop]
      cases hs : evalSearch true s with
      | none => rfl
      | some mt =>
        have := evalSearch_post hs
        simp only
        rw [ih m mt.post (by omega) (by omega)]

theorem getEvalValue_unfold (s : Str) :
    getEvalValue s = match evalSearch true s with
      | none => []
      | some m => m.key :: getEvalValue m.post := by
  rw [getEvalValue, getEvalLoop]
  cases hs : evalSearch true s with
  | none => rfl
  | some m =>
    have := evalSearch_post hs
    simp only [getEvalValue]
    rw [getEvalLoop_enough s.length (m.post.length + 1) m.post (by omega) (by omega)]

/-- A character of the class `[a-zA-Z0-9. ]` (escape_assertion.cpp 35). -/
def isEscChar (c : Char) : Bool := c.isAlphanum || c == '.' || c == ' '

/-- `EscapeAssertion` (escape_assertion.cpp 34–51): in every maximal run of `[a-zA-Z0-9. ]` the
first `.` becomes `_`. `seen`: the current run already had one. -/
def escapeFrom (seen : Bool) : Str → Str
  | [] => []
  | c :: s =>
    if isEscChar c then
      if c = '.' ∧ seen = false then '_' :: escapeFrom true s else c :: escapeFrom seen s
    else c :: escapeFrom false s

/-- `EscapeAssertion` (escape_assertion.cpp 34–51). -/
def escapeAssertion (s : Str) : Str := escapeFrom false s

end Casbin
