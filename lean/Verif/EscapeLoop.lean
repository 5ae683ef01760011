import Verif.EvalSub
import Mathlib.Tactic.Set

/-!
# The loop of `EscapeAssertion`, which changes the text it is searching

`escapeAssertion` of EvalSub.lean goes over a text once. The code searches the text `s` with a
`std::sregex_iterator` and replaces each match in `s` itself, so that every later search reads the changed text
(casbin/util/escape_assertion.cpp 37–48). Here that loop is written down with positions in one changing text. By the
standard `std::string::replace` may invalidate the iterators the search holds; with a text of the same length, as
here, implementations write in place, and this is what is modelled.
-/

namespace Casbin

/-- Where the next search begins to match, from a position on: the first character of the class
(escape_assertion.cpp 35, 37, 40). -/
def escStart (t : Str) (i : Nat) : Nat := i + ((t.drop i).takeWhile (fun c => !isEscChar c)).length

/-- The length of the match: `+` takes all characters of the class that follow (escape_assertion.cpp 35). -/
def escLength (t : Str) (a : Nat) : Nat := ((t.drop a).takeWhile isEscChar).length

/-- `match_str.find(".")` and `match_str.replace(pos, 1, "_")` (escape_assertion.cpp 43, 45); the text itself
without a dot. -/
def dotOut : Str → Str
  | [] => []
  | c :: s => if c = '.' then '_' :: s else c :: dotOut s

/-- `s.replace(pos, len, new)` (escape_assertion.cpp 46). -/
def replaceAt (t : Str) (pos len : Nat) (new : Str) : Str := t.take pos ++ new ++ t.drop (pos + len)

theorem dotOut_length (s : Str) : (dotOut s).length = s.length := by
  induction s with
  | nil => rfl
  | cons c s ih => simp only [dotOut]; split <;> simp [ih]

theorem replaceAt_length (t : Str) (a : Nat) (ha : a ≤ t.length) :
    (replaceAt t a (escLength t a) (dotOut ((t.drop a).take (escLength t a)))).length = t.length := by
  have h : escLength t a ≤ (t.drop a).length := (List.takeWhile_prefix _).length_le
  simp only [List.length_drop] at h
  simp only [replaceAt, List.length_append, List.length_take, dotOut_length, List.length_drop]
  omega

theorem escLength_pos (t : Str) (i : Nat) (h : escStart t i < t.length) : 0 < escLength t (escStart t i) := by
  simp only [escStart, escLength] at h ⊢
  rw [← List.drop_drop]
  set u := t.drop i
  have hu : (u.takeWhile (fun c => !isEscChar c)).length < u.length := by
    simp only [u, List.length_drop] at h ⊢; omega
  clear_value u
  clear h
  induction u with
  | nil => simp at hu
  | cons c s ih =>
    by_cases hc : isEscChar c = true
    · simp [hc]
    · simp only [Bool.not_eq_true] at hc
      simp only [hc, List.takeWhile_cons, Bool.not_false, if_true, List.length_cons, List.drop_succ_cons] at hu ⊢
      exact ih (by omega)

/-- The loop (escape_assertion.cpp 40–48) from a position of the text on: find the next match in the text as it
now is; without one stop; otherwise replace it and go on behind it. -/
def escapeLoop (t : Str) (i : Nat) : Str :=
  if _h : escStart t i < t.length then
    escapeLoop (replaceAt t (escStart t i) (escLength t (escStart t i))
      (dotOut ((t.drop (escStart t i)).take (escLength t (escStart t i)))))
      (escStart t i + escLength t (escStart t i))
  else t
termination_by t.length - i
decreasing_by
  rw [replaceAt_length t _ (by omega)]
  have := escLength_pos t i (by assumption)
  have : i ≤ escStart t i := by simp [escStart]
  omega

end Casbin
