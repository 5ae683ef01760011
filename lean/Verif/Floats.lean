import Verif.Getters
import Mathlib.Data.Int.Log
import Mathlib.Data.Rat.Floor

/-!
# `Config::GetFloat`

Models `casbin/config/config.cpp` 130–132, `float(atof(Get(key).c_str()))`. `atof` and the conversion
to `float` are those of the C and C++ standards with the formats of IEEE 754 and rounding to the
nearest number, ties to even. A number is the rational it stands for; the two zeros are not told apart.
-/

namespace Casbin

/-- A binary format: `prec` bits, multiples of `2 ^ emin`, below `2 ^ top`. -/
structure Format where
  prec : Nat
  emin : Int
  top : Int

/-- IEEE 754 binary64 and binary32. -/
def double : Format := ⟨53, -1074, 1024⟩
def single : Format := ⟨24, -149, 128⟩

/-- The nearest integer, the even one of two. -/
def nearestEven (x : ℚ) : ℤ :=
  if x - ⌊x⌋ < 1 / 2 then ⌊x⌋
  else if 1 / 2 < x - ⌊x⌋ then ⌊x⌋ + 1
  else if ⌊x⌋ % 2 = 0 then ⌊x⌋ else ⌊x⌋ + 1

/-- The exponent of the last bit of a number in the format. -/
def Format.unit (f : Format) (q : ℚ) : ℤ := max (Int.log 2 |q| - (f.prec - 1)) f.emin

/-- Rounding with no limit to the exponent. -/
def Format.round (f : Format) (q : ℚ) : ℚ := nearestEven (q / 2 ^ f.unit q) * 2 ^ f.unit q

/-- Conversion to the format. The behaviour is undefined when the value does not fit: for `atof` by the
C standard, for the conversion by the C++ standard ([conv.double]). -/
def Format.convert (f : Format) (q : ℚ) : Outcome ℚ :=
  if |f.round q| < 2 ^ f.top then .ok (f.round q) else .ub .overflow

/-- The number that digits stand for. -/
def digitsNum (ds : Str) : Nat := Nat.ofDigitChars 10 ds 0

/-- An exponent at the start of the text; without digits it is none. -/
def exponentOf : Str → ℤ
  | c :: s =>
    if c = 'e' ∨ c = 'E' then
      match s with
      | '-' :: s => - (digitsNum (s.takeWhile Char.isDigit) : ℤ)
      | '+' :: s => digitsNum (s.takeWhile Char.isDigit)
      | s => digitsNum (s.takeWhile Char.isDigit)
    else 0
  | [] => 0

/-- The digits after a point at the start of the text, and what follows. -/
def fractionOf : Str → Str × Str
  | '.' :: s => (s.takeWhile Char.isDigit, s.dropWhile Char.isDigit)
  | s => ([], s)

/-- The number at the start of a text after its sign (C standard, `strtod`): digits with an optional
point, an optional exponent; 0 without digits. Hexadecimal numbers, `inf` and `nan` are not modelled
(`none`); whatever begins like one is taken for one. -/
def unsignedNum (s : Str) : Option ℚ :=
  let a := s.takeWhile Char.isDigit
  let t := s.dropWhile Char.isDigit
  let (b, u) := fractionOf t
  if a = [] ∧ b = [] then
    if s.head? ∈ [some 'i', some 'I', some 'n', some 'N'] then none else some 0
  else if a = ['0'] ∧ t.head? ∈ [some 'x', some 'X'] then none
  else some (digitsNum (a ++ b) * 10 ^ (exponentOf u - b.length))

/-- The number at the start of a text: blanks, a sign, a number (`strtod`). -/
def numberAt (s : Str) : Option ℚ :=
  match s.dropWhile isBlank with
  | '-' :: t => (unsignedNum t).map (- ·)
  | '+' :: t => unsignedNum t
  | t => unsignedNum t

/-- The C function `atof`. `none` is a number that is not modelled. -/
def atof (s : Str) : Outcome (Option ℚ) :=
  match numberAt s with
  | none => .ok none
  | some q => (double.convert q).map some

/-- `Config::GetFloat` (config.cpp 130–132). -/
def Config.getFloat (key : Str) (d : Config) : Outcome (Option ℚ) := do
  match ← atof (Config.get key d) with
  | none => pure none
  | some q => (single.convert q).map some

end Casbin
