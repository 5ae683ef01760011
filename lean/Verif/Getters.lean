import Verif.ModelDef

/-!
# The typed getters of a configuration

Models the getters of `casbin/config/config.cpp` but `GetFloat` (130–132, in `Floats.lean`).
`GetString` is `Config.get`.
-/

namespace Casbin

/-- The C function `atoi` as the C standard describes it (used in config.cpp 127): blanks, an optional
sign and decimal digits; whatever follows is ignored, and without digits the result is 0. `isspace`
accepts the characters of `isBlank`. The behaviour is undefined when the value does not fit. -/
def atoi (s : Str) : Outcome Int :=
  let t := s.dropWhile isBlank
  let value (ds : Str) : Nat := Nat.ofDigitChars 10 (ds.takeWhile Char.isDigit) 0
  let n : Int :=
    match t with
    | '-' :: ds => - (value ds : Int)
    | '+' :: ds => value ds
    | ds => value ds
  if -2147483648 ≤ n ∧ n ≤ 2147483647 then .ok n else .ub .overflow

namespace Config

/-- `Config::GetBool` (config.cpp 122–124). -/
def getBool (key : Str) (d : Config) : Bool := decide (get key d = c!"true")

/-- `Config::GetInt` (config.cpp 126–128). -/
def getInt (key : Str) (d : Config) : Outcome Int := atoi (get key d)

/-- `Config::GetStrings` (config.cpp 138–145). -/
def getStrings (key : Str) (d : Config) : List Str :=
  let v := get key d
  if v = [] then [] else split v c!","

end Config
end Casbin
