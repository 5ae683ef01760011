import Verif.Exprtk
import Verif.KeyPatterns
import Verif.Builtins

/-!
# What is known of the expression library

`Faithful` collects what is known of exprtk from its source: it reads texts as `Exprtk.read` says and
the operators of matchers mean what they should. `stdLib` is a library with these properties whose
functions are the modelled ones.
-/

namespace Casbin

/-- The expression library reads texts as exprtk does, and its operators are those of exprtk:
`==` and `!=` (exprtk.hpp 15610–15640), `and` and `or` (15642–15670), the value of several
statements is that of the last, and that of a string from a function is 0 (`Exprtk.numeric`). Nothing is assumed of texts outside the modelled part. -/
structure Faithful (lib : ExprLib) : Prop where
  reads : ∀ t e, Exprtk.read t = .ok e → lib.parse t = some e
  refuses : ∀ t, Exprtk.read t = .reject → lib.parse t = none
  eq : ∀ a b, lib.prim c!"==" [.str a, .str b] = Val.ofBool (decide (a = b))
  ne : ∀ a b, lib.prim c!"!=" [.str a, .str b] = Val.ofBool (decide (a ≠ b))
  eqNum : ∀ a b, lib.prim c!"==" [.num a, .num b] = Val.ofBool (decide (a = b))
  and : ∀ a b, lib.prim c!"and" [a, b] = Val.ofBool (a.truthy && b.truthy)
  or : ∀ a b, lib.prim c!"or" [a, b] = Val.ofBool (a.truthy || b.truthy)
  last : ∀ vs v, lib.prim c!";" (vs ++ [v]) = v
  value : ∀ s, lib.prim c!"value" [.str s] = .num 0

/-- A boolean result as a value. -/
def boolVal (o : Outcome Bool) : Outcome Val := o.map Val.ofBool
/-- A string result as a value. -/
def strVal (o : Outcome Str) : Outcome Val := o.map Val.str

/-- The functions registered by `LoadFunctions` (evaluator.cpp 67–77, exprtk_config.h 263–295). -/
def stdBuiltin (rx : RxLib) : Builtin → List Str → Outcome Val
  | .keyMatch, [a, b] => .ok (Val.ofBool (keyMatch a b))
  | .keyMatch2, [a, b] => boolVal (keyMatch2 rx a b)
  | .keyMatch3, [a, b] => boolVal (keyMatch3 rx a b)
  | .keyMatch4, [a, b] => boolVal (keyMatch4 rx a b)
  | .regexMatch, [a, b] => boolVal (regexMatch rx a b)
  | .ipMatch, [a, b] => boolVal (ipMatch a b)
  | .keyGet, [a, b] => .ok (.str (keyGet a b))
  | .keyGet2, [a, b, v] => strVal (keyGet2 rx a b v)
  | .keyGet3, [a, b, v] => strVal (keyGet3 rx a b v)
  | _, _ => .ok (.num 0)

/-- A library with the modelled reading and functions. -/
def stdLib (rx : RxLib) : ExprLib where
  parse t :=
    match Exprtk.read t with
    | .ok e => some e
    | _ => none
  prim o vs :=
    if o = c!"==" then
      match vs with
      | [a, b] => Val.ofBool (decide (a = b))
      | _ => .nan
    else if o = c!"!=" then
      match vs with
      | [a, b] => Val.ofBool (decide (a ≠ b))
      | _ => .nan
    else if o = c!"and" then Val.ofBool (vs.all Val.truthy)
    else if o = c!"or" then Val.ofBool (vs.any Val.truthy)
    else if o = c!";" then
      match vs.getLast? with
      | some v => v
      | none => .nan
    else if o = c!"value" then .num 0
    else .nan
  builtin := stdBuiltin rx

theorem stdLib_faithful (rx : RxLib) : Faithful (stdLib rx) where
  reads t e h := by simp [stdLib, h]
  refuses t h := by simp [stdLib, h]
  eq a b := by simp [stdLib]
  ne a b := by simp [stdLib]
  eqNum a b := by simp [stdLib]
  and a b := by simp [stdLib]
  or a b := by simp [stdLib]
  last vs v := by simp [stdLib]
  value s := by simp [stdLib]

end Casbin
