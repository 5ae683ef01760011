import Verif.Evaluator

/-!
# The function factory

Models `ExprtkFunctionFactory::GetExprtkFunction` (exprtk_config.h 244–305) with its static pool of
function objects, which all evaluators of the process share.
-/

namespace Casbin
namespace Factory

/-- `ExprtkFunctionType` (exprtk_config.h 230–242). -/
inductive Kind
  | unknown | gfunction | keyMatch | keyMatch2 | keyMatch3 | keyMatch4 | regexMatch | ipMatch
  | keyGet | keyGet2 | keyGet3
  deriving DecidableEq, Repr

/-- The number of a kind, as written into the key. -/
def Kind.number : Kind → Str
  | .unknown => c!"0" | .gfunction => c!"1" | .keyMatch => c!"2" | .keyMatch2 => c!"3"
  | .keyMatch3 => c!"4" | .keyMatch4 => c!"5" | .regexMatch => c!"6" | .ipMatch => c!"7"
  | .keyGet => c!"8" | .keyGet2 => c!"9" | .keyGet3 => c!"10"

/-- The object made for a kind: the function `FunRef` with its number of parameters. `rm` is the
identity of the role manager. -/
structure Made where
  fn : FunRef
  narg : Nat
  deriving DecidableEq, Repr

/-- The `switch` (exprtk_config.h 263–295). -/
def make (k : Kind) (narg : Nat) (rm : Option Nat) : Option Made :=
  match k with
  | .unknown => none
  | .gfunction => some ⟨.g rm narg, narg⟩
  | .keyMatch => some ⟨.builtin .keyMatch, narg⟩
  | .keyMatch2 => some ⟨.builtin .keyMatch2, narg⟩
  | .keyMatch3 => some ⟨.builtin .keyMatch3, narg⟩
  | .keyMatch4 => some ⟨.builtin .keyMatch4, narg⟩
  | .regexMatch => some ⟨.builtin .regexMatch, narg⟩
  | .ipMatch => some ⟨.builtin .ipMatch, narg⟩
  | .keyGet => some ⟨.builtin .keyGet, narg⟩
  | .keyGet2 => some ⟨.builtin .keyGet2, narg⟩
  | .keyGet3 => some ⟨.builtin .keyGet3, narg⟩

/-- `pool.clear()` (exprtk_config.h 302). -/
def clear (_ : UMap Str Made) : UMap Str Made := []

/-- `GetExprtkFunction` (exprtk_config.h 246–303): a pooled object is returned when there is one for
the key; otherwise a new one is made, entered, and the pool emptied. -/
def getFunction (k : Kind) (narg : Nat) (rm : Option Nat) :
    M (UMap Str Made) (Option Made) := fun pool =>
  let key := k.number ++ List.replicate narg 'S'
  match pool.get key with
  | some f => (.ok (some f), pool)
  | none =>
    let pool' := match make k narg rm with
      | some f => pool.set key f
      | none => pool
    (.ok (make k narg rm), clear pool')

/-- A call. -/
structure Call where
  kind : Kind
  narg : Nat
  rm : Option Nat

/-- Several calls in a row, by whichever evaluators of the process. -/
def calls : List Call → M (UMap Str Made) (List (Option Made))
  | [] => pure []
  | c :: cs => do
    let f ← getFunction c.kind c.narg c.rm
    let fs ← calls cs
    pure (f :: fs)

/-- `LoadFunctions` (evaluator.cpp 67–77): the names with the objects registered for them. -/
def loadFunctions : M (UMap Str Made) (List (Str × Option Made)) := do
  let a ← getFunction .keyMatch 2 none
  let b ← getFunction .keyMatch2 2 none
  let c ← getFunction .keyMatch3 2 none
  let d ← getFunction .keyMatch4 2 none
  let e ← getFunction .regexMatch 2 none
  let f ← getFunction .ipMatch 2 none
  let g ← getFunction .keyGet 2 none
  let h ← getFunction .keyGet2 3 none
  let i ← getFunction .keyGet3 3 none
  pure [(c!"keyMatch", a), (c!"keyMatch2", b), (c!"keyMatch3", c), (c!"keyMatch4", d),
    (c!"regexMatch", e), (c!"ipMatch", f), (c!"keyGet", g), (c!"keyGet2", h), (c!"keyGet3", i)]

/-- The object `LoadGFunction` registers (evaluator.cpp 79–82). -/
def loadGFunction (rm : Option Nat) (narg : Nat) : M (UMap Str Made) (Option Made) :=
  getFunction .gfunction narg rm

end Factory
end Casbin
