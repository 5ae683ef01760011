import Verif.Calls
import Verif.CustomAgree
import Verif.CustomRun

/-!
# The effector as a member of the enforcer

`Enforcer::m_eft` (include/casbin/enforcer.h 37) is set by `SetEffector` and, to a new
`DefaultEffector`, by `Initialize`; `m_enforce` calls it. `Enforce.lean` has the effector of the
library built in; here it is the member. An effector works on objects of its own (type `ω`) and does not
touch the evaluator, the role managers or the model.
-/

namespace Casbin

open Custom

/-- An enforcer with its member `m_eft` (`none`: a null pointer) and the objects of the effectors of the
user. -/
structure Owner (ω : Type) where
  base : Enforcer
  eft : Option (EffImpl ω)
  own : ω

namespace Owner

variable {ω : Type}

/-- A method of the evaluator, the objects of the effector beside it. -/
def left {σ α : Type} (f : M σ α) : M (σ × ω) α := fun s => ((f s.1).1, (f s.1).2, s.2)

/-- A method of the effector, the objects of the evaluator beside it. -/
def right {σ α : Type} (f : M ω α) : M (σ × ω) α := fun s => ((f s.2).1, s.1, (f s.2).2)

/-- An evaluator with the objects of the effector beside its own. -/
def evLeft {σ : Type} (ev : EvalImpl σ) : EvalImpl (σ × ω) where
  eval t := left (ev.eval t)
  initialObject o := left (ev.initialObject o)
  pushString t p v := left (ev.pushString t p v)
  loadFunctions := left ev.loadFunctions
  loadG rm n k := left (ev.loadG rm n k)
  isBool := left ev.isBool
  getBoolean := left ev.getBoolean
  getFloat := left ev.getFloat
  clean := left ev.clean
  requestValues := left ev.requestValues

/-- `m_eft->MergeEffects(…)` (enforcer.cpp 174, 215): a call through a null pointer is undefined. -/
def effRight {σ : Type} : Option (EffImpl ω) → EffImpl (σ × ω)
  | some ef => { merge := fun x es ms i n => right (ef.merge x es ms i n) }
  | none => { merge := fun _ _ _ _ _ => M.ub .nullDeref }

/-- Run a method that does not look at the effector. -/
def onBase {α : Type} (f : M Enforcer α) : M (Owner ω) α := fun W =>
  ((f W.base).1, { W with base := (f W.base).2 })

/-- A request on the enforcer's own evaluator and effector: pushing the values, then `m_enforce`
(enforcer.cpp 42–236). -/
def request [IterOrder] (lib : ExprLib) (push : M Evaluator Unit) (matcher : Str) (explain : Rule) :
    M (Owner ω) (Bool × Rule) := fun W =>
  let r := (do
    CallSt.on (left (Custom.onEv push))
    Custom.mEnforce (evLeft (exprtk lib)) (effRight W.eft) W.base.model W.base.enabled matcher)
      { obj := ((W.base.evaluator, W.base.heap), W.own), explain := explain }
  (r.1.map (fun b => (b, r.2.explain)),
    { W with base := { W.base with eval := some r.2.obj.1.1, heap := r.2.obj.1.2 }
             own := r.2.obj.2 })

/-- `EnforceExWithMatcher` for a list (enforcer.cpp 586–652), as `Enforcer.enforceEx`. -/
def enforceEx [IterOrder] (lib : ExprLib) (matcher : Str) (vals : List ReqVal) (explain : Rule) :
    M (Owner ω) (Bool × Rule) := fun W =>
  match W.base.model.find c!"r" c!"r" with
  | none => (.ub .nullDeref, W)
  | some r =>
    if vals.length ≠ r.tokens.length then (.ok (false, explain), W)
    else request lib (pushRequest r.tokens vals) matcher explain W

/-- `EnforceExWithMatcher` for a map (enforcer.cpp 653–672), as `Enforcer.enforceExMap`. -/
def enforceExMap [IterOrder] (lib : ExprLib) (matcher : Str) (vals : UMap Str ReqVal)
    (explain : Rule) : M (Owner ω) (Bool × Rule) :=
  request lib (pushMap (IterOrder.iter vals)) matcher explain

/-- `EnforceWithMatcher` (enforcer.cpp 544–555). -/
def enforceWithMatcher [IterOrder] (lib : ExprLib) (matcher : Str) (vals : List ReqVal) :
    M (Owner ω) Bool := do
  let r ← enforceEx lib matcher vals []
  pure r.1

/-- `BatchEnforceWithMatcher` (enforcer.cpp 686–693). -/
def batch [IterOrder] (lib : ExprLib) (matcher : Str) : List (List ReqVal) → M (Owner ω) (List Bool)
  | [] => pure []
  | r :: rs => do
    let b ← enforceWithMatcher lib matcher r
    let bs ← batch lib matcher rs
    pure (b :: bs)

/-- The loop of `GetImplicitUsersForPermission` (rbac_api.cpp 237–243). -/
def usersLoop [IterOrder] (lib : ExprLib) (perm : List Str) : List Str → M (Owner ω) (List Str)
  | [] => pure []
  | s :: ss => do
    let p0 ← M.lift (vecAt perm 0)
    let p1 ← M.lift (vecAt perm 1)
    let b ← enforceWithMatcher lib [] [.str s, .str p0, .str p1]
    let rest ← usersLoop lib perm ss
    pure (if b then s :: rest else rest)

/-- `GetImplicitUsersForPermission` (rbac_api.cpp 227–247). -/
def implicitUsers [IterOrder] (lib : ExprLib) (perm : List Str) : M (Owner ω) (List Str) := do
  let pSubjects ← onBase Enforcer.getAllSubjects
  let gInherit ← onBase (Enforcer.onModel (Model.getValuesForFieldAllTypes c!"g" 1))
  let gSubjects ← onBase (Enforcer.onModel (Model.getValuesForFieldAllTypes c!"g" 0))
  let subjects := arrayRemoveDuplicates (pSubjects ++ gSubjects)
  let res ← usersLoop lib perm subjects
  pure (setSubtract res gInherit)

/-- The call makes the requests of the enforcer, or a new effector. -/
def run [IterOrder] (lib : ExprLib) : Method → M (Owner ω) Answer
  | .ask matcher vals => do let b ← enforceWithMatcher lib matcher vals; pure (.bool b)
  | .askEx matcher vals ex => do let r ← enforceEx lib matcher vals ex; pure (.explained r.1 r.2)
  | .askMap matcher vals ex => do
    let r ← enforceExMap lib matcher vals ex
    pure (.explained r.1 r.2)
  | .batch matcher rs => do let bs ← batch lib matcher rs; pure (.bools bs)
  | .implicitUsers perm => do let ns ← implicitUsers lib perm; pure (.names ns)
  -- `SetModel` calls `Initialize`, which makes a new effector (enforcer.cpp 342, 376–380)
  | .setModel m => do
    onBase (Enforcer.setModel m)
    M.modify fun W => { W with eft := some Custom.default }
    pure .done
  | c => onBase (c.run lib)

/-- A call, or `SetEffector` (enforcer.cpp 417–419), or `LoadModel` (362–368), `file` being what the
reading of the model file gives. -/
inductive Step (ω : Type)
  | method (c : Method)
  | setEffector (ef : Option (EffImpl ω))
  | loadModel (file : Outcome Model)

/-- One step, with what the caller sees. -/
def Step.run [IterOrder] (lib : ExprLib) : Step ω → M (Owner ω) Answer
  | .method c => Owner.run lib c
  | .setEffector ef => do
    M.modify fun W => { W with eft := ef }
    pure .done
  | .loadModel file => do
    let m ← M.lift file
    Owner.run lib (.setModel m)

/-- How each step of a history ended. The history goes on after an exception. -/
def answers [IterOrder] (lib : ExprLib) : List (Step ω) → Owner ω → List (Outcome Answer)
  | [], _ => []
  | c :: cs, W => (c.run lib W).1 :: answers lib cs (c.run lib W).2

/-- The enforcer after a history. -/
def after [IterOrder] (lib : ExprLib) : List (Step ω) → Owner ω → Owner ω
  | [], W => W
  | c :: cs, W => after lib cs (c.run lib W).2

/-- A new enforcer (enforcer.cpp 269–280, 340–350): the effector of the library. -/
def new (E : Enforcer) (own : ω) : Owner ω := { base := E, eft := some Custom.default, own := own }

end Owner
end Casbin
