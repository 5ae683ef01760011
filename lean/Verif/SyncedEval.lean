import Verif.Synced
import Verif.Effectors

/-!
# The synchronised enforcer with an evaluator of the caller

Models the overloads of `casbin/enforcer_synced.cpp` that take an evaluator, and
`SyncedEnforceWithMatcher` for a map. The methods of the evaluator may call the enforcer, so they work on the
objects of the caller and on the enforcer. The definitions are read when the request begins: an evaluator
that changes them while it is asked is left out (with the lock held, every method that changes rules is
undefined; `SetModel` takes no lock). The effector is that of the library.
-/

namespace Casbin
namespace SyncedEval

open Custom

variable {σ : Type} [IterOrder]

/-- `Enforcer::EnforceExWithMatcher` with an evaluator (enforcer.cpp 582–584), inherited: no lock is taken. -/
def inherited (ev : EvalImpl (σ × SyncedEnforcer)) (matcher : Str) (explain : Rule) :
    M (σ × SyncedEnforcer) (Bool × Rule) := fun s =>
  let r := Custom.mEnforce ev Custom.default s.2.base.model s.2.base.enabled matcher { obj := s, explain := explain }
  (r.1.map fun b => (b, r.2.explain), r.2.obj)

/-- `SyncedEnforceExWithMatcher` with an evaluator (enforcer_synced.cpp 529–532); `SyncedEnforceEx` (550–553) is
this with the empty matcher. The lock is taken as in `SyncedEnforcer.locked`. -/
def ex (ev : EvalImpl (σ × SyncedEnforcer)) (matcher : Str) (explain : Rule) :
    M (σ × SyncedEnforcer) (Bool × Rule) := fun s =>
  match s.2.held with
  | some _ => (.ub .relock, s)
  | none =>
    let r := inherited ev matcher explain (s.1, { s.2 with held := some .unique })
    (r.1, r.2.1, { r.2.2 with held := none })

/-- `SyncedEnforceWithMatcher` with an evaluator (enforcer_synced.cpp 571–574); `Enforce` (184–187) is this with
the empty matcher. -/
def withMatcher (ev : EvalImpl (σ × SyncedEnforcer)) (matcher : Str) : M (σ × SyncedEnforcer) Bool := do
  let r ← ex ev matcher []
  pure r.1

/-- `SyncedEnforceWithMatcher` for a map (enforcer_synced.cpp 586–589). -/
def withMatcherMap (lib : ExprLib) (matcher : Str) (vals : UMap Str ReqVal) : M SyncedEnforcer Bool :=
  SyncedEnforcer.locked .unique (SyncedEnforcer.plain do
    let r ← Enforcer.enforceExMap lib matcher vals []
    pure r.1)

end SyncedEval
end Casbin
