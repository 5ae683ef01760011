import Verif.Cached
import Verif.Bodies

/-!
# A caching enforcer used by several threads

Models how the methods of `casbin/enforcer_cached.cpp` interleave. The mutex `locker` is held for the
look-up (121–132) and for the store (134–138) only, so each of these is one step; `InvalidateCache`
(140–142) takes no lock, and asking the base class (196, 225) is not protected at all. Here they are
one step each: what is shown to go wrong does so although these steps do not overlap. Overlapping they
are data races; `C52_fails` shows what requests that overlap do to each other.
-/

namespace Casbin
namespace CachedThreads

open Threads CachedEnforcer

/-- A call made by a thread. `change` is any method of the base class that asks no request. -/
inductive Use
  | ask (matcher : Str) (vals : List ReqVal)
  | change (f : Enforcer → Enforcer)
  | enable (b : Bool)
  | invalidate

/-- Where a call stands: before its first step; before the look-up; before asking, with the cache off
or after an unsuccessful look-up; before the store; before the return. -/
inductive Stand
  | begun
  | look
  | plain
  | missed
  | store (b : Bool)
  | done (o : Outcome Ret)

variable [IterOrder]

/-- `EnforceWithMatcher` for a list or a vector (enforcer_cached.cpp 176–227) and `Enforce` (150–158),
which calls it with an empty matcher. -/
def askStep (lib : ExprLib) (matcher : Str) (vals : List ReqVal) (c : CachedEnforcer) :
    Stand → Stand × CachedEnforcer
  | .begun => (if c.enableCache then .look else .plain, c)
  | .look =>
    match c.cache.get (key matcher vals) with
    | some b => (.done (.ok (.bool b)), c)
    | none => (.missed, c)
  | .plain =>
    let x := inherited (Enforcer.enforceWithMatcher lib matcher vals) c
    (.done (x.1.map Ret.bool), x.2)
  | .missed =>
    let x := inherited (Enforcer.enforceWithMatcher lib matcher vals) c
    match x.1 with
    | .ok b => (.store b, x.2)
    | o => (.done (o.map Ret.bool), x.2)
  | .store b => (.done (.ok (.bool b)), { c with cache := c.cache.set (key matcher vals) b })
  | .done o => (.done o, c)

/-- One step of a call. -/
def step (lib : ExprLib) : Use → Stand → CachedEnforcer → Stand × CachedEnforcer
  | .ask m v, s, c => askStep lib m v c s
  | .change f, .begun, c => (.done (.ok .unit), (inherited (M.modify f) c).2)
  | .enable b, .begun, c => (.done (.ok .unit), (setEnableCache b c).2)
  | .invalidate, .begun, c => (.done (.ok .unit), (invalidateCache c).2)
  | _, s, c => (s, c)

/-- A call as a body for `Threads`; there is no lock around it. -/
def body (lib : ExprLib) (k : Use) : Op CachedEnforcer (Outcome Ret) where
  kind := none
  Loc := Stand
  init := .begun
  step := step lib k
  out
    | .done o => returned o
    | _ => none

end CachedThreads
end Casbin
