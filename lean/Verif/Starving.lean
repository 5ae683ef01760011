import Verif.Synced

/-!
# Threads that call a synchronised enforcer over and over

`policyMutex` is a `std::shared_mutex` (include/casbin/enforcer_synced.h 32), taken with `unique_lock` or `shared_lock`
(casbin/enforcer_synced.cpp 141–589). The standard does not say which of the waiting threads gets the lock; a
thread that asks for it shared gets it whenever nobody has it for itself, also while another one waits. Here
threads make calls without end; what the calls compute is in Threads.lean. The body of a call is one step, together
with the release.
-/

namespace Casbin
namespace Starving

variable {τ : Type} [DecidableEq τ]

/-- For each thread the number of calls it has finished and whether it is inside the next one. -/
structure State (τ : Type) where
  count : τ → Nat
  inside : τ → Bool

/-- How the calls of each thread take the lock: `prog i n` is the call number `n` of thread `i`. -/
abbrev Prog (τ : Type) := τ → Nat → LockKind

/-- Nobody has called yet. -/
def start : State τ := { count := fun _ => 0, inside := fun _ => false }

/-- `lock()` succeeds when nobody has the lock, `lock_shared()` when nobody has it for itself. -/
def free (p : Prog τ) (s : State τ) : LockKind → Prop
  | .unique => ∀ j, s.inside j = false
  | .shared => ∀ j, s.inside j = true → p j (s.count j) = .shared

/-- One step of a thread: it gets the lock for its next call, or is done with the call and gives the lock back. -/
inductive Step (p : Prog τ) (i : τ) (s : State τ) : State τ → Prop
  | acquire : s.inside i = false → free p s (p i (s.count i)) →
      Step p i s { s with inside := fun j => if j = i then true else s.inside j }
  | release : s.inside i = true →
      Step p i s { count := fun j => if j = i then s.count i + 1 else s.count j,
                   inside := fun j => if j = i then false else s.inside j }

/-- An execution without end: the states and who takes each step. -/
structure Run (p : Prog τ) where
  at_ : Nat → State τ
  who : Nat → τ
  first : at_ 0 = start
  next : ∀ n, Step p (who n) (at_ n) (at_ (n + 1))

end Starving
end Casbin
