import Verif.Synced

/-!
# Threads that read model files

The mutex `Config::mtx_lock` (casbin/config/config.cpp 32), which is one for the whole program, together with the
locks of any number of synchronised enforcers (casbin/enforcer_synced.cpp), used by any number of threads. What the
calls compute is left out (Process.lean, Threads.lean); here it matters who waits for whom. That a waiting writer
may hold up readers of a `std::shared_mutex` is left out too: it only makes threads wait longer.
-/

namespace Casbin
namespace ConfigThreads

/-- What a thread does: `parse`: make an enforcer or a model from a file, or read a configuration
(`Config::Parse`, config.cpp 45–57; a file that cannot be opened reads as an empty one); `Config::Set` (147–166)
always unlocks and is a `parse` of a good file here; `load`: `SyncedEnforcer::LoadModel` (enforcer_synced.cpp 141–144); `call`:
any other method of a synchronised enforcer that takes its lock once. `e`: which enforcer. `bad`: the file is
malformed. -/
inductive Job (ε : Type)
  | parse (bad : Bool)
  | load (e : ε) (bad : Bool)
  | call (e : ε) (k : LockKind)
  deriving DecidableEq

variable {τ ε : Type} [DecidableEq τ] [DecidableEq ε]

/-- The thread that locked the mutex last and has not unlocked it; the owners of each enforcer's lock; for each
thread its jobs and how far it is in the first of them. -/
structure State (τ ε : Type) where
  cfg : Option τ
  writer : ε → Option τ
  readers : ε → List τ
  jobs : τ → List (Job ε)
  pos : τ → Nat

/-- The function with one value changed. -/
def upd {β α : Type} [DecidableEq β] (f : β → α) (i : β) (a : α) : β → α := fun j => if j = i then a else f j

/-- The thread goes on inside its job. -/
def State.goto (s : State τ ε) (i : τ) (n : Nat) : State τ ε := { s with pos := upd s.pos i n }

/-- The thread is done with its job. -/
def State.finish (s : State τ ε) (i : τ) (rest : List (Job ε)) : State τ ε :=
  { s with jobs := upd s.jobs i rest, pos := upd s.pos i 0 }

/-- One step of a thread; none if it has to wait or has nothing to do.
`parse`: `mtx_lock.lock()` (config.cpp 46), then `ParseBuffer` and `mtx_lock.unlock()` (54, 55); the exception for
a malformed file skips the `unlock`. A thread that locks the mutex it has left locked waits like any other here; for
`std::mutex` that is undefined, and with the usual implementations it waits.
`load`: `unique_lock` (enforcer_synced.cpp 142), the two steps of `parse`, then the rest of `LoadModel`; the
exception releases the enforcer's lock.
`call`: the lock, then the body, then the release. -/
def step (i : τ) (s : State τ ε) : Option (State τ ε) :=
  match s.jobs i, s.pos i with
  | [], _ => none
  | .parse _ :: _, 0 => if s.cfg = none then some ({ s with cfg := some i }.goto i 1) else none
  | .parse bad :: rest, _ => some ({ s with cfg := if bad then s.cfg else none }.finish i rest)
  | .load e _ :: _, 0 =>
    if s.writer e = none ∧ s.readers e = [] then some ({ s with writer := upd s.writer e (some i) }.goto i 1)
    else none
  | .load _ _ :: _, 1 => if s.cfg = none then some ({ s with cfg := some i }.goto i 2) else none
  | .load e true :: rest, 2 => some ({ s with writer := upd s.writer e none }.finish i rest)
  | .load _ false :: _, 2 => some ({ s with cfg := none }.goto i 3)
  | .load e _ :: rest, _ => some ({ s with writer := upd s.writer e none }.finish i rest)
  | .call e .shared :: _, 0 =>
    if s.writer e = none then some ({ s with readers := upd s.readers e (i :: s.readers e) }.goto i 1) else none
  | .call e .shared :: rest, _ =>
    some ({ s with readers := upd s.readers e ((s.readers e).filter (· ≠ i)) }.finish i rest)
  | .call e .unique :: _, 0 =>
    if s.writer e = none ∧ s.readers e = [] then some ({ s with writer := upd s.writer e (some i) }.goto i 1)
    else none
  | .call e .unique :: rest, _ => some ({ s with writer := upd s.writer e none }.finish i rest)

/-- Nobody holds anything. -/
def start (jobs : τ → List (Job ε)) : State τ ε :=
  { cfg := none, writer := fun _ => none, readers := fun _ => [], jobs := jobs, pos := fun _ => 0 }

/-- The states after some steps of some threads in any order. -/
inductive Reach (s : State τ ε) : State τ ε → Prop
  | refl : Reach s s
  | tail {t u : State τ ε} (i : τ) : Reach s t → step i t = some u → Reach s u

end ConfigThreads
end Casbin
