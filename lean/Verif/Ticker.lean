import Verif.Base

/-!
# The timer behind automatic loading, with its threads

Models `casbin/util/ticker.cpp`: the thread that called `start` and later calls `stop`, the thread of
`timer_loop`, and the tasks `_onTick` it launches with `std::async`. One ticker lives from one
`StartAutoLoadPolicy` to the next (enforcer_synced.cpp 105–116 makes a new one each time), so `start`
and `stop` are called once here.

A task takes some number of steps, which is chosen when it is launched; in the library it is one
`LoadPolicy` (enforcer_synced.cpp 109–112), so this assumes that the policy lock is not kept for ever
by somebody else. Time is not modelled: the sleep ends at some time.
-/

namespace Casbin
namespace Ticker

/-- Who holds `_tickIntervalMutex`. -/
inductive Who
  | timer
  | stopper
  deriving DecidableEq, Repr

/-- Where `timer_loop` stands (ticker.cpp 52–60). -/
inductive TimerPc
  /-- before the test of `while (_running)` -/
  | test
  /-- the test succeeded; before taking the mutex -/
  | want
  /-- holds the mutex, before launching the task -/
  | inside
  /-- holds the mutex, sleeps -/
  | sleep
  /-- has returned: its future is ready -/
  | done
  deriving DecidableEq, Repr

/-- Where the thread that calls `stop` stands (ticker.cpp 41–50). -/
inductive StopPc
  /-- has not called `stop` -/
  | idle
  /-- has cleared `_running`; before taking the mutex -/
  | want
  /-- holds the mutex, waits for the futures of the timer loop -/
  | waitTimer
  /-- holds the mutex, waits for the futures of the tasks -/
  | waitTicks
  /-- `stop` has returned -/
  | returned
  deriving DecidableEq, Repr

/-- A task launched by the timer, with the number of steps it has still to make. -/
inductive Task
  | launched (work : Nat)
  | running (work : Nat)
  | finished
  deriving DecidableEq, Repr

/-- The members of the ticker and the threads. -/
structure State where
  running : Bool
  mutex : Option Who
  timer : TimerPc
  stop : StopPc
  tasks : List Task
  deriving DecidableEq, Repr

/-- After the constructor and `start` (ticker.cpp 26–39): `_running` is set and the timer loop has been
launched. -/
def State.start : State :=
  { running := true, mutex := none, timer := .test, stop := .idle, tasks := [] }

/-- What a step does, as far as it matters: a task begins its work. -/
inductive Label
  | begin
  | other
  deriving DecidableEq, Repr

/-- One step of one of the threads. -/
inductive Step : State → Label → State → Prop
  /-- `while (_running)` -/
  | testTrue {s : State} : s.timer = .test → s.running = true →
      Step s .other { s with timer := .want }
  | testFalse {s : State} : s.timer = .test → s.running = false →
      Step s .other { s with timer := .done }
  /-- `std::lock_guard<std::mutex> lock(_tickIntervalMutex)` in the loop -/
  | timerLock {s : State} : s.timer = .want → s.mutex = none →
      Step s .other { s with timer := .inside, mutex := some .timer }
  /-- `_futures2.push_back(std::async(std::launch::async, _onTick))` -/
  | launch {s : State} (work : Nat) : s.timer = .inside →
      Step s .other { s with timer := .sleep, tasks := s.tasks ++ [.launched work] }
  /-- the end of `sleep_for` and of the scope of the lock -/
  | wake {s : State} : s.timer = .sleep →
      Step s .other { s with timer := .test, mutex := none }
  /-- a task begins, works, finishes -/
  | begin {s : State} {k : List Task} {n : Nat} {l : List Task} :
      s.tasks = k ++ .launched n :: l →
      Step s .begin { s with tasks := k ++ .running n :: l }
  | work {s : State} {k : List Task} {n : Nat} {l : List Task} :
      s.tasks = k ++ .running (n + 1) :: l →
      Step s .other { s with tasks := k ++ .running n :: l }
  | finish {s : State} {k l : List Task} : s.tasks = k ++ .running 0 :: l →
      Step s .other { s with tasks := k ++ .finished :: l }
  /-- `_running = false` -/
  | clear {s : State} : s.stop = .idle →
      Step s .other { s with running := false, stop := .want }
  /-- `std::lock_guard<std::mutex> lock(_tickIntervalMutex)` in `stop` -/
  | stopLock {s : State} : s.stop = .want → s.mutex = none →
      Step s .other { s with stop := .waitTimer, mutex := some .stopper }
  /-- `for (auto&& f : _futures1) f.wait()` -/
  | timerEnded {s : State} : s.stop = .waitTimer → s.timer = .done →
      Step s .other { s with stop := .waitTicks }
  /-- `for (auto&& f : _futures2) f.wait()`, then the lock is released -/
  | tasksEnded {s : State} : s.stop = .waitTicks → (∀ t ∈ s.tasks, t = .finished) →
      Step s .other { s with stop := .returned, mutex := none }

/-- Any number of steps. -/
inductive Steps : State → State → Prop
  | refl {s : State} : Steps s s
  | tail {s s' s'' : State} {l : Label} : Steps s s' → Step s' l s'' → Steps s s''

end Ticker

/-- The members of `SyncedEnforcer` for automatic loading (enforcer_synced.h 33–36): the flag and
whether there is a ticker. -/
structure AutoLoad where
  running : Bool
  ticker : Bool
  deriving DecidableEq, Repr

namespace AutoLoad

/-- As the constructors leave them (enforcer_synced.cpp 41–89). -/
def new : AutoLoad := { running := false, ticker := false }

/-- `StartAutoLoadPolicy` (enforcer_synced.cpp 105–116); whether a ticker is started. The old ticker,
if any, has been stopped. -/
def start : M AutoLoad Bool := do
  let a ← M.get
  if a.running then pure false
  else do
    M.modify fun a => { a with running := true, ticker := true }
    pure true

/-- `StopAutoLoadPolicy` (enforcer_synced.cpp 124–127): `ticker` is dereferenced; here the call of
`Ticker::stop` returns. -/
def stop : M AutoLoad Unit := do
  let a ← M.get
  if a.ticker then M.modify fun a => { a with running := false }
  else M.ub .nullDeref

end AutoLoad
end Casbin
