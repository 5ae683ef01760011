import Verif.Ticker

/-!
# The end of a synced enforcer

Models the destruction of a `SyncedEnforcer` (include/casbin/enforcer_synced.h 31–36) that may be
loading automatically. The class declares no destructor, so its members are destroyed in the reverse
order of their declaration and then the base class (`[class.dtor]` of the C++ standard). The owner calls
`StartAutoLoadPolicy` and `StopAutoLoadPolicy` and destroys the enforcer, all from one thread
(several threads: AutoThreads.lean).
-/

namespace Casbin
namespace Destroy

/-- What a synced enforcer consists of. -/
inductive Part
  /-- the base class `Enforcer` -/
  | base
  /-- `policyMutex` -/
  | mutex
  /-- `autoLoadRunning` -/
  | flag
  /-- `n` -/
  | counter
  /-- `watcher` -/
  | watcher
  /-- `ticker` -/
  | ticker
  deriving DecidableEq, Repr

/-- The parts in the order of their construction (enforcer_synced.h 31–36). -/
def parts : List Part := [.base, .mutex, .flag, .counter, .watcher, .ticker]

/-- What a task uses (enforcer_synced.cpp 109–112, 156–159): `SyncedEnforcer::LoadPolicy` locks
`policyMutex` and calls `Enforcer::LoadPolicy`; then `++n`. -/
def usedByTask : List Part := [.base, .mutex, .counter]

/-- The enforcer and its ticker. -/
structure State where
  /-- the ticker that `ticker` points to; none before the first start -/
  tick : Option Ticker.State
  /-- the parts that are destroyed -/
  gone : List Part
  /-- the parts the destructor has still to destroy, in order; none before it is called -/
  todo : Option (List Part)
  /-- a task has used a part that is destroyed, or a thread of the ticker goes on without the ticker -/
  fault : Bool
  deriving DecidableEq, Repr

/-- As the constructors leave it (enforcer_synced.cpp 35–89). -/
def State.new : State := { tick := none, gone := [], todo := none, fault := false }

/-- A step of a task. -/
def ofTask (t t' : Ticker.State) : Bool := decide (t.timer = t'.timer ∧ t.stop = t'.stop)

/-- Whether a step of the ticker's threads uses something that is destroyed. -/
def bad (gone : List Part) (t t' : Ticker.State) : Bool :=
  if ofTask t t' then usedByTask.any (· ∈ gone) else decide (.ticker ∈ gone)

/-- The ticker is at rest: never made, or its `stop` has returned. -/
def AtRest (s : State) : Prop := ∀ t, s.tick = some t → t.stop = .returned

/-- One step; `order` is what the destructor that is called destroys, in this order. -/
inductive Step (order : List Part) : State → State → Prop
  /-- the timer, a task, or a `stop` under way -/
  | thread {s : State} {t t' : Ticker.State} {l : Ticker.Label} : s.tick = some t → Ticker.Step t l t' →
      t.stop = t'.stop ∨ t.stop ≠ .idle →
      Step order s { s with tick := some t', fault := s.fault || bad s.gone t t' }
  /-- `StartAutoLoadPolicy` when none is running: a new ticker; the one before, which is at rest, is
  destroyed (enforcer_synced.cpp 113) -/
  | start {s : State} : s.todo = none → AtRest s → Step order s { s with tick := some .start }
  /-- `StopAutoLoadPolicy` begins (enforcer_synced.cpp 125) -/
  | stop {s : State} {t t' : Ticker.State} {l : Ticker.Label} : s.todo = none → s.tick = some t →
      t.stop = .idle → Ticker.Step t l t' → t'.stop ≠ .idle → Step order s { s with tick := some t' }
  /-- the destructor is called, by the thread that makes all the calls: it is in none -/
  | destroy {s : State} : s.todo = none → (∀ t, s.tick = some t → t.stop = .idle ∨ t.stop = .returned) →
      Step order s { s with todo := some order }
  /-- `~Ticker` begins `stop` (ticker.cpp 31–33) -/
  | tickerStop {s : State} {ps : List Part} {t t' : Ticker.State} {l : Ticker.Label} :
      s.todo = some (.ticker :: ps) → s.tick = some t → t.stop = .idle → Ticker.Step t l t' →
      t'.stop ≠ .idle → Step order s { s with tick := some t' }
  /-- `~Ticker` ends: `stop` has returned (a second `stop` returns at once), or `ticker` is null -/
  | ticker {s : State} {ps : List Part} : s.todo = some (.ticker :: ps) → AtRest s →
      Step order s { s with todo := some ps, gone := .ticker :: s.gone }
  /-- another part is destroyed -/
  | part {s : State} {p : Part} {ps : List Part} : s.todo = some (p :: ps) → p ≠ .ticker →
      Step order s { s with todo := some ps, gone := p :: s.gone }

/-- Any number of steps. -/
inductive Steps (order : List Part) : State → State → Prop
  | refl {s : State} : Steps order s s
  | tail {s s' s'' : State} : Steps order s s' → Step order s' s'' → Steps order s s''

/-- What the destructor of `SyncedEnforcer` destroys. -/
def whole : List Part := parts.reverse

/-- What is destroyed by `delete` of a pointer to `Enforcer`, whose destructor is not virtual
(include/casbin/enforcer.h 103, and `IEnforcer` has none, include/casbin/enforcer_interface.h). The
standard leaves this undefined; compilers destroy the base class only. -/
def baseOnly : List Part := [.base]

end Destroy
end Casbin
