import Verif.Ticker

/-!
# Automatic loading controlled from several threads

Models `StartAutoLoadPolicy` and `StopAutoLoadPolicy` (enforcer_synced.cpp 105–127) step by step, called
by any threads. No lock is taken in them. A step is an access to the flag, which is atomic, an access to
the pointer `ticker`, which is not (the data race is undefined in C++ and is taken as an access to one
of the values here), or the use of a ticker. `Ticker::start` and `Ticker::stop` are one step each and
return; what they do inside is in Ticker.lean. The counter `n` is left out: nothing reads it.
-/

namespace Casbin
namespace AutoThreads

/-- A call of one of the two methods. -/
inductive Call
  | start
  | stop
  deriving DecidableEq, Repr

/-- A ticker: whether it still exists, and whether its timer loop runs. -/
structure Tick where
  alive : Bool
  running : Bool
  deriving DecidableEq, Repr

/-- Where a thread stands. -/
inductive Pc
  /-- in no call -/
  | idle
  /-- `IsAutoLoadingRunning()` was false (106) -/
  | startSet
  /-- `autoLoadRunning` is set (108) -/
  | startMake
  /-- the pointer is to the new ticker; the old one is to be destroyed (113) -/
  | startDrop (old : Option Nat)
  /-- before `ticker->` (115) -/
  | startRead
  /-- the pointer has been read -/
  | startRun (p : Nat)
  /-- the pointer has been read (125) -/
  | stopRun (p : Nat)
  /-- before `autoLoadRunning = false` (126) -/
  | stopFlag
  deriving DecidableEq, Repr

/-- What went wrong: a null pointer or a destroyed ticker was used. -/
inductive Fault
  | null
  | dead
  deriving DecidableEq, Repr

/-- The members `autoLoadRunning` and `ticker` (include/casbin/enforcer_synced.h 33–36), the tickers ever
made, and the threads. -/
structure State (τ : Type) where
  flag : Bool
  ptr : Option Nat
  tickers : List Tick
  pc : τ → Pc
  fault : Option Fault

variable {τ : Type} [DecidableEq τ]

/-- As the constructors leave it (enforcer_synced.cpp 35–89). -/
def State.new : State τ := ⟨false, none, [], fun _ => .idle, none⟩

/-- Thread `i` stands at `q`. -/
def State.goto (s : State τ) (i : τ) (q : Pc) : State τ :=
  { s with pc := fun j => if j = i then q else s.pc j }

/-- A new ticker, which the pointer now points to. -/
def State.make (s : State τ) : State τ :=
  { s with tickers := s.tickers ++ [⟨true, false⟩], ptr := some s.tickers.length }

/-- Call a method of ticker `p`. -/
def State.use (s : State τ) (p : Nat) (f : Tick → Tick) : State τ :=
  match s.tickers[p]? with
  | some t => if t.alive then { s with tickers := s.tickers.set p (f t) }
              else { s with fault := some .dead }
  | none => { s with fault := some .dead }

/-- One step of thread `i`; `c` is the call it begins when it is in none. -/
def advance (s : State τ) (i : τ) (c : Call) : State τ :=
  match s.pc i with
  | .idle =>
    match c with
    | .start => if s.flag then s else s.goto i .startSet
    | .stop =>
      match s.ptr with
      | some p => s.goto i (.stopRun p)
      | none => { s with fault := some .null }
  | .startSet => State.goto { s with flag := true } i .startMake
  | .startMake => s.make.goto i (.startDrop s.ptr)
  | .startDrop none => s.goto i .startRead
  | .startDrop (some k) => (s.use k fun _ => ⟨false, false⟩).goto i .startRead
  | .startRead =>
    match s.ptr with
    | some p => s.goto i (.startRun p)
    | none => { s with fault := some .null }
  | .startRun p => (s.use p fun t => { t with running := true }).goto i .idle
  | .stopRun p => (s.use p fun t => { t with running := false }).goto i .stopFlag
  | .stopFlag => State.goto { s with flag := false } i .idle

/-- A schedule: which thread makes the next step, and the call it begins if it is in none. -/
def runs (l : List (τ × Call)) (s : State τ) : State τ :=
  l.foldl (fun s x => advance s x.1 x.2) s

end AutoThreads
end Casbin
