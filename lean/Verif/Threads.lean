import Verif.Synced

/-!
# Threads that share one object behind a `std::shared_mutex`

The setting of `casbin/enforcer_synced.cpp`: any number of threads calls methods that take
`policyMutex`, exclusively or shared, or (the inherited ones) not at all, work on the object in any
number of steps, and release it when they are left (lines 141–589). The work of a method is any
machine; which object the memory holds is left open. Steps of different threads do not overlap: what
is proved of this model about calls that conflict without a lock is the best that can be hoped for,
as a data race is undefined behaviour in C++.
-/

namespace Casbin
namespace Threads

/-- A method call: how it takes the lock (`none` for the methods that do not take it), the local state
of its body at the start, one step of the body, and the result once it is finished. A body whose `out`
never becomes `some` does not return. -/
structure Op (σ ρ : Type) where
  kind : Option LockKind
  Loc : Type
  init : Loc
  step : Loc → σ → Loc × σ
  out : Loc → Option ρ

/-- A call inside its critical section. -/
structure Running (σ ρ : Type) where
  op : Op σ ρ
  loc : op.Loc

/-- A thread: the results it has got so far and the call it is in the critical section of. -/
structure Thread (σ ρ : Type) where
  results : List ρ
  cur : Option (Running σ ρ)

/-- The shared object and all threads; `τ` are the names of the threads. -/
structure Conf (τ σ ρ : Type) where
  mem : σ
  thread : τ → Thread σ ρ

/-- What the threads do: the next call of a thread, which may depend on the results it has got. -/
abbrev Prog (τ σ ρ : Type) := τ → List ρ → Option (Op σ ρ)

/-- What an execution shows: a call taking the lock, a step inside, a call returning. -/
inductive Event (τ σ ρ : Type)
  | acquire (i : τ) (op : Op σ ρ)
  | work (i : τ)
  | release (i : τ) (op : Op σ ρ) (r : ρ)

variable {τ σ ρ : Type} [DecidableEq τ]

/-- Replace one thread. -/
def Conf.put (c : Conf τ σ ρ) (i : τ) (t : Thread σ ρ) : τ → Thread σ ρ :=
  fun j => if j = i then t else c.thread j

/-- `lock` of a `std::shared_mutex` succeeds when nobody holds it, `lock_shared` when nobody holds it
exclusively. A method without a lock starts at any time. -/
def Conf.free (c : Conf τ σ ρ) : Option LockKind → Prop
  | some .unique => ∀ j x, (c.thread j).cur = some x → x.op.kind = none
  | some .shared => ∀ j x, (c.thread j).cur = some x → x.op.kind ≠ some .unique
  | none => True

/-- One step of some thread. -/
inductive Step (P : Prog τ σ ρ) : Conf τ σ ρ → Event τ σ ρ → Conf τ σ ρ → Prop
  | acquire {c : Conf τ σ ρ} {i : τ} {op : Op σ ρ} : (c.thread i).cur = none →
      P i (c.thread i).results = some op → c.free op.kind →
      Step P c (.acquire i op)
        ⟨c.mem, c.put i { c.thread i with cur := some ⟨op, op.init⟩ }⟩
  | work {c : Conf τ σ ρ} {i : τ} {x : Running σ ρ} : (c.thread i).cur = some x →
      x.op.out x.loc = none →
      Step P c (.work i)
        ⟨(x.op.step x.loc c.mem).2,
         c.put i { c.thread i with cur := some ⟨x.op, (x.op.step x.loc c.mem).1⟩ }⟩
  | release {c : Conf τ σ ρ} {i : τ} {x : Running σ ρ} {r : ρ} : (c.thread i).cur = some x →
      x.op.out x.loc = some r →
      Step P c (.release i x.op r) ⟨c.mem, c.put i ⟨(c.thread i).results ++ [r], none⟩⟩

/-- An execution with its events, the last one at the end. -/
inductive Exec (P : Prog τ σ ρ) (c₀ : Conf τ σ ρ) : List (Event τ σ ρ) → Conf τ σ ρ → Prop
  | nil : Exec P c₀ [] c₀
  | snoc {es : List (Event τ σ ρ)} {c c' : Conf τ σ ρ} {e : Event τ σ ρ} :
      Exec P c₀ es c → Step P c e c' → Exec P c₀ (es ++ [e]) c'

/-- At the start no thread has called anything. -/
def Conf.start (m : σ) : Conf τ σ ρ := ⟨m, fun _ => ⟨[], none⟩⟩

end Threads
end Casbin
