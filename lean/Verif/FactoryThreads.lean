import Verif.Factory

/-!
# The function factory with several threads

`GetExprtkFunction` (exprtk_config.h 246–303) keeps its pool in a `static` local variable without a lock:
all enforcers of the process use it, also those that share nothing and are used by different threads. Every
request calls it for each function (`LoadFunctions`, `LoadGFunction`, enforcer.cpp 53–63). Here the calls
are cut at their uses of the pool, and the threads take turns in any order. Simplification: one use of the
map is one step; in C++ overlapping uses are a data race, so the bad schedules below are the mild ones.
-/

namespace Casbin
namespace Factory

/-- The key of the pool (exprtk_config.h 247, 253). -/
def Call.key (c : Call) : Str := c.kind.number ++ List.replicate c.narg 'S'

/-- The object that is made for a call (exprtk_config.h 263–295). -/
def Call.made (c : Call) : Option Made := make c.kind c.narg c.rm

/-- Where a thread is: between calls, or before one of the statements of a call that use the pool. -/
inductive At
  /-- between two calls; next is `pool.find(key) != pool.end()` of the next call (exprtk_config.h 256) -/
  | idle
  /-- found: before `return pool[key]` (exprtk_config.h 258) -/
  | take (c : Call)
  /-- not found and made: before `if (func) pool[key] = func` (exprtk_config.h 299–301) -/
  | enter (c : Call)
  /-- before `pool.clear()` (exprtk_config.h 302) -/
  | empty (c : Call)

/-- A thread with the calls it will make and the objects it was given so far. -/
structure Thread where
  todo : List Call
  at_ : At
  got : List (Call × Option Made)

/-- The pool, whose entries may be null pointers, and the threads. -/
structure Shared where
  pool : UMap Str (Option Made)
  thread : Nat → Thread

/-- Thread `i` is replaced. -/
def Shared.put (s : Shared) (i : Nat) (t : Thread) : Shared :=
  { s with thread := fun j => if j = i then t else s.thread j }

/-- The next step of thread `i` (exprtk_config.h 256–304). `pool[key]` inserts a null pointer when the key
is not there any more. -/
def step (s : Shared) (i : Nat) : Shared :=
  let t := s.thread i
  match t.at_ with
  | .idle =>
    match t.todo with
    | [] => s
    | c :: cs =>
      match s.pool.get c.key with
      | some _ => s.put i { t with todo := cs, at_ := .take c }
      | none => s.put i { t with todo := cs, at_ := .enter c }
  | .take c =>
    match s.pool.get c.key with
    | some f => s.put i { t with at_ := .idle, got := t.got ++ [(c, f)] }
    | none =>
      ({ s with pool := s.pool.set c.key none } : Shared).put i
        { t with at_ := .idle, got := t.got ++ [(c, none)] }
  | .enter c =>
    match c.made with
    | some f => ({ s with pool := s.pool.set c.key (some f) } : Shared).put i { t with at_ := .empty c }
    | none => s.put i { t with at_ := .empty c }
  | .empty c =>
    ({ s with pool := [] } : Shared).put i { t with at_ := .idle, got := t.got ++ [(c, c.made)] }

/-- The steps of a schedule: the threads in the order of their turns. -/
def run (s : Shared) (schedule : List Nat) : Shared := schedule.foldl step s

/-- The start: every thread has its program, the pool is empty. -/
def start (program : Nat → List Call) : Shared :=
  { pool := [], thread := fun i => { todo := program i, at_ := .idle, got := [] } }

end Factory
end Casbin
