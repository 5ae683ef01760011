import Verif.Calls

/-!
# Several enforcers at once

An enforcer holds its model, adapter, watcher, evaluator and role manager through `shared_ptr`s, so
several enforcer objects can hold the same ones. Here the objects of a program lie in lists and the
members are positions in them; a method of an enforcer (Enforcer.lean) runs on what its members point
to and is written back there. The effector, the log and the path of the model file are left out.
Objects are never freed: they are kept by whoever points to them.
-/

namespace Casbin

/-- The members of `class Enforcer` (include/casbin/enforcer.h 35–47, 55); a pointer is a position in a
list of the world, null is `none`. -/
structure Obj where
  model : Nat
  rm : Nat
  adapter : Option Nat
  watcher : Option Nat
  eval : Option Nat
  enabled : Bool
  autoSave : Bool
  autoBuild : Bool
  autoNotify : Bool
  deriving DecidableEq, Repr

/-- All objects. An enforcer whose constructor threw is `none`. -/
structure World where
  models : List Model
  rms : List RM
  adapters : List Adapter
  watchers : List Watcher
  evals : List Evaluator
  objs : List (Option Obj)

/-- What a pointer that may be null points to; `none` is a position that does not exist. -/
def deref {α : Type} (l : List α) : Option Nat → Option (Option α)
  | none => some none
  | some k => l[k]?.map some

/-- Write a member back where the pointer points; an object made by the method is a new one. -/
def putBack {α : Type} (l : List α) : Option Nat → Option α → List α × Option Nat
  | some k, some x => (l.set k x, some k)
  | none, some x => (l ++ [x], some l.length)
  | _, none => (l, none)

/-- `SetRoleManager` (enforcer.cpp 412–414) of an enforcer that is considered alone, with a role manager
that the caller has made. -/
def Enforcer.setRoleManager (R : RM) : M Enforcer Unit := M.modify fun E =>
  { E with heap := E.heap ++ [R], rm := E.heap.length }

/-- `SetEvaluator` (enforcer.cpp 402–404) of an enforcer that is considered alone, with an evaluator that
the caller has made. -/
def Enforcer.setEvaluator (ev : Evaluator) : M Enforcer Unit := M.modify fun E =>
  { E with eval := some ev }

namespace World

def empty : World := ⟨[], [], [], [], [], []⟩

/-- The enforcer with what its members point to. -/
def view (W : World) (o : Obj) : Option Enforcer :=
  match W.models[o.model]?, deref W.adapters o.adapter, deref W.watchers o.watcher,
      deref W.evals o.eval with
  | some m, some a, some w, some ev => some
    { model := m, heap := W.rms, rm := o.rm, adapter := a, watcher := w, eval := ev,
      enabled := o.enabled, autoSave := o.autoSave, autoBuild := o.autoBuild,
      autoNotify := o.autoNotify }
  | _, _, _, _ => none

/-- Write the enforcer back. -/
def store (W : World) (i : Nat) (o : Obj) (E : Enforcer) : World where
  models := W.models.set o.model E.model
  rms := E.heap
  adapters := (putBack W.adapters o.adapter E.adapter).1
  watchers := (putBack W.watchers o.watcher E.watcher).1
  evals := (putBack W.evals o.eval E.eval).1
  objs := W.objs.set i (some
    { model := o.model, rm := E.rm, adapter := (putBack W.adapters o.adapter E.adapter).2,
      watcher := (putBack W.watchers o.watcher E.watcher).2,
      eval := (putBack W.evals o.eval E.eval).2, enabled := E.enabled, autoSave := E.autoSave,
      autoBuild := E.autoBuild, autoNotify := E.autoNotify })

/-- Code that uses enforcer `i`; using one that does not exist is a null dereference. -/
def withObj {α : Type} (i : Nat) (f : Obj → M World α) : M World α := fun W =>
  match W.objs[i]? with
  | some (some o) => f o W
  | _ => (.ub .nullDeref, W)

/-- Run a method of enforcer `i` that sets none of its pointers (except the evaluator when there is
none yet, enforcer.cpp 595–597). -/
def onObj {α : Type} (i : Nat) (f : M Enforcer α) : M World α := withObj i fun o W =>
  match W.view o with
  | some E => ((f E).1, W.store i o (f E).2)
  | none => (.ub .nullDeref, W)

/-- Change members of enforcer `i`. -/
def setObj (i : Nat) (f : Obj → Obj) : M World Unit := withObj i fun o =>
  M.modify fun W => { W with objs := W.objs.set i (some (f o)) }

/-- `Initialize` (enforcer.cpp 340–350) for enforcer `i`. -/
def initObj (i : Nat) : M World Unit := withObj i fun o => M.modify fun W =>
  { W with rms := W.rms ++ [RM.new 10],
           objs := W.objs.set i (some { o with rm := W.rms.length, watcher := none, eval := none,
                                               enabled := true, autoSave := true, autoBuild := true,
                                               autoNotify := true }) }

/-- `SetModel` (enforcer.cpp 376–380) with model `k`. -/
def setModel (i k : Nat) : M World Unit := do
  setObj i fun o => { o with model := k }
  initObj i

/-- `SetAdapter` (enforcer.cpp 388–390) with adapter `k`. -/
def setAdapter (i k : Nat) : M World Unit := setObj i fun o => { o with adapter := some k }

/-- `SetWatcher` (enforcer.cpp 393–399) with watcher `k`; the callback is not kept (`Watcher`). -/
def setWatcher (i k : Nat) : M World Unit := setObj i fun o => { o with watcher := some k }

/-- `SetEvaluator` (enforcer.cpp 402–404) with evaluator `k`. -/
def setEvaluator (i k : Nat) : M World Unit := setObj i fun o => { o with eval := some k }

/-- `SetRoleManager` (enforcer.cpp 412–414) with role manager `p`. -/
def setRoleManager (i p : Nat) : M World Unit := setObj i fun o => { o with rm := p }

variable [IterOrder]

/-- A call of a method of enforcer `i`; `SetModel`, `SetAdapter` and `SetWatcher` get a new object. -/
def call (lib : ExprLib) (i : Nat) : Method → M World Answer
  | .setModel m => withObj i fun _ => do
    let W ← M.get
    M.modify fun W => { W with models := W.models ++ [m] }
    setModel i W.models.length
    pure .done
  | .setAdapter a => withObj i fun _ => do
    let W ← M.get
    M.modify fun W => { W with adapters := W.adapters ++ [a] }
    setAdapter i W.adapters.length
    pure .done
  | .setWatcher w => withObj i fun _ => do
    let W ← M.get
    M.modify fun W => { W with watchers := W.watchers ++ [w] }
    setWatcher i W.watchers.length
    pure .done
  | c => onObj i (c.run lib)

/-- An enforcer object made from model `mi` and an adapter, before the constructor's body
(enforcer.cpp 269–270). -/
def newObj (mi : Nat) (ai : Option Nat) : M World Unit := M.modify fun W =>
  { W with objs := W.objs ++ [some
      { model := mi, rm := 0, adapter := ai, watcher := none, eval := none, enabled := true,
        autoSave := true, autoBuild := true, autoNotify := true }] }

/-- The constructor (enforcer.cpp 269–280) with a new model and a new adapter, or none. When it throws
there is no enforcer. -/
def make (m : Model) (a : Option Adapter) : M World Unit := fun W =>
  let n := W.objs.length
  let r := (do
    M.modify fun W : World => { W with models := W.models ++ [m], adapters := W.adapters ++ a.toList }
    newObj W.models.length (a.map fun _ => W.adapters.length)
    initObj n
    match a with
    | none => pure ()
    | some ad => if ad.isValid then onObj n Enforcer.loadPolicy else pure ()) W
  match r.1 with
  | .ok _ => r
  | o => (o, { r.2 with objs := r.2.objs.set n none })

/-- The copy constructor of `Enforcer` (implicit; used by enforcer_cached.cpp 105–109 and, by an
lvalue, by the move constructor 111–115): all members are copied, so the pointers are shared. -/
def copy (i : Nat) : M World Unit := withObj i fun o =>
  M.modify fun W => { W with objs := W.objs ++ [some o] }

/-- A new evaluator of the caller (evaluator.h 63–). -/
def newEval : M World Unit := M.modify fun W => { W with evals := W.evals ++ [Evaluator.new] }

/-- A new role manager of the caller (default_role_manager.h). -/
def newRm (n : Nat) : M World Unit := M.modify fun W => { W with rms := W.rms ++ [RM.new n] }

/-- `PushObjectString("r", x, v)` on evaluator `k` (evaluator.cpp 56–60). -/
def push (k : Nat) (x v : Str) : M World Unit := fun W =>
  match W.evals[k]? with
  | none => (.ub .nullDeref, W)
  | some ev =>
    let r := Evaluator.pushString c!"r" x v ev
    (r.1, { W with evals := W.evals.set k r.2 })

/-- `EnforceExWithMatcher` of enforcer `i` with evaluator `k` of the caller (enforcer.cpp 582–584;
`Enforce` 518–520, `EnforceWithMatcher` 537–541 and `EnforceEx` 566–568 call it). -/
def askWith (lib : ExprLib) (i k : Nat) (matcher : Str) (explain : Rule) : M World (Bool × Rule) :=
  withObj i fun o W =>
    match W.models[o.model]?, W.evals[k]? with
    | some m, some ev =>
      let r := mEnforce lib m o.enabled matcher { ev := ev, heap := W.rms, explain := explain }
      (r.1.map fun b => (b, r.2.explain),
        { W with evals := W.evals.set k r.2.ev, rms := r.2.heap })
    | _, _ => (.ub .nullDeref, W)

end World
end Casbin
