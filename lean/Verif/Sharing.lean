import Verif.Calls

/-!
# Instances with one policy file and one watcher

Several enforcers, in one process or in several, that were made for the same policy file and given
watchers that tell each other about changes (`casbin/persist/watcher.h`).
-/

namespace Casbin

/-- The instances, the content of the policy file at `path` (`none`: there is no such file) and the
instances whose callback the watcher keeps. -/
structure Sharing where
  path : Str
  disk : Option Str
  insts : List Enforcer
  kept : List Nat

namespace Sharing

/-- `Watcher::SetUpdateCallback` (watcher.h 29–32) only returns. It is a template, hence not virtual, and
the enforcer calls it through a pointer to `Watcher` (enforcer.cpp 393–399): it is this body that runs,
whatever the class of the watcher declares. -/
def setUpdateCallback (kept : List Nat) (_i : Nat) : List Nat := kept

/-- The enforcer when the file at `path` has the given content: its adapter, if it is one for that file,
reads it when it is called. -/
def seeing (path : Str) (disk : Option Str) (E : Enforcer) : Enforcer :=
  match E.adapter with
  | some ⟨.file path' d w b, log⟩ =>
    { E with adapter := some ⟨.file path' (if path' = path then disk else d) w b, log⟩ }
  | _ => E

/-- The content of the file after a call on the enforcer. -/
def written (path : Str) (disk : Option Str) (E : Enforcer) : Option Str :=
  match E.adapter with
  | some ⟨.file path' d _ _, _⟩ => if path' = path then d else disk
  | _ => disk

/-- What the watcher of the enforcer has been told. -/
def updates (E : Enforcer) : List WatcherEvent :=
  match E.watcher with
  | some w => w.log
  | none => []

variable [IterOrder]

/-- `Update` of a watcher that does what watcher.h 34–37 asks for: it calls the callbacks it keeps of the
other instances. The callback is `LoadPolicy` (enforcer.cpp 395–397). The instances do not share memory,
so that it does not matter whether this happens during the call that changed the policy or, as here,
after it. -/
def update (i : Nat) (S : Sharing) : Sharing :=
  { S with insts := S.insts.mapIdx fun j E =>
      if j ≠ i ∧ j ∈ S.kept then (Enforcer.loadPolicy (seeing S.path S.disk E)).2 else E }

/-- A call on instance `i`. `SetWatcher` hands over the callback (enforcer.cpp 393–399); when the watcher
of the instance is told something, it tells the others. -/
def call (lib : ExprLib) (i : Nat) (c : Method) (S : Sharing) : Sharing :=
  match S.insts[i]? with
  | none => S
  | some E =>
    let E0 := seeing S.path S.disk E
    let E' := (c.run lib E0).2
    let S' := { S with disk := written S.path S.disk E', insts := S.insts.set i E' }
    match c with
    | .setWatcher _ => { S' with kept := setUpdateCallback S.kept i }
    | _ => if updates E' = updates E0 then S' else update i S'

/-- A sequence of calls. -/
def calls (lib : ExprLib) : List (Nat × Method) → Sharing → Sharing
  | [], S => S
  | (i, c) :: cs, S => calls lib cs (call lib i c S)

/-- How instance `i` answers a request. -/
def answer (lib : ExprLib) (i : Nat) (vals : List Str) (S : Sharing) : Option (Outcome Bool) :=
  S.insts[i]?.map fun E => (E.enforce lib (vals.map ReqVal.str)).1

end Sharing
end Casbin
