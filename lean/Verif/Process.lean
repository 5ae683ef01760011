import Verif.Making

/-!
# A program with several enforcers and the mutex of `Config`

The constructors and methods of Making.lean once more, with the mutex `Config::mtx_lock`
(casbin/config/config.cpp 32), which is one for the whole program: every model file is read while it is held
(config.cpp 45–57).
-/

namespace Casbin

/-- A program: a configuration object of the caller together with the mutex (`ConfigSt`), and the enforcers
made so far. -/
structure Process where
  cfg : ConfigSt
  objs : List Made

namespace Process

variable [IterOrder]

/-- `Model::NewModelFromFile(path)` (model.cpp 182–186) and `Model::Model(path)` (172–174), which call
`LoadModel` (model.cpp 141–144): a new `Config` reads the file (config.cpp 96–100), holding the mutex, then the
definitions are loaded from it. -/
def readModel (rx : Str → Str → Outcome Str) (fs : Files) (path : Str) : M Process Model := fun P =>
  let r := ConfigSt.newConfig (fs.text path) { locked := P.cfg.locked, data := [] }
  let P' := { P with cfg := { P.cfg with locked := r.2.locked } }
  match r.1 with
  | .ok _ =>
    match Model.loadFromConfig rx r.2.data [] with
    | (.ok _, m) => (.ok m, P')
    | (.throw e, _) => (.throw e, P')
    | (.ub u, _) => (.ub u, P')
  | .throw e => (.throw e, P')
  | .ub u => (.ub u, P')

/-- The model among the arguments of a constructor or an `Init` method (enforcer.cpp 250–338). -/
def getModel (rx : Str → Str → Outcome Str) (fs : Files) : Source → M Process Model
  | .files p _ | .filesLog p _ _ | .file p | .fileAdapter p _ => readModel rx fs p
  | .objects m _ | .object m => pure m

/-- The adapter among the arguments. -/
def getAdapter (fs : Files) : Source → Option Adapter
  | .files _ q | .filesLog _ q _ => some (fs.adapter q)
  | .file _ => some (fs.adapter [])
  | .fileAdapter _ a | .objects _ a => a
  | .object _ => none

/-- The path that is stored in `m_model_path`; none for a model in memory. -/
def getPath : Source → Option Str
  | .files p _ | .filesLog p _ _ | .file p | .fileAdapter p _ => some p
  | .objects _ _ | .object _ => none

/-- A method of an enforcer. A number without an enforcer stands for a null pointer. -/
def onObj {α : Type} (i : Nat) (f : M Made α) : M Process α := fun P =>
  match P.objs[i]? with
  | none => (.ub .nullDeref, P)
  | some o =>
    let r := f o
    (r.1, { P with objs := P.objs.set i r.2 })

/-- A configuration call of the caller. -/
def onCfg {α : Type} (f : M ConfigSt α) : M Process α := fun P =>
  let r := f P.cfg
  (r.1, { P with cfg := r.2 })

/-- The end of a constructor: an exception leaves no object. -/
def place : Outcome Made → M Process Unit
  | .ok o => M.modify fun P => { P with objs := P.objs ++ [o] }
  | .throw e => M.throw e
  | .ub u => M.ub u

/-- A constructor (enforcer.cpp 250–309). -/
def make (rx : Str → Str → Outcome Str) (fs : Files) (s : Source) : M Process Unit := do
  let m ← getModel rx fs s
  place (Made.built (Enforcer.construct m (getAdapter fs s)) (match getPath s with
    | some p => p
    | none => []))

/-- An `Init` method (enforcer.cpp 312–338). -/
def init (rx : Str → Str → Outcome Str) (fs : Files) (i : Nat) (s : Source) : M Process Unit := do
  onObj i (pure ())
  let m ← getModel rx fs s
  onObj i (do
    Made.onE (Enforcer.initWithModelAndAdapter m (getAdapter fs s))
    match getPath s with
    | some p => M.modify fun o => { o with path := p }
    | none => pure ())

/-- `LoadModel` (enforcer.cpp 362–368). -/
def loadModel (rx : Str → Str → Outcome Str) (fs : Files) (i : Nat) : M Process Unit := do
  let o ← onObj i M.get
  let m ← readModel rx fs o.path
  onObj i (Made.onE (Enforcer.setModel m))

/-- What a program does. The files may be others each time. -/
inductive Doing
  | make (fs : Files) (s : Source)
  | init (fs : Files) (i : Nat) (s : Source)
  | loadModel (fs : Files) (i : Nat)
  | use (i : Nat) (c : Method)
  | text (t : Str)
  | config (file : Option Str)
  | set (key value : Str)

/-- One act: the calls above, a method of Calls.lean, `Model::NewModelFromString` (model.cpp 189–193, without
the mutex), `Config::NewConfig` and `Config::Set` (config.cpp 96–100, 147–166). -/
def run (rx : Str → Str → Outcome Str) (lib : ExprLib) : Doing → M Process Answer
  | .make fs s => do make rx fs s; pure .done
  | .init fs i s => do init rx fs i s; pure .done
  | .loadModel fs i => do loadModel rx fs i; pure .done
  | .use i c => onObj i (Made.onE (c.run lib))
  | .text t => do let _ ← M.lift (Model.ofText rx t); pure .done
  | .config file => do onCfg (ConfigSt.newConfig file); pure .done
  | .set key value => do onCfg (ConfigSt.set key value); pure .done

/-- How each act ends. An act that waits for ever is followed by acts of other threads. -/
def answers (rx : Str → Str → Outcome Str) (lib : ExprLib) : List Doing → Process → List (Outcome Answer)
  | [], _ => []
  | a :: as, P => (run rx lib a P).1 :: answers rx lib as (run rx lib a P).2

end Process
end Casbin
