import Verif.Calls
import Verif.ModelDef

/-!
# The ways of making an enforcer

Models the constructors of `casbin/enforcer.cpp` (250–309), the three `Init` methods (312–338) and
`LoadModel` (362–368) together with the member `m_model_path`. The constructors of
`casbin/enforcer_cached.cpp` (46–103) and `casbin/enforcer_synced.cpp` (44–90) with the same parameters
call these. `PrintModel` does nothing (model.cpp 153–167); `EnableLog` of the constructor with a log
flag sets a member that no answer depends on (Logging.lean).
-/

namespace Casbin

/-- The files there are: the content of each (`none`: it cannot be opened for reading) and whether it
can be opened for writing. -/
structure Files where
  text : Str → Option Str
  writable : Str → Bool

/-- `std::make_shared<BatchFileAdapter>(path)` (batch_file_adapter.cpp 12–14, file_adapter.cpp 17–20). -/
def Files.adapter (fs : Files) (path : Str) : Adapter :=
  { kind := .file path (fs.text path) (fs.writable path) true, log := [] }

/-- `Model::NewModelFromFile(path)` (model.cpp 182–186), `Model::Model(path)` (model.cpp 172–174). A
file that cannot be opened reads as an empty one (config.cpp 45–57: `open` does not throw by default).
The mutex of `Config`, which a malformed file leaves locked, is left out here; it is in Process.lean and
C57. -/
def Files.model (rx : Str → Str → Outcome Str) (fs : Files) (path : Str) : Outcome Model :=
  Model.ofText rx (match fs.text path with
    | some t => t
    | none => [])

/-- An `Enforcer` object: what `Enforcer` of Enforcer.lean has, and `m_model_path`. -/
structure Made where
  E : Enforcer
  path : Str

/-- The arguments of the constructors: two paths, with or without a log flag (enforcer.cpp 250–252,
306–309), one path (295–297), a path and an adapter (260–263), a model and an adapter (271–279), a
model (286–288). A pointer to an adapter may be null. -/
inductive Source
  | files (path policy : Str)
  | filesLog (path policy : Str) (flag : Bool)
  | file (path : Str)
  | fileAdapter (path : Str) (a : Option Adapter)
  | objects (m : Model) (a : Option Adapter)
  | object (m : Model)

namespace Made

variable [IterOrder]

/-- An exception that leaves a constructor leaves no object. -/
def built : Outcome Unit × Enforcer → Str → Outcome Made
  | (.ok _, E), path => .ok { E := E, path := path }
  | (.throw e, _), _ => .throw e
  | (.ub u, _), _ => .ub u

/-- `Enforcer(std::make_shared<Model>(path), adapter)`, then `m_model_path = path`
(enforcer.cpp 260–263). -/
def makeWith (rx : Str → Str → Outcome Str) (fs : Files) (path : Str) (a : Option Adapter) :
    Outcome Made := do
  let m ← fs.model rx path
  built (Enforcer.construct m a) path

/-- The constructors (enforcer.cpp 250–309). -/
def make (rx : Str → Str → Outcome Str) (fs : Files) : Source → Outcome Made
  | .files path policy => makeWith rx fs path (some (fs.adapter policy))
  | .filesLog path policy _ => makeWith rx fs path (some (fs.adapter policy))
  | .file path => makeWith rx fs path (some (fs.adapter []))
  | .fileAdapter path a => makeWith rx fs path a
  | .objects m a => built (Enforcer.construct m a) []
  | .object m => built (Enforcer.construct m none) []

/-- A method of `Enforcer` that leaves the path as it is. -/
def onE {α : Type} (f : M Enforcer α) : M Made α := fun o =>
  let r := f o.E
  (r.1, { o with E := r.2 })

/-- `InitWithAdapter` (enforcer.cpp 318–324). -/
def initWithAdapter (rx : Str → Str → Outcome Str) (fs : Files) (path : Str) (a : Option Adapter) :
    M Made Unit := do
  let m ← M.lift (fs.model rx path)
  onE (Enforcer.initWithModelAndAdapter m a)
  M.modify fun o => { o with path := path }

/-- `InitWithFile` (enforcer.cpp 312–315). -/
def initWithFile (rx : Str → Str → Outcome Str) (fs : Files) (path policy : Str) : M Made Unit :=
  initWithAdapter rx fs path (some (fs.adapter policy))

/-- `InitWithModelAndAdapter` (enforcer.cpp 327–338). -/
def initWithModelAndAdapter (m : Model) (a : Option Adapter) : M Made Unit :=
  onE (Enforcer.initWithModelAndAdapter m a)

/-- The `Init` method with the arguments of a constructor. There is none for one path, for a model
alone and for a log flag: what is left out is then given as the constructor gives it. -/
def init (rx : Str → Str → Outcome Str) (fs : Files) : Source → M Made Unit
  | .files path policy => initWithFile rx fs path policy
  | .filesLog path policy _ => initWithFile rx fs path policy
  | .file path => initWithFile rx fs path []
  | .fileAdapter path a => initWithAdapter rx fs path a
  | .objects m a => initWithModelAndAdapter m a
  | .object m => initWithModelAndAdapter m none

/-- `LoadModel` (enforcer.cpp 362–368). -/
def loadModel (rx : Str → Str → Outcome Str) (fs : Files) : M Made Unit := do
  let o ← M.get
  onE (Enforcer.loadModel (fs.model rx o.path))

/-- `SetModel` (enforcer.cpp 376–380). -/
def setModel (m : Model) : M Made Unit := onE (Enforcer.setModel m)

end Made
end Casbin
