import Verif.Adapter

/-!
# The filtered file adapter

Models `casbin/persist/file_adapter/filtered_file_adapter.cpp` and
`include/casbin/persist/filtered_adapter.h`. `FilteredAdapter::LoadFilteredPolicy` is declared without
`virtual` and defined nowhere, so `Enforcer::LoadFilteredPolicy`, which calls it through a pointer to
the base class, cannot be linked; the methods are modelled as called on the adapter itself.
-/

namespace Casbin

/-- `Filter` (filtered_adapter.h 26–30). -/
structure Filter where
  P : List Str
  G : List Str
  deriving DecidableEq, Repr

/-- A `FilteredFileAdapter` (filtered_file_adapter.h 9–34): the path, the content of the file (`none`:
it cannot be opened) and the flag `filtered`. -/
structure FilteredFile where
  path : Str
  disk : Option Str
  filtered : Bool
  deriving DecidableEq, Repr

namespace FilteredFile

/-- The loop of `filterWords` (filtered_file_adapter.cpp 38–43): has a value been found that does not
match? `line` is the rest of the line after its first value. Going beyond its end cannot happen after
the test of lines 34–35. -/
def mismatch : List Str → List Str → Outcome Bool
  | _, [] => .ok false
  | [], f :: fs => if f = [] then mismatch [] fs else .ub .outOfBounds
  | w :: ws, f :: fs => if f ≠ [] ∧ trim f ≠ trim w then .ok true else mismatch ws fs

/-- `filterWords` (filtered_file_adapter.cpp 33–46). `skip_line` is set only when a value does not
match; otherwise an uninitialised variable is read. -/
def filterWords (line filter : List Str) : Outcome Bool :=
  if line.length < filter.length + 1 then .ok true
  else match mismatch line.tail filter with
    | .ok true => .ok true
    | .ok false => .ub .uninit
    | .throw e => .throw e
    | .ub u => .ub u

/-- `filterLine` (filtered_file_adapter.cpp 15–31): is the line to be skipped? -/
def filterLine (line : Str) : Option Filter → Outcome Bool
  | none => .ok false
  | some f =>
    match split line c!"," with
    | [] => .ok true
    | w :: ws =>
      filterWords (w :: ws) (if trim w = c!"p" then f.P else if trim w = c!"g" then f.G else [])

/-- The loop of `loadFilteredPolicyFile` (filtered_file_adapter.cpp 57–64). -/
def filteredLines (f : Option Filter) : List Str → M Model Unit
  | [] => pure ()
  | l :: ls => do
    let skip ← M.lift (filterLine l f)
    if skip then filteredLines f ls
    else do
      loadPolicyLine l
      filteredLines f ls

/-- `loadFilteredPolicyFile` (filtered_file_adapter.cpp 48–67). -/
def loadFilteredFile (F : FilteredFile) (f : Option Filter) : M Model Unit :=
  match F.disk with
  | some text => filteredLines f ((getLines text).map trim)
  | none => pure ()

/-- Run something on the model that the adapter was given. -/
def onModel (x : FilteredFile → M Model Unit) : M (FilteredFile × Model) Unit := fun s =>
  let r := x s.1 s.2
  (r.1, (s.1, r.2))

/-- Set `filtered`. -/
def setFiltered (b : Bool) : M (FilteredFile × Model) Unit :=
  M.modify fun s => ({ s.1 with filtered := b }, s.2)

/-- The constructor (filtered_file_adapter.cpp 70–73). -/
def new (path : Str) (disk : Option Str) : FilteredFile :=
  { path := path, disk := disk, filtered := true }

/-- `LoadPolicy` (filtered_file_adapter.cpp 76–79), with `FileAdapter::LoadPolicy`. -/
def loadPolicy : M (FilteredFile × Model) Unit := do
  setFiltered false
  onModel fun F => Adapter.loadPolicy { kind := .file F.path F.disk true false, log := [] }

/-- The rest of `LoadFilteredPolicy` (filtered_file_adapter.cpp 87–92). -/
def loadRest (f : Option Filter) : M (FilteredFile × Model) Unit := do
  let s ← M.get
  if s.1.path = [] then M.throw .adapter
  else do
    onModel fun F => loadFilteredFile F f
    setFiltered true

/-- `LoadFilteredPolicy` (filtered_file_adapter.cpp 82–93). After the call for a null filter the
function goes on. -/
def loadFiltered : Option Filter → M (FilteredFile × Model) Unit
  | none => do
    loadPolicy
    loadRest none
  | some f => loadRest (some f)

/-- `IsFiltered` (filtered_file_adapter.cpp 96–98). -/
def isFiltered (F : FilteredFile) : Bool := F.filtered

/-- `SavePolicy` (filtered_file_adapter.cpp 101–106). For a policy that is not filtered it calls
itself, not `FileAdapter::SavePolicy`. -/
def savePolicy : M (FilteredFile × Model) Unit := do
  let s ← M.get
  if s.1.filtered then M.throw .adapter else M.ub .unbounded

end FilteredFile
end Casbin
