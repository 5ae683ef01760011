import Verif.Model

/-!
# Configuration files and model definitions

Models `casbin/config/config.cpp` and the definition part of `casbin/model/model.cpp`
(lines 31–190).
-/

namespace Casbin

/-! ## Configuration -/

/-- `Config::data` (include/casbin/config/config.h 34): section → option → value. -/
abbrev Config := UMap Str (UMap Str Str)

namespace Config

/-- `Config::DEFAULT_SECTION` (config.cpp 29). -/
def defaultSection : Str := c!"default"

/-- The options of a section. -/
def options (d : Config) (section_ : Str) : UMap Str Str :=
  match d.get section_ with
  | some o => o
  | none => []

/-- `Config::AddConfig` (config.cpp 37–43); its result is used nowhere. -/
def addConfig (section_ option value : Str) (d : Config) : Config :=
  let s := if section_ = [] then defaultSection else section_
  d.set s ((d.options s).set option value)

/-- One round of the loop of `ParseBuffer` (config.cpp 65–87), from the current section and the
data to the same; the test `line.find(x) == 0` looks at the first character. -/
def parseLine (line : Str) (st : Str × Config) : Outcome (Str × Config) :=
  if line = [] then .ok st
  else do
    let line := trim line
    if line.head? = some '#' then .ok st
    else if line.head? = some ';' then .ok st
    else do
      let header ← if line.head? = some '[' then endsWith line c!"]" else .ok false
      if header then .ok ((line.drop 1).take (line.length - 2), st.2)
      else
        match split line c!"=" 2 with
        | [o, v] => .ok (st.1, addConfig st.1 (trim o) (trim v) st.2)
        | _ => .throw .illegalArgument

/-- The loop of `ParseBuffer`. -/
def parseLines : List Str → Str × Config → Outcome (Str × Config)
  | [], st => .ok st
  | l :: ls, st => do
    let st ← parseLine l st
    parseLines ls st

/-- `Config::ParseBuffer` (config.cpp 59–88) on a new object. -/
def parseText (text : Str) : Outcome Config := (parseLines (getLines text) ([], [])).map Prod.snd

/-- The section and option that `Get` (config.cpp 168–182) looks at. -/
def keyOfGet (key : Str) : Str × Str :=
  match split key c!"::" with
  | s :: o :: _ => (s, o)
  | [o] => (defaultSection, o)
  | [] => (defaultSection, [])

/-- The section and option that `Set` (config.cpp 154–162) hands to `AddConfig`. -/
def keyOfSet (key : Str) : Str × Str :=
  match split key c!"::" with
  | s :: o :: _ => (s, o)
  | [o] => ([], o)
  | [] => ([], [])

/-- `Config::Get` (config.cpp 168–184), also `GetString` (134–136). -/
def get (key : Str) (d : Config) : Str :=
  match (d.options (keyOfGet key).1).get (keyOfGet key).2 with
  | some v => v
  | none => []

end Config

/-- One configuration object together with the mutex `Config::mtx_lock`, which all objects
share (config.cpp 32). -/
structure ConfigSt where
  locked : Bool
  data : Config

namespace ConfigSt

/-- `mtx_lock.lock()`. Locking a locked `std::mutex` blocks for ever or is undefined. -/
def lock : M ConfigSt Unit := fun s =>
  if s.locked then (.ub .relock, s) else (.ok (), { s with locked := true })

/-- `mtx_lock.unlock()`. -/
def unlock : M ConfigSt Unit := M.modify fun s => { s with locked := false }

/-- `Config::Set` (config.cpp 147–166). -/
def set (key value : Str) : M ConfigSt Unit := do
  lock
  if key = [] then do
    unlock
    M.throw .illegalArgument
  else do
    let k := Config.keyOfSet key
    M.modify fun s => { s with data := Config.addConfig k.1 k.2 value s.data }
    unlock

/-- `Config::NewConfig` (config.cpp 96–100) with `Parse` (45–57), the object being new. `file` is
the content of the file; one that cannot be opened yields no lines (`ifstream::open` does not throw
by default). An exception of `ParseBuffer` leaves the mutex locked. -/
def newConfig (file : Option Str) : M ConfigSt Unit := do
  lock
  let text := match file with
    | some t => t
    | none => []
  let d ← M.lift (Config.parseText text)
  M.modify fun s => { s with data := d }
  unlock

/-- `Config::NewConfigFromText` (config.cpp 108–113): no locking. -/
def newConfigFromText (text : Str) : M ConfigSt Unit := do
  let d ← M.lift (Config.parseText text)
  M.modify fun s => { s with data := d }

end ConfigSt

/-! ## Definitions -/

/-- A character without special meaning in the regex built by `IsHashsetUsagePossible`, or the
dot. -/
def plainRegexChar (c : Char) : Bool := !("^$\\*+?()[]{}|".toList.contains c)

/-- A text of plain characters and dots at the start of the text, a dot matching any character but
a line end. -/
def matchesHere : Str → Str → Bool
  | [], _ => true
  | _ :: _, [] => false
  | p :: ps, c :: s =>
    (if p = '.' then c != '\n' && c != '\r' else decide (p = c)) && matchesHere ps s

/-- `regex_replace(s, pat, "")` for such a pattern: all leftmost matches are dropped; the number
counts the characters of a match still to be skipped. -/
def removeMatches (pat : Str) : Nat → Str → Str
  | _, [] => []
  | k + 1, _ :: s => removeMatches pat k s
  | 0, c :: s =>
    if matchesHere pat (c :: s) then removeMatches pat (pat.length - 1) s
    else c :: removeMatches pat 0 s

/-- `regex_replace(s, std::regex(pat), "")`; a pattern with other special characters is up to `rx`
(an ill-formed one throws). -/
def regexRemove (rx : Str → Str → Outcome Str) (pat s : Str) : Outcome Str :=
  if pat.all plainRegexChar ∧ pat ≠ [] then .ok (removeMatches pat 0 s) else rx pat s

/-- The pattern for one request token (model.cpp 98–99). -/
def hashPattern (token : Str) : Str :=
  c!"r." ++ token.drop 2 ++ c!" == p." ++ token.drop 2

/-- The loop of `IsHashsetUsagePossible` (model.cpp 97–100). -/
def stripMatcher (rx : Str → Str → Outcome Str) : List Str → Str → Outcome Str
  | [], s => .ok s
  | t :: ts, s =>
    if t.length < 2 then .throw .outOfRange
    else do
      let s' ← regexRemove rx (hashPattern t) s
      stripMatcher rx ts s'

/-- `IsHashsetUsagePossible` (model.cpp 89–107). `at` on a missing key throws. Without tokens the
bound of the second loop wraps around. -/
def hashPossible (rx : Str → Str → Outcome Str) (m : Model) : Outcome Bool :=
  match m.find c!"r" c!"r" with
  | none => .ok false
  | some r =>
    match m.find c!"m" c!"m" with
    | none => .throw .outOfRange
    | some ma => do
      let rest ← stripMatcher rx r.tokens ma.value
      if r.tokens = [] then .ub .unbounded
      else .ok (decide (rest = (List.replicate (r.tokens.length - 1) c!" && ").flatten) &&
        !m.has c!"g")

/-- The new assertion of `AddDef` (model.cpp 114–123, 127, 133). -/
def newAssertion (sec key value : Str) (hash : Bool) : Assertion :=
  { key := key
    value := if sec = c!"r" ∨ sec = c!"p" then value else removeComments value
    tokens := if sec = c!"r" ∨ sec = c!"p"
      then (split value c!",").map fun t => key ++ c!"_" ++ trim t else []
    policy := if hash then Policies.hashset else Policies.vector
    rm := none }

namespace Model

/-- `Model::AddDef` (model.cpp 110–138). The section is created before the checks. -/
def addDef (rx : Str → Str → Outcome Str) (sec key value : Str) : M Model Bool := do
  if value = [] then pure false
  else do
    M.modify fun m => m.ensureSec sec
    let m ← M.get
    if sec = c!"p" ∧ (m.has c!"m" = false ∨ m.has c!"r" = false) then pure false
    else do
      let h ← M.lift (hashPossible rx m)
      M.modify fun m => m.put sec key (newAssertion sec key value h)
      pure true

/-- `GetKeySuffix` (model.cpp 78–82). -/
def keySuffix (i : Nat) : Str := if i = 1 then [] else (toString i).toList

/-- `Model::section_name_map` (model.cpp 39–44); the empty text for another section. -/
def sectionName (sec : Str) : Str :=
  if sec = c!"r" then c!"request_definition"
  else if sec = c!"p" then c!"policy_definition"
  else if sec = c!"g" then c!"role_definition"
  else if sec = c!"e" then c!"policy_effect"
  else if sec = c!"m" then c!"matchers"
  else []

/-- `LoadAssertion` (model.cpp 84–87). -/
def loadAssertion (rx : Str → Str → Outcome Str) (d : Config) (sec key : Str) : M Model Bool :=
  addDef rx sec key (Config.get (sectionName sec ++ c!"::" ++ key) d)

/-- The loop of `LoadSection` (model.cpp 68–76) from number `i` on; `fuel` bounds the number of
rounds, running out of it stands for not terminating. -/
def loadSectionFrom (rx : Str → Str → Outcome Str) (d : Config) (sec : Str) :
    Nat → Nat → M Model Unit
  | 0, _ => M.ub .unbounded
  | fuel + 1, i => do
    let more ← loadAssertion rx d sec (sec ++ keySuffix i)
    if more then loadSectionFrom rx d sec fuel (i + 1) else pure ()

/-- `LoadSection` (model.cpp 68–76). Every round but the last finds an option of the section, so
the bound given here is enough (`loadSection_terminates`). -/
def loadSection (rx : Str → Str → Outcome Str) (d : Config) (sec : Str) : M Model Unit :=
  loadSectionFrom rx d sec ((d.options (sectionName sec)).length + 1) 1

/-- The sections loaded one after the other (model.cpp 33, 50–51). -/
def loadSections (rx : Str → Str → Outcome Str) (d : Config) : List Str → M Model Unit
  | [] => pure ()
  | s :: ss => do
    loadSection rx d s
    loadSections rx d ss

/-- `Model::LoadModelFromConfig` (model.cpp 49–62). -/
def loadFromConfig (rx : Str → Str → Outcome Str) (d : Config) : M Model Unit := do
  loadSections rx d [c!"m", c!"r", c!"p", c!"g", c!"e"]
  let m ← M.get
  if [c!"r", c!"p", c!"e", c!"m"].all m.hasSection then pure () else M.throw .missingSections

/-- `Model::NewModelFromString` (model.cpp 189–193). -/
def ofText (rx : Str → Str → Outcome Str) (text : Str) : Outcome Model :=
  match Config.parseText text with
  | .ok d =>
    match loadFromConfig rx d [] with
    | (.ok _, m) => .ok m
    | (.throw e, _) => .throw e
    | (.ub u, _) => .ub u
  | .throw e => .throw e
  | .ub u => .ub u

end Model
end Casbin
