import Verif.Model

/-!
# Policy text and adapters

Models `casbin/persist/adapter.cpp`, `casbin/persist/string_adapter.cpp`,
`casbin/persist/file_adapter/file_adapter.cpp` and `batch_file_adapter.cpp`.
-/

namespace Casbin

/-- Trim every token (persist/adapter.cpp 33–34). -/
def trimAll (l : List Str) : List Str := l.map trim

/-- `LoadPolicyLine` (persist/adapter.cpp 28–44). The section is the first character of the
policy type; a policy type the model does not define is a null dereference. -/
def loadPolicyLine (line : Str) : M Model Unit := do
  if line = [] ∨ line.head? = some '#' then pure ()
  else
    match trimAll (split line c!"," ) with
    | [] => M.ub .outOfBounds
    | key :: vals => do
      let a ← Model.at_ (key.take 1) key
      Model.setPolicy (key.take 1) key (a.policy.emplace vals)

/-- Load the lines of a text one after the other. -/
def loadLines : List Str → M Model Unit
  | [] => pure ()
  | l :: ls => do
    loadPolicyLine l
    loadLines ls

/-- `StringAdapter::LoadPolicy` (string_adapter.cpp 27–34). -/
def loadText (text : Str) : M Model Unit :=
  if text = [] then M.throw .adapter else loadLines (split text c!"\n")

/-- `FileAdapter::LoadPolicyFile` (file_adapter.cpp 61–76): the lines of the file, each trimmed. -/
def loadFile (text : Str) : M Model Unit := loadLines ((getLines text).map trim)

variable [IterOrder]

/-- The text of the rules of one policy type (string_adapter.cpp 46–50). -/
def saveRules (ptype : Str) : List Rule → Outcome Str
  | [] => .ok []
  | r :: rs => do
    let t ← arrayToString r
    let rest ← saveRules ptype rs
    .ok (ptype ++ c!", " ++ t ++ c!"\n" ++ rest)

/-- The text of a section. -/
def saveAssertions : List (Str × Assertion) → Outcome Str
  | [] => .ok []
  | (pt, a) :: rest => do
    let t ← saveRules pt a.policy.iterate
    let ts ← saveAssertions rest
    .ok (t ++ ts)

/-- `RTrim(tmp, "\n")`. -/
def rtrimNewlines (s : Str) : Str := (s.reverse.dropWhile (· == '\n')).reverse

/-- The text written by `SavePolicy` (string_adapter.cpp 42–61, file_adapter.cpp 40–58). -/
def policyText (m : Model) : Outcome Str := do
  let p ← saveAssertions (IterOrder.iter (m.secMap c!"p"))
  let g ← saveAssertions (IterOrder.iter (m.secMap c!"g"))
  .ok (rtrimNewlines (p ++ g))

/-- A call made by the enforcer to its adapter. -/
inductive AdapterCall
  | load
  | save
  | add (sec ptype : Str) (rule : Rule)
  | remove (sec ptype : Str) (rule : Rule)
  | removeFiltered (sec ptype : Str) (i : Nat) (vs : List Str)
  | addMany (sec ptype : Str) (rules : List Rule)
  | removeMany (sec ptype : Str) (rules : List Rule)
  deriving DecidableEq, Repr

/-- The kinds of adapters. `file`: `FileAdapter` (`batch = false`) or `BatchFileAdapter`; `disk`
is the content of the file (`none`: it cannot be opened for reading) and `writable` whether it can
be opened for writing. `custom` is any adapter supplied by the user: `load` is the effect of its
`LoadPolicy` on the model, `resp` how it answers the other calls. -/
inductive AdapterKind
  | string (line : Str)
  | file (path : Str) (disk : Option Str) (writable batch : Bool)
  | custom (valid filtered batch : Bool) (load : M Model Unit) (resp : AdapterCall → Outcome Unit)

/-- An adapter object together with the calls it has received. -/
structure Adapter where
  kind : AdapterKind
  log : List AdapterCall

namespace Adapter

/-- A new `StringAdapter`. -/
def string (line : Str) : Adapter := { kind := .string line, log := [] }

/-- `IsValid` (string_adapter.cpp 85–87, file_adapter.cpp 117–119). -/
def isValid (a : Adapter) : Bool :=
  match a.kind with
  | .string line => decide (line ≠ [])
  | .file path _ _ _ => decide (path ≠ [])
  | .custom v _ _ _ _ => v

/-- `IsFiltered` (string_adapter.cpp 80–82, file_adapter.cpp 112–114). -/
def isFiltered (a : Adapter) : Bool :=
  match a.kind with
  | .custom _ f _ _ _ => f
  | _ => false

/-- Is it a `BatchAdapter` (the `dynamic_pointer_cast`s of internal_api.cpp 70, 120)? -/
def isBatch (a : Adapter) : Bool :=
  match a.kind with
  | .string _ => false
  | .file _ _ _ b => b
  | .custom _ _ b _ _ => b

/-- `LoadPolicy` (string_adapter.cpp 27–34, file_adapter.cpp 27–32, 61–76), acting on the model. A
file that cannot be opened yields no lines (`ifstream` does not throw by default). -/
def loadPolicy (a : Adapter) : M Model Unit :=
  match a.kind with
  | .string line => loadText line
  | .file path disk _ _ =>
    if path = [] then M.throw .adapter
    else match disk with
      | some text => loadFile text
      | none => pure ()
  | .custom _ _ _ load _ => load

/-- `SavePolicy` (string_adapter.cpp 37–62, file_adapter.cpp 35–59, 78–94). -/
def savePolicy (m : Model) : M Adapter Unit := fun a =>
  let a := { a with log := a.log ++ [AdapterCall.save] }
  match a.kind with
  | .string line =>
    if line = [] then (.throw .adapter, a)
    else match policyText m with
      | .ok t => (.ok (), { a with kind := .string t })
      | .throw e => (.throw e, a)
      | .ub u => (.ub u, a)
  | .file path disk w b =>
    if path = [] then (.throw .adapter, a)
    else match policyText m with
      | .ok t =>
        if w then (.ok (), { a with kind := .file path (some t) w b })
        else (.throw .io, { a with kind := .file path disk w b })
      | .throw e => (.throw e, a)
      | .ub u => (.ub u, a)
  | .custom _ _ _ _ resp => (resp .save, a)

/-- The incremental calls. `StringAdapter::RemovePolicy` empties the line (string_adapter.cpp
70–72); all the other incremental calls of the two built-in adapters throw
`UnsupportedOperationException` (65–77; file_adapter.cpp 97–109; batch_file_adapter.cpp 20–26). -/
def edit (c : AdapterCall) : M Adapter Unit := fun a =>
  let a := { a with log := a.log ++ [c] }
  match a.kind with
  | .string _ =>
    match c with
    | .remove _ _ _ => (.ok (), { a with kind := .string [] })
    | _ => (.throw .unsupported, a)
  | .file _ _ _ _ => (.throw .unsupported, a)
  | .custom _ _ _ _ resp => (resp c, a)

end Adapter
end Casbin
