import Verif.Process
import Verif.Props.Config
import Verif.Props.Making
import Verif.MiniLib

/-!
# C179: a malformed model file does no harm to the rest of the program

A program makes and uses several enforcers. As long as no file it reads is malformed, each of them behaves as
it would without the mutex of `Config`. After a malformed file everything that reads a file waits for ever, and
everything else goes on as before.
-/

set_option linter.unusedSectionVars false

namespace Casbin
namespace ProcessProps

open Process ConfigProps

variable [IterOrder] {rx : Str → Str → Outcome Str} {lib : ExprLib}

/-! ## The specification: no mutex -/

/-- A method of one of several enforcers. -/
def at_ {α : Type} (i : Nat) (f : M Made α) : M (List Made) α := fun os =>
  match os[i]? with
  | none => (.ub .nullDeref, os)
  | some o => ((f o).1, os.set i (f o).2)

/-- How an act ends where nothing is locked, and the enforcers afterwards: constructors, `Init` and `LoadModel`
are those of Making.lean. -/
def lone (rx : Str → Str → Outcome Str) (lib : ExprLib) : Doing → M (List Made) Answer
  | .make fs s => fun os =>
    match Made.make rx fs s with
    | .ok o => (.ok .done, os ++ [o])
    | .throw e => (.throw e, os)
    | .ub u => (.ub u, os)
  | .init fs i s => do at_ i (Made.init rx fs s); pure .done
  | .loadModel fs i => do at_ i (Made.loadModel rx fs); pure .done
  | .use i c => at_ i (Made.onE (c.run lib))
  | .text t => do let _ ← M.lift (Model.ofText rx t); pure .done
  | .config file => do
    let _ ← M.lift (Config.parseText (match file with
      | some t => t
      | none => []))
    pure .done
  | .set key _ => if key = [] then M.throw .illegalArgument else pure .done

/-- How each act of a history ends. -/
def loneAnswers (rx : Str → Str → Outcome Str) (lib : ExprLib) : List Doing → List Made → List (Outcome Answer)
  | [], _ => []
  | a :: as, os => (lone rx lib a os).1 :: loneAnswers rx lib as (lone rx lib a os).2

/-- The enforcers after a history. -/
def loneAfter (rx : Str → Str → Outcome Str) (lib : ExprLib) : List Doing → List Made → List Made
  | [], os => os
  | a :: as, os => loneAfter rx lib as (lone rx lib a os).2

/-- What is in a file. -/
def content (fs : Files) (p : Str) : Str :=
  match fs.text p with
  | some t => t
  | none => []

/-- The text of the file with definitions that an act reads, if it reads one. -/
def reads : Doing → List Made → Option Str
  | .make fs s, _ => (getPath s).map (content fs)
  | .init fs i s, os => os[i]?.bind fun _ => (getPath s).map (content fs)
  | .loadModel fs i, os => os[i]?.map fun o => content fs o.path
  | .config file, _ => match file with
    | some t => some t
    | none => some []
  | _, _ => none

/-- The act reads a file with a line that is none of a configuration. -/
def Malformed (a : Doing) (os : List Made) : Prop := ∃ t, reads a os = some t ∧ ∃ l ∈ getLines t, Bad l

/-- The act needs the mutex: it reads a file with definitions, or calls `Config::Set`. -/
def Locks (a : Doing) (os : List Made) : Prop := reads a os ≠ none ∨ ∃ k v, a = .set k v

/-- No act of the history reads a malformed file. -/
def Clean (rx : Str → Str → Outcome Str) (lib : ExprLib) : List Doing → List Made → Prop
  | [], _ => True
  | a :: as, os => ¬ Malformed a os ∧ Clean rx lib as (lone rx lib a os).2

/-! ## Helpers -/

theorem content_eq (fs : Files) (p : Str) : fs.model rx p = Model.ofText rx (content fs p) := rfl

theorem newConfig_free (file : Option Str) (d : Config) :
    ConfigSt.newConfig file ⟨false, d⟩ =
      (match Config.parseText (match file with | some t => t | none => []) with
      | .ok d' => (.ok (), ⟨false, d'⟩)
      | .throw e => (.throw e, ⟨true, d⟩)
      | .ub u => (.ub u, ⟨true, d⟩)) := by
  unfold ConfigSt.newConfig
  simp only [ConfigSt.lock, ConfigSt.unlock, M.bind_run, Bool.false_eq_true, if_false]
  cases Config.parseText (match file with | some t => t | none => []) <;> simp

theorem newConfig_held (file : Option Str) (d : Config) :
    ConfigSt.newConfig file ⟨true, d⟩ = (.ub .relock, ⟨true, d⟩) := by
  simp [ConfigSt.newConfig, ConfigSt.lock, M.bind_run]

open Classical in
/-- Whether the text leaves the mutex locked. -/
noncomputable def leaves (t : Str) : Bool := decide (∃ l ∈ getLines t, Bad l)

open Classical in
theorem parse_leaves (t : Str) :
    (leaves t = true ∧ Config.parseText t = .throw .illegalArgument) ∨
    (leaves t = false ∧ ∃ d, Config.parseText t = .ok d) := by
  by_cases h : ∃ l ∈ getLines t, Bad l
  · exact .inl ⟨decide_eq_true h, (C56_parse_partial t).1 h⟩
  · obtain ⟨d, hd, _⟩ := (C56_parse_partial t).2 fun l hl hb => h ⟨l, hl, hb⟩
    exact .inr ⟨decide_eq_false h, d, hd⟩

theorem readModel_free {P : Process} (h : P.cfg.locked = false) (fs : Files) (p : Str) :
    readModel rx fs p P =
      (fs.model rx p, { P with cfg := { P.cfg with locked := leaves (content fs p) } }) := by
  unfold readModel
  rw [h, newConfig_free]
  change _ = (Model.ofText rx (content fs p), _)
  unfold Model.ofText
  rcases parse_leaves (content fs p) with ⟨h1, h2⟩ | ⟨h1, d, h2⟩
  · have h2' : Config.parseText (match fs.text p with | some t => t | none => []) = _ := h2
    rw [h1, h2, h2']
  · have h2' : Config.parseText (match fs.text p with | some t => t | none => []) = _ := h2
    rw [h1, h2, h2']
    simp only
    rcases Model.loadFromConfig rx d [] with ⟨_ | _ | _, m⟩ <;> rfl

theorem readModel_held {P : Process} (h : P.cfg.locked = true) (fs : Files) (p : Str) :
    readModel rx fs p P = (.ub .relock, P) := by
  obtain ⟨⟨l, d⟩, os⟩ := P
  simp only at h
  subst h
  unfold readModel
  rw [newConfig_held]

/-- The model among the arguments, read without a mutex. -/
def modelOf (rx : Str → Str → Outcome Str) (fs : Files) : Source → Outcome Model
  | .files p _ | .filesLog p _ _ | .file p | .fileAdapter p _ => fs.model rx p
  | .objects m _ | .object m => .ok m

/-- Whether reading it leaves the mutex locked. -/
noncomputable def leavesOf (fs : Files) (s : Source) : Bool :=
  match getPath s with
  | some p => leaves (content fs p)
  | none => false

theorem same_locked {P : Process} {b : Bool} (h : P.cfg.locked = b) : { P with cfg := { P.cfg with locked := b } } = P := by
  subst h
  rfl

theorem getModel_free {P : Process} (h : P.cfg.locked = false) (fs : Files) (s : Source) :
    getModel rx fs s P = (modelOf rx fs s, { P with cfg := { P.cfg with locked := leavesOf fs s } }) := by
  cases s with
  | objects m a => exact Prod.ext rfl (same_locked h).symm
  | object m => exact Prod.ext rfl (same_locked h).symm
  | _ => exact readModel_free h _ _

theorem getModel_held {P : Process} (h : P.cfg.locked = true) (fs : Files) (s : Source) (hp : getPath s ≠ none) :
    getModel rx fs s P = (.ub .relock, P) := by
  cases s with
  | objects m a => exact absurd rfl hp
  | object m => exact absurd rfl hp
  | _ => exact readModel_held h _ _

theorem leavesOf_iff (fs : Files) (s : Source) :
    leavesOf fs s = true ↔ ∃ t, (getPath s).map (content fs) = some t ∧ ∃ l ∈ getLines t, Bad l := by
  unfold leavesOf
  cases getPath s with
  | none => simp
  | some p => simp [leaves]

/-- The path of a new enforcer. -/
def pathOf (s : Source) : Str :=
  match getPath s with
  | some p => p
  | none => []

theorem make_parts (fs : Files) (s : Source) :
    Made.make rx fs s = (match modelOf rx fs s with
      | .ok m => Made.built (Enforcer.construct m (getAdapter fs s)) (pathOf s)
      | .throw e => .throw e
      | .ub u => .ub u) := by
  cases s <;> first | rfl |
    (simp only [Made.make, Made.makeWith, modelOf, getAdapter, pathOf, getPath]; cases fs.model rx _ <;> rfl)

/-- The `Init` methods once the model is there. -/
def initParts (fs : Files) (s : Source) (m : Model) : M Made Unit := do
  Made.onE (Enforcer.initWithModelAndAdapter m (getAdapter fs s))
  match getPath s with
  | some p => M.modify fun o => { o with path := p }
  | none => pure ()

theorem init_parts (fs : Files) (s : Source) (o : Made) :
    Made.init rx fs s o = (match modelOf rx fs s with
      | .ok m => initParts fs s m o
      | .throw e => (.throw e, o)
      | .ub u => (.ub u, o)) := by
  have tail : ∀ (f : M Made Unit), (f >>= fun _ => pure ()) o = f o := by
    intro f
    rw [M.bind_run]
    rcases f o with ⟨_ | _ | _, o'⟩ <;> rfl
  cases s with
  | objects m a => exact (tail _).symm
  | object m => exact (tail _).symm
  | _ =>
    simp only [Made.init, Made.initWithFile, Made.initWithAdapter, modelOf, M.bind_run, M.lift_run]
    cases fs.model rx _ <;> rfl

theorem set_same {os : List Made} {i : Nat} {o : Made} (h : os[i]? = some o) : os.set i o = os := by
  obtain ⟨hi, rfl⟩ := List.getElem?_eq_some_iff.mp h
  exact List.set_getElem_self hi

theorem onObj_some {α : Type} {P : Process} {i : Nat} {o : Made} (h : P.objs[i]? = some o) (f : M Made α) :
    onObj i f P = ((f o).1, { P with objs := P.objs.set i (f o).2 }) := by
  unfold onObj
  rw [h]

theorem onObj_none {α : Type} {P : Process} {i : Nat} (h : P.objs[i]? = none) (f : M Made α) :
    onObj i f P = (.ub .nullDeref, P) := by
  unfold onObj
  rw [h]

theorem at_some {α : Type} {os : List Made} {i : Nat} {o : Made} (h : os[i]? = some o) (f : M Made α) :
    at_ i f os = ((f o).1, os.set i (f o).2) := by
  unfold at_
  rw [h]

theorem at_none {α : Type} {os : List Made} {i : Nat} (h : os[i]? = none) (f : M Made α) :
    at_ i f os = (.ub .nullDeref, os) := by
  unfold at_
  rw [h]

/-- Two runs end alike with the same enforcers, and the mutex is then as said. -/
def Agree {α : Type} (x : Outcome α × Process) (y : Outcome α × List Made) (b : Bool) : Prop :=
  x.1 = y.1 ∧ x.2.objs = y.2 ∧ x.2.cfg.locked = b

theorem Agree.done {x : M Process Unit} {y : M (List Made) Unit} {P : Process} {os : List Made} {b : Bool}
    (h : Agree (x P) (y os) b) :
    Agree ((x >>= fun _ => pure Answer.done) P) ((y >>= fun _ => pure Answer.done) os) b := by
  rw [M.bind_run, M.bind_run]
  obtain ⟨h1, h2, h3⟩ := h
  rcases hx : x P with ⟨o, P'⟩
  rcases hy : y os with ⟨o', os'⟩
  rw [hx] at h1 h2 h3
  rw [hy] at h1 h2
  simp only at h1 h2 h3
  subst h1 h2
  cases o <;> exact ⟨rfl, rfl, h3⟩

theorem init_free {P : Process} (h : P.cfg.locked = false) (fs : Files) (i : Nat) (s : Source) :
    Agree (init rx fs i s P) (at_ i (Made.init rx fs s) P.objs)
      (match P.objs[i]? with | none => false | some _ => leavesOf fs s) := by
  cases ho : P.objs[i]? with
  | none =>
    unfold init
    rw [M.bind_run, onObj_none ho, at_none ho]
    exact ⟨rfl, rfl, h⟩
  | some o =>
    unfold init
    rw [M.bind_run, onObj_some ho, at_some ho, init_parts]
    simp only [M.pure_run, set_same ho]
    rw [M.bind_run, getModel_free h]
    cases modelOf rx fs s with
    | ok m =>
      simp only
      rw [onObj_some (P := { P with cfg := { P.cfg with locked := leavesOf fs s } }) ho]
      exact ⟨rfl, rfl, rfl⟩
    | throw e => exact ⟨rfl, (set_same ho).symm, rfl⟩
    | ub u => exact ⟨rfl, (set_same ho).symm, rfl⟩

theorem loadModel_free {P : Process} (h : P.cfg.locked = false) (fs : Files) (i : Nat) :
    Agree (Process.loadModel rx fs i P) (at_ i (Made.loadModel rx fs) P.objs)
      (match P.objs[i]? with | none => false | some o => leaves (content fs o.path)) := by
  cases ho : P.objs[i]? with
  | none =>
    unfold Process.loadModel
    rw [M.bind_run, onObj_none ho, at_none ho]
    exact ⟨rfl, rfl, h⟩
  | some o =>
    unfold Process.loadModel
    rw [M.bind_run, onObj_some ho, at_some ho]
    simp only [M.get_run, set_same ho]
    rw [M.bind_run, readModel_free h]
    have hl : Made.loadModel rx fs o = Made.onE (Enforcer.loadModel (fs.model rx o.path)) o := rfl
    rw [hl]
    unfold Enforcer.loadModel
    cases fs.model rx o.path with
    | ok m =>
      simp only
      rw [onObj_some (P := { P with cfg := { P.cfg with locked := leaves (content fs o.path) } }) ho]
      exact ⟨rfl, rfl, rfl⟩
    | throw e => exact ⟨rfl, (set_same ho).symm, rfl⟩
    | ub u => exact ⟨rfl, (set_same ho).symm, rfl⟩

/-- The end of a constructor in the specification. -/
def placed : Outcome Made → M (List Made) Unit
  | .ok o => M.modify fun os => os ++ [o]
  | .throw e => M.throw e
  | .ub u => M.ub u

theorem lone_make (fs : Files) (s : Source) (os : List Made) :
    lone rx lib (.make fs s) os = (placed (Made.make rx fs s) >>= fun _ => pure Answer.done) os := by
  rw [M.bind_run]
  simp only [lone]
  cases Made.make rx fs s <;> rfl

theorem make_free {P : Process} (h : P.cfg.locked = false) (fs : Files) (s : Source) :
    Agree (make rx fs s P) (placed (Made.make rx fs s) P.objs) (leavesOf fs s) := by
  unfold make
  rw [M.bind_run, getModel_free h, make_parts]
  cases modelOf rx fs s with
  | ok m =>
    change Agree (place (Made.built (Enforcer.construct m (getAdapter fs s)) (pathOf s)) _) _ _
    simp only
    cases Made.built (Enforcer.construct m (getAdapter fs s)) (pathOf s) <;> exact ⟨rfl, rfl, rfl⟩
  | throw e => exact ⟨rfl, rfl, rfl⟩
  | ub u => exact ⟨rfl, rfl, rfl⟩

/-! ## C179 -/

/-- C179 for one act while the mutex is free: it ends as if there were no mutex, and leaves the mutex locked
exactly if it has read a malformed file. -/
theorem C179_step (a : Doing) {P : Process} (h : P.cfg.locked = false) :
    (run rx lib a P).1 = (lone rx lib a P.objs).1 ∧ (run rx lib a P).2.objs = (lone rx lib a P.objs).2 ∧
    ((run rx lib a P).2.cfg.locked = true ↔ Malformed a P.objs) := by
  have out : ∀ {b : Bool}, Agree (run rx lib a P) (lone rx lib a P.objs) b → (b = true ↔ Malformed a P.objs) →
      (run rx lib a P).1 = (lone rx lib a P.objs).1 ∧ (run rx lib a P).2.objs = (lone rx lib a P.objs).2 ∧
      ((run rx lib a P).2.cfg.locked = true ↔ Malformed a P.objs) := by
    rintro b ⟨h1, h2, h3⟩ hb
    exact ⟨h1, h2, by rw [h3]; exact hb⟩
  cases a with
  | make fs s =>
    refine out (b := leavesOf fs s) ?_ (leavesOf_iff fs s)
    rw [lone_make]
    exact (make_free h fs s).done
  | init fs i s =>
    refine out (init_free h fs i s).done ?_
    simp only [Malformed, reads]
    cases P.objs[i]? with
    | none => simp
    | some o => exact leavesOf_iff fs s
  | loadModel fs i =>
    refine out (loadModel_free h fs i).done ?_
    simp only [Malformed, reads]
    cases P.objs[i]? with
    | none => simp
    | some o => simp [leaves]
  | use i c =>
    refine out (b := false) ?_ (by simp [Malformed, reads])
    show Agree (onObj i _ P) (at_ i _ P.objs) false
    cases ho : P.objs[i]? with
    | none => rw [onObj_none ho, at_none ho]; exact ⟨rfl, rfl, h⟩
    | some o => rw [onObj_some ho, at_some ho]; exact ⟨rfl, rfl, h⟩
  | text t =>
    refine out (b := false) ?_ (by simp [Malformed, reads])
    simp only [run, lone, M.bind_run, M.lift_run]
    cases Model.ofText rx t <;> exact ⟨rfl, rfl, h⟩
  | config file =>
    obtain ⟨⟨l, d⟩, os⟩ := P
    simp only at h
    subst h
    cases file with
    | none =>
      refine out (b := leaves []) ?_ (by simp [leaves, Malformed, reads])
      simp only [run, lone, M.bind_run, M.lift_run, onCfg, newConfig_free]
      rcases parse_leaves [] with ⟨h1, h2⟩ | ⟨h1, d', h2⟩
      · simp only [h1, h2]; exact ⟨rfl, rfl, rfl⟩
      · simp only [h1, h2]; exact ⟨rfl, rfl, rfl⟩
    | some t =>
      refine out (b := leaves t) ?_ (by simp [leaves, Malformed, reads])
      simp only [run, lone, M.bind_run, M.lift_run, onCfg, newConfig_free]
      rcases parse_leaves t with ⟨h1, h2⟩ | ⟨h1, d', h2⟩
      · simp only [h1, h2]; exact ⟨rfl, rfl, rfl⟩
      · simp only [h1, h2]; exact ⟨rfl, rfl, rfl⟩
  | set key value =>
    obtain ⟨⟨l, d⟩, os⟩ := P
    simp only at h
    subst h
    refine out (b := false) ?_ (by simp [Malformed, reads])
    by_cases hk : key = []
    · simp [run, lone, onCfg, ConfigSt.set, ConfigSt.lock, ConfigSt.unlock, M.bind_run, hk, Agree]
    · simp [run, lone, onCfg, ConfigSt.set, ConfigSt.lock, ConfigSt.unlock, M.bind_run, hk, Agree]

/-- C179 while the mutex is locked: an act that needs it never returns and changes nothing. -/
theorem C179_held {a : Doing} {P : Process} (h : P.cfg.locked = true) (ha : Locks a P.objs) :
    run rx lib a P = (.ub .relock, P) := by
  have bad : ∀ {f : M Process Unit}, f P = (.ub .relock, P) →
      (f >>= fun _ => pure Answer.done) P = (.ub .relock, P) := by
    intro f hf
    rw [M.bind_run, hf]
  cases a with
  | make fs s =>
    refine bad ?_
    have hp : getPath s ≠ none := by
      rcases ha with ha | ⟨k, v, ha⟩
      · exact fun hn => ha (by simp [reads, hn])
      · cases ha
    unfold make
    rw [M.bind_run, getModel_held h fs s hp]
  | init fs i s =>
    refine bad ?_
    rcases ha with ha | ⟨k, v, ha⟩
    · cases ho : P.objs[i]? with
      | none => exact absurd (by simp [reads, ho]) ha
      | some o =>
        have hp : getPath s ≠ none := fun hn => ha (by simp [reads, hn, ho])
        unfold init
        rw [M.bind_run, onObj_some ho]
        simp only [M.pure_run, set_same ho]
        rw [M.bind_run, getModel_held h fs s hp]
    · cases ha
  | loadModel fs i =>
    refine bad ?_
    rcases ha with ha | ⟨k, v, ha⟩
    · cases ho : P.objs[i]? with
      | none => exact absurd (by simp [reads, ho]) ha
      | some o =>
        unfold Process.loadModel
        rw [M.bind_run, onObj_some ho]
        simp only [M.get_run, set_same ho]
        rw [M.bind_run, readModel_held h]
    · cases ha
  | use i c => rcases ha with ha | ⟨k, v, ha⟩ <;> first | exact absurd rfl ha | cases ha
  | text t => rcases ha with ha | ⟨k, v, ha⟩ <;> first | exact absurd rfl ha | cases ha
  | config file =>
    obtain ⟨⟨l, d⟩, os⟩ := P
    simp only at h
    subst h
    refine bad ?_
    unfold onCfg
    simp only [newConfig_held]
  | set key value =>
    obtain ⟨⟨l, d⟩, os⟩ := P
    simp only at h
    subst h
    refine bad ?_
    simp [onCfg, ConfigSt.set, ConfigSt.lock, M.bind_run]

/-- C179 while the mutex is locked, for the acts that do not need it: they end as if there were no mutex. -/
theorem C179_others {a : Doing} {P : Process} (ha : ¬ Locks a P.objs) :
    (run rx lib a P).1 = (lone rx lib a P.objs).1 ∧ (run rx lib a P).2.objs = (lone rx lib a P.objs).2 ∧
    (run rx lib a P).2.cfg = P.cfg := by
  have hr : reads a P.objs = none := Classical.byContradiction fun h => ha (.inl h)
  cases a with
  | make fs s =>
    cases s with
    | objects m ad =>
      simp only [run, lone, make, M.bind_run, getModel, M.pure_run, getPath, getAdapter, Made.make]
      cases Made.built (Enforcer.construct m ad) [] <;> exact ⟨rfl, rfl, rfl⟩
    | object m =>
      simp only [run, lone, make, M.bind_run, getModel, M.pure_run, getPath, getAdapter, Made.make]
      cases Made.built (Enforcer.construct m none) [] <;> exact ⟨rfl, rfl, rfl⟩
    | _ => cases hr
  | init fs i s =>
    cases ho : P.objs[i]? with
    | none => simp only [run, lone, init, M.bind_run, onObj_none ho, at_none ho, and_self]
    | some o =>
      have hp : getPath s = none := by simpa [reads, ho] using hr
      have hm : ∀ m, modelOf rx fs s = .ok m → getModel rx fs s P = (.ok m, P) := by
        intro m hm
        cases s <;> first | (cases hp; done) | (cases hm; rfl)
      obtain ⟨m, hm1⟩ : ∃ m, modelOf rx fs s = .ok m := by
        cases s <;> first | (cases hp; done) | exact ⟨_, rfl⟩
      have hi : init rx fs i s P = onObj i (initParts fs s m) P := by
        unfold init
        rw [M.bind_run, onObj_some ho]
        simp only [M.pure_run, set_same ho]
        rw [M.bind_run, hm m hm1]
        rfl
      simp only [run, lone, M.bind_run, hi, onObj_some ho, at_some ho, init_parts, hm1]
      rcases initParts fs s m o with ⟨_ | _ | _, o'⟩ <;> exact ⟨rfl, rfl, rfl⟩
  | loadModel fs i =>
    cases ho : P.objs[i]? with
    | none =>
      simp only [run, lone, Process.loadModel, M.bind_run, onObj_none ho, at_none ho, and_self]
    | some o => simp [reads, ho] at hr
  | use i c =>
    cases ho : P.objs[i]? with
    | none => simp only [run, lone, onObj_none ho, at_none ho, and_self]
    | some o => simp only [run, lone, onObj_some ho, at_some ho, and_self]
  | text t =>
    simp only [run, lone, M.bind_run, M.lift_run]
    cases Model.ofText rx t <;> exact ⟨rfl, rfl, rfl⟩
  | config file => cases file <;> cases hr
  | set key value => exact absurd (.inr ⟨key, value, rfl⟩) ha

/-- C179: an act that reads a malformed file throws and changes no enforcer. -/
theorem C179_malformed {a : Doing} {P : Process} (h : P.cfg.locked = false) (ha : Malformed a P.objs) :
    (run rx lib a P).1 = .throw .illegalArgument ∧ (run rx lib a P).2.objs = P.objs := by
  obtain ⟨h1, h2, _⟩ := C179_step (rx := rx) (lib := lib) a h
  rw [h1, h2]
  obtain ⟨t, ht, hb⟩ := ha
  have hx : Model.ofText rx t = .throw .illegalArgument := by
    unfold Model.ofText
    rw [(C56_parse_partial t).1 hb]
  have hs : ∀ (fs : Files) (s : Source), (getPath s).map (content fs) = some t →
      modelOf rx fs s = .throw .illegalArgument := by
    intro fs s hs
    cases s <;> first | (cases hs; done) | (cases hs; exact hx)
  cases a with
  | make fs s =>
    have hm : Made.make rx fs s = .throw .illegalArgument := by rw [make_parts, hs fs s ht]
    simp only [lone, hm, and_self]
  | init fs i s =>
    cases ho : P.objs[i]? with
    | none => simp [reads, ho] at ht
    | some o =>
      have hm := hs fs s (by simpa [reads, ho] using ht)
      simp only [lone, M.bind_run, at_some ho, init_parts, hm, set_same ho, and_self]
  | loadModel fs i =>
    cases ho : P.objs[i]? with
    | none => simp [reads, ho] at ht
    | some o =>
      have hc : content fs o.path = t := by simpa [reads, ho] using ht
      have hm : Made.loadModel rx fs o = (.throw .illegalArgument, o) := by
        show Made.onE (Enforcer.loadModel (fs.model rx o.path)) o = _
        rw [content_eq, hc, hx]
        rfl
      simp only [lone, M.bind_run, at_some ho, hm, set_same ho, and_self]
  | config file =>
    cases file with
    | none => cases ht; exact absurd hb (by simp [getLines])
    | some t' =>
      cases ht
      simp only [lone, M.bind_run, M.lift_run, (C56_parse_partial t).1 hb, and_self]
  | _ => cases ht

/-- C179 for histories without a malformed file: every act ends as if there were no mutex. -/
theorem C179_partial : ∀ (as : List Doing) {P : Process}, P.cfg.locked = false → Clean rx lib as P.objs →
    answers rx lib as P = loneAnswers rx lib as P.objs
  | [], _, _, _ => rfl
  | a :: as, P, h, hc => by
    obtain ⟨h1, h2, h3⟩ := C179_step (rx := rx) (lib := lib) a h
    have hl : (run rx lib a P).2.cfg.locked = false := Bool.eq_false_iff.mpr fun h' => hc.1 (h3.mp h')
    show (run rx lib a P).1 :: answers rx lib as (run rx lib a P).2 = _ :: _
    rw [h1, C179_partial as hl (by rw [h2]; exact hc.2), h2]

open Classical in
/-- How the acts of a history end after a malformed file has been read: those that need the mutex never
return. -/
noncomputable def stuckAnswers (rx : Str → Str → Outcome Str) (lib : ExprLib) :
    List Doing → List Made → List (Outcome Answer)
  | [], _ => []
  | a :: as, os =>
    if Locks a os then .ub .relock :: stuckAnswers rx lib as os
    else (lone rx lib a os).1 :: stuckAnswers rx lib as (lone rx lib a os).2

theorem stuck : ∀ (as : List Doing) {P : Process}, P.cfg.locked = true →
    answers rx lib as P = stuckAnswers rx lib as P.objs
  | [], _, _ => rfl
  | a :: as, P, h => by
    unfold stuckAnswers
    show (run rx lib a P).1 :: answers rx lib as (run rx lib a P).2 = _
    by_cases ha : Locks a P.objs
    · rw [if_pos ha, C179_held h ha, stuck as h]
    · obtain ⟨h1, h2, h3⟩ := C179_others (rx := rx) (lib := lib) ha
      rw [if_neg ha, h1, stuck as (by rw [h3]; exact h), h2]

/-- C179 after a malformed file, whoever read it: the reader gets an exception; from then on everything that
reads a file with definitions waits for ever, and everything else ends as if the file had never been read. -/
theorem C179_after {a : Doing} {P : Process} (h : P.cfg.locked = false) (ha : Malformed a P.objs) (as : List Doing) :
    answers rx lib (a :: as) P = .throw .illegalArgument :: stuckAnswers rx lib as P.objs := by
  obtain ⟨h1, h2⟩ := C179_malformed (rx := rx) (lib := lib) h ha
  show (run rx lib a P).1 :: answers rx lib as (run rx lib a P).2 = _
  rw [h1, stuck as ((C179_step (rx := rx) (lib := lib) a h).2.2.mpr ha), h2]

/-- C179 for enforcers that are already there: after a malformed file they answer every history of methods as
if nothing had happened. -/
theorem C179_use {a : Doing} {P : Process} (h : P.cfg.locked = false) (ha : Malformed a P.objs)
    (cs : List (Nat × Method)) :
    answers rx lib (a :: cs.map fun ic => .use ic.1 ic.2) P =
      .throw .illegalArgument :: loneAnswers rx lib (cs.map fun ic => .use ic.1 ic.2) P.objs := by
  rw [C179_after h ha]
  congr 1
  generalize P.objs = os
  induction cs generalizing os with
  | nil => rfl
  | cons c cs ih =>
    simp only [List.map_cons]
    unfold stuckAnswers loneAnswers
    rw [if_neg, ih]
    rintro (hl | ⟨k, v, hl⟩)
    · exact hl rfl
    · cases hl

open TextProps in
/-- Two files, one of them malformed. -/
def disk : Files :=
  { text := fun p => if p = c!"bad.conf" then some c!"[r]\noops\n" else if p = c!"acl.conf" then some basicConf else none
    writable := fun _ => true }

omit [IterOrder] in
theorem bad_file : ∃ l ∈ getLines c!"[r]\noops\n", Bad l := by
  refine ⟨c!"oops", by decide, ?_, ?_, by decide⟩
  · rintro (h | h | h) <;> revert h <;> decide
  · rintro ⟨s, h⟩
    unfold Header at h
    rw [show trim c!"oops" = c!"oops" by decide] at h
    simp at h

open MakingProps (plainRx) in
open Fixtures in
omit [IterOrder] in
/-- C179 is false: after the attempt to make an enforcer from a malformed file nobody can make one from a good
file. -/
theorem C179_fails : ¬ ∀ (_ : IterOrder) (as : List Doing) (P : Process), P.cfg.locked = false →
    answers plainRx miniLib as P = loneAnswers plainRx miniLib as P.objs := by
  intro h
  let := insertionOrder
  have h1 := h insertionOrder [.make disk (.fileAdapter c!"bad.conf" none), .make disk (.fileAdapter c!"acl.conf" none)]
    ⟨⟨false, []⟩, []⟩ rfl
  rw [C179_after rfl ⟨_, rfl, bad_file⟩] at h1
  unfold stuckAnswers at h1
  rw [if_pos (.inl (by simp [reads, getPath]))] at h1
  have h2 := (List.cons.inj (List.cons.inj h1).2).1
  have h3 : (lone plainRx miniLib (.make disk (.fileAdapter c!"acl.conf" none)) []).1 = .ok .done := by decide +kernel
  have h4 : (lone plainRx miniLib (.make disk (.fileAdapter c!"bad.conf" none)) []).2 = [] := rfl
  simp only at h2
  rw [h4, h3] at h2
  cases h2

open MakingProps (plainRx) in
open Fixtures in
omit [IterOrder] in
/-- Two enforcers from the same good file; the first one's model is loaded again. -/
example : letI := insertionOrder
    answers plainRx miniLib
      [.make disk (.fileAdapter c!"acl.conf" none), .make disk (.fileAdapter c!"acl.conf" none),
        .use 1 (.edit (.add false c!"p" alice)), .loadModel disk 0, .use 1 (.ask [] (alice.map .str)),
        .use 0 (.ask [] (alice.map .str))] ⟨⟨false, []⟩, []⟩
      = [.ok .done, .ok .done, .ok (.bool true), .ok .done, .ok (.bool true), .ok (.bool false)] := by
  let := insertionOrder
  have hg : ¬ ∃ l ∈ getLines (content disk c!"acl.conf"), Bad l := by
    intro hb
    have := (C56_parse_partial _).1 hb
    revert this
    decide +kernel
  have hm : ∀ {a : Doing} {os : List Made}, (∀ t, reads a os = some t → t = content disk c!"acl.conf") →
      ¬ Malformed a os := by
    rintro a os h ⟨t, ht, hb⟩
    exact hg (h t ht ▸ hb)
  rw [C179_partial _ rfl]
  · decide +kernel
  · refine ⟨hm ?_, hm ?_, hm ?_, hm ?_, hm ?_, hm ?_, trivial⟩
    · rintro t ht; cases ht; rfl
    · rintro t ht; cases ht; rfl
    · rintro t ht; cases ht
    · rintro t ht; cases ht; rfl
    · rintro t ht; cases ht
    · rintro t ht; cases ht

open MakingProps (plainRx) in
open Fixtures in
omit [IterOrder] in
/-- An enforcer made before somebody else reads a malformed file goes on answering. -/
example : letI := insertionOrder
    answers plainRx miniLib
      [.make disk (.fileAdapter c!"bad.conf" none), .use 0 (.edit (.add false c!"p" bob)), .use 0 (.ask [] (bob.map .str))]
      ⟨⟨false, []⟩, [⟨(Enforcer.construct (rbacModel [alice] []) none).2, []⟩]⟩
      = [.throw .illegalArgument, .ok (.bool true), .ok (.bool true)] := by
  let := insertionOrder
  refine (C179_use (a := .make disk (.fileAdapter c!"bad.conf" none)) rfl ⟨_, rfl, bad_file⟩
    [(0, .edit (.add false c!"p" bob)), (0, .ask [] (bob.map .str))]).trans ?_
  decide +kernel

end ProcessProps
end Casbin
