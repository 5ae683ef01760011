import Verif.Making
import Verif.Props.NewModel
import Verif.Props.Definitions

/-!
# C139: however an enforcer is made, it answers the same
-/

namespace Casbin
namespace MakingProps

open Enforcer Fixtures Method Made ReloadProps TextProps

variable [IterOrder] {lib : ExprLib} {rx : Str → Str → Outcome Str} {fs : Files}

/-! ## Specification -/

/-- The adapter is one that constructors and `Init` methods treat alike (null; or valid and not
filtered), and its `LoadPolicy` does not look at role managers. -/
def Ordinary : Option Adapter → Prop
  | none => True
  | some a => a.isValid = true ∧ a.isFiltered = false ∧ a.Blind

/-- The arguments are ordinary: a path of a policy file is not empty, an adapter is ordinary, a model
has not been used by an enforcer. -/
def Source.Ordinary : Source → Prop
  | .files _ policy | .filesLog _ policy _ => policy ≠ []
  | .file _ => False
  | .fileAdapter _ a => MakingProps.Ordinary a
  | .objects m a => m.Unused ∧ MakingProps.Ordinary a
  | .object m => m.Unused

/-- The path of the model file, if the model comes from a file. -/
def Source.modelPath : Source → Option Str
  | .files p _ | .filesLog p _ _ | .file p | .fileAdapter p _ => some p
  | .objects _ _ | .object _ => none

/-- How a call ended, without its result. -/
def ended {α : Type} : Outcome α → Outcome Unit
  | .ok _ => .ok ()
  | .throw e => .throw e
  | .ub u => .ub u

/-- A model and an adapter in memory that say what the arguments of a constructor say: the file of the
model is read, and for a file of rules (the one with the empty path, if there is none) there is an
adapter for batches. -/
def Source.parts (rx : Str → Str → Outcome Str) (fs : Files) : Source → Outcome (Model × Option Adapter)
  | .files p q | .filesLog p q _ => do
    let m ← Model.ofText rx (contents p)
    .ok (m, some { kind := .file q (fs.text q) (fs.writable q) true, log := [] })
  | .file p => do
    let m ← Model.ofText rx (contents p)
    .ok (m, some { kind := .file [] (fs.text []) (fs.writable []) true, log := [] })
  | .fileAdapter p a => do
    let m ← Model.ofText rx (contents p)
    .ok (m, a)
  | .objects m a => .ok (m, a)
  | .object m => .ok (m, none)
where
  contents (p : Str) : Str := match fs.text p with
    | some t => t
    | none => []

/-! ## Lemmas -/

theorem construct_eq (m : Model) (a : Option Adapter) :
    construct m a = (match a with
      | none => (.ok (), newWith m none)
      | some ad => if ad.isValid then Enforcer.loadPolicy (newWith m (some ad))
        else (.ok (), newWith m (some ad))) := by
  cases a with
  | none => rfl
  | some ad =>
    rw [newWith_eq]
    unfold construct
    simp only [M.bind_run, initObject, M.modify_run]
    by_cases h : ad.isValid = true <;> simp only [h, if_true] <;> rfl

theorem init_eq {m : Model} (hm : m.Unused) (a : Option Adapter) (E : Enforcer) :
    Enforcer.initWithModelAndAdapter m a E = (match a with
      | none => (.ok (), (newWith m none).move (.front E.heap))
      | some ad => if ad.isFiltered then (.ok (), (newWith m (some ad)).move (.front E.heap))
        else Enforcer.loadPolicy ((newWith m (some ad)).move (.front E.heap))) := by
  have h := setModel_move hm { E with adapter := a }
  unfold Enforcer.setModel at h
  unfold Enforcer.initWithModelAndAdapter
  simp only [M.bind_run, M.modify_run] at h ⊢
  rw [h]
  cases a with
  | none => rfl
  | some ad => cases hf : ad.isFiltered <;> simp [hf]

theorem newWith_adBlind {m : Model} {a : Option Adapter} (h : ∀ b, a = some b → b.Blind) :
    (newWith m a).AdBlind := by
  rw [newWith_eq]
  exact h

omit [IterOrder] in
theorem Ordinary.blind {a : Option Adapter} (h : Ordinary a) : ∀ b, a = some b → b.Blind := by
  rintro b rfl
  exact h.2.2

/-- The two ways with a model and an adapter in memory. -/
theorem init_same (hk : IterOrder.ByKeys ‹_›) {m : Model} (hm : m.Unused) {a : Option Adapter}
    (ha : Ordinary a) (E : Enforcer) :
    (Enforcer.initWithModelAndAdapter m a E).1 = (construct m a).1 ∧
      ∀ cs : List Method, (∀ c ∈ cs, c.Plain) →
        answers lib cs (Enforcer.initWithModelAndAdapter m a E).2 = answers lib cs (construct m a).2 := by
  rw [init_eq hm, construct_eq]
  cases a with
  | none =>
    exact ⟨rfl, fun cs hcs => answers_move hk lib (Embedding.front_grows E.heap) cs _ hcs
      ⟨newWith_adBlind ha.blind, trivial⟩⟩
  | some ad =>
    obtain ⟨h1, h2⟩ := indep_loadPolicy (.front E.heap) (newWith m (some ad))
      ⟨newWith_adBlind ha.blind, trivial⟩
    simp only [ha.1, ha.2.1, if_true, Bool.false_eq_true, if_false]
    rw [h1]
    exact ⟨rfl, fun cs hcs => answers_move hk lib (Embedding.front_grows E.heap) cs _ hcs h2⟩

omit [IterOrder] in
theorem ended_built (r : Outcome Unit × Enforcer) (p : Str) : ended (built r p) = r.1 := by
  obtain ⟨o, E⟩ := r
  cases o <;> rfl

omit [IterOrder] in
theorem built_ok {r : Outcome Unit × Enforcer} {p : Str} {o : Made} (h : built r p = .ok o) :
    r.1 = .ok () ∧ o = { E := r.2, path := p } := by
  obtain ⟨x, E⟩ := r
  cases x <;> simp [built] at h
  exact ⟨rfl, h.symm⟩

/-- From a path and an adapter. -/
theorem with_same (hk : IterOrder.ByKeys ‹_›) (p : Str) {a : Option Adapter} (ha : Ordinary a)
    (o : Made) :
    (initWithAdapter rx fs p a o).1 = ended (makeWith rx fs p a) ∧
      ∀ o', makeWith rx fs p a = .ok o' →
        (initWithAdapter rx fs p a o).2.path = o'.path ∧
        ∀ cs : List Method, (∀ c ∈ cs, c.Plain) →
          answers lib cs (initWithAdapter rx fs p a o).2.E = answers lib cs o'.E := by
  unfold initWithAdapter makeWith
  simp only [M.bind_run]
  cases hm : fs.model rx p with
  | throw e => exact ⟨rfl, fun o' h => by simp [bind, Outcome.bind] at h⟩
  | ub u => exact ⟨rfl, fun o' h => by simp [bind, Outcome.bind] at h⟩
  | ok m =>
    obtain ⟨h1, h2⟩ := init_same (lib := lib) hk (Model.unused_ofText hm) ha o.E
    simp only [M.lift, onE, bind, Outcome.bind]
    rw [ended_built, ← h1]
    rcases hr : Enforcer.initWithModelAndAdapter m a o.E with ⟨x, E'⟩
    rw [hr] at h1 h2
    cases x with
    | ok u =>
      refine ⟨rfl, fun o' h => ?_⟩
      obtain ⟨h3, rfl⟩ := built_ok h
      exact ⟨rfl, h2⟩
    | throw e =>
      refine ⟨rfl, fun o' h => ?_⟩
      exact absurd ((built_ok h).1.symm.trans h1.symm) (by simp)
    | ub e =>
      refine ⟨rfl, fun o' h => ?_⟩
      exact absurd ((built_ok h).1.symm.trans h1.symm) (by simp)

/-! ## C139 -/

/-- C139 (partial): for ordinary arguments, whatever object there was before, its `Init` method ends
as the constructor does; then every history of calls is answered as by the object of the constructor,
and `LoadModel` will read the same file. Missing: an empty path of the policy file, adapters that are
not valid and filtered adapters (`C139_fails`, `C139_filtered_fails`); and `LoadModel` for models that
do not come from a file (`C139_path_fails`). -/
theorem C139_init_partial (hk : IterOrder.ByKeys ‹_›) {s : Source} (hs : Source.Ordinary s) (o : Made) :
    (init rx fs s o).1 = ended (make rx fs s) ∧
      ∀ o', make rx fs s = .ok o' →
        (∀ p, Source.modelPath s = some p → (init rx fs s o).2.path = p ∧ o'.path = p) ∧
        ∀ cs : List Method, (∀ c ∈ cs, c.Plain) →
          answers lib cs (init rx fs s o).2.E = answers lib cs o'.E := by
  have paths : ∀ (p : Str) (a : Option Adapter) o', makeWith rx fs p a = .ok o' → o'.path = p := by
    intro p a o' h
    unfold makeWith at h
    cases hm : fs.model rx p with
    | ok m =>
      rw [hm] at h
      obtain ⟨-, rfl⟩ := built_ok h
      rfl
    | throw e => rw [hm] at h; simp [bind, Outcome.bind] at h
    | ub e => rw [hm] at h; simp [bind, Outcome.bind] at h
  have files : ∀ (p : Str) (a : Option Adapter), Ordinary a →
      (initWithAdapter rx fs p a o).1 = ended (makeWith rx fs p a) ∧
      ∀ o', makeWith rx fs p a = .ok o' →
        (∀ q, some p = some q → (initWithAdapter rx fs p a o).2.path = q ∧ o'.path = q) ∧
        ∀ cs : List Method, (∀ c ∈ cs, c.Plain) →
          answers lib cs (initWithAdapter rx fs p a o).2.E = answers lib cs o'.E := by
    intro p a ha
    obtain ⟨h1, h2⟩ := with_same (lib := lib) (rx := rx) (fs := fs) hk p ha o
    refine ⟨h1, fun o' h => ⟨?_, (h2 o' h).2⟩⟩
    rintro q ⟨⟩
    have := paths p a o' h
    exact ⟨(h2 o' h).1.trans this, this⟩
  have file : ∀ q : Str, q ≠ [] → Ordinary (some (fs.adapter q)) := fun q hq =>
    ⟨by simp [Adapter.isValid, Files.adapter, hq], rfl, trivial⟩
  have memory : ∀ (m : Model) (a : Option Adapter), m.Unused → Ordinary a →
      (Made.initWithModelAndAdapter m a o).1 = ended (built (construct m a) []) ∧
      ∀ o', built (construct m a) [] = .ok o' →
        (∀ q, (none : Option Str) = some q →
          (Made.initWithModelAndAdapter m a o).2.path = q ∧ o'.path = q) ∧
        ∀ cs : List Method, (∀ c ∈ cs, c.Plain) →
          answers lib cs (Made.initWithModelAndAdapter m a o).2.E = answers lib cs o'.E := by
    intro m a hm ha
    obtain ⟨h1, h2⟩ := init_same (lib := lib) hk hm ha o.E
    rw [ended_built]
    refine ⟨h1, fun o' h => ⟨(fun q hq => absurd hq (by simp)), ?_⟩⟩
    obtain ⟨-, rfl⟩ := built_ok h
    exact h2
  cases s with
  | files p q => exact files p _ (file q hs)
  | filesLog p q b => exact files p _ (file q hs)
  | file p => exact hs.elim
  | fileAdapter p a => exact files p a hs
  | objects m a => exact memory m a hs.1 hs.2
  | object m => exact memory m none hs trivial

/-- C139 for the constructors: from files, with or without a log flag, from a file alone, or from
objects, one gets the enforcer that one gets from the model that the file describes and an adapter for
the file of rules, or the same exception. Only the path for `LoadModel` differs. -/
theorem C139_constructors (s : Source) :
    make rx fs s = (match Source.parts rx fs s with
      | .ok (m, a) =>
        match make rx fs (.objects m a) with
        | .ok o => .ok { o with path := match Source.modelPath s with
            | some p => p
            | none => [] }
        | .throw e => .throw e
        | .ub u => .ub u
      | .throw e => .throw e
      | .ub u => .ub u) := by
  have memory : ∀ (m : Model) (a : Option Adapter) (p : Str), built (construct m a) p =
      (match built (construct m a) [] with
        | .ok o => .ok { o with path := p }
        | .throw e => .throw e
        | .ub u => .ub u) := by
    intro m a p
    rcases construct m a with ⟨x, E⟩
    cases x <;> rfl
  have files : ∀ (p : Str) (a : Option Adapter), makeWith rx fs p a =
      (match (do
          let m ← Model.ofText rx (Source.parts.contents fs p)
          .ok (m, a) : Outcome (Model × Option Adapter)) with
        | .ok (m, a) =>
          match make rx fs (.objects m a) with
          | .ok o => .ok { o with path := p }
          | .throw e => .throw e
          | .ub u => .ub u
        | .throw e => .throw e
        | .ub u => .ub u) := by
    intro p a
    unfold makeWith Files.model
    show (do
      let m ← Model.ofText rx (Source.parts.contents fs p)
      built (construct m a) p) = _
    cases hm : Model.ofText rx (Source.parts.contents fs p) with
    | ok m => exact memory m a p
    | throw e => rfl
    | ub u => rfl
  cases s with
  | files p q => exact files p _
  | filesLog p q b => exact files p _
  | file p => exact files p _
  | fileAdapter p a => exact files p a
  | objects m a => exact memory m a []
  | object m => exact memory m none []

/-- `LoadModel` reads the file with the path that the object has. -/
theorem loadModel_path (hk : IterOrder.ByKeys ‹_›) (o : Made) {m : Model}
    (hm : fs.model rx o.path = .ok m) (ha : ∀ a, o.E.adapter = some a → a.Blind) :
    (Made.loadModel rx fs o).1 = .ok () ∧ (Made.loadModel rx fs o).2.path = o.path ∧
      ∀ cs : List Method, (∀ c ∈ cs, c.Plain) →
        answers lib cs (Made.loadModel rx fs o).2.E = answers lib cs (newWith m o.E.adapter) := by
  have h := fun cs (hcs : ∀ c ∈ cs, Method.Plain c) =>
    C115_set_model_partial (lib := lib) hk (Model.unused_ofText hm) ha hcs
  have h' : Made.loadModel rx fs o = onE (Enforcer.setModel m) o := by
    unfold Made.loadModel Enforcer.loadModel
    simp only [M.bind_run, M.get, hm, onE, M.lift]
  rw [h']
  exact ⟨(h [] (by simp)).1, rfl, fun cs hcs => (h cs hcs).2⟩

/-- C139 for `LoadModel` (partial): an object made from a model file, or to which the `Init` method has
brought one, and then used in any way, reads that file again: it then answers as a new enforcer with
the model that the file now describes and the adapter of the time. Missing: `Init` methods that throw
and models that do not come from a file (`C139_path_fails`). -/
theorem C139_load_model_partial (hk : IterOrder.ByKeys ‹_›) {s : Source} {p : Str}
    (hp : Source.modelPath s = some p) {o : Made}
    (ho : make rx fs s = .ok o ∨ ∃ o₀, init rx fs s o₀ = (.ok (), o)) (used : List Method)
    (fs' : Files) {m : Model} (hm : fs'.model rx p = .ok m)
    (ha : ∀ a, (after lib used o.E).adapter = some a → a.Blind) :
    let o₁ : Made := { o with E := after lib used o.E }
    (Made.loadModel rx fs' o₁).1 = .ok () ∧
      ∀ cs : List Method, (∀ c ∈ cs, c.Plain) →
        answers lib cs (Made.loadModel rx fs' o₁).2.E =
          answers lib cs (newWith m (after lib used o.E).adapter) := by
  intro o₁
  have hpath : o.path = p := by
    rcases ho with ho | ⟨o₀, ho⟩
    · rw [C139_constructors, hp] at ho
      cases h1 : Source.parts rx fs s with
      | throw e => rw [h1] at ho; simp at ho
      | ub u => rw [h1] at ho; simp at ho
      | ok x =>
        obtain ⟨m', a⟩ := x
        rw [h1] at ho
        dsimp only at ho
        cases h2 : make rx fs (.objects m' a) with
        | throw e => rw [h2] at ho; simp at ho
        | ub u => rw [h2] at ho; simp at ho
        | ok o' =>
          rw [h2] at ho
          obtain rfl := Outcome.ok.inj ho
          rfl
    · have : ∀ a, initWithAdapter rx fs p a o₀ = (.ok (), o) → o.path = p := by
        intro a h
        unfold initWithAdapter at h
        simp only [M.bind_run, M.lift] at h
        cases h1 : fs.model rx p with
        | throw e => rw [h1] at h; simp at h
        | ub u => rw [h1] at h; simp at h
        | ok m' =>
          rw [h1] at h
          dsimp only at h
          rcases h2 : onE (Enforcer.initWithModelAndAdapter m' a) o₀ with ⟨x, o'⟩
          rw [h2] at h
          cases x with
          | ok u =>
            obtain rfl := (Prod.mk.inj h).2
            rfl
          | throw e => simp at h
          | ub u => simp at h
      cases s with
      | files p' q => obtain rfl := Option.some.inj hp; exact this _ ho
      | filesLog p' q b => obtain rfl := Option.some.inj hp; exact this _ ho
      | file p' => obtain rfl := Option.some.inj hp; exact this _ ho
      | fileAdapter p' a => obtain rfl := Option.some.inj hp; exact this _ ho
      | objects m' a => cases hp
      | object m' => cases hp
  have h := loadModel_path (lib := lib) (rx := rx) (fs := fs') hk o₁ (m := m)
    (by show fs'.model rx o.path = _; rw [hpath]; exact hm) ha
  exact ⟨h.1, h.2.2⟩

/-! ## Witnesses -/

/-- Regular expressions that replace nothing: the two models need none. -/
def plainRx : Str → Str → Outcome Str := fun _ s => .ok s

/-- Two model files and a file of rules. -/
def disk : Files :=
  { text := fun p =>
      if p = c!"acl.conf" then some basicConf
      else if p = c!"rbac.conf" then some rbacConf
      else if p = c!"p.csv" then some c!"p, alice, data1, read\np, bob, data2, write"
      else none
    writable := fun _ => true }

/-- Any object, with the path of the RBAC model: one made from that file. -/
def old : Made :=
  { E := (construct (rbacModel [] []) none).2, path := c!"rbac.conf" }

/-- What a call gives, without the object. -/
def shown (cs : List Method) (r : Outcome Unit × Made) :
    Outcome Unit × List (Outcome Answer) :=
  (r.1, answers (stdLib noRx) cs r.2.E)

/-- The same for a constructor. -/
def shownMade (cs : List Method) : Outcome Made → Outcome Unit × List (Outcome Answer)
  | .ok o => (.ok (), answers (stdLib noRx) cs o.E)
  | .throw e => (.throw e, [])
  | .ub u => (.ub u, [])

/-- Two requests. -/
def asks : List Method := [.ask [] (alice.map .str), .ask [] (carol.map .str)]

omit [IterOrder] in
/-- The object `old` is what the constructor makes of the file. -/
example : (let _ := insertionOrder
    make plainRx disk (.fileAdapter c!"rbac.conf" none) = .ok old) := rfl

omit [IterOrder] in
/-- C139 is false for an empty path of the file of rules: the constructor makes an enforcer without
rules, while `InitWithFile` throws. -/
theorem C139_fails : (let _ := insertionOrder
    shownMade asks (make plainRx disk (.files c!"acl.conf" [])) =
        (.ok (), [.ok (.bool false), .ok (.bool false)]) ∧
      shownMade asks (make plainRx disk (.file c!"acl.conf")) =
        (.ok (), [.ok (.bool false), .ok (.bool false)]) ∧
      (initWithFile plainRx disk c!"acl.conf" [] old).1 = .throw .adapter) := by
  intro _
  exact ⟨by decide +kernel, by decide +kernel, by decide +kernel⟩

/-- A `FilteredFileAdapter` as it is made (filtered_file_adapter.cpp 70–98): filtered, and its
`LoadPolicy` loads the whole file. -/
def filteredAdapter : Adapter :=
  { kind := .custom true true false (loadFile c!"p, alice, data1, read\np, bob, data2, write")
      (fun _ => .throw .unsupported), log := [] }

omit [IterOrder] in
/-- C139 is false for a filtered adapter: the constructor loads all of its rules, an `Init` method
none. -/
theorem C139_filtered_fails : (let _ := insertionOrder
    shownMade asks (make plainRx disk (.fileAdapter c!"acl.conf" (some filteredAdapter))) =
        (.ok (), [.ok (.bool true), .ok (.bool false)]) ∧
      shown asks (initWithAdapter plainRx disk c!"acl.conf" (some filteredAdapter) old) =
        (.ok (), [.ok (.bool false), .ok (.bool false)])) := by
  intro _
  exact ⟨by decide +kernel, by decide +kernel⟩

omit [IterOrder] in
/-- C139 is false for `LoadModel`: after `InitWithModelAndAdapter` or `SetModel`, and after an
`InitWithFile` that threw (it has brought the new model by then), it brings back the model of the file
from which the object was made first; an object that was made from a model in memory throws. -/
theorem C139_path_fails : (let _ := insertionOrder
    let reload := fun r : Outcome Unit × Made => ((Made.loadModel plainRx disk r.2).1,
      (Made.loadModel plainRx disk r.2).2.E.model)
    reload (Made.initWithModelAndAdapter (basicModel .hashset) none old) =
        (.ok (), rbacModel [] []) ∧
      reload (Made.setModel (basicModel .hashset) old) = (.ok (), rbacModel [] []) ∧
      ((initWithFile plainRx disk c!"acl.conf" [] old).1 = .throw .adapter ∧
        (initWithFile plainRx disk c!"acl.conf" [] old).2.E.model = clearedModel .hashset ∧
        reload (initWithFile plainRx disk c!"acl.conf" [] old) = (.ok (), rbacModel [] [])) ∧
      ∃ o, make plainRx disk (.object (basicModel .hashset)) = .ok o ∧
        (Made.loadModel plainRx disk o).1 = .throw .missingSections) := by
  intro _ reload
  exact ⟨by decide +kernel, by decide +kernel, ⟨by decide +kernel, by decide +kernel, by decide +kernel⟩,
    _, rfl, by decide +kernel⟩

omit [IterOrder] in
/-- Non-vacuity of C139: an object that had another model gets a model and rules from files, and an
object is made from them. -/
example : (let _ := insertionOrder
    Source.Ordinary (.files c!"acl.conf" c!"p.csv") ∧
    shownMade asks (make plainRx disk (.files c!"acl.conf" c!"p.csv")) =
        (.ok (), [.ok (.bool true), .ok (.bool false)]) ∧
      shown asks (init plainRx disk (.files c!"acl.conf" c!"p.csv") old) =
        (.ok (), [.ok (.bool true), .ok (.bool false)])) := by
  intro _
  exact ⟨List.cons_ne_nil _ _, by decide +kernel, by decide +kernel⟩

omit [IterOrder] in
/-- The other arguments can be ordinary too. -/
example : Source.Ordinary (.objects (basicModel .hashset) (some (Adapter.string c!"p, a, b, c"))) ∧
    Source.Ordinary (.fileAdapter c!"acl.conf" none) ∧ Source.Ordinary (.object (rbacModel [] [])) := by
  refine ⟨⟨?_, by decide, by decide, trivial⟩, trivial, ?_⟩
  · show Model.Unused _
    unfold Model.Unused
    decide
  · show Model.Unused _
    unfold Model.Unused
    decide

omit [IterOrder] in
/-- Non-vacuity of C139 for `LoadModel`: an edited object made from a file reads its model again. -/
example : (let _ := insertionOrder
    let used := [Method.edit (.add false c!"p" carol)]
    (match make plainRx disk (.files c!"acl.conf" c!"p.csv") with
      | .ok o => (answers (stdLib noRx) asks (after (stdLib noRx) used o.E),
          answers (stdLib noRx) asks
            (Made.loadModel plainRx disk { o with E := after (stdLib noRx) used o.E }).2.E)
      | _ => ([], [])) =
      ([.ok (.bool true), .ok (.bool true)], [.ok (.bool false), .ok (.bool false)]) ∧
    Files.model plainRx disk c!"acl.conf" = .ok (basicModel .hashset)) := by
  intro _ used
  exact ⟨by decide +kernel, by decide +kernel⟩

end MakingProps
end Casbin
