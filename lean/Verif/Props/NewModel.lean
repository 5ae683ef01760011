import Verif.Calls
import Verif.Fixtures
import Verif.Props.Examples

/-!
# C115: giving an enforcer another model
-/

namespace Casbin
namespace ReloadProps

open Enforcer Fixtures Method

variable [IterOrder] {lib : ExprLib}

/-! ## C115 -/

/-- A new enforcer with the model; the adapter, if there is one, is then set. -/
def newWith (m : Model) : Option Adapter → Enforcer
  | none => (construct m none).2
  | some a => (Enforcer.setAdapter a (construct m none).2).2

theorem newWith_eq (m : Model) (a : Option Adapter) : newWith m a =
    { model := m, heap := [RM.new 10], rm := 0, adapter := a, watcher := none, eval := none,
      enabled := true, autoSave := true, autoBuild := true, autoNotify := true } := by
  cases a <;> rfl

theorem setModel_move {m : Model} (hm : m.Unused) (E : Enforcer) :
    Enforcer.setModel m E = (.ok (), (newWith m E.adapter).move (.front E.heap)) := by
  rw [newWith_eq]
  show (Outcome.ok (), _) = _
  simp [Enforcer.move, Embedding.front, hm.move]

/-- C115 (partial): whatever was done with an enforcer before, after `SetModel` with a model that no
enforcer has used, or that has just been read by `LoadModel`, every history of calls is answered as by
a new enforcer with that model and the old adapter. Missing: the watcher and the switches, which are
lost (`C115_fails`); and models shared with another enforcer. -/
theorem C115_set_model_partial (hk : IterOrder.ByKeys ‹_›) {m : Model} (hm : m.Unused) {E : Enforcer}
    (ha : ∀ a, E.adapter = some a → a.Blind) {cs : List Method} (hcs : ∀ c ∈ cs, c.Plain) :
    (Enforcer.setModel m E).1 = .ok () ∧
      answers lib cs (Enforcer.setModel m E).2 = answers lib cs (newWith m E.adapter) := by
  rw [setModel_move hm]
  refine ⟨rfl, answers_move hk lib (Embedding.front_grows E.heap) cs _ hcs ⟨?_, trivial⟩⟩
  rw [newWith_eq]
  exact ha

/-- C115 (partial) for `LoadModel`: with a file that can be read the same; otherwise the exception is
passed on and nothing changes. -/
theorem C115_load_model_partial (hk : IterOrder.ByKeys ‹_›) {rx : Str → Str → Outcome Str} (text : Str)
    {E : Enforcer} (ha : ∀ a, E.adapter = some a → a.Blind) {cs : List Method} (hcs : ∀ c ∈ cs, c.Plain) :
    (∀ m, Model.ofText rx text = .ok m →
      (Enforcer.loadModel (Model.ofText rx text) E).1 = .ok () ∧
        answers lib cs (Enforcer.loadModel (Model.ofText rx text) E).2 =
          answers lib cs (newWith m E.adapter)) ∧
    (∀ e, Model.ofText rx text = .throw e →
      Enforcer.loadModel (Model.ofText rx text) E = (.throw e, E)) := by
  constructor
  · intro m hm
    have := C115_set_model_partial (lib := lib) hk (Model.unused_ofText hm) ha hcs
    unfold Enforcer.loadModel
    rw [hm]
    exact this
  · intro e he
    unfold Enforcer.loadModel
    rw [he]
    rfl

/-- C115 (partial), with the policy loaded again: then it is as constructed from the model and the
adapter. -/
theorem C115_reload_partial (hk : IterOrder.ByKeys ‹_›) {m : Model} (hm : m.Unused) {E : Enforcer}
    {a : Adapter} (hE : E.adapter = some a) (ha : a.Blind) (hv : a.isValid = true) {cs : List Method}
    (hcs : ∀ c ∈ cs, c.Plain) :
    (Enforcer.loadPolicy (Enforcer.setModel m E).2).1 = (construct m (some a)).1 ∧
      answers lib cs (Enforcer.loadPolicy (Enforcer.setModel m E).2).2 =
        answers lib cs (construct m (some a)).2 := by
  have hb : (newWith m (some a)).AdBlind := by
    intro b hb
    obtain rfl : a = b := Option.some.inj hb
    exact ha
  have hc : construct m (some a) = Enforcer.loadPolicy (newWith m (some a)) := by
    rw [newWith_eq]
    unfold construct
    simp only [M.bind_run, initObject, M.modify_run, hv, if_true]
    rfl
  obtain ⟨h1, h2⟩ := indep_loadPolicy (.front E.heap) _ ⟨hb, trivial⟩
  rw [setModel_move hm, hE, h1, hc]
  exact ⟨rfl, answers_move hk lib (Embedding.front_grows E.heap) cs _ hcs h2⟩

/-- An enforcer with a watcher, with enforcement and automatic saving switched off. -/
def configured (m : Model) : Enforcer :=
  after (stdLib noRx) [.setAdapter niceAdapter, .setWatcher ⟨false, []⟩, .enableEnforce false,
    .enableAutoSave false] (construct m none).2

omit [IterOrder] in
/-- C115 is false for the watcher and the switches: after `SetModel` with the model the enforcer
already had, its watcher is no longer told of edits, edits are written through although automatic
saving had been switched off, and requests are decided again although enforcement had been switched
off. -/
theorem C115_fails : (let _ := insertionOrder
    let E := configured (aclModel (.vector [alice]))
    let E' := (Enforcer.setModel E.model E).2
    let c := Method.edit (.add false c!"p" carol)
    (answers (stdLib noRx) [c, .ask [] (bob.map .str)] E =
        [.ok (.bool true), .ok (.bool true)] ∧
      answers (stdLib noRx) [c, .ask [] (bob.map .str)] E' =
        [.ok (.bool true), .ok (.bool false)]) ∧
    ((after (stdLib noRx) [c] E).watcher = some ⟨false, [.update]⟩ ∧
      (after (stdLib noRx) [c] E').watcher = none) ∧
    ((after (stdLib noRx) [c] E).adapter.map Adapter.log = some [] ∧
      (after (stdLib noRx) [c] E').adapter.map Adapter.log = some [.add c!"p" c!"p" carol])) := by
  intro _ E E' c
  exact ⟨⟨by decide +kernel, by decide +kernel⟩, ⟨by decide +kernel, by decide +kernel⟩,
    by decide +kernel, by decide +kernel⟩

omit [IterOrder] in
/-- Non-vacuity of C115: an RBAC enforcer that has answered requests gets the model again with other
rules. The new answers come from the new rules; the old role links are gone. -/
example : (let _ := insertionOrder
    let P := [[c!"admin", c!"data1", c!"read"]]
    let E := after (stdLib noRx) [.buildRoleLinks, .ask [] (alice.map .str)]
      (construct (rbacModel P [[c!"alice", c!"admin"]]) none).2
    let cs := [Method.buildRoleLinks, .ask [] (alice.map .str),
      .edit (.add true c!"g" [c!"alice", c!"admin"]), .ask [] (alice.map .str), .roles c!"alice" []]
    (answers (stdLib noRx) cs (Enforcer.setModel (rbacModel P []) E).2,
      answers (stdLib noRx) [.ask [] (alice.map .str)] E)) =
    ([.ok .done, .ok (.bool false), .ok (.bool true), .ok (.bool true), .ok (.names [c!"admin"])],
      [.ok (.bool true)]) := by
  decide +kernel

omit [IterOrder] in
/-- The hypotheses of C115 hold for it. -/
example : (rbacModel [[c!"admin", c!"data1", c!"read"]] []).Unused ∧ (niceAdapter).Blind ∧
    (Adapter.string c!"p, alice, data1, read").Blind ∧ insertionOrder.ByKeys ∧ reverseOrder.ByKeys := by
  refine ⟨?_, fun _ => .pure _, trivial, insertionOrder_byKeys, reverseOrder_byKeys⟩
  unfold Model.Unused
  decide

end ReloadProps
end Casbin
