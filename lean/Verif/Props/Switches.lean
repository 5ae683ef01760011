import Verif.StepLemmas
import Verif.Fixtures
import Verif.Props.Examples
import Verif.Props.Notify
import Verif.Props.Requests

/-!
# C130: the switches and setters of an enforcer
-/

set_option linter.unusedSectionVars false

namespace Casbin
namespace SwitchProps

open Enforcer Fixtures Method NotifyProps PolicyProps

variable [IterOrder] {lib : ExprLib}

/-- The four switches: `EnableEnforce`, `EnableAutoSave`, `EnableAutoBuildRoleLinks`,
`EnableAutoNotifyWatcher`. -/
inductive Switch
  | enforce | save | build | notify

/-- How a call sets a switch. Giving the enforcer a model sets all of them. -/
def Switch.set : Switch → Method → Option Bool
  | .enforce, .enableEnforce b => some b
  | .save, .enableAutoSave b => some b
  | .build, .enableAutoBuild b => some b
  | .notify, .enableAutoNotify b => some b
  | _, .setModel _ => some true
  | _, _ => none

/-- The switch after a history of calls is as the last call that set it has left it; at first it is
on. -/
def Switch.Stands (sw : Switch) (cs : List Method) (b : Bool) : Prop :=
  ((∀ c ∈ cs, sw.set c = none) ∧ b = true) ∨
    ∃ pre c post, cs = pre ++ c :: post ∧ sw.set c = some b ∧ ∀ d ∈ post, sw.set d = none

/-- The flag of a switch. -/
def Switch.flag (E : Enforcer) : Switch → Bool
  | .enforce => E.enabled
  | .save => E.autoSave
  | .build => E.autoBuild
  | .notify => E.autoNotify

/-- The calls that change the stored policy in the adapter one by one. -/
def isEdit : AdapterCall → Bool
  | .load => false
  | .save => false
  | _ => true

/-- The single changes the adapter was told. -/
def written (E : Enforcer) : List AdapterCall := (adapterLog E).filter isEdit

theorem set_step (sw : Switch) (c : Method) (E : Enforcer) :
    Switch.flag (c.run lib E).2 sw = match sw.set c with
      | some b => b
      | none => Switch.flag E sw := by
  have keep : ∀ {E' : Enforcer}, Steps true E E' → Switch.flag E' sw = Switch.flag E sw := by
    intro E' h
    cases sw
    · exact h.flags.1
    · exact h.flags.2.1
    · exact h.flags.2.2.1
    · exact h.flags.2.2.2
  cases c with
  | enableEnforce b => cases sw <;> rfl
  | enableAutoSave b => cases sw <;> rfl
  | enableAutoBuild b => cases sw <;> rfl
  | enableAutoNotify b => cases sw <;> rfl
  | setAdapter a => cases sw <;> rfl
  | setWatcher w => cases sw <;> rfl
  | setModel m => cases sw <;> rfl
  | savePolicy =>
    have h := keep ((Method.steps lib (s := true) (c := .savePolicy) rfl).run E)
    cases sw <;> exact h
  | _ =>
    cases sw <;> exact keep (StepOk.run (Method.steps lib (s := true) (by trivial)) E)

theorem after_append (cs ds : List Method) (E : Enforcer) :
    after lib (cs ++ ds) E = after lib ds (after lib cs E) := by
  induction cs generalizing E with
  | nil => rfl
  | cons c cs ih => exact ih _

theorem flag_kept (sw : Switch) (cs : List Method) (h : ∀ c ∈ cs, sw.set c = none) (E : Enforcer) :
    Switch.flag (after lib cs E) sw = Switch.flag E sw := by
  induction cs generalizing E with
  | nil => rfl
  | cons c cs ih =>
    unfold after
    rw [ih (fun d hd => h d (List.mem_cons_of_mem _ hd)), set_step, h c List.mem_cons_self]

/-- A new enforcer has everything switched on. -/
theorem construct_flag (m : Model) (a : Option Adapter) (sw : Switch) :
    Switch.flag (construct m a).2 sw = true := by
  have h : Switch.flag (construct m a).2 sw = Switch.flag (initObject
      { model := m, heap := [], rm := 0, adapter := a, watcher := none, eval := none,
        enabled := true, autoSave := true, autoBuild := true, autoNotify := true }).2 sw := by
    unfold construct
    simp only [M.bind_run, initObject, M.modify_run]
    cases a with
    | none => rfl
    | some ad =>
      simp only
      split
      · have h := (stepOk_loadPolicy (s := true)).run
          { model := m, heap := [] ++ [RM.new 10], rm := ([] : List RM).length, adapter := some ad,
            watcher := none, eval := none, enabled := true, autoSave := true, autoBuild := true,
            autoNotify := true }
        cases sw
        · exact h.flags.1
        · exact h.flags.2.1
        · exact h.flags.2.2.1
        · exact h.flags.2.2.2
      · rfl
  rw [h]
  cases sw <;> rfl

/-- C130 for the state: after any history of calls on a new enforcer (whatever their arguments and
whether or not they throw) a switch is as the last call that set it has left it. -/
theorem C130_switches (m : Model) (a : Option Adapter) (cs : List Method) (sw : Switch) (b : Bool)
    (h : sw.Stands cs b) : Switch.flag (after lib cs (construct m a).2) sw = b := by
  rcases h with ⟨h, rfl⟩ | ⟨pre, c, post, rfl, hc, hp⟩
  · rw [flag_kept sw cs h, construct_flag]
  · rw [after_append]
    unfold after
    rw [flag_kept sw post hp, set_step, hc]

/-- The last call that set a switch can always be told. -/
theorem Switch.stands_total (sw : Switch) (cs : List Method) : ∃ b, sw.Stands cs b := by
  induction cs with
  | nil => exact ⟨true, .inl ⟨by simp, rfl⟩⟩
  | cons c cs ih =>
    obtain ⟨b, ⟨h1, h2⟩ | ⟨pre, d, post, rfl, hd, hp⟩⟩ := ih
    · cases hc : sw.set c with
      | none =>
        refine ⟨true, .inl ⟨fun d hd => ?_, rfl⟩⟩
        rcases List.mem_cons.mp hd with rfl | hd
        · exact hc
        · exact h1 d hd
      | some b' => exact ⟨b', .inr ⟨[], c, cs, rfl, hc, h1⟩⟩
    · exact ⟨b, .inr ⟨c :: pre, d, post, rfl, hd, hp⟩⟩

/-- C130, saving: after a history whose last `EnableAutoSave` was with false, no call, whether it
returns or throws, tells the adapter of a change, except by giving the enforcer another adapter. -/
theorem C130_save_off {m : Model} {a : Option Adapter} {cs : List Method}
    (h : Switch.save.Stands cs false) {c : Method} (hc : ∀ a, c ≠ .setAdapter a) :
    written (c.run lib (after lib cs (construct m a).2)).2 = written (after lib cs (construct m a).2) := by
  have hf : (after lib cs (construct m a).2).autoSave = false := C130_switches m a cs .save false h
  generalize after lib cs (construct m a).2 = E at hf
  have key : Steps true E (c.run lib E).2 → written (c.run lib E).2 = written E := by
    intro hs
    unfold written adapterLog
    cases ha : E.adapter with
    | none => rw [hs.noAdapter ha]
    | some b =>
      obtain ⟨b', l, h1, h2, h3⟩ := hs.adapter b ha
      rw [h1]
      simp only [h2, List.filter_append]
      have : l.filter isEdit = [] := by
        rw [List.filter_eq_nil_iff]
        intro x hx
        rcases h3 hf x hx with rfl | rfl <;> decide
      rw [this, List.append_nil]
  cases c with
  | setAdapter b => exact absurd rfl (hc b)
  | savePolicy => exact key ((Method.steps lib (s := true) (c := .savePolicy) rfl).run E)
  | enableEnforce b => rfl
  | enableAutoSave b => rfl
  | enableAutoBuild b => rfl
  | enableAutoNotify b => rfl
  | setWatcher w => rfl
  | setModel m => rfl
  | _ => exact key (StepOk.run (Method.steps lib (s := true) (by trivial)) E)

/-- C130, saving: after a history whose last `EnableAutoSave`, if any, was with true, a successful edit
tells the adapter exactly one change, the corresponding one. Missing: updates, which never tell the
adapter (`C44_update_fails`). -/
theorem C130_save_on_partial {m : Model} {a : Option Adapter} {cs : List Method}
    (h : Switch.save.Stands cs true) {e : Edit} (he : ¬ IsUpdate e) {b : Adapter}
    (hb : (after lib cs (construct m a).2).adapter = some b)
    (hr : (Method.run lib (.edit e) (after lib cs (construct m a).2)).1 = .ok (.bool true)) :
    ∃ c, Corresponds e c ∧
      adapterLog (after lib (cs ++ [.edit e]) (construct m a).2) =
        adapterLog (after lib cs (construct m a).2) ++ [c] := by
  have hf : (after lib cs (construct m a).2).autoSave = true := C130_switches m a cs .save true h
  rw [after_append]
  generalize after lib cs (construct m a).2 = E at hf hb hr
  have hr' : (e.run E).1 = .ok true := by
    simp only [Method.run, M.bind_run] at hr
    rcases he : e.run E with ⟨o, E'⟩
    rw [he] at hr
    cases o with
    | ok b => simpa using hr
    | throw x => simp at hr
    | ub x => simp at hr
  have h2 : (Method.run lib (.edit e) E).2 = (e.run E).2 := by
    simp only [Method.run, M.bind_run]
    rcases he : e.run E with ⟨o, E'⟩
    cases o <;> rfl
  obtain ⟨c, h1, h3⟩ := (C44_autoSave_partial e E hb).2.2 hr' hf he
  exact ⟨c, h1, by show adapterLog (Method.run lib (.edit e) E).2 = _; rw [h2, h3]⟩

/-- C130, notifying: after a history whose last `EnableAutoNotifyWatcher` was with false, the watcher
is told of nothing but `SavePolicy`. -/
theorem C130_notify_off {m : Model} {a : Option Adapter} {cs : List Method}
    (h : Switch.notify.Stands cs false) {c : Method} (hc : c ≠ .savePolicy)
    (hw : ∀ w, c ≠ .setWatcher w) (hm : ∀ m, c ≠ .setModel m) :
    (c.run lib (after lib cs (construct m a).2)).2.watcher =
      (after lib cs (construct m a).2).watcher := by
  have hf : (after lib cs (construct m a).2).autoNotify = false := C130_switches m a cs .notify false h
  generalize after lib cs (construct m a).2 = E at hf
  have key : Steps false E (c.run lib E).2 → (c.run lib E).2.watcher = E.watcher := by
    intro hs
    cases hE : E.watcher with
    | none => exact hs.noWatcher hE
    | some w =>
      obtain ⟨l, h1, h2⟩ := hs.watcher w hE
      rw [h1, h2 rfl hf, List.append_nil]
  cases c with
  | setWatcher w => exact absurd rfl (hw w)
  | setModel m => exact absurd rfl (hm m)
  | savePolicy => exact absurd rfl hc
  | enableEnforce b => rfl
  | enableAutoSave b => rfl
  | enableAutoBuild b => rfl
  | enableAutoNotify b => rfl
  | setAdapter w => rfl
  | _ => exact key (StepOk.run (Method.steps lib (s := false) (by trivial)) E)

/-- C130, notifying: after a history whose last `EnableAutoNotifyWatcher`, if any, was with true, a
successful edit tells the watcher once. -/
theorem C130_notify_on {m : Model} {a : Option Adapter} {cs : List Method}
    (h : Switch.notify.Stands cs true) {e : Edit} {w : Watcher}
    (hw : (after lib cs (construct m a).2).watcher = some w)
    (hr : (Method.run lib (.edit e) (after lib cs (construct m a).2)).1 = .ok (.bool true)) :
    (after lib (cs ++ [.edit e]) (construct m a).2).watcher =
      some { w with log := w.log ++ [.update] } := by
  have hf : (after lib cs (construct m a).2).autoNotify = true := C130_switches m a cs .notify true h
  rw [after_append]
  generalize after lib cs (construct m a).2 = E at hf hw hr
  have hr' : (e.run E).1 = .ok true := by
    simp only [Method.run, M.bind_run] at hr
    rcases he : e.run E with ⟨o, E'⟩
    rw [he] at hr
    cases o with
    | ok b => simpa using hr
    | throw x => simp at hr
    | ub x => simp at hr
  have h2 : (Method.run lib (.edit e) E).2 = (e.run E).2 := by
    simp only [Method.run, M.bind_run]
    rcases he : e.run E with ⟨o, E'⟩
    cases o <;> rfl
  show (Method.run lib (.edit e) E).2.watcher = _
  rw [h2, ((e.did E).done hr').2]
  simp [notifiedWatcher, hf, hw]

/-- C130, enforcing: after a history whose last `EnableEnforce` was with false, a request with the
right number of values is granted and not explained. -/
theorem C130_enforce_off {m : Model} {a : Option Adapter} {cs : List Method}
    (h : Switch.enforce.Stands cs false) {r : Assertion}
    (hr : (after lib cs (construct m a).2).model.find c!"r" c!"r" = some r)
    (hl : ∀ t ∈ r.tokens, 2 ≤ t.length)
    (hv : ∀ t ∈ r.tokens, Evaluator.validSymbol (reqName t) = true)
    (vs : List ReqVal) (hlen : vs.length = r.tokens.length) (matcher : Str) (X : Rule) :
    (Method.run lib (.askEx matcher vs X) (after lib cs (construct m a).2)).1 =
      .ok (.explained true []) := by
  have hf : (after lib cs (construct m a).2).enabled = false := C130_switches m a cs .enforce false h
  have h1 := DecisionProps.C08_disabled_partial (lib := lib) hf hr hl hv vs hlen matcher X
  simp only [Method.run, M.bind_run]
  rcases he : enforceEx lib matcher vs X (after lib cs (construct m a).2) with ⟨o, E'⟩
  rw [he] at h1
  simp only at h1
  subst h1
  rfl

theorem buildAll_autoBuild (b : Bool) (ks : List Str) : ∀ E : Enforcer,
    buildAll ks { E with autoBuild := b } =
      ((buildAll ks E).1, { (buildAll ks E).2 with autoBuild := b }) := by
  induction ks with
  | nil => intro E; rfl
  | cons k ks ih =>
    intro E
    simp only [buildAll, M.bind_run, M.get_run]
    cases h : E.model.find c!"g" k with
    | none => rfl
    | some a =>
      simp only [M.bind_run, onModel_run, M.modify_run, onRm]
      rcases onHeap E.rm (Assertion.buildLinks a.value .add a.policy.iterate) E.heap with ⟨o, H⟩
      cases o with
      | throw e => rfl
      | ub u => rfl
      | ok _ => exact ih { E with model := _, heap := H }

theorem buildRoleLinks_autoBuild (b : Bool) (E : Enforcer) :
    buildRoleLinks { E with autoBuild := b } =
      ((buildRoleLinks E).1, { (buildRoleLinks E).2 with autoBuild := b }) := by
  simp only [Enforcer.buildRoleLinks, M.bind_run, M.get_run, onModel_run, M.modify_run, onRm]
  rcases onHeap E.rm (M.modify RM.clear) E.heap with ⟨o, H⟩
  cases o with
  | throw e => rfl
  | ub u => rfl
  | ok _ => exact buildAll_autoBuild b _ { E with model := _, heap := H }

/-- C130, building: after a history whose last `EnableAutoBuildRoleLinks` was with false, `LoadPolicy`
leaves all role managers alone; the links are made by `BuildRoleLinks`, and then everything is as if
the switch had been on. Missing: the editing of grouping rules, which makes links all the same
(`C130_build_fails`). -/
theorem C130_build_load_partial {m : Model} {a : Option Adapter} {cs : List Method}
    (h : Switch.build.Stands cs false) :
    (loadPolicy (after lib cs (construct m a).2)).2.heap = (after lib cs (construct m a).2).heap ∧
    ((loadPolicy (after lib cs (construct m a).2)).1 = .ok () →
      buildRoleLinks (loadPolicy (after lib cs (construct m a).2)).2 =
        ((loadPolicy (after lib (cs ++ [.enableAutoBuild true]) (construct m a).2)).1,
          { (loadPolicy (after lib (cs ++ [.enableAutoBuild true]) (construct m a).2)).2 with
            autoBuild := false })) := by
  have hf : (after lib cs (construct m a).2).autoBuild = false := C130_switches m a cs .build false h
  rw [after_append]
  generalize after lib cs (construct m a).2 = E at hf
  show _ ∧ (_ → _ = ((loadPolicy { E with autoBuild := true }).1,
    { (loadPolicy { E with autoBuild := true }).2 with autoBuild := false }))
  unfold Enforcer.loadPolicy
  simp only [M.bind_run, Enforcer.clearPolicy, onModel_run, M.modify_run, M.get_run]
  cases ha : E.adapter with
  | none => simp only; exact ⟨rfl, fun h => by cases h⟩
  | some ad =>
    simp only [M.bind_run, onAdapter, onModel_run, M.modify_run]
    rcases ad.loadPolicy E.model.clearPolicy with ⟨o, m'⟩
    cases o with
    | throw e => exact ⟨rfl, fun h => by cases h⟩
    | ub u => exact ⟨rfl, fun h => by cases h⟩
    | ok _ =>
      simp only [M.get_run, hf, Bool.false_eq_true, if_false, if_true, M.pure_run]
      exact ⟨trivial, fun _ => buildRoleLinks_autoBuild false
        { E with model := m', adapter := some { ad with log := ad.log ++ [.load] }, autoBuild := true }⟩

/-- C130 for `SetAdapter`: from then on, until another adapter is set, the calls are made to the new
adapter, whose log only grows. -/
theorem C130_adapter {a : Adapter} {cs : List Method} (hcs : ∀ b, Method.setAdapter b ∉ cs)
    (E : Enforcer) : ∃ b l, (after lib (.setAdapter a :: cs) E).adapter = some b ∧ b.log = a.log ++ l := by
  have key : ∀ (cs : List Method) (E : Enforcer) (b : Adapter), (∀ b, Method.setAdapter b ∉ cs) →
      E.adapter = some b → ∃ b' l, (after lib cs E).adapter = some b' ∧ b'.log = b.log ++ l := by
    intro cs
    induction cs with
    | nil => intro E b _ hE; exact ⟨b, [], hE, by simp⟩
    | cons c cs ih =>
      intro E b hcs hE
      have h1 : ∃ b' l, (c.run lib E).2.adapter = some b' ∧ b'.log = b.log ++ l := by
        have key : Steps true E (c.run lib E).2 →
            ∃ b' l, (c.run lib E).2.adapter = some b' ∧ b'.log = b.log ++ l := fun hs => by
          obtain ⟨b', l, h1, h2, _⟩ := hs.adapter b hE
          exact ⟨b', l, h1, h2⟩
        have same : (c.run lib E).2.adapter = E.adapter →
            ∃ b' l, (c.run lib E).2.adapter = some b' ∧ b'.log = b.log ++ l := fun hs =>
          ⟨b, [], hs.trans hE, by simp⟩
        cases c with
        | setAdapter b => exact absurd List.mem_cons_self (hcs b)
        | savePolicy => exact key ((Method.steps lib (s := true) (c := .savePolicy) rfl).run E)
        | enableEnforce b => exact same rfl
        | enableAutoSave b => exact same rfl
        | enableAutoBuild b => exact same rfl
        | enableAutoNotify b => exact same rfl
        | setWatcher w => exact same rfl
        | setModel m => exact same rfl
        | _ => exact key (StepOk.run (Method.steps lib (s := true) (by trivial)) E)
      obtain ⟨b1, l1, e1, e2⟩ := h1
      obtain ⟨b2, l2, e3, e4⟩ := ih _ b1 (fun d hd => hcs d (List.mem_cons_of_mem _ hd)) e1
      exact ⟨b2, l1 ++ l2, e3, by rw [e4, e2, List.append_assoc]⟩
  exact key cs _ a hcs rfl

/-- C130 for `SetWatcher`: from then on, until another watcher or a model is set, the new watcher is
the one that is told. -/
theorem C130_watcher {w : Watcher} {cs : List Method} (hcs : ∀ c ∈ cs, (∀ w, c ≠ .setWatcher w) ∧
    ∀ m, c ≠ .setModel m) (E : Enforcer) :
    ∃ l, (after lib (.setWatcher w :: cs) E).watcher = some { w with log := w.log ++ l } := by
  have key : ∀ (cs : List Method) (E : Enforcer) (v : Watcher), (∀ c ∈ cs, (∀ w, c ≠ .setWatcher w) ∧
      ∀ m, c ≠ .setModel m) → E.watcher = some v →
      ∃ l, (after lib cs E).watcher = some { v with log := v.log ++ l } := by
    intro cs
    induction cs with
    | nil => intro E b _ hE; exact ⟨[], by simpa [after] using hE⟩
    | cons c cs ih =>
      intro E v hcs hE
      have h1 : ∃ l, (c.run lib E).2.watcher = some { v with log := v.log ++ l } := by
        have key : Steps true E (c.run lib E).2 →
            ∃ l, (c.run lib E).2.watcher = some { v with log := v.log ++ l } := fun hs => by
          obtain ⟨l, h1, _⟩ := hs.watcher v hE
          exact ⟨l, h1⟩
        have same : (c.run lib E).2.watcher = E.watcher →
            ∃ l, (c.run lib E).2.watcher = some { v with log := v.log ++ l } := fun hs =>
          ⟨[], by rw [hs, hE, List.append_nil]⟩
        cases c with
        | setWatcher b => exact absurd rfl ((hcs _ List.mem_cons_self).1 b)
        | setModel m => exact absurd rfl ((hcs _ List.mem_cons_self).2 m)
        | savePolicy => exact key ((Method.steps lib (s := true) (c := .savePolicy) rfl).run E)
        | enableEnforce b => exact same rfl
        | enableAutoSave b => exact same rfl
        | enableAutoBuild b => exact same rfl
        | enableAutoNotify b => exact same rfl
        | setAdapter w => exact same rfl
        | _ => exact key (StepOk.run (Method.steps lib (s := true) (by trivial)) E)
      obtain ⟨l1, e1⟩ := h1
      obtain ⟨l2, e2⟩ := ih _ _ (fun d hd => hcs d (List.mem_cons_of_mem _ hd)) e1
      exact ⟨l1 ++ l2, by rw [← List.append_assoc]; exact e2⟩
  exact key cs _ w hcs rfl

omit [IterOrder] in
/-- C130 is false for automatic building: with it switched off, adding a grouping rule makes the link
at once (the role is listed and the request granted), and removing the rule does not take it away. -/
theorem C130_build_fails : (let _ := insertionOrder
    let E := (construct (rbacModel [[c!"admin", c!"data1", c!"read"]] []) none).2
    answers (stdLib noRx) [.buildRoleLinks, .ask [] (alice.map .str), .enableAutoBuild false,
        .edit (.add true c!"g" [c!"alice", c!"admin"]), .ask [] (alice.map .str),
        .roles c!"alice" [], .edit (.remove true c!"g" [c!"alice", c!"admin"]), .roles c!"alice" [],
        .buildRoleLinks, .roles c!"alice" []] E =
      [.ok .done, .ok (.bool false), .ok .done, .ok (.bool true), .ok (.bool true),
        .ok (.names [c!"admin"]), .ok (.bool true), .ok (.names [c!"admin"]), .ok .done,
        .ok (.names [])]) := by
  intro _ E
  decide +kernel

/-- Switching saving off, on and off again, with edits between; notifying off. -/
def history : List Method :=
  [.setAdapter niceAdapter, .setWatcher ⟨true, []⟩, .enableAutoSave false,
    .edit (.add false c!"p" alice), .enableAutoSave true, .edit (.add false c!"p" bob),
    .enableAutoNotify false, .enableAutoSave false]

omit [IterOrder] in
/-- Non-vacuity of C130: the switches of the history, and what adapter and watcher were told. -/
example : Switch.save.Stands history false ∧ Switch.notify.Stands history false ∧
    Switch.enforce.Stands history true ∧ Switch.save.Stands (history.take 5) true := by
  refine ⟨.inr ⟨history.take 7, _, [], rfl, rfl, by simp⟩,
    .inr ⟨history.take 6, _, history.drop 7, rfl, rfl, ?_⟩, .inl ⟨?_, rfl⟩,
    .inr ⟨history.take 4, _, [], rfl, rfl, by simp⟩⟩
  · intro d hd
    simp [history] at hd
    subst hd
    rfl
  · intro d hd
    simp [history] at hd
    rcases hd with rfl | rfl | rfl | rfl | rfl | rfl | rfl | rfl <;> rfl

omit [IterOrder] in
example : (let _ := insertionOrder
    let E := after (stdLib noRx) history (construct (aclModel (.vector [])) none).2
    let E' := ((Method.edit (.add false c!"p" carol)).run (stdLib noRx) E).2
    (adapterLog E, adapterLog E', watcherLog E, watcherLog E')) =
    ([.add c!"p" c!"p" bob], [.add c!"p" c!"p" bob], [.update, .update], [.update, .update]) := by
  decide +kernel

end SwitchProps
end Casbin
