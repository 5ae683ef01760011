import Verif.Props.Policy

/-!
# C44–C46, C96: what adapter and watcher are told about edits
-/

set_option linter.unusedSectionVars false

namespace Casbin
namespace NotifyProps

open Enforcer Fixtures PolicyProps

variable [IterOrder]

/-- The calls the enforcer's adapter has received (none without an adapter). -/
def adapterLog (E : Enforcer) : List AdapterCall :=
  match E.adapter with
  | some a => a.log
  | none => []

/-- What the enforcer's watcher has been told. -/
def watcherLog (E : Enforcer) : List WatcherEvent :=
  match E.watcher with
  | some w => w.log
  | none => []

/-- The adapter call that corresponds to an edit, with the same arguments. The interface of the
adapters (persist/adapter.h, batch_adapter.h) has no call for updates; an update corresponds to a
removal and an addition, so that *some* call is expected. -/
def Corresponds : Edit → AdapterCall → Prop
  | .add g pt r, c => c = .add (if g then c!"g" else c!"p") pt r
  | .addMany g pt rs, c => c = .addMany (if g then c!"g" else c!"p") pt rs
  | .remove g pt r, c => c = .remove (if g then c!"g" else c!"p") pt r
  | .removeMany g pt rs, c => c = .removeMany (if g then c!"g" else c!"p") pt rs
  | .removeFiltered g pt i vs, c => c = .removeFiltered (if g then c!"g" else c!"p") pt i vs
  | .update _ _ _ _, _ => True
  | .updateMany _ _ _, _ => True

def IsUpdate : Edit → Prop
  | .update _ _ _ _ => True
  | .updateMany _ _ _ => True
  | _ => False

theorem edit_log (c : AdapterCall) (a : Adapter) : (Adapter.edit c a).2.log = a.log ++ [c] := by
  unfold Adapter.edit
  cases h : a.kind with
  | string l => cases c <;> rfl
  | file _ _ _ _ => rfl
  | custom _ _ _ _ _ => rfl

/-! ## C44 -/

/-- C44 without the update methods. A failed edit (returning false) makes no call; a successful one
exactly one, with the same arguments. Missing: `UpdatePolicy` and relatives, which make none
(`C44_update_fails`). -/
theorem C44_autoSave_partial (e : Edit) (E : Enforcer) {a : Adapter} (ha : E.adapter = some a) :
    ((e.run E).1 = .ok false → adapterLog (e.run E).2 = adapterLog E) ∧
    ((e.run E).1 = .ok true → E.autoSave = false → adapterLog (e.run E).2 = adapterLog E) ∧
    ((e.run E).1 = .ok true → E.autoSave = true → ¬ IsUpdate e →
      ∃ c, Corresponds e c ∧ adapterLog (e.run E).2 = adapterLog E ++ [c]) := by
  have hd := e.did E
  refine ⟨?_, ?_, ?_⟩
  · intro hr
    unfold adapterLog; rw [(hd.failed hr).1]
  · intro hr hs
    unfold adapterLog
    rw [(hd.done hr).1]
    unfold savedAdapter
    cases e.call with
    | none => rfl
    | some c => simp only [ha, hs, Option.map_some, Bool.false_eq_true, if_false]
  · intro hr hs hu
    have h := (hd.done hr).1
    cases e with
    | update g pt o n => exact absurd trivial hu
    | updateMany pt o n => exact absurd trivial hu
    | _ =>
      refine ⟨_, rfl, ?_⟩
      unfold adapterLog
      rw [h]
      simp only [savedAdapter, Edit.call, ha, hs, Option.map_some, if_true, edit_log]
      rfl

/-- The enforcer of the examples: a custom adapter that accepts everything, and a watcher. -/
def watched (P : List Rule) : Enforcer :=
  { acl P with adapter := some niceAdapter, watcher := some { ex := true, log := [] } }

example : ((Edit.add false c!"p" bob).run (watched [alice])).1 = .ok true ∧
    adapterLog ((Edit.add false c!"p" bob).run (watched [alice])).2 = [.add c!"p" c!"p" bob] := by
  have h : addNamedPolicy c!"p" bob (watched [alice]) = _ := addPolicyI_p_new
    (a := asrt c!"p" c!"sub, obj, act" [c!"p_sub", c!"p_obj", c!"p_act"] (.vector [alice]))
    rfl (by decide)
  simp only [Edit.run, h]
  exact ⟨rfl, rfl⟩

theorem watched_update : (Edit.update false c!"p" alice bob).run (watched [alice]) =
    (.ok true, { watched [bob] with watcher := some { ex := true, log := [.update] } }) := by
  rw [Edit.run, updateNamedPolicy, updatePolicyI_p_run, PolicyProps.updatePolicy_run
    (a := asrt c!"p" c!"sub, obj, act" [c!"p_sub", c!"p_obj", c!"p_act"] (.vector [alice])) rfl,
    show (asrt c!"p" c!"sub, obj, act" [c!"p_sub", c!"p_obj", c!"p_act"]
        (.vector [alice])).policy.eraseFirst (fun x => arrayEquals alice x) =
        some (.vector []) from rfl]
  simp only []
  rw [if_neg (by decide)]
  rfl

/-- A successful update makes no adapter call at all: the store keeps the old rule. -/
theorem C44_update_fails : ∃ (E : Enforcer) (e : Edit) (a : Adapter), E.adapter = some a ∧
    E.autoSave = true ∧ IsUpdate e ∧ (e.run E).1 = .ok true ∧
    adapterLog (e.run E).2 = adapterLog E :=
  ⟨watched [alice], .update false c!"p" alice bob, niceAdapter, rfl, rfl, trivial, by
    rw [watched_update], by rw [watched_update]; rfl⟩

/-- The edits of a history that returned true. -/
def succeeded (E : Enforcer) : List Edit → List Edit
  | [] => []
  | e :: es =>
    if (e.run E).1 = .ok true then e :: succeeded (e.run E).2 es else succeeded (e.run E).2 es

/-- Every call of the history returns normally. -/
def AllReturn (E : Enforcer) : List Edit → Prop
  | [] => True
  | e :: es => (e.run E).1.IsOk ∧ AllReturn (e.run E).2 es

/-- C44 over a history without updates: with auto-save on, the adapter receives exactly one
corresponding call for each successful edit, in order, and nothing else. -/
theorem C44_history_partial (es : List Edit) : ∀ (E : Enforcer) {a : Adapter},
    E.adapter = some a → E.autoSave = true → (∀ e ∈ es, ¬ IsUpdate e) → AllReturn E es →
    ∃ cs : List AdapterCall, adapterLog (runEdits E es) = adapterLog E ++ cs ∧
      List.Forall₂ Corresponds (succeeded E es) cs := by
  induction es with
  | nil => intro E a _ _ _ _; exact ⟨[], by simp [runEdits], .nil⟩
  | cons e es ih =>
    intro E a ha hs hu hok
    have hd := e.did E
    have hs' : (e.run E).2.autoSave = true := hd.rest.2.2.2.1.trans hs
    have hu' : ∀ e' ∈ es, ¬ IsUpdate e' := fun e' he' => hu e' (List.mem_cons_of_mem _ he')
    obtain ⟨h1, _, h3⟩ := C44_autoSave_partial e E ha
    obtain ⟨hb, hok'⟩ := hok
    cases ho : (e.run E).1 with
    | throw x => rw [ho] at hb; exact hb.elim
    | ub x => rw [ho] at hb; exact hb.elim
    | ok b =>
      cases b with
      | false =>
        obtain ⟨cs, c1, c2⟩ := ih (e.run E).2 ((hd.failed ho).1.trans ha) hs' hu' hok'
        refine ⟨cs, ?_, ?_⟩
        · rw [← h1 ho]; exact c1
        · simp only [succeeded, ho, Outcome.ok.injEq, Bool.false_eq_true, if_false]; exact c2
      | true =>
        have hsome : ∃ a', (e.run E).2.adapter = some a' := by
          rw [(hd.done ho).1]
          unfold savedAdapter
          cases e.call with
          | none => exact ⟨a, ha⟩
          | some c => rw [ha]; exact ⟨_, rfl⟩
        obtain ⟨a', ha'⟩ := hsome
        obtain ⟨c, hc, hlog⟩ := h3 ho hs (hu e (List.mem_cons_self ..))
        obtain ⟨cs, c1, c2⟩ := ih (e.run E).2 ha' hs' hu' hok'
        refine ⟨c :: cs, ?_, ?_⟩
        · rw [List.append_cons, ← hlog]; exact c1
        · simp only [succeeded, ho, if_true]; exact .cons hc c2

example : letI := insertionOrder
    AllReturn (watched [alice]) [.add false c!"p" bob, .remove false c!"p" alice] ∧
    succeeded (watched [alice]) [.add false c!"p" bob, .remove false c!"p" alice] =
      [.add false c!"p" bob, .remove false c!"p" alice] := ⟨⟨trivial, trivial, trivial⟩, rfl⟩

/-! ## C45 -/

/-- C45 for the number of notifications: a successful edit gives exactly one, a failed one none.
Missing: an extended watcher only ever hears `Update` (`C45_watcherEx_fails`). -/
theorem C45_watcher_partial (e : Edit) (E : Enforcer) {w : Watcher} (hw : E.watcher = some w) :
    ((e.run E).1 = .ok false → watcherLog (e.run E).2 = watcherLog E) ∧
    ((e.run E).1 = .ok true → E.autoNotify = false → watcherLog (e.run E).2 = watcherLog E) ∧
    ((e.run E).1 = .ok true → E.autoNotify = true →
      ∃ ev, watcherLog (e.run E).2 = watcherLog E ++ [ev]) := by
  have hd := e.did E
  refine ⟨?_, ?_, ?_⟩
  · intro hr
    unfold watcherLog; rw [(hd.failed hr).2]
  · intro hr hn
    unfold watcherLog
    rw [(hd.done hr).2]
    simp [notifiedWatcher, hn]
  · intro hr hn
    refine ⟨.update, ?_⟩
    unfold watcherLog
    rw [(hd.done hr).2]
    simp [notifiedWatcher, hn, hw]

example : ((Edit.update false c!"p" alice bob).run (watched [alice])).1 = .ok true ∧
    watcherLog ((Edit.update false c!"p" alice bob).run (watched [alice])).2 = [.update] := by
  rw [watched_update]; exact ⟨rfl, rfl⟩

/-- Whatever the kind of the watcher, the event is always the plain `Update`; in particular an
extended watcher never receives `UpdateForAddPolicy` and relatives. -/
theorem C45_watcherEx_fails (e : Edit) (E : Enforcer) {w : Watcher} (hw : E.watcher = some w)
    (hn : E.autoNotify = true) (hr : (e.run E).1 = .ok true) :
    watcherLog (e.run E).2 = watcherLog E ++ [.update] := by
  have hd := e.did E
  unfold watcherLog
  rw [(hd.done hr).2]
  simp [notifiedWatcher, hn, hw]

/-! ## C46 -/

/-- The text kept by one of the built-in adapters. -/
def storeText (a : Adapter) : Option Str :=
  match a.kind with
  | .string line => some line
  | .file _ disk _ _ => disk
  | .custom _ _ _ _ _ => none

/-- C46 for the file adapters: their store is left alone by every edit (they do not support
incremental calls). Missing: `StringAdapter` (`C46_string_fails`). -/
theorem C46_remove_partial (g : Bool) (pt : Str) (r : Rule) (E : Enforcer) {path : Str}
    {disk : Option Str} {w b : Bool} {log : List AdapterCall}
    (ha : E.adapter = some { kind := .file path disk w b, log := log })
    (hok : ∃ x, ((Edit.remove g pt r).run E).1 = .ok x) :
    ∃ a', ((Edit.remove g pt r).run E).2.adapter = some a' ∧ storeText a' = disk := by
  have hd := (Edit.remove g pt r).did E
  obtain ⟨x, hx⟩ := hok
  cases x with
  | false => exact ⟨_, (hd.failed hx).1.trans ha, rfl⟩
  | true =>
    have h := (hd.done hx).1
    simp only [savedAdapter, Edit.call, ha, Option.map_some] at h
    refine ⟨_, h, ?_⟩
    split <;> rfl

example : ∃ x, ((Edit.remove false c!"p" alice).run { acl [bob] with
    adapter := some (Adapter.mk (.file c!"policy.csv" (some c!"p, bob") true false) []) }).1 =
    .ok x := ⟨false, by
  rw [Edit.run, removeNamedPolicy, removePolicyI_p_none (a := asrt c!"p" c!"sub, obj, act"
    [c!"p_sub", c!"p_obj", c!"p_act"] (.vector [bob])) rfl rfl]⟩

/-- With a `StringAdapter` every successful removal of one rule empties the whole store. -/
theorem C46_string_fails (g : Bool) (pt : Str) (r : Rule) (E : Enforcer) {line : Str}
    {log : List AdapterCall} (ha : E.adapter = some { kind := .string line, log := log })
    (hs : E.autoSave = true) (hr : ((Edit.remove g pt r).run E).1 = .ok true) :
    ∃ a', ((Edit.remove g pt r).run E).2.adapter = some a' ∧ storeText a' = some [] := by
  have hd := (Edit.remove g pt r).did E
  have h := (hd.done hr).1
  simp only [savedAdapter, Edit.call, ha, Option.map_some, if_pos hs] at h
  refine ⟨_, h, ?_⟩
  rfl

example : ((Edit.remove false c!"p" alice).run { acl [alice, bob] with
    adapter := some (Adapter.mk (.string c!"p, alice, data1, read\np, bob, data2, write") []) }).1 =
    .ok true := by
  rw [Edit.run, removeNamedPolicy, removePolicyI_p_some (a := asrt c!"p" c!"sub, obj, act"
    [c!"p_sub", c!"p_obj", c!"p_act"] (.vector [alice, bob])) rfl (P := .vector [bob]) rfl]
  rfl

/-! ## C96 -/

/-- C96: the incremental calls that a built-in adapter does not carry out throw
`UnsupportedOperationException` and leave the store as it is. Missing from the property:
`StringAdapter::RemovePolicy` (`C96_fails`). -/
theorem C96_unsupported_partial (a : Adapter) (c : AdapterCall)
    (ha : ∀ v f b l r, a.kind ≠ .custom v f b l r)
    (hc : ∀ line sec pt r, a.kind = .string line → c ≠ .remove sec pt r) :
    (Adapter.edit c a).1 = .throw .unsupported ∧ (Adapter.edit c a).2.kind = a.kind := by
  rcases a with ⟨k, log⟩
  cases k with
  | string line => cases c <;> first | exact absurd rfl (hc _ _ _ _ rfl) | exact ⟨rfl, rfl⟩
  | file p d w b => exact ⟨rfl, rfl⟩
  | custom v f b l r => exact absurd rfl (ha v f b l r)

example : (Adapter.edit (.add c!"p" c!"p" alice) (Adapter.string c!"p, bob, data2, write")).1 =
    .throw .unsupported :=
  (C96_unsupported_partial _ _ (by intros; simp [Adapter.string]) (by intros; simp)).1

/-- C96 fails for `StringAdapter::RemovePolicy`: it returns although the store is not what it should
be, whatever the stored text and the rule are; the store cannot even be loaded any more. -/
theorem C96_fails (line sec pt : Str) (r : Rule) (m : Model) :
    (Adapter.edit (.remove sec pt r) (Adapter.string line)).1 = .ok () ∧
    Adapter.loadPolicy (Adapter.edit (.remove sec pt r) (Adapter.string line)).2 m =
      (.throw .adapter, m) :=
  ⟨rfl, rfl⟩

end NotifyProps
end Casbin
