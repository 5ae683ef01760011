import Verif.Props.Notify
import Verif.Props.Store
import Verif.Props.EndToEnd

/-!
# C161: a store that follows the calls of auto-save

`follow` is a store of rules that does what the comments of the adapter interface say (persist/adapter.h
30–80, batch_adapter.h): added rules are put at the end, a removed rule is gone, a filter removes the rules
that match it. The property: with auto-save on, the store holds the rules of the model after any history of
editing calls, so that a restart that loads it gives the enforcer back.
-/

set_option linter.unusedSectionVars false

namespace Casbin
namespace ReplicaProps

open Enforcer Fixtures PolicyProps StoreProps NotifyProps
open Model (FilterMatch)

variable [IterOrder]

/-! ## The store -/

/-- What a call makes of the rules that the store has for the policy type `t`. -/
def follow (t : Str × Str) (rs : List Rule) : AdapterCall → List Rule
  | .add s p r => if (s, p) = t then rs ++ [r] else rs
  | .addMany s p ns => if (s, p) = t then rs ++ ns else rs
  | .remove s p r => if (s, p) = t then rs.filter (fun x => x ≠ r) else rs
  | .removeMany s p ns => if (s, p) = t then rs.filter (fun x => x ∉ ns) else rs
  | .removeFiltered s p i vs => if (s, p) = t then rs.filter (fun x => ¬ FilterMatch x i vs) else rs
  | .load => rs
  | .save => rs

/-- The rules for `t` of a store that had `rs` and received the calls one after the other. -/
def followAll (t : Str × Str) (rs : List Rule) (cs : List AdapterCall) : List Rule :=
  cs.foldl (follow t) rs

/-- The calls about which store and model agree, `rs` being the rules of both before:
* additions and removals by a filter always;
* `RemovePolicy` if nothing is removed, or if the first stored rule with those values is the rule itself
  and it is stored once;
* `RemovePolicies` if the batch is empty or contains the values of a stored rule (then it returns false);
* the updates if they leave the rules as they are. -/
def Agrees (rs : List Rule) : Edit → Prop
  | .add _ _ _ | .addMany _ _ _ | .removeFiltered _ _ _ _ => True
  | .remove _ _ r => ∀ s, rs.find? (fun s => r.Perm s) = some s → s = r ∧ rs.count r = 1
  | .removeMany _ _ ns => ns = [] ∨ ∃ n ∈ ns, ∃ s ∈ rs, n.Perm s
  | .update g pt o n => (reference (.update g pt o n) rs).2 = rs
  | .updateMany pt os ns => (reference (.updateMany pt os ns) rs).2 = rs

/-- Every call of the history is one of these when it is made; `rs` are the rules for `t` before. -/
def AllAgree (t : Str × Str) : List Rule → List Edit → Prop
  | _, [] => True
  | rs, e :: es =>
    (e.target = t → Agrees rs e) ∧ AllAgree t (if e.target = t then (reference e rs).2 else rs) es

/-! ## Helpers -/

omit [IterOrder] in
theorem dropFirst_none {o : Rule} {rs : List Rule} (h : dropFirst o rs = none) :
    rs.find? (fun s => o.Perm s) = none := by
  induction rs with
  | nil => rfl
  | cons s rs ih =>
    rw [dropFirst] at h
    by_cases hs : o.Perm s
    · simp [hs] at h
    · simp only [hs, if_false, Option.map_eq_none_iff] at h
      simpa [List.find?_cons, hs] using ih h

omit [IterOrder] in
theorem dropFirst_some {o : Rule} {rs l : List Rule} (h : dropFirst o rs = some l) :
    ∃ s, rs.find? (fun s => o.Perm s) = some s ∧ l.length + 1 = rs.length ∧
      (s = o → l = rs.erase o) ∧ ∀ x, x ≠ s → l.count x = rs.count x := by
  induction rs generalizing l with
  | nil => cases h
  | cons s rs ih =>
    rw [dropFirst] at h
    by_cases hs : o.Perm s
    · simp only [hs, if_true, Option.some.injEq] at h
      subst h
      refine ⟨s, by simp [hs], rfl, fun h => by simp [h], fun x hx => ?_⟩
      rw [List.count_cons_of_ne (Ne.symm hx)]
    · simp only [hs, if_false, Option.map_eq_some_iff] at h
      obtain ⟨l', hl, rfl⟩ := h
      obtain ⟨s', h1, h2, h3, h4⟩ := ih hl
      have hne : s ≠ o := fun h => hs (h ▸ .refl _)
      refine ⟨s', by simpa [List.find?_cons, hs] using h1, by simp [h2], fun h => ?_, fun x hx => ?_⟩
      · rw [List.erase_cons_tail (by simpa using hne), h3 h]
      · rw [List.count_cons, List.count_cons, h4 x hx]

omit [IterOrder] in
theorem erase_eq_filter {r : Rule} {rs : List Rule} (h : rs.count r = 1) :
    rs.erase r = rs.filter (fun x => x ≠ r) := by
  induction rs with
  | nil => rfl
  | cons s rs ih =>
    by_cases hs : s = r
    · subst hs
      have h0 : rs.count s = 0 := by simpa using h
      have : s ∉ rs := List.count_eq_zero.mp h0
      rw [List.erase_cons_head, List.filter_cons_of_neg (by simp)]
      refine (List.filter_eq_self.mpr fun x hx => ?_).symm
      simp only [ne_eq, decide_eq_true_eq]
      rintro rfl
      exact this hx
    · rw [List.count_cons_of_ne hs] at h
      rw [List.erase_cons_tail (by simpa using hs), List.filter_cons_of_pos (by simpa using hs), ih h]

omit [IterOrder] in
/-- The removal of one rule. -/
theorem remove_agrees {r : Rule} {rs l : List Rule} (h : dropFirst r rs = some l) :
    rs.filter (fun x => x ≠ r) = l ↔
      ∀ s, rs.find? (fun s => r.Perm s) = some s → s = r ∧ rs.count r = 1 := by
  obtain ⟨s, h1, h2, h3, h4⟩ := dropFirst_some h
  have hc0 : (rs.filter (fun x => x ≠ r)).count r = 0 := List.count_eq_zero.mpr (by simp)
  have hlen : (rs.filter (fun x => x ≠ r)).length + rs.count r = rs.length := by
    have := List.length_eq_length_filter_add (l := rs) (fun x => decide (x ≠ r))
    rw [this]
    congr 1
    rw [List.count_eq_length_filter]
    congr 1
    apply List.filter_congr
    intro x _
    by_cases hx : x = r <;> simp [hx]
  constructor
  · intro he s' hs'
    rw [h1] at hs'; cases hs'
    have hcnt : rs.count r = 1 := by rw [he] at hlen; omega
    refine ⟨?_, hcnt⟩
    by_contra hne
    have := h4 r (Ne.symm hne)
    rw [← he, hc0, hcnt] at this
    omega
  · intro hh
    obtain ⟨rfl, hcnt⟩ := hh s h1
    rw [h3 rfl, erase_eq_filter hcnt]

omit [IterOrder] in
theorem find_none_of_false {r : Rule} {rs : List Rule} (h : (dropEach [r] rs).1 = false) :
    rs.find? (fun s => r.Perm s) = none ∧ (dropEach [r] rs).2 = rs := by
  rw [dropEach] at h ⊢
  cases hd : dropFirst r rs with
  | none => exact ⟨dropFirst_none hd, rfl⟩
  | some l => rw [hd] at h; simp [dropEach] at h

/-- What store and model have after a call that returned. -/
theorem step (e : Edit) {rs : List Rule} {b : Bool} (h : (reference e rs).1 = .ok b) :
    (if b then (match e.call with | some c => follow e.target rs c | none => rs) else rs) =
      (reference e rs).2 ↔ Agrees rs e := by
  cases e with
  | add g pt r =>
    simp only [reference, Outcome.ok.injEq] at h
    subst h
    simp only [Agrees, Edit.call, Edit.target, follow, reference, iff_true, appendNew, if_true]
    by_cases hx : ∃ n ∈ [r], ∃ s ∈ rs, n.Perm s <;> simp only [hx, if_true, if_false, Bool.false_eq_true]
  | addMany g pt ns =>
    simp only [reference, Outcome.ok.injEq] at h
    subst h
    simp only [Agrees, Edit.call, Edit.target, follow, reference, iff_true, appendNew, if_true]
    by_cases hx : ∃ n ∈ ns, ∃ s ∈ rs, n.Perm s <;> simp only [hx, if_true, if_false, Bool.false_eq_true]
  | remove g pt r =>
    simp only [reference, Outcome.ok.injEq] at h
    simp only [Agrees, Edit.call, Edit.target, follow, reference, if_true]
    cases b with
    | false =>
      obtain ⟨h1, h2⟩ := find_none_of_false h
      rw [h1, h2]; simp
    | true =>
      rw [dropEach] at h ⊢
      cases hd : dropFirst r rs with
      | none => rw [hd] at h; cases h
      | some l => exact remove_agrees hd
  | removeMany g pt ns =>
    simp only [reference, Outcome.ok.injEq] at h
    subst h
    simp only [Agrees, Edit.call, Edit.target, follow, reference, appendNew, if_true]
    by_cases hx : ∃ n ∈ ns, ∃ s ∈ rs, n.Perm s
    · simp [hx]
    · simp only [hx, if_false, if_true, or_false]
      have : rs.filter (fun x => x ∉ ns) = rs :=
        List.filter_eq_self.mpr fun x hx' => by
          simpa using fun hn => hx ⟨x, hn, x, hx', .refl _⟩
      rw [this]
      constructor
      · intro he; simpa using he
      · rintro rfl; simp
  | removeFiltered g pt i vs =>
    simp only [reference] at h
    simp only [Agrees, Edit.call, Edit.target, follow, reference, if_true, iff_true]
    by_cases hs : ∃ r ∈ rs, Short r i vs
    · rw [if_pos hs] at h; cases h
    · rw [if_neg hs] at h ⊢
      simp only [Outcome.ok.injEq] at h
      cases b with
      | true => rfl
      | false =>
        simp only [decide_eq_false_iff_not] at h
        simp only [Bool.false_eq_true, if_false]
        exact (List.filter_eq_self.mpr fun x hx => by
          simpa using fun hm => h ⟨x, hx, hm⟩).symm
  | update g pt o n =>
    simp only [Agrees, Edit.call, ite_self]
    exact eq_comm
  | updateMany pt os ns =>
    simp only [Agrees, Edit.call, ite_self]
    exact eq_comm

/-- The calls an editing call makes when it returns, with auto-save on. -/
theorem calls_of (e : Edit) {E : Enforcer} {a : Adapter} (ha : E.adapter = some a)
    (hs : E.autoSave = true) {b : Bool} (hb : (e.run E).1 = .ok b) :
    ∃ a', (e.run E).2.adapter = some a' ∧ a'.log = a.log ++ (if b then e.call.toList else []) := by
  have hd := e.did E
  cases b with
  | false => exact ⟨a, (hd.failed hb).1.trans ha, by simp⟩
  | true =>
    have := (hd.done hb).1
    unfold savedAdapter at this
    cases hc : e.call with
    | none => rw [hc] at this; exact ⟨a, this.trans ha, by simp⟩
    | some c =>
      rw [hc] at this
      simp only [ha, hs, Option.map_some, if_true] at this
      exact ⟨_, this, by simp [edit_log]⟩

theorem calls_other (e : Edit) {t : Str × Str} (h : e.target ≠ t) (rs : List Rule) (b : Bool) :
    followAll t rs (if b then e.call.toList else []) = rs := by
  cases b with
  | false => rfl
  | true => cases e <;> simp only [Edit.target] at h <;> simp [Edit.call, followAll, follow, h]

theorem follow_calls (e : Edit) (rs : List Rule) (b : Bool) :
    followAll e.target rs (if b then e.call.toList else []) =
      (if b then (match e.call with | some c => follow e.target rs c | none => rs) else rs) := by
  cases b with
  | false => rfl
  | true => cases e.call <;> rfl

/-! ## C161 -/

/-- C161, one call, exactly: the model and the store had the same rules, auto-save is on and the call
returns. Then they have the same rules afterwards if the call is one of `Agrees`, and only then.
Missing from the property: the other calls (`C161_fails`, `C161_update_fails`). -/
theorem C161_call_partial (e : Edit) {E : Enforcer} {a : Adapter} {rs : List Rule} {b : Bool}
    (h : Holds E e.target rs) (ha : E.adapter = some a) (hs : E.autoSave = true)
    (hb : (e.run E).1 = .ok b) :
    ∃ cs : List AdapterCall, adapterLog (e.run E).2 = adapterLog E ++ cs ∧
      (Holds (e.run E).2 e.target (followAll e.target rs cs) ↔ Agrees rs e) := by
  obtain ⟨a', ha', hlog⟩ := calls_of e ha hs hb
  obtain ⟨h1, h2⟩ := C150_call e h
  refine ⟨_, by simp only [adapterLog, ha', ha]; exact hlog, ?_⟩
  rw [follow_calls, ← step e (h2 b hb)]
  constructor
  · rintro ⟨x, hx, hx'⟩
    obtain ⟨y, hy, hy'⟩ := h1
    rw [hx] at hy; cases hy
    rw [hx'] at hy'
    exact congrArg Policies.items hy'
  · intro he; rw [he]; exact h1

/-- C161, histories: with auto-save on, after any history of calls that return and of which those about the
policy type are of `AllAgree`, a store that had the rules of that type and followed the calls of the adapter
has the rules of the model. Calls about other types may be any. Missing: the others. -/
theorem C161_history_partial (es : List Edit) (t : Str × Str) : ∀ {E : Enforcer} {a : Adapter}
    {rs : List Rule}, Holds E t rs → E.adapter = some a → E.autoSave = true → AllReturn E es →
    AllAgree t rs es →
    ∃ cs : List AdapterCall, adapterLog (runEdits E es) = adapterLog E ++ cs ∧
      Holds (runEdits E es) t (followAll t rs cs) := by
  induction es with
  | nil => intro E a rs h _ _ _ _; exact ⟨[], by simp [runEdits], h⟩
  | cons e es ih =>
    intro E a rs h ha hs hok hag
    obtain ⟨hb, hok'⟩ := hok
    cases ho : (e.run E).1 with
    | throw x => rw [ho] at hb; exact hb.elim
    | ub x => rw [ho] at hb; exact hb.elim
    | ok b =>
      obtain ⟨a', ha', hlog⟩ := calls_of e ha hs ho
      have hs' : (e.run E).2.autoSave = true := (e.did E).rest.2.2.2.1.trans hs
      have key : Holds (e.run E).2 t (followAll t rs (if b then e.call.toList else [])) ∧
          followAll t rs (if b then e.call.toList else []) =
            (if e.target = t then (reference e rs).2 else rs) := by
        by_cases ht : e.target = t
        · subst ht
          obtain ⟨h1, h2⟩ := C150_call e h
          rw [follow_calls, (step e (h2 b ho)).mpr (hag.1 rfl), if_pos rfl]
          exact ⟨h1, rfl⟩
        · rw [calls_other e ht, if_neg ht]
          exact ⟨(others_kept e E (Ne.symm ht)).mpr h, rfl⟩
      obtain ⟨cs, c1, c2⟩ := ih key.1 ha' hs' hok' (by rw [key.2]; exact hag.2)
      refine ⟨(if b then e.call.toList else []) ++ cs, ?_, ?_⟩
      · rw [← List.append_assoc]
        refine c1.trans ?_
        simp only [adapterLog, ha', ha, hlog]
      · rw [followAll, List.foldl_append]; exact c2

/-- The history of the example: two of the rules are added by a batch, one of them is removed again and
the other by a filter. -/
def calls : List Edit :=
  [.add false c!"p" bob, .addMany false c!"p" [carol, aliceSwapped], .addMany false c!"p" [carol],
   .remove false c!"p" bob, .removeFiltered false c!"p" 0 [c!"carol"]]

example : letI := insertionOrder
    AllReturn (watched []) calls ∧ AllAgree (c!"p", c!"p") [] calls ∧
    adapterLog (runEdits (watched []) calls) =
      [.add c!"p" c!"p" bob, .addMany c!"p" c!"p" [carol, aliceSwapped], .remove c!"p" c!"p" bob,
       .removeFiltered c!"p" c!"p" 0 [c!"carol"]] ∧
    followAll (c!"p", c!"p") [] (adapterLog (runEdits (watched []) calls)) = [aliceSwapped] := by
  refine ⟨⟨trivial, trivial, trivial, trivial, trivial, trivial⟩, ⟨fun _ => trivial, fun _ => trivial,
    fun _ => trivial, fun _ s hs => ?_, fun _ => trivial, trivial⟩, by decide +kernel, by decide +kernel⟩
  have : (some s : Option Rule) = some bob := hs.symm.trans (by decide +kernel)
  cases this
  exact ⟨rfl, by decide +kernel⟩

/-- C161 fails for every update that changes the rules, whether it returns true or false: the adapter
receives no call and the store keeps the rules that the model no longer has. -/
theorem C161_update_fails (e : Edit) (hu : IsUpdate e) {E : Enforcer} {rs : List Rule}
    {b : Bool} (h : Holds E e.target rs) (hb : (e.run E).1 = .ok b)
    (hch : (reference e rs).2 ≠ rs) :
    adapterLog (e.run E).2 = adapterLog E ∧ ¬ Holds (e.run E).2 e.target rs := by
  have hd := e.did E
  have hc : e.call = none := by cases e <;> first | rfl | exact hu.elim
  refine ⟨?_, ?_⟩
  · unfold adapterLog
    cases b with
    | false => rw [(hd.failed hb).1]
    | true => rw [(hd.done hb).1, hc]; rfl
  · rintro ⟨x, hx, hx'⟩
    obtain ⟨y, hy, hy'⟩ := (C150_call e h).1
    rw [hx] at hy; cases hy
    rw [hx'] at hy'
    exact hch (congrArg Policies.items hy').symm

/-- An update whose new rule is stored returns false, and the old rule is gone from the model only. -/
example : letI := insertionOrder
    ((Edit.update false c!"p" alice bob).run (watched [alice, bob])).1 = .ok false ∧
    (reference (.update false c!"p" alice bob) [alice, bob]).2 ≠ [alice, bob] := by
  refine ⟨by decide +kernel, by decide +kernel⟩

/-- C161 fails for every `RemovePolicies` and `RemoveGroupingPolicies` that returns true: the rules are in
the model afterwards, and the store, told to remove them, does not have them. -/
theorem C161_batch_fails (g : Bool) (pt : Str) (ns : List Rule) {E : Enforcer} {a : Adapter}
    {rs : List Rule} (h : Holds E (Edit.removeMany g pt ns).target rs)
    (ha : E.adapter = some a) (hs : E.autoSave = true)
    (hb : ((Edit.removeMany g pt ns).run E).1 = .ok true) :
    ∃ cs : List AdapterCall,
      adapterLog ((Edit.removeMany g pt ns).run E).2 = adapterLog E ++ cs ∧
      followAll (Edit.removeMany g pt ns).target rs cs = rs ∧
      Holds ((Edit.removeMany g pt ns).run E).2 (Edit.removeMany g pt ns).target (rs ++ ns) := by
  obtain ⟨a', ha', hlog⟩ := calls_of _ ha hs hb
  obtain ⟨h1, h2⟩ := C150_call _ h
  have h3 := h2 _ hb
  simp only [reference, Outcome.ok.injEq] at h3 h1
  have hx : ¬ ∃ n ∈ ns, ∃ s ∈ rs, n.Perm s := by
    intro hx; simp [appendNew, hx] at h3
  refine ⟨_, by simp only [adapterLog, ha', ha]; exact hlog, ?_, ?_⟩
  · simp only [if_true, Edit.call, Option.toList_some, followAll, List.foldl_cons, List.foldl_nil,
      follow, Edit.target]
    exact List.filter_eq_self.mpr fun x hx' => by
      simpa using fun hn => hx ⟨x, hn, x, hx', .refl _⟩
  · simpa only [appendNew, hx, if_false] using h1

example : letI := insertionOrder
    ((Edit.removeMany false c!"p" [bob]).run (watched [alice])).1 = .ok true := by decide +kernel

/-- C161 fails for every removal that finds only a rearrangement of its rule: the model has one rule less,
and the store keeps all. -/
theorem C161_rearranged_fails (g : Bool) (pt : Str) (r : Rule) {E : Enforcer} {a : Adapter}
    {rs : List Rule} (h : Holds E (Edit.remove g pt r).target rs) (ha : E.adapter = some a)
    (hs : E.autoSave = true) (hnot : r ∉ rs) (hb : ((Edit.remove g pt r).run E).1 = .ok true) :
    ∃ (cs : List AdapterCall) (l : List Rule),
      adapterLog ((Edit.remove g pt r).run E).2 = adapterLog E ++ cs ∧
      followAll (Edit.remove g pt r).target rs cs = rs ∧
      Holds ((Edit.remove g pt r).run E).2 (Edit.remove g pt r).target l ∧ l.length + 1 = rs.length := by
  obtain ⟨a', ha', hlog⟩ := calls_of _ ha hs hb
  obtain ⟨h1, h2⟩ := C150_call _ h
  have h3 := h2 _ hb
  simp only [reference, Outcome.ok.injEq, dropEach] at h3 h1
  cases hd : dropFirst r rs with
  | none => rw [hd] at h3; cases h3
  | some l =>
    rw [hd] at h1
    obtain ⟨s, _, hl, _⟩ := dropFirst_some hd
    refine ⟨_, l, by simp only [adapterLog, ha', ha]; exact hlog, ?_, h1, hl⟩
    simp only [if_true, Edit.call, Option.toList_some, followAll, List.foldl_cons, List.foldl_nil,
      follow, Edit.target]
    exact List.filter_eq_self.mpr fun x hx => by
      simpa using fun he : x = r => hnot (he ▸ hx)

example : letI := insertionOrder
    ((Edit.remove false c!"p" alice).run (watched [aliceSwapped])).1 = .ok true ∧
    alice ∉ [aliceSwapped] := by
  refine ⟨by decide +kernel, by decide +kernel⟩

omit [IterOrder] in
/-- C161 fails in what is granted: a permission is taken away with `UpdatePolicy`, which returns true, and
auto-save is on; the enforcer denies it, and an enforcer with the rules of the store grants it again. -/
theorem C161_fails : letI := insertionOrder
    ∃ (E : Enforcer) (e : Edit), Holds E (c!"p", c!"p") [alice] ∧ E.autoSave = true ∧
      (e.run E).1 = .ok true ∧
      ((e.run E).2.enforce miniLib [.str c!"alice", .str c!"data1", .str c!"read"]).1 = .ok false ∧
      ((acl (followAll (c!"p", c!"p") [alice] (adapterLog (e.run E).2))).enforce miniLib
        [.str c!"alice", .str c!"data1", .str c!"read"]).1 = .ok true :=
  letI := insertionOrder
  ⟨watched [alice], .update false c!"p" alice bob, ⟨_, rfl, rfl⟩, rfl, by decide +kernel,
    by decide +kernel, by decide +kernel⟩

end ReplicaProps
end Casbin
