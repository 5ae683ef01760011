import Verif.Index
import Verif.Props.Policy

/-!
# C150: the rules after any history of editing calls

`reference` says what each editing call does to a list of rules, for all rules, batches and filters.
It is written with `List.Perm`: the code compares the values of two rules without regard to their order
(model.cpp 267–274 with `ArrayEquals`). The theorems say that the rules stored in an enforcer follow it.
-/

set_option linter.unusedSectionVars false

namespace Casbin
namespace StoreProps

open Enforcer Fixtures PolicyProps
open Model (FilterMatch matchFilter partitionFilter)

variable [IterOrder]

/-! ## The reference -/

/-- The list without its first rule that has the values of `o` in some order. -/
def dropFirst (o : Rule) : List Rule → Option (List Rule)
  | [] => none
  | s :: rs => if o.Perm s then some rs else (dropFirst o rs).map (s :: ·)

/-- One after the other, until one is missing. -/
def dropEach : List Rule → List Rule → Bool × List Rule
  | [], rs => (true, rs)
  | o :: os, rs =>
    match dropFirst o rs with
    | none => (false, rs)
    | some rs' => dropEach os rs'

/-- Put all of them at the end, unless one has the values of a rule that is there. -/
def appendNew (ns rs : List Rule) : Bool × List Rule :=
  if ∃ n ∈ ns, ∃ s ∈ rs, n.Perm s then (false, rs) else (true, rs ++ ns)

/-- Comparing the rule with a filter from position `i` on comes to a value for which the rule has no
field: the filter is not empty there, and before it there is no difference. -/
def Short (r : Rule) (i : Nat) (vs : List Str) : Prop :=
  ∃ j : Fin vs.length, vs[j] ≠ [] ∧ r.length ≤ i + j ∧
    ∀ k : Fin vs.length, k < j → vs[k] ≠ [] → r[i + k]? = some vs[k]

instance (r : Rule) (i : Nat) (vs : List Str) : Decidable (Short r i vs) :=
  inferInstanceAs (Decidable (∃ j : Fin vs.length, vs[j] ≠ [] ∧ r.length ≤ i + j ∧
    ∀ k : Fin vs.length, k < j → vs[k] ≠ [] → r[i + k]? = some vs[k]))

/-- What an editing call answers and makes of the rules of its policy type. `RemovePolicies` and
`RemoveNamedGroupingPolicies` add the rules (enforcer.cpp, C31). -/
def reference : Edit → List Rule → Outcome Bool × List Rule
  | .add _ _ r, rs => (.ok (appendNew [r] rs).1, (appendNew [r] rs).2)
  | .addMany _ _ ns, rs => (.ok (appendNew ns rs).1, (appendNew ns rs).2)
  | .remove _ _ r, rs => (.ok (dropEach [r] rs).1, (dropEach [r] rs).2)
  | .removeMany _ _ ns, rs => (.ok (appendNew ns rs).1, (appendNew ns rs).2)
  | .removeFiltered _ _ i vs, rs =>
    if ∃ r ∈ rs, Short r i vs then (.ub .outOfBounds, rs)
    else (.ok (decide (∃ r ∈ rs, FilterMatch r i vs)), rs.filter fun r => ¬ FilterMatch r i vs)
  | .update _ _ o n, rs =>
    let d := dropEach [o] rs
    if d.1 then (.ok (appendNew [n] d.2).1, (appendNew [n] d.2).2) else (.ok false, d.2)
  | .updateMany _ os ns, rs =>
    let d := dropEach os rs
    if d.1 then (.ok (appendNew ns d.2).1, (appendNew ns d.2).2) else (.ok false, d.2)

/-- The calls of a history that are about one policy type, one after the other. -/
def referenceAll (t : Str × Str) : List Edit → List Rule → List Rule
  | [], rs => rs
  | e :: es, rs => referenceAll t es (if e.target = t then (reference e rs).2 else rs)

/-- The rules of a policy type, kept in a vector. -/
def Holds (E : Enforcer) (t : Str × Str) (rs : List Rule) : Prop :=
  ∃ a, E.model.find t.1 t.2 = some a ∧ a.policy = .vector rs

/-! ## Helpers -/

omit [IterOrder] in
theorem short_cons (r : Rule) (i : Nat) (v : Str) (vs : List Str) :
    Short r i (v :: vs) ↔ (v ≠ [] ∧ r.length ≤ i) ∨ ((v ≠ [] → r[i]? = some v) ∧ Short r (i + 1) vs) := by
  constructor
  · rintro ⟨⟨j, hj⟩, h1, h2, h3⟩
    cases j with
    | zero => exact .inl ⟨by simpa using h1, by simpa using h2⟩
    | succ j =>
      refine .inr ⟨fun hv => ?_, ⟨⟨j, by simpa using hj⟩, by simpa using h1, by simp at h2 ⊢; omega, ?_⟩⟩
      · simpa using h3 ⟨0, by simp⟩ (by simp [Fin.lt_def]) (by simpa using hv)
      · rintro ⟨k, hk⟩ hlt hne
        have := h3 ⟨k + 1, by simpa using hk⟩ (by simpa [Fin.lt_def] using hlt) (by simpa using hne)
        simpa [Nat.add_assoc, Nat.add_comm 1 k] using this
  · rintro (⟨h1, h2⟩ | ⟨h0, ⟨⟨j, hj⟩, h1, h2, h3⟩⟩)
    · exact ⟨⟨0, by simp⟩, by simpa using h1, by simpa using h2,
        fun k hk => absurd hk (by simp)⟩
    · refine ⟨⟨j + 1, by simpa using hj⟩, by simpa using h1, by simp at h2 ⊢; omega, ?_⟩
      rintro ⟨k, hk⟩ hlt hne
      cases k with
      | zero => simpa using h0 (by simpa using hne)
      | succ k =>
        have := h3 ⟨k, by simpa using hk⟩ (by simpa [Fin.lt_def] using hlt) (by simpa using hne)
        simpa [Nat.add_assoc, Nat.add_comm 1 k] using this

theorem matchFilter_exact (r : Rule) (vs : List Str) : ∀ i,
    matchFilter r i vs =
      if Short r i vs then .ub .outOfBounds else .ok (decide (FilterMatch r i vs)) := by
  induction vs with
  | nil =>
    intro i
    have : ¬ Short r i [] := by rintro ⟨⟨j, hj⟩, _⟩; simp at hj
    simp [matchFilter, this, Model.filterMatch_nil]
  | cons v vs ih =>
    intro i
    simp only [matchFilter, short_cons, Model.filterMatch_cons]
    by_cases hv : v = []
    · simp [hv, ih (i + 1)]
    · by_cases hl : i < r.length
      · simp only [ne_eq, hv, not_false_eq_true, if_true, vecAt_ok hl, Outcome.ok_bind, true_imp_iff,
          List.getElem?_eq_getElem hl, Option.some.injEq, true_and, show ¬ r.length ≤ i by omega,
          false_or]
        by_cases hx : r[i] = v
        · simp [hx, ih (i + 1)]
        · simp [hx]
      · have : vecAt r i = .ub .outOfBounds := by
          simp [vecAt, List.getElem?_eq_none (show r.length ≤ i by omega)]
        simp [hv, this, show r.length ≤ i by omega]

theorem partitionFilter_exact (i : Nat) (vs : List Str) (rs : List Rule) :
    partitionFilter i vs rs =
      if ∃ r ∈ rs, Short r i vs then .ub .outOfBounds
      else .ok (rs.filter (fun r => FilterMatch r i vs), rs.filter (fun r => ¬ FilterMatch r i vs)) := by
  induction rs with
  | nil => simp [partitionFilter]
  | cons r rs ih =>
    simp only [partitionFilter, matchFilter_exact, ih]
    by_cases hr : Short r i vs
    · simp [hr]
    · by_cases hrs : ∃ r ∈ rs, Short r i vs
      · have : ∃ x ∈ r :: rs, Short x i vs := by
          obtain ⟨x, hx, h⟩ := hrs; exact ⟨x, List.mem_cons_of_mem _ hx, h⟩
        rw [if_neg hr, if_pos hrs, if_pos this]; rfl
      · have : ¬ ∃ x ∈ r :: rs, Short x i vs := by
          rintro ⟨x, hx, h⟩
          rcases List.mem_cons.mp hx with rfl | hx
          · exact hr h
          · exact hrs ⟨x, hx, h⟩
        rw [if_neg hr, if_neg hrs, if_neg this]
        by_cases hm : FilterMatch r i vs <;> simp [hm]

omit [IterOrder] in
theorem dropFirst_eq (o : Rule) (rs : List Rule) : dropFirst o rs =
    bif rs.any (fun x => arrayEquals o x) then some (rs.eraseP fun x => arrayEquals o x) else none := by
  induction rs with
  | nil => rfl
  | cons s rs ih =>
    by_cases hs : o.Perm s
    · have : arrayEquals o s = true := (arrayEquals_iff o s).mpr hs
      simp [dropFirst, hs, this]
    · have : arrayEquals o s = false := by
        rw [Bool.eq_false_iff]; exact fun h => hs ((arrayEquals_iff o s).mp h)
      rw [dropFirst, if_neg hs, ih, List.any_cons, this, Bool.false_or,
        List.eraseP_cons_of_neg (by simp [this])]
      cases rs.any (fun x => arrayEquals o x) <;> rfl

theorem eraseFirst_vector (o : Rule) (rs : List Rule) :
    (Policies.vector rs).eraseFirst (fun x => arrayEquals o x) =
      (dropFirst o rs).map (fun l => .vector l) := by
  rw [dropFirst_eq]
  show (if (rs.any fun x => arrayEquals o x) = true then
    some (Policies.vector (rs.eraseP fun x => arrayEquals o x)) else none) = _
  cases rs.any (fun x => arrayEquals o x) <;> rfl

variable {m : Model} {s t : Str} {a : Assertion} {rs : List Rule}

theorem add_exact (hf : m.find s t = some a) (hp : a.policy = .vector rs) (ns : List Rule) :
    Model.addPolicies s t ns m = (.ok (appendNew ns rs).1,
      m.put s t { a with policy := .vector (appendNew ns rs).2 }) := by
  rw [Model.addPolicies_run hf, appendNew]
  have : (∃ r ∈ ns, a.policy.Similar r) ↔ ∃ n ∈ ns, ∃ s ∈ rs, n.Perm s := by
    rw [hp]; rfl
  by_cases h : ∃ n ∈ ns, ∃ s ∈ rs, n.Perm s
  · rw [if_pos (this.mpr h), if_pos h]
    exact Prod.ext rfl (by rw [← hp]; exact (Model.put_self _ _ _ _ hf).symm)
  · rw [if_neg (fun h' => h (this.mp h')), if_neg h, hp,
      Model.emplaceList_vector (P := .vector rs) rfl]
    rfl

theorem addOne_exact (hf : m.find s t = some a) (hp : a.policy = .vector rs) (n : Rule) :
    Model.addPolicy s t n m = (.ok (appendNew [n] rs).1,
      m.put s t { a with policy := .vector (appendNew [n] rs).2 }) := by
  rw [← add_exact hf hp, Model.addPolicy_run hf, Model.addPolicies_run hf]
  simp [Model.emplaceList]

theorem erase_exact (os : List Rule) : ∀ {m : Model} {a : Assertion} {rs : List Rule},
    m.find s t = some a → a.policy = .vector rs →
    Model.eraseAll s t os m = (.ok (dropEach os rs).1,
      m.put s t { a with policy := .vector (dropEach os rs).2 }) := by
  induction os with
  | nil =>
    intro m a rs hf hp
    exact Prod.ext rfl (by show m = _; rw [dropEach, ← hp]; exact (Model.put_self _ _ _ _ hf).symm)
  | cons o os ih =>
    intro m a rs hf hp
    simp only [Model.eraseAll, M.bind_run, Model.eraseRule_run hf, hp, eraseFirst_vector, dropEach]
    cases hd : dropFirst o rs with
    | none =>
      exact Prod.ext rfl (by
        show m = _
        rw [← hp]; exact (Model.put_self _ _ _ _ hf).symm)
    | some l =>
      simp only [Option.map_some, Bool.not_true, Bool.false_eq_true, if_false]
      rw [ih (Model.find_put_self ..) rfl, Model.put_put]

theorem eraseOne_exact (hf : m.find s t = some a) (hp : a.policy = .vector rs) (o : Rule) :
    Model.eraseRule s t o m = (.ok (dropEach [o] rs).1,
      m.put s t { a with policy := .vector (dropEach [o] rs).2 }) := by
  rw [← erase_exact [o] hf hp]
  simp only [Model.eraseAll, M.bind_run]
  rcases Model.eraseRule s t o m with ⟨x, m'⟩
  cases x with
  | throw e => rfl
  | ub e => rfl
  | ok b => cases b <;> rfl

/-- The method of the model that the call runs, on a vector. -/
theorem onStore_exact (e : Edit) (hf : m.find e.target.1 e.target.2 = some a)
    (hp : a.policy = .vector rs) :
    e.onStore m = ((reference e rs).1,
      m.put e.target.1 e.target.2 { a with policy := .vector (reference e rs).2 }) := by
  cases e with
  | add g pt r => exact addOne_exact hf hp r
  | addMany g pt ns => exact add_exact hf hp ns
  | remove g pt r => exact eraseOne_exact hf hp r
  | removeMany g pt ns => exact add_exact hf hp ns
  | removeFiltered g pt i vs =>
    simp only [Edit.target] at hf ⊢
    have hit : a.policy.iterate = rs := by rw [hp]; rfl
    simp only [Edit.onStore, Model.removeFilteredPolicy, M.bind_run, Model.at_run hf, M.lift_run, hit,
      partitionFilter_exact, reference]
    by_cases h : ∃ r ∈ rs, Short r i vs
    · rw [if_pos h, if_pos h]
      exact Prod.ext rfl (by
        show m = _
        rw [← hp]; exact (Model.put_self _ _ _ _ hf).symm)
    · rw [if_neg h, if_neg h]
      simp only [Model.setPolicy_run hf, M.pure_run]
      refine Prod.ext ?_ rfl
      simp only [Outcome.ok.injEq]
      by_cases hm : ∃ r ∈ rs, FilterMatch r i vs
      · simp only [hm, decide_true]
        obtain ⟨r, hr, hm⟩ := hm
        cases hl : rs.filter (fun r => FilterMatch r i vs) with
        | nil => simp only [List.filter_eq_nil_iff, decide_eq_true_eq] at hl; exact absurd hm (hl r hr)
        | cons _ _ => rfl
      · have : rs.filter (fun r => FilterMatch r i vs) = [] := by
          simp only [List.filter_eq_nil_iff, decide_eq_true_eq]
          exact fun r hr h' => hm ⟨r, hr, h'⟩
        simp [this, hm]
  | update g pt o n =>
    simp only [Edit.target] at hf ⊢
    have h2 := addOne_exact (Model.find_put_self m (Edit.secOf g) pt
      { a with policy := .vector (dropEach [o] rs).2 }) rfl n
    rw [Model.put_put] at h2
    simp only [Edit.onStore, Model.updatePolicy, M.bind_run, eraseOne_exact hf hp, reference]
    cases hd : (dropEach [o] rs).1 with
    | false => rfl
    | true =>
      simp only [Bool.not_true, Bool.false_eq_true, if_false, if_true]
      exact h2
  | updateMany pt os ns =>
    simp only [Edit.target] at hf ⊢
    simp only [Edit.onStore, updatePolicies_run hf, erase_exact os hf hp, reference]
    cases hd : (dropEach os rs).1 with
    | false => rfl
    | true =>
      simp only [if_true]
      rw [add_exact (Model.find_put_self ..) rfl, Model.put_put]

/-- A call leaves the rules of the other policy types as they are. -/
theorem others_kept (e : Edit) (E : Enforcer) {t : Str × Str} {rs : List Rule} (hne : t ≠ e.target) :
    Holds (e.run E).2 t rs ↔ Holds E t rs := by
  have h1 := (e.did E).rules t.1 t.2
  have h2 : (e.onStore E.model).2.find t.1 t.2 = E.model.find t.1 t.2 := by
    rcases e.onStore_edited E.model with h | ⟨a, P, _, h⟩
    · rw [h]
    · rw [h, Model.find_put_ne _ _ (by rintro ⟨h1, h2⟩; exact hne (Prod.ext h1.symm h2.symm))]
  rw [h2] at h1
  have key : ∀ (x y : Option Assertion), x.map Assertion.strip = y.map Assertion.strip →
      (∃ a, x = some a ∧ a.policy = .vector rs) → ∃ a, y = some a ∧ a.policy = .vector rs := by
    rintro x y hxy ⟨b, rfl, hb⟩
    cases y with
    | none => simp at hxy
    | some c =>
      simp only [Option.map_some, Option.some.injEq, Assertion.strip, Assertion.mk.injEq] at hxy
      exact ⟨c, rfl, by rw [← hxy.2.2.2.1]; exact hb⟩
  exact ⟨key _ _ h1, key _ _ h1.symm⟩

/-- The adapter does not reject what the call hands on to it. -/
def Accepted (E : Enforcer) : Edit → Prop
  | .addMany g pt rs => E.BatchAccepts (.addMany (Edit.secOf g) pt rs)
  | .removeMany g pt rs => E.BatchAccepts (.removeMany (Edit.secOf g) pt rs)
  | e => ∀ c, e.call = some c → E.AdapterAccepts c

theorem answer_bool (op : M Model Bool) (x : PolicyOp) (pt : Str) (l : List Rule)
    (save : M Enforcer Unit) (E : Enforcer) (hs : ∀ m, (save { E with model := m }).1 = .ok ()) :
    ((do
      let a ← onModel op
      if !a then pure false
      else do
        linkIfG c!"p" x pt l
        save
        notify
        pure true : M Enforcer Bool) E).1 = (op E.model).1 := by
  simp only [M.bind_run, onModel_run]
  rcases op E.model with ⟨o, m⟩
  have := hs m
  cases o with
  | throw e => rfl
  | ub u => rfl
  | ok b =>
    cases b with
    | false => rfl
    | true =>
      simp only [Bool.not_true, Bool.false_eq_true, if_false, M.bind_run, linkIfG_p]
      rcases hsv : save { E with model := m } with ⟨o, E'⟩
      rw [hsv] at this
      cases this
      rfl

theorem save_single {E : Enforcer} {c : AdapterCall} (h : E.AdapterAccepts c) (m : Model) :
    (autoSaveCall c { E with model := m }).1 = .ok () := by
  have : AdapterAccepts { E with model := m } c := fun b hb hs => h b hb hs
  rw [autoSaveCall_ok this]

theorem save_batch {E : Enforcer} {c : AdapterCall} (h : E.BatchAccepts c) (m : Model) :
    (autoSaveBatch c { E with model := m }).1 = .ok () := by
  have : BatchAccepts { E with model := m } c :=
    ⟨fun b hb hs => h.1 b hb hs, fun b hb hs => h.2 b hb hs⟩
  rw [autoSaveBatch_ok this]

theorem run_answer (e : Edit) {E : Enforcer} (hg : e.target.1 = c!"p") (hacc : Accepted E e) :
    (e.run E).1 = (e.onStore E.model).1 := by
  have hgp : ∀ g : Bool, Edit.secOf g = c!"p" → g = false := by decide
  cases e with
  | add g pt r =>
    obtain rfl := hgp g hg
    exact answer_bool _ _ _ _ _ _ (save_single (hacc _ rfl))
  | addMany g pt rs =>
    obtain rfl := hgp g hg
    exact answer_bool _ _ _ _ _ _ (save_batch hacc)
  | remove g pt r =>
    obtain rfl := hgp g hg
    exact answer_bool _ _ _ _ _ _ (save_single (hacc _ rfl))
  | removeMany g pt rs =>
    obtain rfl := hgp g hg
    exact answer_bool _ _ _ _ _ _ (save_batch hacc)
  | removeFiltered g pt i vs =>
    obtain rfl := hgp g hg
    have hs := save_single (hacc _ rfl)
    simp only [Edit.run, removeFilteredNamedPolicy, removeFilteredI, Edit.onStore, M.bind_run,
      onModel_run, Edit.secOf, Bool.false_eq_true, if_false]
    simp only [Edit.secOf, Bool.false_eq_true, if_false] at hs
    rcases Model.removeFilteredPolicy c!"p" pt i vs E.model with ⟨o, m⟩
    have := hs m
    cases o with
    | throw e => rfl
    | ub u => rfl
    | ok b =>
      obtain ⟨b, l⟩ := b
      cases b with
      | false => rfl
      | true =>
        simp only [Bool.not_true, Bool.false_eq_true, if_false, M.bind_run, linkIfG_p]
        rcases hsv : autoSaveCall (.removeFiltered c!"p" pt i vs) { E with model := m } with ⟨o, E'⟩
        rw [hsv] at this
        cases this
        rfl
  | update g pt o n =>
    obtain rfl := hgp g hg
    show (updatePolicyI c!"p" pt o n E).1 = (Model.updatePolicy c!"p" pt o n E.model).1
    rw [updatePolicyI_p_run]
    rcases Model.updatePolicy c!"p" pt o n E.model with ⟨x, m⟩
    cases x with
    | throw e => rfl
    | ub e => rfl
    | ok b => cases b <;> rfl
  | updateMany pt o n =>
    show (updatePoliciesI c!"p" pt o n E).1 = (Model.updatePolicies c!"p" pt o n E.model).1
    rw [updatePoliciesI_p_run]
    rcases Model.updatePolicies c!"p" pt o n E.model with ⟨x, m⟩
    cases x with
    | throw e => rfl
    | ub e => rfl
    | ok b => cases b <;> rfl

/-! ## C150 -/

/-- C150, one call: whatever the rules, the batch or the filter, the rules stored afterwards are those of
the reference, and if the call returns, it returns the answer of the reference. -/
theorem C150_call (e : Edit) {E : Enforcer} {rs : List Rule} (h : Holds E e.target rs) :
    Holds (e.run E).2 e.target (reference e rs).2 ∧
    ∀ b, (e.run E).1 = .ok b → (reference e rs).1 = .ok b := by
  obtain ⟨a, ha, hp⟩ := h
  have hd := e.did E
  have hs := onStore_exact e ha hp
  refine ⟨?_, ?_⟩
  · obtain ⟨p, hq⟩ := hd.rules.some (s := e.target.1) (t := e.target.2)
      (by rw [hs]; exact Model.find_put_self ..)
    exact ⟨_, hq, rfl⟩
  · intro b hb
    have := hd.result b hb
    rwa [hs] at this

/-- C150, histories: after any calls, with whatever arguments and however each of them ends, the rules of
a policy type are those the reference makes of the rules there were, by the calls about that type. -/
theorem C150_history (es : List Edit) (t : Str × Str) : ∀ {E : Enforcer} {rs : List Rule},
    Holds E t rs → Holds (runEdits E es) t (referenceAll t es rs) := by
  induction es with
  | nil => intro E rs h; exact h
  | cons e es ih =>
    intro E rs h
    refine ih (E := (e.run E).2) (rs := if e.target = t then (reference e rs).2 else rs) ?_
    by_cases ht : e.target = t
    · rw [if_pos ht]
      subst ht
      exact (C150_call e h).1
    · rw [if_neg ht]
      exact (others_kept e E (Ne.symm ht)).mpr h

/-- C150, answers: a call about policy rules gives the answer of the reference, if the adapter does not
reject what is handed on to it. -/
theorem C150_answer (e : Edit) {E : Enforcer} {rs : List Rule} (h : Holds E e.target rs)
    (hg : e.target.1 = c!"p") (hacc : Accepted E e) : (e.run E).1 = (reference e rs).1 := by
  obtain ⟨a, ha, hp⟩ := h
  rw [run_answer e hg hacc, onStore_exact e ha hp]

/-- A history with rearranged rules, a batch that repeats a rule, an update to a rule that is there, and a
filter that no rule is long enough for. -/
def edits : List Edit :=
  [.add false c!"p" aliceSwapped, .addMany false c!"p" [bob, bob], .update false c!"p" alice bob,
   .removeFiltered false c!"p" 2 [c!"write", c!"x"], .remove false c!"p" carol, .add true c!"g" [c!"a", c!"b"]]

example : Holds (runEdits (acl [alice]) edits) (c!"p", c!"p") [bob, bob] :=
  C150_history edits (c!"p", c!"p") (E := acl [alice]) (rs := [alice]) ⟨_, rfl, rfl⟩

example : ((Edit.add false c!"p" aliceSwapped).run (acl [alice])).1 = .ok false :=
  C150_answer (.add false c!"p" aliceSwapped) (E := acl [alice]) (rs := [alice]) ⟨_, rfl, rfl⟩ rfl
    (fun _ _ => adapterAccepts_none rfl)

example : Holds ((Edit.update false c!"p" alice bob).run (acl [alice, bob])).2 (c!"p", c!"p") [bob] :=
  (C150_call (.update false c!"p" alice bob) (E := acl [alice, bob]) (rs := [alice, bob])
    ⟨_, rfl, rfl⟩).1

/-! ## C34: which filters read outside a rule; any index -/

/-- C34, exactly: a filter reads outside a rule when some rule agrees with it up to a value for which the
rule has no field, and only then; the two calls behave alike in this, with either storage. -/
theorem C34_exact {E : Enforcer} {pt : Str} {rs : List Rule} (h : Stored E c!"p" pt rs) (i : Nat)
    (vs : List Str) :
    ((getFilteredNamedPolicy pt i vs E).1 = .ub .outOfBounds ↔ ∃ r ∈ rs, Short r i vs) ∧
    ((∃ r ∈ rs, Short r i vs) → removeFilteredNamedPolicy pt i vs E = (.ub .outOfBounds, E)) ∧
    ((¬ ∃ r ∈ rs, Short r i vs) → (getFilteredNamedPolicy pt i vs E).1.Safe ∧
      (E.AdapterAccepts (.removeFiltered c!"p" pt i vs) →
        (removeFilteredNamedPolicy pt i vs E).1 = .ok (decide (∃ r ∈ rs, FilterMatch r i vs)))) := by
  obtain ⟨a, ha, rfl⟩ := h
  have hit : ∀ p : Rule → Prop, (∃ r ∈ a.policy.iterate, p r) ↔ ∃ r ∈ a.policy.items, p r := fun p =>
    exists_congr fun r => and_congr_left fun _ => Policies.mem_iterate ..
  have hget : getFilteredNamedPolicy pt i vs E =
      if ∃ r ∈ a.policy.items, Short r i vs then (.ub .outOfBounds, E)
      else (.ok (.vector (a.policy.iterate.filter fun r => FilterMatch r i vs)), E) := by
    simp only [getFilteredNamedPolicy, onModel_run, Model.getFilteredPolicy, M.bind_run, Model.at_run ha,
      M.lift_run, partitionFilter_exact, hit]
    by_cases hs : ∃ r ∈ a.policy.items, Short r i vs
    · rw [if_pos hs, if_pos hs]
    · rw [if_neg hs, if_neg hs]; rfl
  have hrem : Model.removeFilteredPolicy c!"p" pt i vs E.model =
      if ∃ r ∈ a.policy.items, Short r i vs then (.ub .outOfBounds, E.model)
      else (.ok (decide (∃ r ∈ a.policy.items, FilterMatch r i vs),
          a.policy.iterate.filter fun r => FilterMatch r i vs),
        E.model.put c!"p" pt
          { a with policy := .vector (a.policy.iterate.filter fun r => ¬ FilterMatch r i vs) }) := by
    simp only [Model.removeFilteredPolicy, M.bind_run, Model.at_run ha, M.lift_run,
      partitionFilter_exact, hit]
    by_cases hs : ∃ r ∈ a.policy.items, Short r i vs
    · rw [if_pos hs, if_pos hs]
    · rw [if_neg hs, if_neg hs]
      simp only [Model.setPolicy_run ha, M.pure_run]
      refine Prod.ext (congrArg Outcome.ok (Prod.ext ?_ rfl)) rfl
      simp only [← hit fun r => FilterMatch r i vs]
      by_cases hm : ∃ r ∈ a.policy.iterate, FilterMatch r i vs
      · obtain ⟨r, hr, hm'⟩ := hm
        rw [decide_eq_true ⟨r, hr, hm'⟩]
        cases hl : a.policy.iterate.filter (fun r => FilterMatch r i vs) with
        | nil =>
          simp only [List.filter_eq_nil_iff, decide_eq_true_eq] at hl
          exact absurd hm' (hl r hr)
        | cons _ _ => rfl
      · have : a.policy.iterate.filter (fun r => FilterMatch r i vs) = [] := by
          simp only [List.filter_eq_nil_iff, decide_eq_true_eq]
          exact fun r hr h' => hm ⟨r, hr, h'⟩
        simp [this, hm]
  refine ⟨?_, ?_, ?_⟩
  · rw [hget]
    by_cases hs : ∃ r ∈ a.policy.items, Short r i vs <;> simp [hs]
  · intro hs
    simp only [removeFilteredNamedPolicy, removeFilteredI, M.bind_run, onModel_run, hrem, if_pos hs]
  · intro hs
    refine ⟨by rw [hget, if_neg hs]; trivial, fun hacc => ?_⟩
    have := run_answer (.removeFiltered false pt i vs) (E := E) rfl
      (by intro c hc; cases hc; exact hacc)
    refine this.trans ?_
    simp only [Edit.onStore, M.bind_run, Edit.secOf, Bool.false_eq_true, if_false, hrem, if_neg hs]
    rfl

example : (getFilteredNamedPolicy c!"p" 2 [c!"read", c!"x"] (acl [bob, alice])).1 = .ub .outOfBounds :=
  (C34_exact (rs := [bob, alice]) ⟨_, rfl, rfl⟩ _ _).1.mpr (by decide)

omit [IterOrder] in
theorem matchFilterInt_shift (rule : Rule) (vs : List Str) : ∀ (n j : Nat),
    n + j + vs.length ≤ 2147483648 →
    Model.matchFilterInt rule n j vs = matchFilter rule (n + j) vs := by
  induction vs with
  | nil => intro n j _; rfl
  | cons v vs ih =>
    intro n j h
    simp only [List.length_cons] at h
    have ih' := ih n (j + 1) (by omega)
    simp only [Model.matchFilterInt, matchFilter, ih', Model.vecAtInt]
    rw [if_neg (show ¬ ((n : Int) + j > 2147483647) by omega),
      if_neg (show ¬ ((n : Int) + j < 0) by omega), show ((n : Int) + j).toNat = n + j by omega]
    rfl

omit [IterOrder] in
/-- C34 for a filter whose index is not negative: the loop with `int`s is the one of Model.lean, as long
as the positions are `int`s. -/
theorem C34_index (rule : Rule) (i : Nat) (vs : List Str) (h : i + vs.length ≤ 2147483648) :
    Model.matchFilterInt rule i 0 vs = matchFilter rule i vs :=
  matchFilterInt_shift rule vs i 0 (by omega)

omit [IterOrder] in
theorem matchFilterInt_zero (rule : Rule) (vs : List Str) : ∀ (j k : Nat),
    k + vs.length ≤ 2147483648 →
    Model.matchFilterInt rule (-(j : Int)) (j + k) vs = matchFilter rule k vs := by
  induction vs with
  | nil => intro j k _; rfl
  | cons v vs ih =>
    intro j k h
    simp only [List.length_cons] at h
    have ih' := ih j (k + 1) (by omega)
    simp only [Model.matchFilterInt, matchFilter, Nat.add_assoc, ih', Model.vecAtInt]
    rw [if_neg (show ¬ (-(j : Int) + ((j + k : Nat) : Int) > 2147483647) by omega),
      if_neg (show ¬ (-(j : Int) + ((j + k : Nat) : Int) < 0) by omega),
      show (-(j : Int) + ((j + k : Nat) : Int)).toNat = k by omega]

omit [IterOrder] in
theorem negative_from (rule : Rule) (vs : List Str) : ∀ (n j : Nat), vs.length + j ≤ 2147483648 →
    Model.matchFilterInt rule (-((n + j : Nat) : Int)) j vs =
      if ∀ v ∈ vs.take n, v = [] then matchFilter rule 0 (vs.drop n) else .ub .outOfBounds := by
  induction vs with
  | nil => intro n j _; simp [Model.matchFilterInt, matchFilter]
  | cons v vs ih =>
    intro n j h
    simp only [List.length_cons] at h
    cases n with
    | zero =>
      have := matchFilterInt_zero rule (v :: vs) j 0 (by simp only [List.length_cons]; omega)
      simpa using this
    | succ n =>
      have ih' := ih n (j + 1) (by omega)
      rw [show n + (j + 1) = n + 1 + j by omega] at ih'
      simp only [Model.matchFilterInt, ih', Model.vecAtInt]
      by_cases hv : v = []
      · simp [hv]
      · rw [if_pos hv, if_neg (by omega), if_pos (by omega)]
        simp [hv]

omit [IterOrder] in
/-- C34 for a filter with a negative index: values before position 0 that are not empty are looked for
outside the rule, whatever the rule; if they are all empty, the others are compared from position 0 on. -/
theorem C34_negative (rule : Rule) (n : Nat) (vs : List Str) (h : vs.length ≤ 2147483648) :
    Model.matchFilterInt rule (-(n : Int)) 0 vs =
      if ∀ v ∈ vs.take n, v = [] then matchFilter rule 0 (vs.drop n) else .ub .outOfBounds :=
  negative_from rule vs n 0 (by omega)

example : Model.matchFilterInt alice (-1) 0 [[], c!"alice"] = .ok true ∧
    Model.matchFilterInt alice (-1) 0 [c!"alice"] = .ub .outOfBounds := by decide

end StoreProps
end Casbin
