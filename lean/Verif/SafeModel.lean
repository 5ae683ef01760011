import Verif.SafeLemmas

/-!
# Methods of the model without undefined behaviour
-/

set_option linter.unusedSectionVars false

namespace Casbin
namespace Safe

/-- What the user of an enforcer relies on: the policy types that are defined, a number of values that
the rules of a type have at least, and whether requests are made. -/
structure Shape where
  defined : Str → Str → Prop
  width : Str → Str → Nat
  asked : Prop

/-- The model has what requests need: the definitions `r`, `p`, `e`, `m`, and tokens that give names which
the expression library accepts. -/
def Askable (m : Model) : Prop :=
  (∃ r, m.find c!"r" c!"r" = some r ∧
    ∀ t ∈ r.tokens, 2 ≤ t.length → Evaluator.validSymbol (c!"r." ++ t.drop 2) = true) ∧
  (∃ p, m.find c!"p" c!"p" = some p ∧
    ∀ t ∈ p.tokens, Evaluator.validSymbol (c!"p." ++ tokenName t) = true) ∧
  m.find c!"e" c!"e" ≠ none ∧ m.find c!"m" c!"m" ≠ none

/-- A model of the shape `S`; with `L` the type `g` has a role manager; role managers are among the first
`n` objects. -/
structure MInv (S : Shape) (L : Prop) (n : Nat) (m : Model) : Prop where
  defs : ∀ s t, S.defined s t → m.find s t ≠ none
  wide : ∀ s t a, m.find s t = some a → ∀ r ∈ a.policy.items, S.width s t ≤ r.length
  asks : S.asked → Askable m
  linked : L → ∃ a p, m.find c!"g" c!"g" = some a ∧ a.rm = some p
  ptr : ∀ sm ∈ m, ∀ ta ∈ sm.2, ∀ p, ta.2.rm = some p → p < n

/-- Filter values at position `i` on fit into rules of `w` values. -/
def Fits (w i : Nat) (vs : List Str) : Prop := ∀ j v, vs[j]? = some v → v ≠ [] → i + j < w

variable {S : Shape} {L : Prop} {n : Nat}

theorem find_mem {m : Model} {s t : Str} {a : Assertion} (h : m.find s t = some a) :
    ∃ sm ∈ m, (t, a) ∈ sm.2 := by
  unfold Model.find at h
  cases hg : UMap.get m s with
  | none => rw [hg] at h; cases h
  | some am => rw [hg] at h; exact ⟨(s, am), UMap.mem_of_get hg, UMap.mem_of_get h⟩

theorem MInv.found {m : Model} (h : MInv S L n m) {s t : Str} {a : Assertion} (hf : m.find s t = some a)
    {p : Nat} (hp : a.rm = some p) : p < n := by
  obtain ⟨sm, h1, h2⟩ := find_mem hf
  exact h.ptr sm h1 _ h2 p hp

/-- The finds of two models differ in rules and role managers only. -/
theorem MInv.of_find {m m' : Model} (h : MInv S L n m)
    (hd : ∀ s t a, m.find s t = some a → ∃ a', m'.find s t = some a' ∧ a'.tokens = a.tokens ∧
      (a.rm ≠ none → a'.rm ≠ none))
    (hw : ∀ s t a, m'.find s t = some a → ∀ r ∈ a.policy.items, S.width s t ≤ r.length)
    (hp : ∀ sm ∈ m', ∀ ta ∈ sm.2, ∀ p, ta.2.rm = some p → p < n) : MInv S L n m' where
  defs s t hs := by
    cases hf : m.find s t with
    | none => exact absurd hf (h.defs s t hs)
    | some a => obtain ⟨a', h1, -⟩ := hd s t a hf; rw [h1]; simp
  wide := hw
  asks hs := by
    obtain ⟨⟨r, h1, h2⟩, ⟨p, h3, h4⟩, h5, h6⟩ := h.asks hs
    have other : ∀ s t, m.find s t ≠ none → m'.find s t ≠ none := by
      intro s t hn
      cases hf : m.find s t with
      | none => exact absurd hf hn
      | some a => obtain ⟨a', h1, -⟩ := hd s t a hf; rw [h1]; simp
    obtain ⟨r', e1, e2, -⟩ := hd _ _ _ h1
    obtain ⟨p', e3, e4, -⟩ := hd _ _ _ h3
    exact ⟨⟨r', e1, e2 ▸ h2⟩, ⟨p', e3, e4 ▸ h4⟩, other _ _ h5, other _ _ h6⟩
  linked hl := by
    obtain ⟨a, p, h1, h2⟩ := h.linked hl
    obtain ⟨a', e1, -, e2⟩ := hd _ _ _ h1
    cases hr : a'.rm with
    | none => exact absurd hr (e2 (by rw [h2]; simp))
    | some q => exact ⟨a', q, e1, hr⟩
  ptr := hp

theorem mem_put {m : Model} {s t : Str} {b : Assertion} :
    ∀ sm ∈ m.put s t b, ∀ ta ∈ sm.2, ta = (t, b) ∨ ∃ sm ∈ m, ta ∈ sm.2 := by
  intro sm hsm ta hta
  unfold Model.put at hsm
  cases hg : UMap.get m s with
  | none =>
    rw [hg] at hsm
    rcases UMap.mem_set hsm with rfl | h
    · exact .inl (by simpa using hta)
    · exact .inr ⟨sm, h, hta⟩
  | some am =>
    rw [hg] at hsm
    rcases UMap.mem_set hsm with rfl | h
    · exact (UMap.mem_set hta).imp id fun h => ⟨_, UMap.mem_of_get hg, h⟩
    · exact .inr ⟨sm, h, hta⟩

theorem MInv.put {m : Model} (h : MInv S L n m) {s t : Str} {a b : Assertion} (hf : m.find s t = some a)
    (ht : b.tokens = a.tokens) (hw : ∀ r ∈ b.policy.items, S.width s t ≤ r.length)
    (hr : b.rm = a.rm ∨ ∃ p, b.rm = some p ∧ p < n) : MInv S L n (m.put s t b) := by
  refine h.of_find ?_ ?_ ?_
  · intro s' t' a' hf'
    rw [Model.find_put]
    split
    · next he =>
      obtain ⟨rfl, rfl⟩ := he
      rw [hf] at hf'
      obtain rfl := Option.some.inj hf'
      refine ⟨b, rfl, ht, ?_⟩
      rcases hr with hr | ⟨p, hr, -⟩ <;> rw [hr] <;> simp
    · exact ⟨a', hf', rfl, id⟩
  · intro s' t' a' hf'
    rw [Model.find_put] at hf'
    split at hf'
    · next he =>
      obtain ⟨rfl, rfl⟩ := he
      obtain rfl := Option.some.inj hf'
      exact hw
    · exact h.wide s' t' a' hf'
  · intro sm hsm ta hta p hp
    rcases mem_put sm hsm ta hta with rfl | ⟨sm', h1, h2⟩
    · rcases hr with hr | ⟨q, hr, hq⟩
      · exact h.found hf (hr ▸ hp)
      · obtain rfl : q = p := Option.some.inj (hr.symm.trans hp)
        exact hq
    · exact h.ptr sm' h1 ta h2 p hp

theorem MInv.ensureSec {m : Model} (h : MInv S L n m) (s : Str) : MInv S L n (m.ensureSec s) := by
  refine h.of_find ?_ ?_ ?_
  · intro s' t' a' hf'
    exact ⟨a', by rw [Model.find_ensureSec]; exact hf', rfl, id⟩
  · intro s' t' a' hf'
    rw [Model.find_ensureSec] at hf'
    exact h.wide s' t' a' hf'
  · intro sm hsm ta hta
    unfold Model.ensureSec at hsm
    split at hsm
    · exact h.ptr sm hsm ta hta
    · rcases UMap.mem_set hsm with rfl | h'
      · cases hta
      · exact h.ptr sm h' ta hta

theorem MInv.clearSec {m : Model} (h : MInv S L n m) (s : Str) : MInv S L n (m.clearSec s) := by
  refine h.of_find ?_ ?_ ?_
  · intro s' t' a' hf'
    rw [Model.find_clearSec]
    split
    · next he => subst he; rw [hf']; exact ⟨_, rfl, rfl, id⟩
    · exact ⟨a', hf', rfl, id⟩
  · intro s' t' a' hf'
    rw [Model.find_clearSec] at hf'
    split at hf'
    · cases hf : m.find s t' with
      | none => rw [hf] at hf'; cases hf'
      | some a =>
        rw [hf] at hf'
        obtain rfl := Option.some.inj hf'
        intro r hr
        cases hr
    · exact h.wide s' t' a' hf'
  · intro sm hsm ta hta p hp
    unfold Model.clearSec at hsm
    cases hg : UMap.get m s with
    | none =>
      rw [hg] at hsm
      rcases UMap.mem_set hsm with rfl | h'
      · cases hta
      · exact h.ptr sm h' ta hta p hp
    | some am =>
      rw [hg] at hsm
      rcases UMap.mem_set hsm with rfl | h'
      · obtain ⟨kv, hkv, rfl⟩ := List.mem_map.mp hta
        exact h.ptr _ (UMap.mem_of_get hg) kv hkv p hp
      · exact h.ptr sm h' ta hta p hp

theorem MInv.clearPolicy {m : Model} (h : MInv S L n m) : MInv S L n m.clearPolicy :=
  (h.clearSec _).clearSec _

theorem MInv.weaken {m : Model} (h : MInv S L n m) {n' : Nat} (hn : n ≤ n') : MInv S False n' m where
  defs := h.defs
  wide := h.wide
  asks := h.asks
  linked := False.elim
  ptr sm hsm ta hta p hp := Nat.lt_of_lt_of_le (h.ptr sm hsm ta hta p hp) hn

/-! ## The methods -/

variable [IterOrder] {s t : Str}

theorem fine_def {α : Type} {f : M Model α} (hd : S.defined s t)
    (hf : ∀ m a, MInv S L n m → m.find s t = some a → (∀ u, (f m).1 ≠ .ub u) ∧ MInv S L n (f m).2) :
    Fine (MInv S L n) f := by
  intro m h
  cases hm : m.find s t with
  | none => exact absurd hm (h.defs s t hd)
  | some a => exact hf m a h hm

theorem fine_getPolicy (hd : S.defined s t) : Fine (MInv S L n) (Model.getPolicy s t) :=
  fine_def hd fun m a h hf => by
    simp only [Model.getPolicy, M.bind_run, Model.at_run hf, M.pure_run]
    exact ⟨fun u h => by simp at h, h⟩

theorem fine_hasPolicy (hd : S.defined s t) (r : Rule) : Fine (MInv S L n) (Model.hasPolicy s t r) :=
  fine_def hd fun m a h hf => by
    rw [Model.hasPolicy_run hf]
    exact ⟨fun u h => by simp at h, h⟩

theorem fine_emplace {α : Type} (hd : S.defined s t) {r : Rule} (hr : S.width s t ≤ r.length)
    {k : Unit → M Model α} (hk : ∀ u, Fine (MInv S L n) (k u)) :
    Fine (MInv S L n) (Model.at_ s t >>= fun a => Model.setPolicy s t (a.policy.emplace r) >>= k) :=
  fine_def hd fun m a h hf => by
    simp only [M.bind_run, Model.at_run hf, Model.setPolicy_run hf]
    refine hk _ _ (h.put hf rfl (fun x hx => ?_) (.inl rfl))
    rcases (Policies.mem_emplace _ _ _).mp hx with h' | rfl
    · exact h.wide s t a hf x h'
    · exact hr

theorem fine_addPolicy (hd : S.defined s t) {r : Rule} (hr : S.width s t ≤ r.length) :
    Fine (MInv S L n) (Model.addPolicy s t r) :=
  .bind (fine_hasPolicy hd r) fun _ => .ite (fun _ => .pure _) fun _ =>
    fine_emplace hd hr fun _ => .pure _

theorem fine_anyPresent (hd : S.defined s t) : ∀ rs, Fine (MInv S L n) (Model.anyPresent s t rs)
  | [] => .pure _
  | r :: rs => .bind (fine_hasPolicy hd r) fun _ => .ite (fun _ => .pure _) fun _ => fine_anyPresent hd rs

theorem fine_emplaceAll (hd : S.defined s t) : ∀ {rs : List Rule}, (∀ r ∈ rs, S.width s t ≤ r.length) →
    Fine (MInv S L n) (Model.emplaceAll s t rs)
  | [], _ => .pure _
  | _ :: _, h => fine_emplace hd (h _ List.mem_cons_self) fun _ =>
    fine_emplaceAll hd fun r hr => h r (List.mem_cons_of_mem _ hr)

theorem fine_addPolicies (hd : S.defined s t) {rs : List Rule} (h : ∀ r ∈ rs, S.width s t ≤ r.length) :
    Fine (MInv S L n) (Model.addPolicies s t rs) :=
  .bind (fine_anyPresent hd rs) fun _ => .ite (fun _ => .pure _) fun _ =>
    .bind (fine_emplaceAll hd h) fun _ => .pure _

theorem fine_eraseRule (hd : S.defined s t) (r : Rule) : Fine (MInv S L n) (Model.eraseRule s t r) :=
  fine_def hd fun m a h hf => by
    rw [Model.eraseRule_run hf]
    cases he : a.policy.eraseFirst (fun x => arrayEquals r x) with
    | none => exact ⟨fun u h => by simp at h, h⟩
    | some P =>
      refine ⟨fun u h => by simp at h, h.put hf rfl (fun x hx => ?_) (.inl rfl)⟩
      obtain ⟨pre, y, post, e1, rfl, -⟩ := Policies.eraseFirst_some he
      refine h.wide s t a hf x ?_
      rw [e1]
      simp only [List.mem_append, List.mem_cons] at hx ⊢
      tauto

theorem fine_updatePolicy (hd : S.defined s t) (o : Rule) {r : Rule} (hr : S.width s t ≤ r.length) :
    Fine (MInv S L n) (Model.updatePolicy s t o r) :=
  .bind (fine_eraseRule hd o) fun _ => .ite (fun _ => .pure _) fun _ =>
    .bind (fine_hasPolicy hd r) fun _ => .ite (fun _ => .pure _) fun _ => fine_emplace hd hr fun _ => .pure _

theorem fine_eraseAll (hd : S.defined s t) : ∀ rs, Fine (MInv S L n) (Model.eraseAll s t rs)
  | [] => .pure _
  | r :: rs => .bind (fine_eraseRule hd r) fun _ => .ite (fun _ => .pure _) fun _ => fine_eraseAll hd rs

theorem fine_at (hd : S.defined s t) : Fine (MInv S L n) (Model.at_ s t) :=
  fine_def hd fun m a h hf => by
    rw [Model.at_run hf]
    exact ⟨fun u h => by simp at h, h⟩

theorem fine_updatePolicies (hd : S.defined s t) (os : List Rule) {rs : List Rule}
    (h : ∀ r ∈ rs, S.width s t ≤ r.length) : Fine (MInv S L n) (Model.updatePolicies s t os rs) :=
  .bind (fine_at hd) fun _ => .bind (fine_eraseAll hd os) fun _ => .ite (fun _ => .pure _) fun _ =>
    .bind (fine_anyPresent hd rs) fun _ => .ite (fun _ => .pure _) fun _ =>
      .bind (fine_emplaceAll hd h) fun _ => .pure _

theorem partition_wide {m : Model} {a : Assertion} (h : MInv S L n m) (hf : m.find s t = some a) {i : Nat}
    {vs : List Str} (hv : Fits (S.width s t) i vs) :
    ∀ r ∈ a.policy.iterate, Model.LongEnough r i vs := fun r hr j v hj hne =>
  Nat.lt_of_lt_of_le (hv j v hj hne) (h.wide s t a hf r ((Policies.mem_iterate _ _).mp hr))

theorem fine_getFiltered (hd : S.defined s t) {i : Nat} {vs : List Str} (hv : Fits (S.width s t) i vs) :
    Fine (MInv S L n) (Model.getFilteredPolicy s t i vs) :=
  fine_def hd fun m a h hf => by
    simp only [Model.getFilteredPolicy, M.bind_run, Model.at_run hf, M.lift_run,
      Model.partitionFilter_ok i vs _ (partition_wide h hf hv), M.pure_run]
    exact ⟨fun u h => by simp at h, h⟩

theorem fine_removeFiltered (hd : S.defined s t) {i : Nat} {vs : List Str} (hv : Fits (S.width s t) i vs) :
    Fine (MInv S L n) (Model.removeFilteredPolicy s t i vs) :=
  fine_def hd fun m a h hf => by
    simp only [Model.removeFilteredPolicy, M.bind_run, Model.at_run hf, M.lift_run,
      Model.partitionFilter_ok i vs _ (partition_wide h hf hv), M.pure_run, Model.setPolicy_run hf]
    refine ⟨fun u h => by simp at h, h.put hf rfl (fun x hx => ?_) (.inl rfl)⟩
    exact h.wide s t a hf x ((Policies.mem_iterate _ _).mp (List.mem_filter.mp hx).1)

theorem values_run {m : Model} {a : Assertion} {i : Nat} (h : MInv S L n m) (hf : m.find s t = some a)
    (hi : i < S.width s t) : ∃ xs, Model.getValuesForField s t i m = (.ok xs, m) := by
  obtain ⟨xs, hx, -⟩ := Model.getValuesForField_run hf i
    (fun r hr => Nat.lt_of_lt_of_le hi (h.wide s t a hf r hr))
  exact ⟨xs, hx⟩

theorem fine_values (hd : S.defined s t) {i : Nat} (hi : i < S.width s t) :
    Fine (MInv S L n) (Model.getValuesForField s t i) :=
  fine_def hd fun m a h hf => by
    obtain ⟨xs, e⟩ := values_run h hf hi
    rw [e]
    exact ⟨fun u h => by simp at h, h⟩

theorem fine_allValues {i : Nat} (hi : ∀ t, i < S.width s t) :
    Fine (MInv S L n) (Model.getValuesForFieldAllTypes s i) := by
  refine .bind (.modify fun m h => h.ensureSec s) fun _ m h => ?_
  have key : ∀ ks : List Str, (∀ k ∈ ks, m.find s k ≠ none) →
      ∃ xs, Model.valuesAllTypes s i ks m = (.ok xs, m) := by
    intro ks
    induction ks with
    | nil => exact fun _ => ⟨[], rfl⟩
    | cons k ks ih =>
      intro hk
      obtain ⟨ys, e2⟩ := ih fun k' h' => hk k' (List.mem_cons_of_mem _ h')
      cases hm : m.find s k with
      | none => exact absurd hm (hk k List.mem_cons_self)
      | some a =>
        obtain ⟨xs, e⟩ := values_run h hm (hi k)
        exact ⟨xs ++ ys, by simp only [Model.valuesAllTypes, M.bind_run, e, e2, M.pure_run]⟩
  obtain ⟨xs, e⟩ := key (IterOrder.iter (m.secMap s).keys) fun k hk => by
    have := (UMap.get_isSome_iff _ _).mpr ((IterOrder.iter_perm _).mem_iff.mp hk)
    rw [Model.find_secMap] at this
    intro h0
    rw [h0] at this
    cases this
  simp only [M.bind_run, M.get_run, e, M.pure_run]
  exact ⟨fun u h => by simp at h, h⟩

/-! ## Loading -/

/-- The line is empty, a comment, or a rule of a defined type with enough values. -/
def LineOk (S : Shape) (l : Str) : Prop :=
  l = [] ∨ l.head? = some '#' ∨ ∃ key vals, trimAll (split l c!",") = key :: vals ∧
    S.defined (key.take 1) key ∧ S.width (key.take 1) key ≤ vals.length

theorem fine_line {l : Str} (h : LineOk S l) : Fine (MInv S L n) (loadPolicyLine l) := by
  unfold loadPolicyLine
  refine .ite (fun _ => .pure _) fun hc => ?_
  rcases h with h | h | ⟨key, vals, e, hd, hw⟩
  · exact absurd (.inl h) hc
  · exact absurd (.inr h) hc
  · rw [e]
    refine fine_def hd fun m a h hf => ?_
    simp only [M.bind_run, Model.at_run hf, Model.setPolicy_run hf]
    refine ⟨fun u h => by simp at h, h.put hf rfl (fun x hx => ?_) (.inl rfl)⟩
    rcases (Policies.mem_emplace _ _ _).mp hx with h' | rfl
    · exact h.wide _ _ a hf x h'
    · exact hw

theorem fine_lines : ∀ {ls : List Str}, (∀ l ∈ ls, LineOk S l) → Fine (MInv S L n) (loadLines ls)
  | [], _ => .pure _
  | _ :: _, h => .bind (fine_line (h _ List.mem_cons_self)) fun _ =>
    fine_lines fun l hl => h l (List.mem_cons_of_mem _ hl)

end Safe
end Casbin
