import Verif.Model

/-! # Lemmas about the policy part of `Model` -/

set_option linter.unusedSectionVars false

namespace Casbin

namespace UMap

variable {K V : Type} [DecidableEq K]

theorem set_set (m : UMap K V) (k : K) (v w : V) : (m.set k v).set k w = m.set k w := by
  induction m with
  | nil => simp [set]
  | cons p m ih =>
    obtain ⟨k', v'⟩ := p
    by_cases h : k' = k
    · simp [set, h]
    · simp [set, h, ih]

theorem set_self (m : UMap K V) (k : K) (v : V) (h : m.get k = some v) : m.set k v = m := by
  induction m with
  | nil => simp at h
  | cons p m ih =>
    obtain ⟨k', v'⟩ := p
    by_cases h1 : k' = k
    · simp [get, h1] at h; simp [set, h1, h]
    · simp [get, h1] at h; simp [set, h1, ih h]

theorem get_map_val {W : Type} (m : UMap K V) (f : K → V → W) (k : K) :
    UMap.get (m.map fun kv => (kv.1, f kv.1 kv.2)) k = (m.get k).map (f k) := by
  induction m with
  | nil => rfl
  | cons p m ih =>
    obtain ⟨k', v'⟩ := p
    by_cases h1 : k' = k
    · subst h1; simp [get]
    · simp [get, h1]; exact ih

end UMap

namespace Policies

variable [IterOrder]

theorem iterate_perm (P : Policies) : P.iterate.Perm P.items := by
  unfold iterate; split
  · exact IterOrder.iter_perm _
  · exact List.Perm.refl _

theorem mem_iterate (P : Policies) (r : Rule) : r ∈ P.iterate ↔ r ∈ P.items :=
  (iterate_perm P).mem_iff

theorem iterate_vector (l : List Rule) : (vector l).iterate = l := rfl

theorem iterate_of_vector {P : Policies} (h : P.hash = false) : P.iterate = P.items := by
  simp [iterate, h]

theorem any_iterate (P : Policies) (f : Rule → Bool) : P.iterate.any f = P.items.any f :=
  (iterate_perm P).any_eq

/-- Some stored rule has the same values as `r`, in some order. -/
def Similar (P : Policies) (r : Rule) : Prop := ∃ s ∈ P.items, r.Perm s

instance (P : Policies) (r : Rule) : Decidable (P.Similar r) := by
  unfold Similar; infer_instance

theorem any_arrayEquals (P : Policies) (r : Rule) :
    P.iterate.any (fun s => arrayEquals r s) = decide (P.Similar r) := by
  rw [any_iterate, Bool.eq_iff_iff]
  simp only [List.any_eq_true, arrayEquals_iff, decide_eq_true_eq]
  rfl

theorem Similar.of_mem {P : Policies} {r : Rule} (h : r ∈ P.items) : P.Similar r :=
  ⟨r, h, List.Perm.refl _⟩

omit [IterOrder] in
theorem emplace_hash (P : Policies) (r : Rule) : (P.emplace r).hash = P.hash := by
  unfold emplace; split
  · split <;> simp_all
  · simp_all

omit [IterOrder] in
theorem emplace_items_of_not_mem {P : Policies} {r : Rule} (h : r ∉ P.items) :
    (P.emplace r).items = P.items ++ [r] := by
  unfold emplace
  simp [h]

omit [IterOrder] in
theorem mem_emplace (P : Policies) (r s : Rule) :
    s ∈ (P.emplace r).items ↔ s ∈ P.items ∨ s = r := by
  unfold emplace; split
  · split
    · rename_i h
      constructor
      · exact Or.inl
      · rintro (h' | rfl)
        · exact h'
        · exact h
    · simp
  · simp

/-- `eraseFirst` as a function of the stored rules: nothing satisfies the predicate, or one rule
satisfying it (the first, for a vector) is removed and the others keep their order. -/
theorem eraseFirst_none {P : Policies} {f : Rule → Bool} :
    P.eraseFirst f = none ↔ ∀ r ∈ P.items, f r = false := by
  unfold eraseFirst
  split
  · cases h : (IterOrder.iter P.items).find? f with
    | some r =>
      simp only [reduceCtorEq, false_iff, not_forall]
      have h1 := List.find?_some h
      have h2 := List.mem_of_find?_eq_some h
      exact ⟨r, IterOrder.mem_iter.mp h2, by simp [h1]⟩
    | none =>
      simp only [true_iff]
      intro r hr
      have := List.find?_eq_none.mp h r (IterOrder.mem_iter.mpr hr)
      simpa using this
  · split
    · rename_i h
      simp only [reduceCtorEq, false_iff, not_forall]
      obtain ⟨r, hr, hf⟩ := List.any_eq_true.mp h
      exact ⟨r, hr, by simp [hf]⟩
    · rename_i h
      simp only [true_iff]
      intro r hr
      by_contra hf
      exact h (List.any_eq_true.mpr ⟨r, hr, by simpa using hf⟩)

theorem eraseFirst_some {P Q : Policies} {f : Rule → Bool} (h : P.eraseFirst f = some Q) :
    ∃ pre r post, P.items = pre ++ r :: post ∧ Q = { P with items := pre ++ post } ∧ f r = true ∧
      (P.hash = false → ∀ s ∈ pre, f s = false) := by
  unfold eraseFirst at h
  split at h
  · rename_i hh
    cases h' : (IterOrder.iter P.items).find? f with
    | none => simp [h'] at h
    | some r =>
      simp only [h', Option.some.injEq] at h
      have h1 := List.find?_some h'
      have h2 := IterOrder.mem_iter.mp (List.mem_of_find?_eq_some h')
      obtain ⟨pre, post, hn, he1, he2⟩ := List.exists_erase_eq h2
      refine ⟨pre, r, post, he1, ?_, h1, ?_⟩
      · rw [← h, he2]
      · simp [hh]
  · split at h
    · rename_i hh ha
      simp only [Option.some.injEq] at h
      obtain ⟨r, hr, hf⟩ := List.any_eq_true.mp ha
      obtain ⟨r', pre, post, hn, hr', he1, he2⟩ := List.exists_of_eraseP hr hf
      refine ⟨pre, r', post, he1, ?_, hr', ?_⟩
      · rw [← h, he2]
      · intro _ s hs; simpa using hn s hs
    · simp at h

end Policies

namespace Model

theorem find_put (m : Model) (s t s' t' : Str) (a : Assertion) :
    (m.put s t a).find s' t' = if s = s' ∧ t = t' then some a else m.find s' t' := by
  unfold put find
  cases h : m.get s with
  | none =>
    simp only [UMap.get_set]
    by_cases h1 : s = s'
    · subst h1; simp [h, UMap.get]
    · simp [h1]
  | some am =>
    simp only [UMap.get_set]
    by_cases h1 : s = s'
    · subst h1; simp [h, UMap.get_set]
    · simp [h1]

@[simp] theorem find_put_self (m : Model) (s t : Str) (a : Assertion) :
    (m.put s t a).find s t = some a := by simp [find_put]

theorem find_put_ne (m : Model) {s t s' t' : Str} (a : Assertion) (h : ¬ (s = s' ∧ t = t')) :
    (m.put s t a).find s' t' = m.find s' t' := by rw [find_put, if_neg h]

theorem put_put (m : Model) (s t : Str) (a b : Assertion) : (m.put s t a).put s t b = m.put s t b := by
  unfold put
  cases h : m.get s with
  | none => simp [UMap.set_set, UMap.set]
  | some am => simp [UMap.set_set]

theorem put_self (m : Model) (s t : Str) (a : Assertion) (h : m.find s t = some a) :
    m.put s t a = m := by
  unfold put; unfold find at h
  cases h1 : m.get s with
  | none => simp [h1] at h
  | some am =>
    simp only [h1] at h
    simp only
    rw [UMap.set_self am t a h, UMap.set_self m s am h1]

theorem at_run {m : Model} {s t : Str} {a : Assertion} (h : m.find s t = some a) :
    at_ s t m = (.ok a, m) := by simp [at_, h]

theorem at_none {m : Model} {s t : Str} (h : m.find s t = none) :
    at_ s t m = (.ub .nullDeref, m) := by simp [at_, h]

theorem setPolicy_run {m : Model} {s t : Str} {a : Assertion} (h : m.find s t = some a)
    (P : Policies) : setPolicy s t P m = (.ok (), m.put s t { a with policy := P }) := by
  simp [setPolicy, h]

theorem find_ensureSec (m : Model) (s s' t' : Str) : (m.ensureSec s).find s' t' = m.find s' t' := by
  unfold ensureSec; split
  · rfl
  · rename_i h
    unfold find
    rw [UMap.get_set]
    by_cases h1 : s = s'
    · subst h1
      have : m.get s = none := by
        rw [UMap.get_eq_none_iff]; intro hk; exact h ((UMap.has_iff _ _).mpr hk)
      simp [this]
    · simp [h1]

theorem find_secMap (m : Model) (s t : Str) : (m.secMap s).get t = m.find s t := by
  unfold secMap find
  cases m.get s <;> rfl

theorem find_clearSec (m : Model) (s s' t : Str) : (m.clearSec s).find s' t =
    if s = s' then (m.find s t).map (fun a => { a with policy := a.policy.clear })
    else m.find s' t := by
  unfold clearSec find
  cases h : m.get s with
  | none =>
    simp only [UMap.get_set]
    by_cases h1 : s = s'
    · subst h1; simp
    · simp [h1]
  | some am =>
    simp only [UMap.get_set]
    by_cases h1 : s = s'
    · subst h1
      simp only [if_true]
      exact UMap.get_map_val am (fun _ a => { a with policy := a.policy.clear }) t
    · simp [h1]

theorem find_clearPolicy (m : Model) (s t : Str) : m.clearPolicy.find s t =
    if s = c!"p" ∨ s = c!"g" then (m.find s t).map (fun a => { a with policy := a.policy.clear })
    else m.find s t := by
  unfold clearPolicy
  rw [find_clearSec]
  by_cases hg : c!"g" = s
  · subst hg
    simp only [if_true, or_true]
    rw [find_clearSec]
    have : ¬ c!"p" = c!"g" := by decide
    simp [this]
  · rw [if_neg hg, find_clearSec]
    by_cases hp : c!"p" = s
    · subst hp; simp
    · have h1 : ¬ s = c!"p" := fun h => hp h.symm
      have h2 : ¬ s = c!"g" := fun h => hg h.symm
      simp only [h1, h2, or_self, if_false, if_neg hp]

variable [IterOrder]

theorem hasPolicy_run {m : Model} {s t : Str} {a : Assertion} (h : m.find s t = some a)
    (r : Rule) : hasPolicy s t r m = (.ok (decide (a.policy.Similar r)), m) := by
  simp only [hasPolicy, M.bind_run, at_run h, M.pure_run, Policies.any_arrayEquals]

theorem addPolicy_run {m : Model} {s t : Str} {a : Assertion} (h : m.find s t = some a)
    (r : Rule) : addPolicy s t r m =
      if a.policy.Similar r then (.ok false, m)
      else (.ok true, m.put s t { a with policy := a.policy.emplace r }) := by
  simp only [addPolicy, M.bind_run, hasPolicy_run h]
  by_cases hs : a.policy.Similar r
  · simp [hs]
  · simp [hs, M.bind_run, at_run h, setPolicy_run h]

theorem anyPresent_run {m : Model} {s t : Str} {a : Assertion} (h : m.find s t = some a)
    (rs : List Rule) : anyPresent s t rs m = (.ok (decide (∃ r ∈ rs, a.policy.Similar r)), m) := by
  induction rs with
  | nil => simp [anyPresent]
  | cons r rs ih =>
    simp only [anyPresent, M.bind_run, hasPolicy_run h]
    by_cases hs : a.policy.Similar r
    · simp [hs]
    · simp [hs, ih]

/-- The rules of a policy after inserting a list of rules. -/
def emplaceList (P : Policies) (rs : List Rule) : Policies := rs.foldl Policies.emplace P

theorem emplaceAll_run {s t : Str} (rs : List Rule) : ∀ {m : Model} {a : Assertion},
    m.find s t = some a →
    emplaceAll s t rs m = (.ok (), m.put s t { a with policy := emplaceList a.policy rs }) := by
  induction rs with
  | nil => intro m a h; simp [emplaceAll, emplaceList, put_self _ _ _ _ h]
  | cons r rs ih =>
    intro m a h
    simp only [emplaceAll, M.bind_run, at_run h, setPolicy_run h]
    rw [ih (find_put_self _ _ _ _), put_put]
    rfl

theorem addPolicies_run {m : Model} {s t : Str} {a : Assertion} (h : m.find s t = some a)
    (rs : List Rule) : addPolicies s t rs m =
      if ∃ r ∈ rs, a.policy.Similar r then (.ok false, m)
      else (.ok true, m.put s t { a with policy := emplaceList a.policy rs }) := by
  simp only [addPolicies, M.bind_run, anyPresent_run h]
  by_cases hs : ∃ r ∈ rs, a.policy.Similar r
  · simp only [hs, decide_true, if_true, M.pure_run]
  · simp only [hs, decide_false, if_false, Bool.false_eq_true, M.bind_run, emplaceAll_run rs h,
      M.pure_run]

theorem eraseRule_run {m : Model} {s t : Str} {a : Assertion} (h : m.find s t = some a)
    (r : Rule) : eraseRule s t r m =
      match a.policy.eraseFirst (fun x => arrayEquals r x) with
      | some P => (.ok true, m.put s t { a with policy := P })
      | none => (.ok false, m) := by
  simp only [eraseRule, M.bind_run, at_run h]
  cases a.policy.eraseFirst (fun x => arrayEquals r x) with
  | none => rfl
  | some P => simp [M.bind_run, setPolicy_run h]

theorem emplaceList_hash (P : Policies) (rs : List Rule) : (emplaceList P rs).hash = P.hash := by
  induction rs generalizing P with
  | nil => rfl
  | cons r rs ih => rw [emplaceList, List.foldl_cons]; exact (ih _).trans (Policies.emplace_hash _ _)

theorem mem_emplaceList (P : Policies) (rs : List Rule) (s : Rule) :
    s ∈ (emplaceList P rs).items ↔ s ∈ P.items ∨ s ∈ rs := by
  induction rs generalizing P with
  | nil => simp [emplaceList]
  | cons r rs ih =>
    rw [emplaceList, List.foldl_cons]
    refine (ih _).trans ?_
    rw [Policies.mem_emplace, List.mem_cons, or_assoc]

theorem emplaceList_vector {P : Policies} (h : P.hash = false) (rs : List Rule) :
    (emplaceList P rs) = { P with items := P.items ++ rs } := by
  induction rs generalizing P with
  | nil => simp [emplaceList]
  | cons r rs ih =>
    rw [emplaceList, List.foldl_cons]
    have : (P.emplace r) = { P with items := P.items ++ [r] } := by simp [Policies.emplace, h]
    refine (ih (P := P.emplace r) ?_).trans ?_
    · rw [Policies.emplace_hash]; exact h
    · rw [this]; simp

/-- Specification of a field filter: at every position where the filter value is not empty the
rule has that value. -/
def FilterMatch (rule : Rule) (i : Nat) (vs : List Str) : Prop :=
  ∀ j v, vs[j]? = some v → v ≠ [] → rule[i + j]? = some v

instance (rule : Rule) (i : Nat) (vs : List Str) : Decidable (FilterMatch rule i vs) :=
  decidable_of_iff (∀ j, ∀ h : j < vs.length, vs[j] ≠ [] → rule[i + j]? = some vs[j]) (by
    unfold FilterMatch
    constructor
    · intro h j v hj hv
      obtain ⟨hl, rfl⟩ := List.getElem?_eq_some_iff.mp hj
      exact h j hl hv
    · intro h j hj hv
      exact h j _ (List.getElem?_eq_getElem hj) hv)

theorem filterMatch_nil (rule : Rule) (i : Nat) : FilterMatch rule i [] := by
  intro j v h; simp at h

theorem filterMatch_cons (rule : Rule) (i : Nat) (v : Str) (vs : List Str) :
    FilterMatch rule i (v :: vs) ↔ (v ≠ [] → rule[i]? = some v) ∧ FilterMatch rule (i + 1) vs := by
  constructor
  · intro h
    refine ⟨fun hv => by simpa using h 0 v rfl hv, fun j w hj hw => ?_⟩
    have := h (j + 1) w (by simpa using hj) hw
    rwa [show i + 1 + j = i + (j + 1) by omega]
  · rintro ⟨h1, h2⟩ j w hj hw
    cases j with
    | zero => simp at hj; subst hj; simpa using h1 hw
    | succ j =>
      have := h2 j w (by simpa using hj) hw
      rwa [show i + (j + 1) = i + 1 + j by omega]

/-- The rule is long enough for the filter. -/
def LongEnough (rule : Rule) (i : Nat) (vs : List Str) : Prop :=
  ∀ j v, vs[j]? = some v → v ≠ [] → i + j < rule.length

theorem longEnough_cons (rule : Rule) (i : Nat) (v : Str) (vs : List Str) :
    LongEnough rule i (v :: vs) ↔ (v ≠ [] → i < rule.length) ∧ LongEnough rule (i + 1) vs := by
  constructor
  · intro h
    refine ⟨fun hv => by simpa using h 0 v rfl hv, fun j w hj hw => ?_⟩
    have := h (j + 1) w (by simpa using hj) hw
    omega
  · rintro ⟨h1, h2⟩ j w hj hw
    cases j with
    | zero => simp at hj; subst hj; simpa using h1 hw
    | succ j =>
      have := h2 j w (by simpa using hj) hw
      omega

theorem matchFilter_ok (rule : Rule) (vs : List Str) : ∀ i, LongEnough rule i vs →
    matchFilter rule i vs = .ok (decide (FilterMatch rule i vs)) := by
  induction vs with
  | nil => intro i _; simp [matchFilter, filterMatch_nil]
  | cons v vs ih =>
    intro i h
    rw [longEnough_cons] at h
    simp only [matchFilter, filterMatch_cons]
    by_cases hv : v = []
    · simp [hv, ih (i + 1) h.2]
    · have hl := h.1 hv
      simp only [ne_eq, hv, not_false_eq_true, if_true, vecAt_ok hl, Outcome.ok_bind, true_imp_iff,
        List.getElem?_eq_getElem hl, Option.some.injEq]
      by_cases hx : rule[i] = v
      · simp [hx, ih (i + 1) h.2]
      · simp [hx]

theorem partitionFilter_ok (i : Nat) (vs : List Str) (rs : List Rule)
    (h : ∀ r ∈ rs, LongEnough r i vs) :
    partitionFilter i vs rs = .ok (rs.filter (fun r => decide (FilterMatch r i vs)),
      rs.filter (fun r => !decide (FilterMatch r i vs))) := by
  induction rs with
  | nil => rfl
  | cons r rs ih =>
    rw [partitionFilter, matchFilter_ok r vs i (h r (List.mem_cons_self ..)),
      ih (fun s hs => h s (List.mem_cons_of_mem _ hs))]
    by_cases hm : FilterMatch r i vs <;> simp [hm]

/-- Whatever a filtered operation returns splits the rules. -/
theorem partitionFilter_split (i : Nat) (vs : List Str) : ∀ (rs yes no : List Rule),
    partitionFilter i vs rs = .ok (yes, no) → rs.Perm (yes ++ no) ∧ no.Sublist rs := by
  intro rs
  induction rs with
  | nil => intro yes no h; simp [partitionFilter] at h; simp [h]
  | cons r rs ih =>
    intro yes no h
    rw [partitionFilter, Outcome.bind_eq_ok] at h
    obtain ⟨b, _, h⟩ := h
    rw [Outcome.bind_eq_ok] at h
    obtain ⟨⟨y, n⟩, hp, h⟩ := h
    obtain ⟨h1, h2⟩ := ih y n hp
    cases b with
    | true =>
      simp at h
      obtain ⟨rfl, rfl⟩ := h
      exact ⟨by simpa using h1, h2.cons _⟩
    | false =>
      simp at h
      obtain ⟨rfl, rfl⟩ := h
      refine ⟨?_, h2.cons_cons _⟩
      refine (List.Perm.cons r h1).trans ?_
      exact (List.perm_middle (a := r) (l₁ := y) (l₂ := n)).symm

theorem getFilteredPolicy_run {m : Model} {s t : Str} {a : Assertion} (h : m.find s t = some a)
    (i : Nat) (vs : List Str) (hl : ∀ r ∈ a.policy.items, LongEnough r i vs) :
    getFilteredPolicy s t i vs m =
      (.ok (.vector (a.policy.iterate.filter (fun r => decide (FilterMatch r i vs)))), m) := by
  have hl' : ∀ r ∈ a.policy.iterate, LongEnough r i vs := fun r hr =>
    hl r ((Policies.mem_iterate _ _).mp hr)
  simp [getFilteredPolicy, M.bind_run, at_run h, partitionFilter_ok i vs _ hl']

theorem removeFilteredPolicy_run {m : Model} {s t : Str} {a : Assertion}
    (h : m.find s t = some a) (i : Nat) (vs : List Str)
    (hl : ∀ r ∈ a.policy.items, LongEnough r i vs) :
    removeFilteredPolicy s t i vs m =
      (.ok (!(a.policy.iterate.filter (fun r => decide (FilterMatch r i vs))).isEmpty,
            a.policy.iterate.filter (fun r => decide (FilterMatch r i vs))),
       m.put s t { a with
         policy := Policies.vector (a.policy.iterate.filter (fun r => !decide (FilterMatch r i vs))) }) := by
  have hl' : ∀ r ∈ a.policy.iterate, LongEnough r i vs := fun r hr =>
    hl r ((Policies.mem_iterate _ _).mp hr)
  simp [removeFilteredPolicy, M.bind_run, at_run h, partitionFilter_ok i vs _ hl',
    setPolicy_run h]

theorem column_ok (i : Nat) (rs : List Rule) (h : ∀ r ∈ rs, i < r.length) :
    ∃ xs, column i rs = .ok xs ∧ ∀ x, x ∈ xs ↔ ∃ r ∈ rs, r[i]? = some x := by
  induction rs with
  | nil => exact ⟨[], rfl, by simp⟩
  | cons r rs ih =>
    obtain ⟨xs, hx, hm⟩ := ih (fun s hs => h s (List.mem_cons_of_mem _ hs))
    have hl := h r (List.mem_cons_self ..)
    refine ⟨r[i] :: xs, ?_, ?_⟩
    · simp [column, vecAt_ok hl, hx]
    · intro x
      simp [hm, hl, eq_comm]

theorem getValuesForField_run {m : Model} {s t : Str} {a : Assertion} (h : m.find s t = some a)
    (i : Nat) (hl : ∀ r ∈ a.policy.items, i < r.length) :
    ∃ xs, getValuesForField s t i m = (.ok xs, m) ∧ xs.Nodup ∧
      ∀ x, x ∈ xs ↔ ∃ r ∈ a.policy.items, r[i]? = some x := by
  obtain ⟨xs, hx, hm⟩ := column_ok i a.policy.iterate
    (fun r hr => hl r ((Policies.mem_iterate _ _).mp hr))
  refine ⟨arrayRemoveDuplicates xs, ?_, nodup_arrayRemoveDuplicates xs, ?_⟩
  · simp [getValuesForField, M.bind_run, at_run h, hx]
  · intro x
    rw [mem_arrayRemoveDuplicates, hm]
    simp [Policies.mem_iterate]

theorem valuesAllTypes_run {m : Model} {s : Str} (i : Nat) (pts : List Str)
    (hd : ∀ t ∈ pts, ∃ a, m.find s t = some a ∧ ∀ r ∈ a.policy.items, i < r.length) :
    ∃ xs, valuesAllTypes s i pts m = (.ok xs, m) ∧
      ∀ x, x ∈ xs ↔ ∃ t ∈ pts, ∃ a, m.find s t = some a ∧ ∃ r ∈ a.policy.items, r[i]? = some x := by
  induction pts with
  | nil => exact ⟨[], rfl, by simp⟩
  | cons t pts ih =>
    obtain ⟨xs, hx, hm⟩ := ih (fun u hu => hd u (List.mem_cons_of_mem _ hu))
    obtain ⟨a, ha, hl⟩ := hd t (List.mem_cons_self ..)
    obtain ⟨ys, hy, _, hmy⟩ := getValuesForField_run ha i hl
    refine ⟨ys ++ xs, ?_, ?_⟩
    · simp [valuesAllTypes, M.bind_run, hy, hx]
    · intro x
      simp [hm, hmy, ha]

theorem getValuesForFieldAllTypes_run (m : Model) (s : Str) (i : Nat)
    (hl : ∀ t a, m.find s t = some a → ∀ r ∈ a.policy.items, i < r.length) :
    ∃ xs, getValuesForFieldAllTypes s i m = (.ok xs, m.ensureSec s) ∧ xs.Nodup ∧
      ∀ x, x ∈ xs ↔ ∃ t a, m.find s t = some a ∧ ∃ r ∈ a.policy.items, r[i]? = some x := by
  have hk : ∀ t, t ∈ IterOrder.iter ((m.ensureSec s).secMap s).keys ↔ ∃ a, m.find s t = some a := by
    intro t
    rw [IterOrder.mem_iter, ← UMap.get_isSome_iff, find_secMap, find_ensureSec,
      Option.isSome_iff_exists]
  obtain ⟨xs, hx, hm⟩ := valuesAllTypes_run (m := m.ensureSec s) (s := s) i
    (IterOrder.iter ((m.ensureSec s).secMap s).keys) (by
      intro t ht
      obtain ⟨a, ha⟩ := (hk t).mp ht
      exact ⟨a, by rw [find_ensureSec]; exact ha, hl t a ha⟩)
  refine ⟨arrayRemoveDuplicates xs, ?_, nodup_arrayRemoveDuplicates xs, ?_⟩
  · simp [getValuesForFieldAllTypes, M.bind_run, hx]
  · intro x
    rw [mem_arrayRemoveDuplicates, hm]
    constructor
    · rintro ⟨t, _, a, ha, h⟩
      rw [find_ensureSec] at ha
      exact ⟨t, a, ha, h⟩
    · rintro ⟨t, a, ha, h⟩
      exact ⟨t, (hk t).mpr ⟨a, ha⟩, a, by rw [find_ensureSec]; exact ha, h⟩

end Model
end Casbin
