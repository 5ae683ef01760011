import Verif.Props.Exceptions
import Mathlib.Data.Finset.Dedup
import Mathlib.Data.Finset.Lattice.Basic
import Mathlib.Data.Finset.Erase

/-!
# C169: rules kept in a set, after any history of editing calls

A model of the shape of C141 keeps its rules in a `std::unordered_set` (model.cpp 126, 132 with
policy_collection.cpp 40–43). `Follows` says what each editing call does to such a set, for all rules,
batches and filters, in whatever order the set is walked through; `reference` of C150 says the same for a
vector, which a set becomes when rules are removed by a filter (model.cpp 404, 422).
-/

set_option linter.unusedSectionVars false

namespace Casbin
namespace SetStoreProps

open Enforcer Fixtures StoreProps PolicyProps
open Model (FilterMatch)

/-! ## What the calls do to a set -/

/-- The rules of a policy type: a list, in the order they are visited in, or a set. -/
inductive Kept where
  | list (rs : List Rule)
  | set (S : Finset Rule)

/-- The rule is one of them. -/
def Kept.Has : Kept → Rule → Prop
  | .list rs, r => r ∈ rs
  | .set S, r => r ∈ S

/-- For each of the rules, one that has its values in some order is taken out; until there is none. -/
inductive Drops : List Rule → Finset Rule → Bool → Finset Rule → Prop
  | done (S : Finset Rule) : Drops [] S true S
  | missing {o : Rule} {os : List Rule} {S : Finset Rule} :
    (¬ ∃ s ∈ S, o.Perm s) → Drops (o :: os) S false S
  | taken {o s : Rule} {os : List Rule} {S S' : Finset Rule} {b : Bool} :
    s ∈ S → o.Perm s → Drops os (S.erase s) b S' → Drops (o :: os) S b S'

/-- All of them are put in, unless one has the values of a rule that is there. -/
def unite (ns : List Rule) (S : Finset Rule) : Bool × Finset Rule :=
  if ∃ n ∈ ns, ∃ s ∈ S, n.Perm s then (false, S) else (true, S ∪ ns.toFinset)

/-- What an editing call may answer and make of the rules of its policy type. -/
def Follows (e : Edit) : Kept → Outcome Bool → Kept → Prop
  | .list rs, x, K => x = (reference e rs).1 ∧ K = .list (reference e rs).2
  | .set S, x, K =>
    match e with
    | .add _ _ r => x = .ok (unite [r] S).1 ∧ K = .set (unite [r] S).2
    | .addMany _ _ ns => x = .ok (unite ns S).1 ∧ K = .set (unite ns S).2
    | .remove _ _ r => ∃ b S', Drops [r] S b S' ∧ x = .ok b ∧ K = .set S'
    | .removeMany _ _ ns => x = .ok (unite ns S).1 ∧ K = .set (unite ns S).2
    | .removeFiltered _ _ i vs =>
      if ∃ r ∈ S, Short r i vs then x = .ub .outOfBounds ∧ K = .set S
      else x = .ok (decide (∃ r ∈ S, FilterMatch r i vs)) ∧
        ∃ l : List Rule, l.Nodup ∧ (∀ r, r ∈ l ↔ r ∈ S ∧ ¬ FilterMatch r i vs) ∧ K = .list l
    | .update _ _ o n => ∃ b S', Drops [o] S b S' ∧
      if b then x = .ok (unite [n] S').1 ∧ K = .set (unite [n] S').2 else x = .ok false ∧ K = .set S'
    | .updateMany _ os ns => ∃ b S', Drops os S b S' ∧
      if b then x = .ok (unite ns S').1 ∧ K = .set (unite ns S').2 else x = .ok false ∧ K = .set S'

/-- The calls of a history that are about one policy type, one after the other. -/
inductive FollowsAll (t : Str × Str) : List Edit → Kept → Kept → Prop
  | done (K : Kept) : FollowsAll t [] K K
  | call {e : Edit} {es : List Edit} {K K' K'' : Kept} {x : Outcome Bool} :
    e.target = t → Follows e K x K' → FollowsAll t es K' K'' → FollowsAll t (e :: es) K K''
  | other {e : Edit} {es : List Edit} {K K' : Kept} :
    e.target ≠ t → FollowsAll t es K K' → FollowsAll t (e :: es) K K'

/-- The rules of a policy type as the enforcer keeps them. -/
def Keeps (E : Enforcer) (t : Str × Str) (K : Kept) : Prop :=
  ∃ a, E.model.find t.1 t.2 = some a ∧
    match K with
    | .list rs => a.policy = .vector rs
    | .set S => a.policy.hash = true ∧ a.policy.items.Nodup ∧ a.policy.items.toFinset = S

/-! ## Helpers -/

/-- The container holds these rules. -/
def Fits (P : Policies) : Kept → Prop
  | .list rs => P = .vector rs
  | .set S => P.hash = true ∧ P.items.Nodup ∧ P.items.toFinset = S

variable [IterOrder]

theorem emplaceList_nodup {P : Policies} (hh : P.hash = true) (rs : List Rule) (h : P.items.Nodup) :
    (Model.emplaceList P rs).items.Nodup := by
  induction rs generalizing P with
  | nil => exact h
  | cons r rs ih =>
    rw [Model.emplaceList, List.foldl_cons]
    refine ih (P := P.emplace r) ((Policies.emplace_hash _ _).trans hh) ?_
    unfold Policies.emplace
    rw [if_pos hh]
    split
    · exact h
    · rename_i hr
      exact List.nodup_append.mpr ⟨h, List.nodup_singleton _, by
        rintro a ha b hb rfl
        rw [List.mem_singleton] at hb
        exact hr (hb ▸ ha)⟩

theorem fits_emplace {P : Policies} {S : Finset Rule} (h : Fits P (.set S)) (ns : List Rule) :
    Fits (Model.emplaceList P ns) (.set (S ∪ ns.toFinset)) := by
  obtain ⟨hh, hn, hS⟩ := h
  refine ⟨(Model.emplaceList_hash _ _).trans hh, emplaceList_nodup hh ns hn, ?_⟩
  ext r
  rw [List.mem_toFinset, Model.mem_emplaceList, Finset.mem_union, List.mem_toFinset, ← hS,
    List.mem_toFinset]

theorem similar_fits {P : Policies} {S : Finset Rule} (h : Fits P (.set S)) (r : Rule) :
    P.Similar r ↔ ∃ s ∈ S, r.Perm s := by
  obtain ⟨_, _, rfl⟩ := h
  simp [Policies.Similar]

variable {m : Model} {s t : Str} {a : Assertion} {S : Finset Rule}

theorem add_set (hf : m.find s t = some a) (hp : Fits a.policy (.set S)) (ns : List Rule) :
    ∃ P, Fits P (.set (unite ns S).2) ∧
      Model.addPolicies s t ns m = (.ok (unite ns S).1, m.put s t { a with policy := P }) := by
  rw [Model.addPolicies_run hf]
  have : (∃ r ∈ ns, a.policy.Similar r) ↔ ∃ n ∈ ns, ∃ s ∈ S, n.Perm s := by
    simp only [similar_fits hp]
  unfold unite
  by_cases h : ∃ n ∈ ns, ∃ s ∈ S, n.Perm s
  · rw [if_pos (this.mpr h), if_pos h]
    exact ⟨a.policy, hp, Prod.ext rfl (Model.put_self _ _ _ _ hf).symm⟩
  · rw [if_neg (fun h' => h (this.mp h')), if_neg h]
    exact ⟨_, fits_emplace hp ns, rfl⟩

theorem addOne_set (hf : m.find s t = some a) (hp : Fits a.policy (.set S)) (n : Rule) :
    ∃ P, Fits P (.set (unite [n] S).2) ∧
      Model.addPolicy s t n m = (.ok (unite [n] S).1, m.put s t { a with policy := P }) := by
  obtain ⟨P, h1, h2⟩ := add_set hf hp [n]
  refine ⟨P, h1, ?_⟩
  rw [← h2, Model.addPolicy_run hf, Model.addPolicies_run hf]
  simp [Model.emplaceList]

theorem erase_set (os : List Rule) : ∀ {m : Model} {a : Assertion} {S : Finset Rule},
    m.find s t = some a → Fits a.policy (.set S) →
    ∃ b S' P, Drops os S b S' ∧ Fits P (.set S') ∧
      Model.eraseAll s t os m = (.ok b, m.put s t { a with policy := P }) := by
  induction os with
  | nil =>
    intro m a S hf hp
    exact ⟨true, S, a.policy, .done S, hp, Prod.ext rfl (Model.put_self _ _ _ _ hf).symm⟩
  | cons o os ih =>
    intro m a S hf hp
    simp only [Model.eraseAll, M.bind_run, Model.eraseRule_run hf]
    cases hd : a.policy.eraseFirst (fun x => arrayEquals o x) with
    | none =>
      refine ⟨false, S, a.policy, .missing ?_, hp, Prod.ext rfl (Model.put_self _ _ _ _ hf).symm⟩
      rw [← similar_fits hp]
      rintro ⟨x, hx, hox⟩
      have := Policies.eraseFirst_none.mp hd x hx
      rw [(arrayEquals_iff o x).mpr hox] at this
      cases this
    | some Q =>
      obtain ⟨pre, r, post, h1, rfl, h3, _⟩ := Policies.eraseFirst_some hd
      obtain ⟨hh, hn, hS⟩ := hp
      have hrS : r ∈ S := by rw [← hS, List.mem_toFinset, h1]; simp
      rw [h1] at hn
      have hsub : (pre ++ post).Sublist (pre ++ r :: post) :=
        List.Sublist.append_left (List.sublist_cons_self ..) _
      have hnr : r ∉ pre ++ post := (List.nodup_middle.mp hn).notMem
      have hfit : Fits { a.policy with items := pre ++ post } (.set (S.erase r)) := by
        refine ⟨hh, hn.sublist hsub, ?_⟩
        ext x
        rw [← hS, h1, Finset.mem_erase, List.mem_toFinset, List.mem_toFinset]
        constructor
        · intro hx
          exact ⟨fun h => hnr (h ▸ hx), hsub.subset hx⟩
        · rintro ⟨hxr, hx⟩
          rcases List.mem_append.mp hx with hx | hx
          · exact List.mem_append_left _ hx
          · rcases List.mem_cons.mp hx with hx | hx
            · exact absurd hx hxr
            · exact List.mem_append_right _ hx
      obtain ⟨b, S', P, hD, hF, hE⟩ := ih (m := m.put s t
        { a with policy := { a.policy with items := pre ++ post } }) (Model.find_put_self ..) hfit
      refine ⟨b, S', P, .taken hrS ((arrayEquals_iff o r).mp h3) hD, hF, ?_⟩
      simp only [Bool.not_true, Bool.false_eq_true, if_false]
      rw [hE, Model.put_put]

theorem eraseOne_set (hf : m.find s t = some a) (hp : Fits a.policy (.set S)) (o : Rule) :
    ∃ b S' P, Drops [o] S b S' ∧ Fits P (.set S') ∧
      Model.eraseRule s t o m = (.ok b, m.put s t { a with policy := P }) := by
  obtain ⟨b, S', P, h1, h2, h3⟩ := erase_set [o] hf hp
  refine ⟨b, S', P, h1, h2, ?_⟩
  rw [← h3]
  simp only [Model.eraseAll, M.bind_run]
  rcases Model.eraseRule s t o m with ⟨x, m'⟩
  cases x with
  | throw e => rfl
  | ub e => rfl
  | ok b => cases b <;> rfl

/-- The method of the model that the call runs, on either container. -/
theorem onStore_kept (e : Edit) {K : Kept} (hf : m.find e.target.1 e.target.2 = some a)
    (hp : Fits a.policy K) :
    ∃ x K' P, Follows e K x K' ∧ Fits P K' ∧
      e.onStore m = (x, m.put e.target.1 e.target.2 { a with policy := P }) := by
  cases K with
  | list rs => exact ⟨_, _, _, ⟨rfl, rfl⟩, rfl, onStore_exact e hf hp⟩
  | set S =>
    cases e with
    | add g pt r =>
      obtain ⟨P, h1, h2⟩ := addOne_set hf hp r
      exact ⟨_, _, P, ⟨rfl, rfl⟩, h1, h2⟩
    | addMany g pt ns =>
      obtain ⟨P, h1, h2⟩ := add_set hf hp ns
      exact ⟨_, _, P, ⟨rfl, rfl⟩, h1, h2⟩
    | remove g pt r =>
      obtain ⟨b, S', P, h1, h2, h3⟩ := eraseOne_set hf hp r
      exact ⟨_, _, P, ⟨b, S', h1, rfl, rfl⟩, h2, h3⟩
    | removeMany g pt ns =>
      obtain ⟨P, h1, h2⟩ := add_set hf hp ns
      exact ⟨_, _, P, ⟨rfl, rfl⟩, h1, h2⟩
    | removeFiltered g pt i vs =>
      simp only [Edit.target] at hf ⊢
      have hmem : ∀ r, r ∈ a.policy.iterate ↔ r ∈ S := fun r => by
        rw [Policies.mem_iterate, ← hp.2.2, List.mem_toFinset]
      have hex : ∀ p : Rule → Prop, (∃ r ∈ a.policy.iterate, p r) ↔ ∃ r ∈ S, p r := fun p => by
        simp only [hmem]
      simp only [Edit.onStore, Model.removeFilteredPolicy, M.bind_run, Model.at_run hf, M.lift_run,
        partitionFilter_exact]
      by_cases h : ∃ r ∈ S, Short r i vs
      · rw [if_pos ((hex _).mpr h)]
        exact ⟨_, .set S, a.policy, by simp only [Follows]; rw [if_pos h]; exact ⟨trivial, trivial⟩, hp,
          Prod.ext rfl (Model.put_self _ _ _ _ hf).symm⟩
      · rw [if_neg (fun h' => h ((hex _).mp h'))]
        have hfo : Follows (.removeFiltered g pt i vs) (.set S)
            (.ok (decide (∃ r ∈ S, FilterMatch r i vs)))
            (.list (a.policy.iterate.filter fun r => ¬ FilterMatch r i vs)) := by
          simp only [Follows]
          rw [if_neg h]
          refine ⟨trivial, _, ?_, ?_, rfl⟩
          · exact ((Policies.iterate_perm _).nodup_iff.mpr hp.2.1).filter _
          · intro r; simp [hmem]
        refine ⟨_, _, .vector (a.policy.iterate.filter fun r => ¬ FilterMatch r i vs), hfo, rfl, ?_⟩
        · simp only [Model.setPolicy_run hf, M.pure_run]
          refine Prod.ext ?_ rfl
          simp only [Outcome.ok.injEq]
          by_cases hm : ∃ r ∈ S, FilterMatch r i vs
          · simp only [hm, decide_true]
            obtain ⟨r, hr, hm⟩ := hm
            cases hl : a.policy.iterate.filter (fun r => FilterMatch r i vs) with
            | nil =>
              simp only [List.filter_eq_nil_iff, decide_eq_true_eq] at hl
              exact absurd hm (hl r ((hmem r).mpr hr))
            | cons _ _ => rfl
          · have : a.policy.iterate.filter (fun r => FilterMatch r i vs) = [] := by
              simp only [List.filter_eq_nil_iff, decide_eq_true_eq]
              exact fun r hr h' => hm ⟨r, (hmem r).mp hr, h'⟩
            simp [this, hm]
    | update g pt o n =>
      simp only [Edit.target] at hf ⊢
      obtain ⟨b, S', P, h1, h2, h3⟩ := eraseOne_set hf hp o
      simp only [Edit.onStore, Model.updatePolicy, M.bind_run, h3, Follows]
      cases b with
      | false => exact ⟨_, _, P, ⟨false, S', h1, rfl, rfl⟩, h2, rfl⟩
      | true =>
        obtain ⟨Q, h4, h5⟩ := addOne_set (Model.find_put_self m (Edit.secOf g) pt { a with policy := P }) h2 n
        rw [Model.put_put] at h5
        refine ⟨_, _, Q, ⟨true, S', h1, rfl, rfl⟩, h4, ?_⟩
        simp only [Bool.not_true, Bool.false_eq_true, if_false]
        exact h5
    | updateMany pt os ns =>
      simp only [Edit.target] at hf ⊢
      obtain ⟨b, S', P, h1, h2, h3⟩ := erase_set os hf hp
      simp only [Edit.onStore, updatePolicies_run hf, h3, Follows]
      cases b with
      | false => exact ⟨_, _, P, ⟨false, S', h1, rfl, rfl⟩, h2, rfl⟩
      | true =>
        obtain ⟨Q, h4, h5⟩ := add_set (Model.find_put_self m c!"p" pt { a with policy := P }) h2 ns
        rw [Model.put_put] at h5
        refine ⟨_, _, Q, ⟨true, S', h1, rfl, rfl⟩, h4, ?_⟩
        exact h5

theorem keeps_iff {E : Enforcer} {t : Str × Str} {K : Kept} :
    Keeps E t K ↔ ∃ a, E.model.find t.1 t.2 = some a ∧ Fits a.policy K := by
  cases K <;> rfl

theorem others_keep (e : Edit) (E : Enforcer) {t : Str × Str} {K : Kept} (hne : t ≠ e.target)
    (h : Keeps E t K) : Keeps (e.run E).2 t K := by
  rw [keeps_iff] at h ⊢
  have h1 := (e.did E).rules t.1 t.2
  have h2 : (e.onStore E.model).2.find t.1 t.2 = E.model.find t.1 t.2 := by
    rcases e.onStore_edited E.model with h | ⟨a, P, _, h⟩
    · rw [h]
    · rw [h, Model.find_put_ne _ _ (by rintro ⟨h1, h2⟩; exact hne (Prod.ext h1.symm h2.symm))]
  rw [h2] at h1
  obtain ⟨b, hb, hf⟩ := h
  rw [hb] at h1
  cases hc : (e.run E).2.model.find t.1 t.2 with
  | none => rw [hc] at h1; simp at h1
  | some c =>
    rw [hc] at h1
    simp only [Option.map_some, Option.some.injEq, Assertion.strip, Assertion.mk.injEq] at h1
    exact ⟨c, rfl, by rw [h1.2.2.2.1]; exact hf⟩

/-! ## C169 -/

/-- C169, one call: whatever the rules, the batch or the filter, and in whatever order the set is walked
through, the rules kept afterwards are such as the call may leave, and if the call returns, it returns
the answer that goes with them; a call about policy rules whose adapter does not object does return it. -/
theorem C169_call (e : Edit) {E : Enforcer} {K : Kept} (h : Keeps E e.target K) :
    ∃ x K', Follows e K x K' ∧ Keeps (e.run E).2 e.target K' ∧ (∀ b, (e.run E).1 = .ok b → x = .ok b) ∧
      (e.target.1 = c!"p" → Accepted E e → (e.run E).1 = x) := by
  obtain ⟨a, ha, hp⟩ := keeps_iff.mp h
  obtain ⟨x, K', P, h1, h2, h3⟩ := onStore_kept e ha hp
  have hd := e.did E
  refine ⟨x, K', h1, ?_, ?_, ?_⟩
  · obtain ⟨p, hq⟩ := hd.rules.some (s := e.target.1) (t := e.target.2)
      (by rw [h3]; exact Model.find_put_self ..)
    exact keeps_iff.mpr ⟨_, hq, h2⟩
  · intro b hb
    have := hd.result b hb
    rwa [h3] at this
  · intro hg hacc
    rw [run_answer e hg hacc, h3]

/-- C169, histories: after any calls, with whatever arguments and however each of them ends, the rules of
a policy type are such as the calls about that type may leave. -/
theorem C169_history (es : List Edit) (t : Str × Str) : ∀ {E : Enforcer} {K : Kept}, Keeps E t K →
    ∃ K', FollowsAll t es K K' ∧ Keeps (runEdits E es) t K' := by
  induction es with
  | nil => intro E K h; exact ⟨K, .done K, h⟩
  | cons e es ih =>
    intro E K h
    by_cases ht : e.target = t
    · subst ht
      obtain ⟨x, K1, h1, h2, _⟩ := C169_call e h
      obtain ⟨K2, h3, h4⟩ := ih h2
      exact ⟨K2, .call rfl h1 h3, h4⟩
    · obtain ⟨K2, h3, h4⟩ := ih (others_keep e E (Ne.symm ht) h)
      exact ⟨K2, .other ht h3, h4⟩

/-! ### With one rule for each list of values, the container makes no difference -/

/-- The batch a call brings has no two rules with the same values, and no rule twice. -/
def Distinct : Edit → Prop
  | .addMany _ _ ns | .removeMany _ _ ns | .updateMany _ _ ns => ns.Pairwise fun r s => ¬ r.Perm s
  | _ => True

/-- No two of the rules have the same values. -/
def Plain (p : Rule → Prop) : Prop := ∀ r s, p r → p s → r.Perm s → r = s

open Classical in
/-- Removing rules from a plain collection, told by its members. -/
noncomputable def dropped : List Rule → (Rule → Prop) → Bool × (Rule → Prop)
  | [], p => (true, p)
  | o :: os, p => if ∃ s, p s ∧ o.Perm s then dropped os (fun r => p r ∧ ¬ o.Perm r) else (false, p)

open Classical in
/-- Adding rules, told by the members. -/
noncomputable def joined (ns : List Rule) (p : Rule → Prop) : Bool × (Rule → Prop) :=
  if ∃ n ∈ ns, ∃ s, p s ∧ n.Perm s then (false, p) else (true, fun r => p r ∨ r ∈ ns)

open Classical in
/-- A call, told by the members. -/
noncomputable def told (e : Edit) (p : Rule → Prop) : Outcome Bool × (Rule → Prop) :=
  match e with
  | .add _ _ r => (.ok (joined [r] p).1, (joined [r] p).2)
  | .addMany _ _ ns => (.ok (joined ns p).1, (joined ns p).2)
  | .remove _ _ r => (.ok (dropped [r] p).1, (dropped [r] p).2)
  | .removeMany _ _ ns => (.ok (joined ns p).1, (joined ns p).2)
  | .removeFiltered _ _ i vs =>
    if ∃ r, p r ∧ Short r i vs then (.ub .outOfBounds, p)
    else (.ok (decide (∃ r, p r ∧ FilterMatch r i vs)), fun r => p r ∧ ¬ FilterMatch r i vs)
  | .update _ _ o n =>
    let d := dropped [o] p
    if d.1 then (.ok (joined [n] d.2).1, (joined [n] d.2).2) else (.ok false, d.2)
  | .updateMany _ os ns =>
    let d := dropped os p
    if d.1 then (.ok (joined ns d.2).1, (joined ns d.2).2) else (.ok false, d.2)

/-- No two rules with the same values, and no rule twice. -/
abbrev Once (rs : List Rule) : Prop := rs.Pairwise fun r s => ¬ r.Perm s

omit [IterOrder] in
theorem once_plain {rs : List Rule} (h : Once rs) : Plain (· ∈ rs) := by
  induction rs with
  | nil => intro r s hr; cases hr
  | cons x rs ih =>
    rw [Once, List.pairwise_cons] at h
    intro r s hr hs hp
    rcases List.mem_cons.mp hr with hr | hr <;> rcases List.mem_cons.mp hs with hs | hs
    · rw [hr, hs]
    · exact absurd (hr ▸ hp) (h.1 s hs)
    · exact absurd (hs ▸ hp).symm (h.1 r hr)
    · exact ih h.2 r s hr hs hp

omit [IterOrder] in
theorem once_append {rs ns : List Rule} (h : Once rs) (hn : Once ns)
    (hd : ¬ ∃ n ∈ ns, ∃ s ∈ rs, n.Perm s) : Once (rs ++ ns) :=
  List.pairwise_append.mpr ⟨h, hn, fun r hr n hn hp => hd ⟨n, hn, r, hr, hp.symm⟩⟩

omit [IterOrder] in
theorem dropFirst_told {o : Rule} : ∀ {rs : List Rule}, Once rs →
    match dropFirst o rs with
    | none => ¬ ∃ s ∈ rs, o.Perm s
    | some l => (∃ s ∈ rs, o.Perm s) ∧ Once l ∧ ∀ r, r ∈ l ↔ r ∈ rs ∧ ¬ o.Perm r := by
  intro rs
  induction rs with
  | nil => intro _; simp [dropFirst]
  | cons x rs ih =>
    intro h
    rw [Once, List.pairwise_cons] at h
    have ih := ih h.2
    by_cases hx : o.Perm x
    · simp only [dropFirst, if_pos hx]
      refine ⟨⟨x, List.mem_cons_self, hx⟩, h.2, fun r => ⟨fun hr => ?_, ?_⟩⟩
      · exact ⟨List.mem_cons_of_mem _ hr, fun hor => h.1 r hr (hx.symm.trans hor)⟩
      · rintro ⟨hr, hor⟩
        rcases List.mem_cons.mp hr with rfl | hr
        · exact absurd hx hor
        · exact hr
    · simp only [dropFirst, if_neg hx]
      cases hd : dropFirst o rs with
      | none =>
        rw [hd] at ih
        rintro ⟨s, hs, hos⟩
        rcases List.mem_cons.mp hs with rfl | hs
        · exact hx hos
        · exact ih ⟨s, hs, hos⟩
      | some l =>
        rw [hd] at ih
        obtain ⟨⟨s, hs, hos⟩, hl, hm⟩ := ih
        refine ⟨⟨s, List.mem_cons_of_mem _ hs, hos⟩, ?_, fun r => ?_⟩
        · exact List.pairwise_cons.mpr ⟨fun r hr => h.1 r ((hm r).mp hr).1, hl⟩
        · rw [List.mem_cons, hm, List.mem_cons]
          constructor
          · rintro (rfl | ⟨h1, h2⟩)
            · exact ⟨.inl rfl, hx⟩
            · exact ⟨.inr h1, h2⟩
          · rintro ⟨rfl | h1, h2⟩
            · exact .inl rfl
            · exact .inr ⟨h1, h2⟩

omit [IterOrder] in
theorem dropEach_told (os : List Rule) : ∀ {rs : List Rule}, Once rs →
    (dropEach os rs).1 = (dropped os (· ∈ rs)).1 ∧ Once (dropEach os rs).2 ∧
      (· ∈ (dropEach os rs).2) = (dropped os (· ∈ rs)).2 := by
  induction os with
  | nil => intro rs h; exact ⟨rfl, h, rfl⟩
  | cons o os ih =>
    intro rs h
    have := dropFirst_told (o := o) h
    simp only [dropEach, dropped]
    cases hd : dropFirst o rs with
    | none =>
      rw [hd] at this
      simp only at this
      rw [if_neg this]
      exact ⟨rfl, h, rfl⟩
    | some l =>
      rw [hd] at this
      simp only at this
      rw [if_pos this.1, ← show (· ∈ l) = (fun r => r ∈ rs ∧ ¬ o.Perm r) from
        funext fun r => propext (this.2.2 r)]
      exact ih this.2.1

omit [IterOrder] in
theorem appendNew_told {ns rs : List Rule} (h : Once rs) (hn : Once ns) :
    (appendNew ns rs).1 = (joined ns (· ∈ rs)).1 ∧ Once (appendNew ns rs).2 ∧
      (· ∈ (appendNew ns rs).2) = (joined ns (· ∈ rs)).2 := by
  unfold appendNew joined
  by_cases hd : ∃ n ∈ ns, ∃ s ∈ rs, n.Perm s
  · rw [if_pos hd, if_pos hd]; exact ⟨rfl, h, rfl⟩
  · rw [if_neg hd, if_neg hd]
    exact ⟨rfl, once_append h hn hd, funext fun r => propext List.mem_append⟩

omit [IterOrder] in
theorem reference_told (e : Edit) (he : Distinct e) {rs : List Rule} (h : Once rs) :
    (reference e rs).1 = (told e (· ∈ rs)).1 ∧ Once (reference e rs).2 ∧
      (· ∈ (reference e rs).2) = (told e (· ∈ rs)).2 := by
  have one : ∀ r : Rule, Once [r] := fun r => List.pairwise_singleton _ _
  cases e with
  | add g pt r =>
    have := appendNew_told h (one r)
    exact ⟨congrArg _ this.1, this.2⟩
  | addMany g pt ns =>
    have := appendNew_told h he
    exact ⟨congrArg _ this.1, this.2⟩
  | removeMany g pt ns =>
    have := appendNew_told h he
    exact ⟨congrArg _ this.1, this.2⟩
  | remove g pt r =>
    have := dropEach_told [r] h
    exact ⟨congrArg _ this.1, this.2⟩
  | removeFiltered g pt i vs =>
    simp only [reference, told]
    by_cases hs : ∃ r ∈ rs, Short r i vs
    · rw [if_pos hs, if_pos hs]; exact ⟨rfl, h, rfl⟩
    · rw [if_neg hs, if_neg hs]
      refine ⟨?_, h.filter _, funext fun r => propext (by simp)⟩
      simp only [Outcome.ok.injEq, decide_eq_decide]
  | update g pt o n =>
    have h1 := dropEach_told [o] h
    have h2 := appendNew_told h1.2.1 (one n)
    simp only [reference, told, ← h1.1, ← h1.2.2]
    cases (dropEach [o] rs).1 with
    | false => exact ⟨rfl, h1.2.1, rfl⟩
    | true => exact ⟨congrArg _ h2.1, h2.2⟩
  | updateMany pt os ns =>
    have h1 := dropEach_told os h
    have h2 := appendNew_told h1.2.1 he
    simp only [reference, told, ← h1.1, ← h1.2.2]
    cases (dropEach os rs).1 with
    | false => exact ⟨rfl, h1.2.1, rfl⟩
    | true => exact ⟨congrArg _ h2.1, h2.2⟩

omit [IterOrder] in
theorem drops_told {os : List Rule} {S S' : Finset Rule} {b : Bool} (h : Drops os S b S') :
    Plain (· ∈ S) → b = (dropped os (· ∈ S)).1 ∧ Plain (· ∈ S') ∧ (· ∈ S') = (dropped os (· ∈ S)).2 := by
  induction h with
  | done S => exact fun hp => ⟨rfl, hp, rfl⟩
  | missing hm => intro hp; rw [dropped, if_neg hm]; exact ⟨rfl, hp, rfl⟩
  | @taken o s os S S' b hs hos _ ih =>
    intro hp
    have hmem : (· ∈ S.erase s) = fun r => r ∈ S ∧ ¬ o.Perm r := by
      funext r
      rw [Finset.mem_erase]
      refine propext ⟨fun ⟨h1, h2⟩ => ⟨h2, fun hor => h1 (hp r s h2 hs (hor.symm.trans hos))⟩,
        fun ⟨h1, h2⟩ => ⟨fun hrs => h2 (hrs ▸ hos), h1⟩⟩
    have hp' : Plain (· ∈ S.erase s) := fun x y hx hy =>
      hp x y (Finset.mem_of_mem_erase hx) (Finset.mem_of_mem_erase hy)
    have := ih hp'
    rw [hmem] at this
    rw [dropped, if_pos ⟨s, hs, hos⟩]
    exact this

omit [IterOrder] in
theorem unite_told {ns : List Rule} {S : Finset Rule} (hp : Plain (· ∈ S)) (hn : Once ns) :
    (unite ns S).1 = (joined ns (· ∈ S)).1 ∧ Plain (· ∈ (unite ns S).2) ∧
      (· ∈ (unite ns S).2) = (joined ns (· ∈ S)).2 := by
  unfold unite joined
  by_cases hd : ∃ n ∈ ns, ∃ s ∈ S, n.Perm s
  · rw [if_pos hd, if_pos hd]; exact ⟨rfl, hp, rfl⟩
  · rw [if_neg hd, if_neg hd]
    have hm : ∀ r, r ∈ S ∪ ns.toFinset ↔ r ∈ S ∨ r ∈ ns := fun r => by
      rw [Finset.mem_union, List.mem_toFinset]
    refine ⟨rfl, fun r s hr hs hrs => ?_, funext fun r => propext (hm r)⟩
    rcases (hm r).mp hr with hr | hr <;> rcases (hm s).mp hs with hs | hs
    · exact hp r s hr hs hrs
    · exact absurd ⟨s, hs, r, hr, hrs.symm⟩ hd
    · exact absurd ⟨r, hr, s, hs, hrs⟩ hd
    · exact once_plain hn r s hr hs hrs

/-- Plain, and in a list no rule is there twice. -/
def Kept.Tidy : Kept → Prop
  | .list rs => Once rs
  | .set S => Plain (· ∈ S)

omit [IterOrder] in
theorem follows_told (e : Edit) (he : Distinct e) {K K' : Kept} {x : Outcome Bool} (hK : K.Tidy)
    (h : Follows e K x K') : x = (told e K.Has).1 ∧ K'.Tidy ∧ K'.Has = (told e K.Has).2 := by
  have one : ∀ r : Rule, Once [r] := fun r => List.pairwise_singleton _ _
  cases K with
  | list rs => obtain ⟨rfl, rfl⟩ := h; exact reference_told e he hK
  | set S =>
    have upd : ∀ {os ns : List Rule} {b : Bool} {S' : Finset Rule}, Once ns → Drops os S b S' →
        (if b then x = .ok (unite ns S').1 ∧ K' = .set (unite ns S').2 else x = .ok false ∧ K' = .set S') →
        x = (if (dropped os (· ∈ S)).1 then
            ((.ok (joined ns (dropped os (· ∈ S)).2).1, (joined ns (dropped os (· ∈ S)).2).2) :
              Outcome Bool × (Rule → Prop))
          else (.ok false, (dropped os (· ∈ S)).2)).1 ∧ K'.Tidy ∧
        K'.Has = (if (dropped os (· ∈ S)).1 then
            ((.ok (joined ns (dropped os (· ∈ S)).2).1, (joined ns (dropped os (· ∈ S)).2).2) :
              Outcome Bool × (Rule → Prop))
          else (.ok false, (dropped os (· ∈ S)).2)).2 := by
      intro os ns b S' hn hD hk
      obtain ⟨h1, h2, h3⟩ := drops_told hD hK
      rw [← h1, ← h3]
      cases b with
      | false =>
        simp only [Bool.false_eq_true, if_false] at hk ⊢
        obtain ⟨rfl, rfl⟩ := hk
        exact ⟨rfl, h2, rfl⟩
      | true =>
        simp only [if_true] at hk ⊢
        obtain ⟨rfl, rfl⟩ := hk
        obtain ⟨h4, h5, h6⟩ := unite_told h2 hn
        exact ⟨congrArg _ h4, h5, h6⟩
    cases e with
    | add g pt r =>
      obtain ⟨rfl, rfl⟩ := h
      obtain ⟨h4, h5, h6⟩ := unite_told hK (one r)
      exact ⟨congrArg _ h4, h5, h6⟩
    | addMany g pt ns =>
      obtain ⟨rfl, rfl⟩ := h
      obtain ⟨h4, h5, h6⟩ := unite_told hK he
      exact ⟨congrArg _ h4, h5, h6⟩
    | removeMany g pt ns =>
      obtain ⟨rfl, rfl⟩ := h
      obtain ⟨h4, h5, h6⟩ := unite_told hK he
      exact ⟨congrArg _ h4, h5, h6⟩
    | remove g pt r =>
      obtain ⟨b, S', hD, rfl, rfl⟩ := h
      obtain ⟨h4, h5, h6⟩ := drops_told hD hK
      exact ⟨congrArg _ h4, h5, h6⟩
    | removeFiltered g pt i vs =>
      simp only [Follows] at h
      by_cases hs : ∃ r ∈ S, Short r i vs
      · rw [if_pos hs] at h
        have : told (.removeFiltered g pt i vs) (Kept.set S).Has = (.ub .outOfBounds, (Kept.set S).Has) :=
          if_pos hs
        rw [this]
        obtain ⟨rfl, rfl⟩ := h
        exact ⟨rfl, hK, rfl⟩
      · rw [if_neg hs] at h
        have : told (.removeFiltered g pt i vs) (Kept.set S).Has = (_, _) := if_neg hs
        rw [this]
        obtain ⟨rfl, l, hl, hm, rfl⟩ := h
        refine ⟨?_, ?_, funext fun r => propext (hm r)⟩
        · simp only [Outcome.ok.injEq, decide_eq_decide]
          exact Iff.rfl
        · show Once l
          refine List.Pairwise.imp_of_mem ?_ hl
          intro r s hr hs hne hrs
          exact hne (hK r s ((hm r).mp hr).1 ((hm s).mp hs).1 hrs)
    | update g pt o n =>
      obtain ⟨b, S', hD, hk⟩ := h
      exact upd (one n) hD hk
    | updateMany pt os ns =>
      obtain ⟨b, S', hD, hk⟩ := h
      exact upd he hD hk

def dave : Rule := [c!"dave", c!"data2", c!"write"]

/-- Rules added, changed and removed, one by one, together and by a filter. -/
def changes : List Edit :=
  [.add false c!"p" carol, .updateMany c!"p" [bob] [dave], .remove false c!"p" dave,
   .removeFiltered false c!"p" 0 [c!"carol"], .addMany false c!"p" [bob, carol]]

/-- C169, agreement: where no two rules have the same values and no batch brings such rules, the answers
and the rules are those of a vector, whatever calls are made. -/
theorem C169_agree_partial (es : List Edit) (hes : ∀ e ∈ es, Distinct e) (t : Str × Str)
    {E F : Enforcer} {rs : List Rule} {S : Finset Rule} (hE : Keeps E t (.list rs)) (hF : Keeps F t (.set S))
    (ho : rs.Pairwise fun r s => ¬ r.Perm s) (hS : ∀ r, r ∈ S ↔ r ∈ rs) :
    (∃ l K, Keeps (runEdits E es) t (.list l) ∧ Keeps (runEdits F es) t K ∧
      ∀ r, K.Has r ↔ r ∈ l) ∧
    ∀ e, e.target = t → t.1 = c!"p" → Distinct e → Accepted (runEdits E es) e → Accepted (runEdits F es) e →
      (e.run (runEdits E es)).1 = (e.run (runEdits F es)).1 := by
  have key : ∀ (es : List Edit), (∀ e ∈ es, Distinct e) → ∀ {K L K' L' : Kept}, K.Tidy → L.Tidy →
      K.Has = L.Has → FollowsAll t es K K' → FollowsAll t es L L' →
      K'.Tidy ∧ L'.Tidy ∧ K'.Has = L'.Has := by
    intro es
    induction es with
    | nil => intro _ K L K' L' h1 h2 h3 h4 h5; cases h4; cases h5; exact ⟨h1, h2, h3⟩
    | cons e es ih =>
      intro hes K L K' L' h1 h2 h3 h4 h5
      have he := hes e List.mem_cons_self
      have hes' := fun e' h => hes e' (List.mem_cons_of_mem _ h)
      cases h4 with
      | call ht hf hr =>
        cases h5 with
        | other hn _ => exact absurd ht hn
        | call _ hf' hr' =>
          obtain ⟨_, a2, a3⟩ := follows_told e he h1 hf
          obtain ⟨_, b2, b3⟩ := follows_told e he h2 hf'
          exact ih hes' a2 b2 (by rw [a3, b3, h3]) hr hr'
      | other hn hr =>
        cases h5 with
        | call ht _ _ => exact absurd ht hn
        | other _ hr' => exact ih hes' h1 h2 h3 hr hr'
  have hSm : (Kept.list rs).Has = (Kept.set S).Has := funext fun r => propext (hS r).symm
  have hST : (Kept.set S).Tidy := by
    have := once_plain ho
    rw [show (· ∈ rs) = (· ∈ S) from hSm] at this
    exact this
  have h1 : Holds (runEdits E es) t (referenceAll t es rs) := C150_history es t hE
  obtain ⟨K, k1, k2⟩ := C169_history es t hE
  obtain ⟨L, l1, l2⟩ := C169_history es t hF
  obtain ⟨hK, hL, hKL⟩ := key es hes (K := .list rs) ho hST hSm k1 l1
  refine ⟨?_, ?_⟩
  · refine ⟨_, L, h1, l2, fun r => ?_⟩
    rw [← hKL]
    obtain ⟨a, ha, hp⟩ := h1
    obtain ⟨b, hb, hq⟩ := keeps_iff.mp k2
    rw [ha] at hb
    cases hb
    cases K with
    | list l =>
      have : Policies.vector l = Policies.vector (referenceAll t es rs) := hq.symm.trans hp
      simp only [Policies.vector, Policies.mk.injEq, true_and] at this
      rw [this]; exact Iff.rfl
    | set S' => rw [hp] at hq; exact absurd hq.1 (by simp [Policies.vector])
  · intro e ht hg he ha1 ha2
    subst ht
    obtain ⟨x, _, f1, _, _, f2⟩ := C169_call e k2
    obtain ⟨y, _, g1, _, _, g2⟩ := C169_call e l2
    rw [f2 hg ha1, g2 hg ha2, (follows_told e he hK f1).1, (follows_told e he hL g1).1, hKL]

example : Keeps (aclHash [alice, bob]) (c!"p", c!"p") (.set [alice, bob].toFinset) :=
  ⟨_, rfl, rfl, by decide, by decide⟩

/-- After the calls the rules are in a vector; they are those a vector would hold. -/
example : ∃ l K, Keeps (runEdits (acl [alice, bob]) changes) (c!"p", c!"p") (.list l) ∧
    Keeps (runEdits (aclHash [alice, bob]) changes) (c!"p", c!"p") K ∧ ∀ r, K.Has r ↔ r ∈ l :=
  (C169_agree_partial changes (by simp [changes, Distinct]; decide) (c!"p", c!"p")
    (rs := [alice, bob]) (S := [alice, bob].toFinset) ⟨_, rfl, rfl⟩ ⟨_, rfl, rfl, by decide, by decide⟩ (by decide)
    (by simp)).1

/-! ### Where it makes a difference -/

/-- C169 is false: two rules with the same values can be put into the set by one batch, and which of them
a removal then takes out depends on the order in which the set is walked through. -/
theorem C169_order_fails : ¬ ∀ (o1 o2 : IterOrder) (es : List Edit),
    (@runEdits o1 (aclHash []) es).model.find c!"p" c!"p" =
      (@runEdits o2 (aclHash []) es).model.find c!"p" c!"p" := by
  intro h
  exact absurd (h insertionOrder reverseOrder
    [.addMany false c!"p" [alice, aliceSwapped], .remove false c!"p" alice]) (by decide +kernel)

/-- C169 is false: a rule that a batch repeats is in a vector twice, so that it is still there when it has
been removed; from a set it is gone. -/
theorem C169_twice_fails : letI := insertionOrder
    ¬ ∀ es : List Edit, ∀ r,
      (((runEdits (acl []) es).model.find c!"p" c!"p").any (r ∈ ·.policy.items)) =
      (((runEdits (aclHash []) es).model.find c!"p" c!"p").any (r ∈ ·.policy.items)) := by
  intro h
  exact absurd (h [.addMany false c!"p" [bob, bob], .remove false c!"p" bob] bob) (by decide +kernel)

/-! ## C154 for rules kept in a set -/

open ExceptionProps (Rejects Batch Idle saveOf save_throws save_state run_p rest)

omit [IterOrder] in
/-- The calls themselves raise nothing. -/
theorem follows_ok {e : Edit} {K K' : Kept} {x : Outcome Bool} (h : Follows e K x K') (y : Exn) :
    x ≠ .throw y := by
  cases K with
  | list rs => obtain ⟨rfl, _⟩ := h; exact ExceptionProps.reference_ok e rs y
  | set S =>
    cases e <;> simp only [Follows] at h
    · rw [h.1]; simp
    · rw [h.1]; simp
    · obtain ⟨_, _, _, rfl, _⟩ := h; simp
    · rw [h.1]; simp
    · split at h
      · rw [h.1]; simp
      · rw [h.1]; simp
    · obtain ⟨b, _, _, h⟩ := h
      cases b <;> simp at h <;> rw [h.1] <;> simp
    · obtain ⟨b, _, _, h⟩ := h
      cases b <;> simp at h <;> rw [h.1] <;> simp

/-- C154 for rules in either container: a call about policy rules raises an exception exactly when it has
changed the rules as asked and the adapter then rejects the call it is handed; the rules are those of a
call that succeeded, the adapter has been asked once, and nothing else is different. -/
theorem C154_set {e : Edit} {E : Enforcer} {K : Kept} (h : Keeps E e.target K) (hg : e.target.1 = c!"p") :
    ∃ x K', Follows e K x K' ∧ Keeps (e.run E).2 e.target K' ∧
      ∀ y, ((e.run E).1 = .throw y ↔ x = .ok true ∧ (∃ c, e.call = some c ∧ Rejects E c y) ∧
          (Batch e → ∀ a, E.adapter = some a → a.isBatch = true)) ∧
        ((e.run E).1 = .throw y → ∃ c a m, e.call = some c ∧ E.adapter = some a ∧
          (e.run E).2 = { E with model := m, adapter := some { a with log := a.log ++ [c] } }) := by
  obtain ⟨a, ha, hp⟩ := keeps_iff.mp h
  obtain ⟨x, K', P, h1, h2, h3⟩ := onStore_kept e ha hp
  have hd := e.did E
  refine ⟨x, K', h1, ?_, ?_⟩
  · obtain ⟨p, hq⟩ := hd.rules.some (s := e.target.1) (t := e.target.2)
      (by rw [h3]; exact Model.find_put_self ..)
    exact keeps_iff.mpr ⟨_, hq, h2⟩
  · intro y
    have hne := follows_ok h1
    rw [run_p e hg E, h3]
    cases x with
    | throw z => exact absurd rfl (hne z)
    | ub u => simp [rest]
    | ok b =>
      cases b with
      | false => simp [rest]
      | true =>
        simp only [rest, true_and]
        have hth : (saveOf e { E with model := E.model.put e.target.1 e.target.2 { a with policy := P } }).1 =
            .throw y ↔ (∃ c, e.call = some c ∧ Rejects E c y) ∧
              (Batch e → ∀ a, E.adapter = some a → a.isBatch = true) := save_throws e _ y
        have hst := save_state (x := y) e
          { E with model := E.model.put e.target.1 e.target.2 { a with policy := P } }
        rcases hsv : saveOf e { E with model := E.model.put e.target.1 e.target.2 { a with policy := P } }
          with ⟨o, E'⟩
        rw [hsv] at hth hst
        cases o with
        | ok u => exact ⟨by simpa using hth, by simp⟩
        | ub u => exact ⟨by simpa using hth, by simp⟩
        | throw z =>
          refine ⟨by simpa using hth, fun hz => ?_⟩
          obtain ⟨c, b, hc, hb, hE⟩ := hst (by simpa using hz)
          exact ⟨c, b, _, hc, hb, hE⟩

/-- C154, no second chance, in either container. -/
theorem C154_set_again {e : Edit} {E : Enforcer} {K : Kept} (h : Keeps E e.target K)
    (hg : e.target.1 = c!"p") (hi : Idle e) {y : Exn} (hx : (e.run E).1 = .throw y) :
    e.run (e.run E).2 = (.ok false, (e.run E).2) := by
  obtain ⟨x, K', h1, h2, h3⟩ := C154_set h hg
  obtain rfl := ((h3 y).1.mp hx).1
  obtain ⟨a, ha, hp⟩ := keeps_iff.mp h2
  have hun : ∀ {ns : List Rule} {S : Finset Rule}, ns ≠ [] → (unite ns S).1 = true →
      ∃ n ∈ ns, ∃ s ∈ (unite ns S).2, n.Perm s := by
    intro ns S hns hu
    cases ns with
    | nil => exact absurd rfl hns
    | cons n ns =>
      refine ⟨n, List.mem_cons_self, n, ?_, .refl _⟩
      unfold unite at hu ⊢
      split at hu
      · cases hu
      · rename_i hc
        rw [if_neg hc]
        simp
  have hadd : ∀ {ns : List Rule} {S : Finset Rule}, ns ≠ [] → (unite ns S).1 = true →
      K' = .set (unite ns S).2 →
      Model.addPolicies e.target.1 e.target.2 ns (e.run E).2.model = (.ok false, (e.run E).2.model) := by
    intro ns S hns hu hK
    subst hK
    rw [Model.addPolicies_run ha, if_pos]
    obtain ⟨n, hn, s, hs, hp'⟩ := hun hns hu
    exact ⟨n, hn, (similar_fits hp n).mpr ⟨s, hs, hp'⟩⟩
  have hstill : e.onStore (e.run E).2.model = (.ok false, (e.run E).2.model) := by
    cases K with
    | list rs =>
      obtain ⟨h4, rfl⟩ := h1
      rw [onStore_exact e ha hp, ExceptionProps.idle_again hi h4.symm]
      simp only
      rw [← (show a.policy = .vector _ from hp), Model.put_self _ _ _ _ ha]
    | set S =>
      cases e with
      | add g pt r =>
        have := hadd (ns := [r]) (S := S) (by simp) (Outcome.ok.inj h1.1).symm h1.2
        simp only [Edit.onStore]
        simp only [Edit.target] at this ha
        rw [Model.addPolicies_run ha] at this
        rw [Model.addPolicy_run ha]
        by_cases hs : a.policy.Similar r
        · rw [if_pos hs]
        · rw [if_neg (by rintro ⟨x, hx, h⟩; rw [List.mem_singleton] at hx; exact hs (hx ▸ h))] at this
          cases congrArg Prod.fst this
      | addMany g pt ns => exact hadd hi (Outcome.ok.inj h1.1).symm h1.2
      | removeMany g pt ns => exact hadd hi (Outcome.ok.inj h1.1).symm h1.2
      | removeFiltered g pt i vs =>
        simp only [Follows] at h1
        split at h1
        · cases h1.1
        · rename_i hns
          obtain ⟨_, l, _, hm, rfl⟩ := h1
          rw [onStore_exact (rs := l) _ ha hp]
          have h5 : ¬ ∃ r ∈ l, Short r i vs := by
            rintro ⟨r, hr, hs⟩; exact hns ⟨r, ((hm r).mp hr).1, hs⟩
          have h6 : ¬ ∃ r ∈ l, FilterMatch r i vs := by
            rintro ⟨r, hr, hs⟩; exact ((hm r).mp hr).2 hs
          have h7 : l.filter (fun r => ¬ FilterMatch r i vs) = l := by
            rw [List.filter_eq_self]
            intro r hr
            simpa using fun hs => h6 ⟨r, hr, hs⟩
          simp only [reference, if_neg h5, decide_eq_false h6, h7]
          rw [← (show a.policy = .vector _ from hp)]
          simp only [Edit.target] at ha
          exact Prod.ext rfl (Model.put_self _ _ _ _ ha)
      | remove g pt r => exact absurd hi id
      | update g pt o n => exact absurd hi id
      | updateMany pt o n => exact absurd hi id
  rw [run_p e hg (e.run E).2, hstill]
  rfl

/-- A set of rules, and an adapter that fails. -/
def setAtRisk : Enforcer := { aclHash [alice] with adapter := some ExceptionProps.broken }

example : (Edit.add false c!"p" bob).run ((Edit.add false c!"p" bob).run setAtRisk).2 =
    (.ok false, ((Edit.add false c!"p" bob).run setAtRisk).2) := by
  have hK : Keeps setAtRisk (c!"p", c!"p") (.set [alice].toFinset) := ⟨_, rfl, rfl, by decide, rfl⟩
  refine C154_set_again (e := .add false c!"p" bob) hK rfl trivial (y := .external) ?_
  obtain ⟨x, K', h1, _, h3⟩ := C154_set (e := .add false c!"p" bob) hK rfl
  refine (h3 .external).1.mpr ⟨?_, ⟨_, rfl, _, rfl, rfl, rfl, by decide⟩, fun h => absurd h id⟩
  rw [h1.1]
  decide +kernel

end SetStoreProps
end Casbin
