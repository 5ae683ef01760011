import Mathlib.Data.Finset.Dedup
import Verif.Props.Retry
import Verif.Props.SetStore

/-!
# C174, C175 and C176 for rules kept in a set

Where no two rules have the same values, a set of rules follows the list of these rules (C169), so that what
C174–C176 say of lists holds of the members of the set.
-/

set_option linter.unusedSectionVars false

namespace Casbin
namespace Retry

open Enforcer Fixtures StoreProps Locality Commute SetStoreProps

variable [IterOrder] {E : Enforcer} {rs : List Rule} {e e1 e2 : Edit} {K : Kept}

/-- The members are the rules of the list, no two of which have the same values. -/
structure Listed (E : Enforcer) (t : Str × Str) (K : Kept) (rs : List Rule) : Prop where
  keeps : Keeps E t K
  tidy : K.Tidy
  once : Distinct rs
  same : ∀ r, K.Has r ↔ r ∈ rs

theorem Listed.call {t : Str × Str} (h : Listed E t K rs) (he : SetStoreProps.Distinct e) :
    ∃ K', Listed (e.run E).2 t K' (after e t rs) ∧
      (e.target = t → ∀ b, (e.run E).1 = .ok b → (reference e rs).1 = .ok b) := by
  have hs : K.Has = (· ∈ rs) := funext fun r => propext (h.same r)
  by_cases ht : e.target = t
  · subst ht
    obtain ⟨x, K', f, k, a, _⟩ := C169_call e h.keeps
    obtain ⟨f1, f2, f3⟩ := follows_told e he h.tidy f
    obtain ⟨r1, r2, r3⟩ := reference_told e he h.once
    have e0 : after e e.target rs = (reference e rs).2 := by unfold after; rw [if_pos rfl]
    refine ⟨K', ⟨k, f2, by rw [e0]; exact r2, fun r => ?_⟩, fun _ b hb => ?_⟩
    · rw [e0, f3, hs, ← r3]
    · rw [r1, ← hs, ← f1]; exact a b hb
  · have e0 : after e t rs = rs := by unfold after; rw [if_neg ht]
    exact ⟨K, by rw [e0]; exact ⟨others_keep e E (Ne.symm ht) h.keeps, h.tidy, h.once, h.same⟩, fun h => absurd h ht⟩

/-- C174 for rules in a set: in either order the calls leave the same members. -/
theorem C174_set_partial {t : Str × Str} {S : Finset Rule} (hE : Keeps E t (.set S)) (hS : ∀ r, r ∈ S ↔ r ∈ rs)
    (ho : Distinct rs) (d1 : SetStoreProps.Distinct e1) (d2 : SetStoreProps.Distinct e2)
    (h : e1.target = t → e2.target = t → Both e1 e2 rs) :
    ∃ K1 K2, Keeps (e2.run (e1.run E).2).2 t K1 ∧ Keeps (e1.run (e2.run E).2).2 t K2 ∧
      ∀ r, K1.Has r ↔ K2.Has r := by
  have h0 : Listed E t (.set S) rs := ⟨hE, by
    have := once_plain ho
    rw [show (· ∈ rs) = (· ∈ S) from funext fun r => propext (hS r).symm] at this
    exact this, ho, hS⟩
  obtain ⟨A, a, _⟩ := h0.call d1
  obtain ⟨B, b, _⟩ := a.call d2
  obtain ⟨C, c, _⟩ := h0.call d2
  obtain ⟨D, d, _⟩ := c.call d1
  exact ⟨B, D, b.keeps, d.keeps, fun r => by rw [b.same, d.same]; exact (after_both h).mem_iff⟩

/-- C175 for rules in a set: made twice, the call leaves the members that it leaves made once. -/
theorem C175_set_partial {t : Str × Str} {S : Finset Rule} (hE : Keeps E t (.set S)) (hS : ∀ r, r ∈ S ↔ r ∈ rs)
    (ho : Distinct rs) (he : SetStoreProps.Distinct e) (hm : Moves e) :
    ∃ K1 K2, Keeps (e.run E).2 t K1 ∧ Keeps (e.run (e.run E).2).2 t K2 ∧ ∀ r, K1.Has r ↔ K2.Has r := by
  have h0 : Listed E t (.set S) rs := ⟨hE, by
    have := once_plain ho
    rw [show (· ∈ rs) = (· ∈ S) from funext fun r => propext (hS r).symm] at this
    exact this, ho, hS⟩
  obtain ⟨A, a, _⟩ := h0.call he
  obtain ⟨B, b, _⟩ := a.call he
  exact ⟨A, B, a.keeps, b.keeps, fun r => by rw [a.same, b.same, after_twice ho hm]⟩

/-- C176 for rules in a set: after a call that returned true and its inverse, the members are those of
before. -/
theorem C176_set_partial {i : Edit} (hi : inverse e = some i) {t : Str × Str} {S : Finset Rule}
    (hE : Keeps E t (.set S)) (hS : ∀ r, r ∈ S ↔ r ∈ rs) (ho : Distinct rs) (he : SetStoreProps.Distinct e)
    (hi' : SetStoreProps.Distinct i) (hu : e.target = t → Undoable rs e) (ok : (e.run E).1 = .ok true) :
    ∃ K, Keeps (i.run (e.run E).2).2 t K ∧ ∀ r, K.Has r ↔ r ∈ S := by
  have h0 : Listed E t (.set S) rs := ⟨hE, by
    have := once_plain ho
    rw [show (· ∈ rs) = (· ∈ S) from funext fun r => propext (hS r).symm] at this
    exact this, ho, hS⟩
  obtain ⟨A, a, hr⟩ := h0.call he
  obtain ⟨B, b, _⟩ := a.call hi'
  refine ⟨B, b.keeps, fun r => ?_⟩
  rw [b.same, hS]
  unfold after
  rw [inverse_target hi]
  split
  · next ht => exact (reference_back hi ho (hu ht) (hr ht true ok)).2.mem_iff
  · exact Iff.rfl

/-- Rules in a set: Bob's rule is taken out and a rule for Alice put in, in either order. -/
example :
    ∃ K1 K2, Keeps ((Edit.add false c!"p" carol).run ((Edit.remove false c!"p" bob).run (aclHash [alice, bob])).2).2
        (c!"p", c!"p") K1 ∧
      Keeps ((Edit.remove false c!"p" bob).run ((Edit.add false c!"p" carol).run (aclHash [alice, bob])).2).2
        (c!"p", c!"p") K2 ∧ ∀ r, K1.Has r ↔ K2.Has r :=
  C174_set_partial (rs := [alice, bob]) (S := [alice, bob].toFinset) ⟨_, rfl, rfl, by decide, by decide⟩ (by simp)
    (by unfold Distinct; decide) trivial trivial
    fun _ _ => ⟨by
      intro r s (hr : bob.Perm r) (hs : s = carol) hp
      subst hs
      exact absurd (hr.trans hp) (by decide), trivial, trivial, trivial, trivial⟩

/-- Bob's rule taken out twice. -/
example :
    ∃ K1 K2, Keeps ((Edit.remove false c!"p" bob).run (aclHash [alice, bob])).2 (c!"p", c!"p") K1 ∧
      Keeps ((Edit.remove false c!"p" bob).run ((Edit.remove false c!"p" bob).run (aclHash [alice, bob])).2).2
        (c!"p", c!"p") K2 ∧ ∀ r, K1.Has r ↔ K2.Has r :=
  C175_set_partial (rs := [alice, bob]) (S := [alice, bob].toFinset) ⟨_, rfl, rfl, by decide, by decide⟩ (by simp)
    (by unfold Distinct; decide) trivial trivial

/-- Bob's rule changed and changed back. -/
example :
    letI := insertionOrder
    let E := { aclHash [alice, bob] with autoSave := false }
    ∃ K, Keeps ((Edit.update false c!"p" carol bob).run ((Edit.update false c!"p" bob carol).run E).2).2
        (c!"p", c!"p") K ∧ ∀ r, K.Has r ↔ r ∈ [alice, bob].toFinset := by
  let := insertionOrder
  have ok : ((Edit.update false c!"p" bob carol).run { aclHash [alice, bob] with autoSave := false }).1
      = .ok true := by decide +kernel
  have hk : Keeps { aclHash [alice, bob] with autoSave := false } (c!"p", c!"p") (.set [alice, bob].toFinset) :=
    ⟨_, rfl, rfl, by decide, by decide⟩
  intro E
  exact C176_set_partial (E := { aclHash [alice, bob] with autoSave := false }) (e := .update false c!"p" bob carol)
    (i := .update false c!"p" carol bob) (t := (c!"p", c!"p")) (rs := [alice, bob]) (S := [alice, bob].toFinset)
    rfl hk (by simp) (by unfold Distinct; decide) trivial trivial (fun _ => by show bob ∈ _; decide) ok

end Retry
end Casbin
