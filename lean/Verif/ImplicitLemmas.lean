import Verif.EnforcerLemmas
import Verif.Props.Roles
import Mathlib.Data.Finset.Card
import Mathlib.Data.List.Nodup

/-!
# The queue loop of `GetImplicitRolesForUser`
-/

namespace Casbin

/-- `GetRoles` without a domain on a well-formed state. -/
theorem RM.getRoles_plain [IterOrder] {rm : RM} (hp : rm.pattern = none) (u : Str) :
    ∃ rs, RM.getRoles u [] rm = (.ok rs, rm) ∧ ∀ r, r ∈ rs ↔ rm.Edge u r := by
  have hs : ∀ l, RM.stripAll [] l = .ok l := by
    intro l
    induction l with
    | nil => rfl
    | cons a l ih => simp [RM.stripAll, RM.stripDomain, ih]
  simp only [RM.getRoles, M.bind_run, M.lift_run, RM.qualify, M.get_run]
  by_cases hk : u ∈ rm.roles.keys
  · have e1 := (RM.hasRole_none rm u hp).mpr hk
    simp only [e1, Bool.not_true, Bool.false_eq_true, if_false, M.bind_run, M.modify_run,
      RM.createRole_known rm _ hp hk, M.get_run, M.lift_run, hs]
    exact ⟨_, rfl, fun r => Iff.rfl⟩
  · have e1 : rm.hasRole u = false := by
      have := mt (RM.hasRole_none rm u hp).mp hk
      simpa using this
    simp only [e1, Bool.not_false, if_true, M.pure_run]
    refine ⟨[], rfl, ?_⟩
    intro r
    simp only [List.not_mem_nil, false_iff]
    intro he
    unfold RM.Edge RM.direct at he
    cases hg : rm.roles.get u with
    | none => rw [hg] at he; simp at he
    | some l => exact hk (UMap.mem_keys_of_get hg)

namespace Enforcer

theorem mem_newRoles {seen l : List Str} {x : Str} : x ∈ newRoles seen l ↔ x ∈ l ∧ x ∉ seen := by
  induction l generalizing seen with
  | nil => simp [newRoles]
  | cons a l ih =>
    simp only [newRoles]
    split
    · rename_i h
      rw [ih]
      constructor
      · rintro ⟨h1, h2⟩; exact ⟨List.mem_cons_of_mem _ h1, h2⟩
      · rintro ⟨h1, h2⟩
        rcases List.mem_cons.mp h1 with rfl | h1
        · exact absurd h h2
        · exact ⟨h1, h2⟩
    · rename_i h
      rw [List.mem_cons, ih]
      by_cases hx : x = a
      · subst hx; simp [h]
      · simp [hx]

theorem nodup_newRoles (seen l : List Str) : (newRoles seen l).Nodup := by
  induction l generalizing seen with
  | nil => simp [newRoles]
  | cons a l ih =>
    simp only [newRoles]
    split
    · exact ih _
    · rw [List.nodup_cons]
      refine ⟨?_, ih _⟩
      rw [mem_newRoles]; simp

/-- Reachability by one or more steps. -/
inductive Reach (R : Str → Str → Prop) : Str → Str → Prop
  | one {a b : Str} : R a b → Reach R a b
  | step {a b c : Str} : R a b → Reach R b c → Reach R a c

theorem Reach.tail {R : Str → Str → Prop} {a b c : Str} (h : Reach R a b) (h' : R b c) :
    Reach R a c := by
  induction h with
  | one h => exact .step h (.one h')
  | step h _ ih => exact .step h (ih h')

variable [IterOrder]

/-- What the queue loop returns, when every `GetRoles` it makes answers the relation `R` and leaves
the state alone. `q` sends a name to the stored name, `K` holds the stored names. -/
theorem implicitLoop_run {D : List Str} {s : RM} {R : Str → Str → Prop} {q : Str → Str}
    (hq : Function.Injective q) (K : Finset Str)
    (hR : ∀ n, ∃ rs, RM.getRoles n D s = (.ok rs, s) ∧ (∀ r, r ∈ rs ↔ R n r) ∧ ∀ r ∈ rs, q r ∈ K) :
    ∀ (fuel : Nat) (seen queue : List Str),
      (∀ x ∈ queue, x ∈ seen) →
      queue.length + (K \ (seen.map q).toFinset).card ≤ fuel →
      ∃ res, implicitLoop D fuel seen queue s = (.ok res, s) ∧ res.Nodup ∧
        (∀ x ∈ res, x ∉ seen) ∧
        (∀ x ∈ res, ∃ y ∈ queue, Reach R y x) ∧
        (∀ x, x ∈ queue ∨ x ∈ res → ∀ r, R x r → r ∈ res ∨ r ∈ seen) := by
  intro fuel
  induction fuel with
  | zero =>
    intro seen queue _ hf
    cases queue with
    | nil => exact ⟨[], by simp [implicitLoop], by simp, by simp, by simp, by simp⟩
    | cons a l => simp at hf
  | succ fuel ih =>
    intro seen queue hsub hf
    cases queue with
    | nil => exact ⟨[], by simp [implicitLoop], by simp, by simp, by simp, by simp⟩
    | cons n l =>
      obtain ⟨rs, hrs, hmem, hK⟩ := hR n
      generalize hnew : newRoles seen rs = new
      have hnm : ∀ x, x ∈ new ↔ R n x ∧ x ∉ seen := by
        intro x; rw [← hnew, mem_newRoles, hmem]
      have hnd : new.Nodup := hnew ▸ nodup_newRoles seen rs
      have hcard : (K \ ((new ++ seen).map q).toFinset).card + new.length ≤
          (K \ (seen.map q).toFinset).card := by
        have hl : ((new.map q).toFinset).card = new.length := by
          rw [List.toFinset_card_of_nodup (hnd.map hq), List.length_map]
        have hsubK : (new.map q).toFinset ⊆ K \ (seen.map q).toFinset := by
          intro x hx
          rw [List.mem_toFinset, List.mem_map] at hx
          obtain ⟨y, hy, rfl⟩ := hx
          have h1 := (hnm y).mp hy
          rw [Finset.mem_sdiff, List.mem_toFinset, List.mem_map]
          refine ⟨hK _ ((hmem y).mpr h1.1), ?_⟩
          rintro ⟨z, hz, e⟩
          exact h1.2 (hq e ▸ hz)
        have he : K \ ((new ++ seen).map q).toFinset =
            (K \ (seen.map q).toFinset) \ (new.map q).toFinset := by
          ext x
          simp only [List.map_append, List.toFinset_append, Finset.mem_sdiff, Finset.mem_union,
            not_or]
          tauto
        rw [he, ← hl, Finset.card_sdiff_add_card_eq_card hsubK]
      obtain ⟨res, hres, hnod, hout, hreach, hclosed⟩ := ih (new ++ seen) (l ++ new)
        (by
          intro x hx
          rcases List.mem_append.mp hx with h | h
          · exact List.mem_append_right _ (hsub x (List.mem_cons_of_mem _ h))
          · exact List.mem_append_left _ h)
        (by
          simp only [List.length_append, List.length_cons] at hf ⊢
          omega)
      refine ⟨new ++ res, ?_, ?_, ?_, ?_, ?_⟩
      · simp only [implicitLoop, M.bind_run, hrs, hnew, hres, M.pure_run]
      · rw [List.nodup_append]
        refine ⟨hnd, hnod, ?_⟩
        intro a ha b hb e
        subst e
        exact hout a hb (List.mem_append_left _ ha)
      · intro x hx
        rcases List.mem_append.mp hx with h | h
        · exact ((hnm x).mp h).2
        · exact fun hs => hout x h (List.mem_append_right _ hs)
      · intro x hx
        rcases List.mem_append.mp hx with h | h
        · exact ⟨n, by simp, .one ((hnm x).mp h).1⟩
        · obtain ⟨y, hy, hr⟩ := hreach x h
          rcases List.mem_append.mp hy with hy | hy
          · exact ⟨y, List.mem_cons_of_mem _ hy, hr⟩
          · exact ⟨n, by simp, .step ((hnm y).mp hy).1 hr⟩
      · intro x hx r hr
        have key : (x ∈ l ++ new ∨ x ∈ res) → r ∈ new ++ res ∨ r ∈ seen := by
          intro h
          rcases hclosed x h r hr with h | h
          · exact .inl (List.mem_append_right _ h)
          · rcases List.mem_append.mp h with h | h
            · exact .inl (List.mem_append_left _ h)
            · exact .inr h
        rcases hx with hx | hx
        · rcases List.mem_cons.mp hx with rfl | hx
          · by_cases hs : r ∈ seen
            · exact .inr hs
            · exact .inl (List.mem_append_left _ ((hnm r).mpr ⟨hr, hs⟩))
          · exact key (.inl (List.mem_append_left _ hx))
        · rcases List.mem_append.mp hx with h | h
          · exact key (.inl (List.mem_append_right _ h))
          · exact key (.inr h)

/-- The whole loop, started from one name. -/
theorem implicitLoop_closure {D : List Str} {s : RM} {R : Str → Str → Prop} {q : Str → Str}
    (hq : Function.Injective q)
    (hR : ∀ n, ∃ rs, RM.getRoles n D s = (.ok rs, s) ∧ (∀ r, r ∈ rs ↔ R n r) ∧
      ∀ r ∈ rs, q r ∈ s.roles.keys) (u : Str) :
    ∃ res, implicitLoop D (s.roles.length + 2) [u] [u] s = (.ok res, s) ∧ res.Nodup ∧
      ∀ r, r ∈ res ↔ r ≠ u ∧ Reach R u r := by
  obtain ⟨res, hres, hnod, hout, hreach, hclosed⟩ :=
    implicitLoop_run hq s.roles.keys.toFinset
      (fun n => by
        obtain ⟨rs, h1, h2, h3⟩ := hR n
        exact ⟨rs, h1, h2, fun r hr => List.mem_toFinset.mpr (h3 r hr)⟩)
      (s.roles.length + 2) [u] [u] (by simp) (by
        have h1 : (s.roles.keys.toFinset \ ([u].map q).toFinset).card ≤
            s.roles.keys.toFinset.card := Finset.card_le_card Finset.sdiff_subset
        have h2 := s.roles.keys.toFinset_card_le
        have h3 : s.roles.keys.length = s.roles.length := by simp [UMap.keys]
        simp only [List.length_singleton]
        omega)
  refine ⟨res, hres, hnod, ?_⟩
  intro r
  constructor
  · intro h
    obtain ⟨y, hy, hr⟩ := hreach r h
    simp only [List.mem_singleton] at hy
    subst hy
    exact ⟨by simpa using hout r h, hr⟩
  · rintro ⟨hne, hr⟩
    have gen : ∀ {a b : Str}, Reach R a b → a ∈ [u] ∨ a ∈ res → b ∈ res ∨ b ∈ [u] := by
      intro a b h
      induction h with
      | one h => intro ha; exact hclosed _ ha _ h
      | step h _ ih => intro ha; exact ih (hclosed _ ha _ h).symm
    rcases gen hr (.inl (by simp)) with h | h
    · exact h
    · simp only [List.mem_singleton] at h; exact absurd h hne

end Enforcer
end Casbin
