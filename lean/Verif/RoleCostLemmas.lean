import Verif.RoleCost
import Verif.RoleManagerLemmas

/-!
# Lemmas about the number of calls of `Role::HasRole`
-/

namespace Casbin
namespace RM

/-- The walks of at most `level` links from a role, each as the list of the roles after the
first; the search enters `Role::HasRole` once for each when it finds nothing. -/
def walks (m : UMap Str (List Str)) : Nat → Str → List (List Str)
  | 0, _ => [[]]
  | level + 1, cur => [] :: (direct m cur).flatMap (fun r => (walks m level r).map (r :: ·))

theorem anyCalls_fst (f : Str → Bool × Nat) (l : List Str) :
    (anyCalls f l).1 = l.any (fun r => (f r).1) := by
  induction l with
  | nil => rfl
  | cons r rs ih =>
    simp only [anyCalls, List.any_cons]
    cases h : (f r).1 <;> simp [ih]

theorem roleHasRoleCalls_fst (m : UMap Str (List Str)) (name : Str) (level : Nat) (cur : Str) :
    (roleHasRoleCalls m name level cur).1 = roleHasRole m name level cur := by
  induction level generalizing cur with
  | zero => rfl
  | succ level ih =>
    simp only [roleHasRoleCalls, roleHasRole]
    split
    · rename_i h; simp [h]
    · rename_i h; simp [h, anyCalls_fst, ih]

theorem anyCalls_le (f : Str → Bool × Nat) (g : Str → Nat) (l : List Str)
    (h : ∀ r ∈ l, (f r).2 ≤ g r) : (anyCalls f l).2 ≤ (l.map g).sum := by
  induction l with
  | nil => simp [anyCalls]
  | cons r rs ih =>
    have h1 := h r (by simp)
    have h2 := ih (fun r hr => h r (by simp [hr]))
    simp only [anyCalls, List.map_cons, List.sum_cons]
    split <;> simp only <;> omega

theorem anyCalls_eq (f : Str → Bool × Nat) (g : Str → Nat) (l : List Str)
    (h : ∀ r ∈ l, (f r).1 = false ∧ (f r).2 = g r) : (anyCalls f l).2 = (l.map g).sum := by
  induction l with
  | nil => simp [anyCalls]
  | cons r rs ih =>
    have h1 := h r (by simp)
    have h2 := ih (fun r hr => h r (by simp [hr]))
    simp [anyCalls, h1.1, h1.2, h2]

theorem length_walks_succ (m : UMap Str (List Str)) (level : Nat) (cur : Str) :
    (walks m (level + 1) cur).length =
      ((direct m cur).map (fun r => (walks m level r).length)).sum + 1 := by
  simp [walks, List.length_flatMap]

theorem calls_le (m : UMap Str (List Str)) (name : Str) (level : Nat) (cur : Str) :
    (roleHasRoleCalls m name level cur).2 ≤ (walks m level cur).length := by
  induction level generalizing cur with
  | zero => simp [roleHasRoleCalls, walks]
  | succ level ih =>
    rw [length_walks_succ]
    simp only [roleHasRoleCalls]
    split
    · simp
    · have := anyCalls_le (fun r => roleHasRoleCalls m name level r)
        (fun r => (walks m level r).length) (direct m cur) (fun r _ => ih r)
      simp only
      omega

theorem calls_eq (m : UMap Str (List Str)) (name : Str) (level : Nat) (cur : Str)
    (h : roleHasRole m name level cur = false) :
    (roleHasRoleCalls m name level cur).2 = (walks m level cur).length := by
  induction level generalizing cur with
  | zero => simp [roleHasRoleCalls, walks]
  | succ level ih =>
    rw [length_walks_succ]
    simp only [roleHasRole, Bool.or_eq_false_iff, decide_eq_false_iff_not,
      List.any_eq_false] at h
    simp only [roleHasRoleCalls, if_neg h.1]
    rw [anyCalls_eq _ (fun r => (walks m level r).length)]
    intro r hr
    have hf : roleHasRole m name level r = false := by simpa using h.2 r hr
    exact ⟨by rw [roleHasRoleCalls_fst, hf], ih r hf⟩

theorem nodup_walks (m : UMap Str (List Str)) (hn : ∀ a, (direct m a).Nodup) (level : Nat)
    (cur : Str) : (walks m level cur).Nodup := by
  induction level generalizing cur with
  | zero => simp [walks]
  | succ level ih =>
    simp only [walks, List.nodup_cons]
    refine ⟨by simp [List.mem_flatMap], ?_⟩
    rw [List.nodup_flatMap]
    refine ⟨fun r _ => (ih r).map (fun a b h => by simpa using h), ?_⟩
    refine (hn cur).imp ?_
    intro a b hab
    simp only [Function.onFun, List.Disjoint, List.mem_map]
    rintro w ⟨u, _, rfl⟩ ⟨v, _, hv⟩
    simp only [List.cons.injEq] at hv
    exact hab hv.1.symm

end RM
end Casbin
