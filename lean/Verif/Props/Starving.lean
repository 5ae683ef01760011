import Verif.Starving
import Mathlib.Data.Fin.VecNotation
import Mathlib.Tactic.FinCases
import Mathlib.Data.Fintype.Basic

/-!
# C181: every call of a synchronised enforcer gets its turn

Threads call one synchronised enforcer without end, and no thread that can go on again and again is passed over
for ever. Calls that share the lock go on, and so do all calls if only one thread makes such calls. A call that takes the
lock for itself may wait for ever for two threads that share it.
-/

namespace Casbin
namespace StarvingProps

open Starving

variable {τ : Type} [DecidableEq τ]

/-! ## The specification -/

/-- The thread can take a step. -/
def Able (p : Prog τ) (s : State τ) (i : τ) : Prop := ∃ t, Step p i s t

/-- No thread that is able to go on again and again is passed over for ever. -/
def Fair {p : Prog τ} (r : Run p) : Prop :=
  ∀ i, (∀ n, ∃ m ≥ n, Able p (r.at_ m) i) → ∀ n, ∃ m ≥ n, r.who m = i

/-- The thread gets all its calls done. -/
def Served {p : Prog τ} (r : Run p) (i : τ) : Prop := ∀ k, ∃ n, k ≤ (r.at_ n).count i

/-! ## Helpers -/

/-- Who has the lock for itself is alone inside. -/
def Alone (p : Prog τ) (s : State τ) : Prop :=
  ∀ i j, s.inside i = true → s.inside j = true → p i (s.count i) = .unique → i = j

theorem alone_step {p : Prog τ} {s t : State τ} {i : τ} (h : Alone p s) (hs : Step p i s t) : Alone p t := by
  intro a b ha hb hu
  cases hs with
  | acquire h1 h2 =>
    simp only at ha hb hu
    by_cases hai : a = i <;> by_cases hbi : b = i
    · rw [hai, hbi]
    · rw [hai] at hu
      rw [hu] at h2
      rw [if_neg hbi, h2 b] at hb
      cases hb
    · rw [if_neg hai] at ha
      cases hk : p i (s.count i) with
      | unique => rw [hk] at h2; rw [h2 a] at ha; cases ha
      | shared => rw [hk] at h2; rw [h2 a ha] at hu; cases hu
    · rw [if_neg hai] at ha
      rw [if_neg hbi] at hb
      exact h a b ha hb hu
  | release h1 =>
    simp only at ha hb hu
    by_cases hai : a = i
    · simp [hai] at ha
    · by_cases hbi : b = i
      · simp [hbi] at hb
      · rw [if_neg hai] at ha hu
        rw [if_neg hbi] at hb
        exact h a b ha hb hu

theorem alone_run {p : Prog τ} (r : Run p) (n : Nat) : Alone p (r.at_ n) := by
  induction n with
  | zero => rw [r.first]; intro a b ha; cases ha
  | succ n ih => exact alone_step ih (r.next n)

/-- If someone has the lock for itself, the next step gives it back, and nobody is inside. -/
theorem back {p : Prog τ} (r : Run p) {n : Nat} {j : τ} (hj : (r.at_ n).inside j = true)
    (hu : p j ((r.at_ n).count j) = .unique) : ∀ k, (r.at_ (n + 1)).inside k = false := by
  have hal := alone_run r n
  have hs := r.next n
  generalize r.at_ (n + 1) = t at hs
  generalize r.who n = i at hs
  cases hs with
  | acquire h1 h2 =>
    exfalso
    cases hk : p i ((r.at_ n).count i) with
    | unique => rw [hk] at h2; rw [h2 j] at hj; cases hj
    | shared => rw [hk] at h2; rw [h2 j hj] at hu; cases hu
  | release h1 =>
    have hij := hal j i hj h1 hu
    intro k
    simp only
    split
    · rfl
    · rename_i hk
      cases hx : (r.at_ n).inside k with
      | false => rfl
      | true => exact absurd ((hal j k hj hx hu).symm.trans hij) hk

theorem able_inside {p : Prog τ} {s : State τ} {i : τ} (h : s.inside i = true) : Able p s i := ⟨_, .release h⟩

theorem able_empty {p : Prog τ} {s : State τ} (h : ∀ j, s.inside j = false) (i : τ) : Able p s i := by
  refine ⟨_, .acquire (h i) ?_⟩
  cases p i (s.count i) with
  | unique => exact h
  | shared => intro j hj; rw [h j] at hj; cases hj

/-- A thread that takes steps again and again gets its calls done. -/
theorem served_of {p : Prog τ} (r : Run p) (i : τ) (h : ∀ n, ∃ m ≥ n, r.who m = i) : Served r i := by
  let w : Nat → Nat := fun n => 2 * (r.at_ n).count i + if (r.at_ n).inside i then 1 else 0
  have hstep : ∀ n, w n ≤ w (n + 1) ∧ (r.who n = i → w n < w (n + 1)) := by
    intro n
    have hs := r.next n
    simp only [w]
    generalize r.at_ (n + 1) = t at hs
    generalize r.who n = k at hs
    cases hs with
    | acquire h1 h2 =>
      simp only
      by_cases hk : i = k
      · subst hk; simp [h1]
      · simp [hk, Ne.symm hk]
    | release h1 =>
      simp only
      by_cases hk : i = k
      · subst hk; simp [h1]; omega
      · simp [hk, Ne.symm hk]
  have hmono : ∀ n m, n ≤ m → w n ≤ w m := fun n m hnm => by
    induction hnm with
    | refl => exact le_rfl
    | step _ ih => exact ih.trans (hstep _).1
  have hall : ∀ k, ∃ n, k ≤ w n := by
    intro k
    induction k with
    | zero => exact ⟨0, Nat.zero_le _⟩
    | succ k ih =>
      obtain ⟨n, hn⟩ := ih
      obtain ⟨m, hm, hw⟩ := h n
      have h1 := (hstep m).2 hw
      have h2 := hmono n m hm
      exact ⟨m + 1, by omega⟩
  intro k
  obtain ⟨n, hn⟩ := hall (2 * k + 1)
  refine ⟨n, ?_⟩
  simp only [w] at hn
  split at hn <;> omega

/-! ## C181 -/

/-- C181 for threads that make only calls that share the lock: all their calls are made, whatever the other threads do. -/
theorem C181_shared_partial {p : Prog τ} (r : Run p) (hf : Fair r) (i : τ) (hp : ∀ n, p i n = .shared) :
    Served r i := by
  refine served_of r i (hf i fun n => ?_)
  by_cases hu : ∃ j, (r.at_ n).inside j = true ∧ p j ((r.at_ n).count j) = .unique
  · obtain ⟨j, h1, h2⟩ := hu
    exact ⟨n + 1, Nat.le_succ n, able_empty (back r h1 h2) i⟩
  · refine ⟨n, le_rfl, ?_⟩
    cases hi : (r.at_ n).inside i with
    | true => exact able_inside hi
    | false =>
      refine ⟨_, .acquire hi ?_⟩
      rw [hp]
      intro j hj
      cases hk : p j ((r.at_ n).count j) with
      | shared => rfl
      | unique => exact (hu ⟨j, hj, hk⟩).elim

/-- C181 if at most one thread makes calls that share the lock: all calls of all threads are made. -/
theorem C181_one_partial {p : Prog τ} (r : Run p) (hf : Fair r) (a : τ) (hp : ∀ j, j ≠ a → ∀ n, p j n = .unique)
    (i : τ) : Served r i := by
  refine served_of r i (hf i fun n => ?_)
  by_cases hu : ∃ j, (r.at_ n).inside j = true
  · obtain ⟨j, hj⟩ := hu
    refine ⟨n + 1, Nat.le_succ n, able_empty ?_ i⟩
    have hal := alone_run r n
    have hone : ∀ k, (r.at_ n).inside k = true → k = j := by
      intro k hk
      by_cases hka : k = a
      · by_cases hja : j = a
        · rw [hka, hja]
        · exact (hal j k hj hk (hp j hja _)).symm
      · exact hal k j hk hj (hp k hka _)
    have hs := r.next n
    generalize r.at_ (n + 1) = t at hs
    generalize r.who n = k at hs
    cases hs with
    | acquire h1 h2 =>
      exfalso
      cases hk : p k ((r.at_ n).count k) with
      | unique => rw [hk] at h2; rw [h2 j] at hj; cases hj
      | shared =>
        rw [hk] at h2
        have hka : k = a := Classical.byContradiction fun h => by rw [hp k h] at hk; cases hk
        have hja : j = a := Classical.byContradiction fun h => by
          have := h2 j hj
          rw [hp j h] at this
          cases this
        rw [hka, ← hja, hj] at h1
        cases h1
    | release h1 =>
      intro l
      simp only
      split
      · rfl
      · rename_i hl
        cases hx : (r.at_ n).inside l with
        | false => rfl
        | true => exact absurd ((hone l hx).trans (hone k h1).symm) hl
  · refine ⟨n, le_rfl, able_empty (fun j => ?_) i⟩
    cases hj : (r.at_ n).inside j with
    | false => rfl
    | true => exact (hu ⟨j, hj⟩).elim

/-- One thread that lists the rules, one that adds rules, in turn. -/
def mixed : Prog (Fin 2) := fun i _ => if i = 0 then .shared else .unique

/-- The states of that execution. -/
def inTurn (n : Nat) : State (Fin 2) :=
  match n % 4 with
  | 0 => { count := ![n / 4, n / 4], inside := ![false, false] }
  | 1 => { count := ![n / 4, n / 4], inside := ![true, false] }
  | 2 => { count := ![n / 4 + 1, n / 4], inside := ![false, false] }
  | _ => { count := ![n / 4 + 1, n / 4], inside := ![false, true] }

theorem inTurn_at (q : Nat) :
    inTurn (4 * q) = { count := ![q, q], inside := ![false, false] } ∧
    inTurn (4 * q + 1) = { count := ![q, q], inside := ![true, false] } ∧
    inTurn (4 * q + 2) = { count := ![q + 1, q], inside := ![false, false] } ∧
    inTurn (4 * q + 3) = { count := ![q + 1, q], inside := ![false, true] } := by
  have a0 : 4 * q % 4 = 0 ∧ 4 * q / 4 = q := by omega
  have a1 : (4 * q + 1) % 4 = 1 ∧ (4 * q + 1) / 4 = q := by omega
  have a2 : (4 * q + 2) % 4 = 2 ∧ (4 * q + 2) / 4 = q := by omega
  have a3 : (4 * q + 3) % 4 = 3 ∧ (4 * q + 3) / 4 = q := by omega
  simp [inTurn, a0, a1, a2, a3]

theorem inTurn_step (n : Nat) : Step mixed (if n % 4 < 2 then 0 else 1) (inTurn n) (inTurn (n + 1)) := by
  have acq : ∀ {i : Fin 2} {s t : State (Fin 2)}, s.inside i = false → (∀ j, s.inside j = false) →
      t = { s with inside := fun j => if j = i then true else s.inside j } → Step mixed i s t := by
    rintro i s t h1 h2 rfl
    refine .acquire h1 ?_
    cases mixed i (s.count i) with
    | unique => exact h2
    | shared => intro j hj; rw [h2 j] at hj; cases hj
  have rel : ∀ {i : Fin 2} {s t : State (Fin 2)}, s.inside i = true →
      t = { count := fun j => if j = i then s.count i + 1 else s.count j,
            inside := fun j => if j = i then false else s.inside j } → Step mixed i s t := by
    rintro i s t h1 rfl; exact .release h1
  obtain ⟨q, rfl | rfl | rfl | rfl⟩ : ∃ q, n = 4 * q ∨ n = 4 * q + 1 ∨ n = 4 * q + 2 ∨ n = 4 * q + 3 :=
    ⟨n / 4, by omega⟩
  all_goals obtain ⟨s0, s1, s2, s3⟩ := inTurn_at q
  · rw [s0, s1, if_pos (by omega)]
    refine acq rfl (fun j => by fin_cases j <;> rfl) ?_
    congr 1; funext j; fin_cases j <;> rfl
  · rw [s1, s2, if_pos (by omega)]
    refine rel rfl ?_
    congr 1 <;> (funext j; fin_cases j <;> rfl)
  · rw [s2, s3, if_neg (by omega)]
    refine acq rfl (fun j => by fin_cases j <;> rfl) ?_
    congr 1; funext j; fin_cases j <;> rfl
  · have s4 := (inTurn_at (q + 1)).1
    rw [show 4 * (q + 1) = 4 * q + 3 + 1 by omega] at s4
    rw [s3, s4, if_neg (by omega)]
    refine rel rfl ?_
    congr 1 <;> (funext j; fin_cases j <;> rfl)

/-- Conditions of `C181_one_partial` met with both kinds of calls. -/
example : ∃ r : Run mixed, Served r 0 ∧ Served r 1 := by
  have first : inTurn 0 = start := by
    refine (inTurn_at 0).1.trans ?_
    unfold start
    congr 1 <;> (funext j; fin_cases j <;> rfl)
  let r : Run mixed :=
    { at_ := inTurn, who := fun n => if n % 4 < 2 then 0 else 1, first := first, next := inTurn_step }
  have hf : Fair r := by
    intro i _ n
    fin_cases i
    · exact ⟨4 * n, by omega, if_pos (by omega)⟩
    · exact ⟨4 * n + 2, by omega, if_neg (by omega)⟩
  have hp : ∀ j : Fin 2, j ≠ 0 → ∀ n, mixed j n = .unique := fun j hj n => if_neg hj
  exact ⟨r, C181_one_partial r hf 0 hp 0, C181_one_partial r hf 0 hp 1⟩

/-- Two threads whose calls all share the lock, and one whose first call takes it for itself. -/
structure Crowd (p : Prog (Fin 3)) : Prop where
  first : ∀ n, p 0 n = .shared
  second : ∀ n, p 1 n = .shared
  third : p 2 0 = .unique

/-- The states of the execution: the first thread asks before the second is done, and the other way round. -/
def states : Nat → State (Fin 3)
  | 0 => start
  | n + 1 =>
    match n % 4 with
    | 0 => { count := ![n / 4, n / 4, 0], inside := ![true, false, false] }
    | 1 => { count := ![n / 4, n / 4, 0], inside := ![true, true, false] }
    | 2 => { count := ![n / 4 + 1, n / 4, 0], inside := ![false, true, false] }
    | _ => { count := ![n / 4 + 1, n / 4, 0], inside := ![true, true, false] }

/-- Who takes each step. -/
def turns : Nat → Fin 3
  | 0 => 0
  | n + 1 =>
    match n % 4 with
    | 0 => 1
    | 1 => 0
    | 2 => 0
    | _ => 1

theorem states_at (q : Nat) :
    states (4 * q + 1) = { count := ![q, q, 0], inside := ![true, false, false] } ∧
    states (4 * q + 2) = { count := ![q, q, 0], inside := ![true, true, false] } ∧
    states (4 * q + 3) = { count := ![q + 1, q, 0], inside := ![false, true, false] } ∧
    states (4 * q + 4) = { count := ![q + 1, q, 0], inside := ![true, true, false] } ∧
    turns (4 * q + 1) = 1 ∧ turns (4 * q + 2) = 0 ∧ turns (4 * q + 3) = 0 ∧ turns (4 * q + 4) = 1 := by
  have a0 : 4 * q % 4 = 0 ∧ 4 * q / 4 = q := by omega
  have a1 : (4 * q + 1) % 4 = 1 ∧ (4 * q + 1) / 4 = q := by omega
  have a2 : (4 * q + 2) % 4 = 2 ∧ (4 * q + 2) / 4 = q := by omega
  have a3 : (4 * q + 3) % 4 = 3 ∧ (4 * q + 3) / 4 = q := by omega
  simp [states, turns, a0, a1, a2, a3]

theorem states_step {p : Prog (Fin 3)} (hp : Crowd p) (n : Nat) : Step p (turns n) (states n) (states (n + 1)) := by
  have acq : ∀ {i : Fin 3} {s t : State (Fin 3)}, s.inside i = false → free p s (p i (s.count i)) →
      t = { s with inside := fun j => if j = i then true else s.inside j } → Step p i s t := by
    rintro i s t h1 h2 rfl; exact .acquire h1 h2
  have rel : ∀ {i : Fin 3} {s t : State (Fin 3)}, s.inside i = true →
      t = { count := fun j => if j = i then s.count i + 1 else s.count j,
            inside := fun j => if j = i then false else s.inside j } → Step p i s t := by
    rintro i s t h1 rfl; exact .release h1
  rcases n with _ | n
  · have := (states_at 0).1
    simp only [Nat.mul_zero, Nat.zero_add] at this
    rw [Nat.zero_add, this]
    refine acq rfl ?_ ?_
    · rw [show turns 0 = 0 from rfl, hp.first]
      intro j hj
      cases hj
    · simp only [states, start]
      congr 1 <;> (funext j; fin_cases j <;> rfl)
  · obtain ⟨q, rfl | rfl | rfl | rfl⟩ : ∃ q, n = 4 * q ∨ n = 4 * q + 1 ∨ n = 4 * q + 2 ∨ n = 4 * q + 3 :=
      ⟨n / 4, by omega⟩
    all_goals
      obtain ⟨s1, s2, s3, s4, t1, t2, t3, t4⟩ := states_at q
    · rw [s1, s2, t1]
      refine acq rfl ?_ ?_
      · rw [hp.second]
        intro j hj
        revert hj; fin_cases j <;> simp [hp.first, hp.second]
      · congr 1; funext j; fin_cases j <;> rfl
    · rw [s2, s3, t2]
      refine rel rfl ?_
      congr 1 <;> (funext j; fin_cases j <;> rfl)
    · rw [s3, s4, t3]
      refine acq rfl ?_ ?_
      · rw [hp.first]
        intro j hj
        revert hj; fin_cases j <;> simp [hp.first, hp.second]
      · congr 1; funext j; fin_cases j <;> rfl
    · have s5 := (states_at (q + 1)).1
      rw [show 4 * (q + 1) + 1 = 4 * q + 3 + 1 + 1 by omega] at s5
      rw [s4, s5, t4]
      refine rel rfl ?_
      congr 1 <;> (funext j; fin_cases j <;> rfl)

/-- The execution. -/
def crowded {p : Prog (Fin 3)} (hp : Crowd p) : Run p :=
  { at_ := states, who := turns, first := rfl, next := states_step hp }

theorem crowded_reads (n : Nat) (hn : n ≠ 0) :
    (states n).inside 2 = false ∧ (states n).count 2 = 0 ∧ ∃ j, (states n).inside j = true := by
  obtain ⟨m, rfl⟩ := Nat.exists_eq_succ_of_ne_zero hn
  obtain ⟨q, rfl | rfl | rfl | rfl⟩ : ∃ q, m = 4 * q ∨ m = 4 * q + 1 ∨ m = 4 * q + 2 ∨ m = 4 * q + 3 :=
    ⟨m / 4, by omega⟩
  all_goals obtain ⟨s1, s2, s3, s4, -⟩ := states_at q
  · rw [Nat.succ_eq_add_one, s1]; exact ⟨rfl, rfl, 0, rfl⟩
  · rw [Nat.succ_eq_add_one, s2]; exact ⟨rfl, rfl, 0, rfl⟩
  · rw [Nat.succ_eq_add_one, s3]; exact ⟨rfl, rfl, 1, rfl⟩
  · rw [Nat.succ_eq_add_one, s4]; exact ⟨rfl, rfl, 0, rfl⟩

/-- From the second moment on the thread that adds rules is never able to go on. -/
theorem crowded_unable {p : Prog (Fin 3)} (hp : Crowd p) (n : Nat) (hn : n ≠ 0) : ¬ Able p (states n) 2 := by
  obtain ⟨h1, h0, j, h3⟩ := crowded_reads n hn
  rintro ⟨t, ht⟩
  cases ht with
  | acquire _ h2 =>
    rw [h0, hp.third] at h2
    rw [h2 j] at h3
    cases h3
  | release h => rw [h1] at h; cases h

theorem crowded_fair {p : Prog (Fin 3)} (hp : Crowd p) : Fair (crowded hp) := by
  intro i hi n
  obtain ⟨-, -, -, -, t1, t2, -, -⟩ := states_at n
  fin_cases i
  · exact ⟨4 * n + 2, by omega, t2⟩
  · exact ⟨4 * n + 1, by omega, t1⟩
  · obtain ⟨m, hm, ha⟩ := hi 1
    exact (crowded_unable hp m (by omega) ha).elim

/-- C181 is false, for all calls of these kinds: two threads whose calls share the lock, each asking again before
the other is done, keep a third from ever getting it for itself, though nobody who can go on is passed over. -/
theorem C181_crowd_fails {p : Prog (Fin 3)} (hp : Crowd p) : ∃ r : Run p, Fair r ∧ Served r 0 ∧ Served r 1 ∧
    ¬ Served r 2 ∧ ∀ n, (r.at_ n).count 2 = 0 ∧ (r.at_ n).inside 2 = false := by
  have hz : ∀ n, ((crowded hp).at_ n).count 2 = 0 ∧ ((crowded hp).at_ n).inside 2 = false := by
    intro n
    by_cases hn : n = 0
    · subst hn; exact ⟨rfl, rfl⟩
    · exact ⟨(crowded_reads n hn).2.1, (crowded_reads n hn).1⟩
  refine ⟨crowded hp, crowded_fair hp, C181_shared_partial _ (crowded_fair hp) 0 hp.first,
    C181_shared_partial _ (crowded_fair hp) 1 hp.second, fun h => ?_, hz⟩
  obtain ⟨n, hn⟩ := h 1
  rw [(hz n).1] at hn
  cases hn

/-- The calls of the synchronised enforcer that threads make, and how they take its lock. -/
def Locks (calls : τ → Nat → Call) (p : Prog τ) : Prop := ∀ i n, lockOf (calls i n) = some (p i n)

/-- Two threads that list the rules, one that adds the same rule over and over. -/
def lister : Fin 3 → Nat → Call := fun i _ => if i = 2 then .addPolicy [c!"eve", c!"data1", c!"read"] else .getPolicy

/-- C181 is false for threads that list the rules and one that adds a rule. -/
theorem C181_fails : ¬ ∀ (calls : Fin 3 → Nat → Call) (p : Prog (Fin 3)), Locks calls p →
    ∀ r : Run p, Fair r → ∀ i, Served r i := by
  intro h
  have hp : Crowd fun i _ => if i = 2 then .unique else .shared := ⟨fun _ => rfl, fun _ => rfl, rfl⟩
  obtain ⟨r, hf, -, -, hs, -⟩ := C181_crowd_fails hp
  refine hs (h lister _ (fun i n => ?_) r hf 2)
  unfold lister
  fin_cases i <;> rfl

/-- The execution of the witness meets the conditions of `C181_shared_partial`. -/
example : ∃ (p : Prog (Fin 3)) (r : Run p), Fair r ∧ (∃ n, p 2 n = .unique) ∧ Served r 0 := by
  have hp : Crowd fun i _ => if i = 2 then .unique else .shared := ⟨fun _ => rfl, fun _ => rfl, rfl⟩
  exact ⟨_, crowded hp, crowded_fair hp, ⟨0, rfl⟩, C181_shared_partial _ (crowded_fair hp) 0 hp.first⟩

end StarvingProps
end Casbin
