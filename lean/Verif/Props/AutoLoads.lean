import Verif.Props.Ticker

/-!
# C148: automatic loads one at a time
-/

namespace Casbin
namespace TickerProps

open Ticker

/-- The automatic loads that are launched and not finished. -/
def unfinished (s : State) : Nat := s.tasks.countP fun t => t ≠ .finished

/-- Executions in which a load is finished before the interval after it ends. -/
inductive InTime : State → State → Prop
  | refl {s : State} : InTime s s
  | tail {s s' s'' : State} {l : Label} : InTime s s' → Step s' l s'' →
      (s'.timer = .sleep → s''.timer = .test → ∀ t ∈ s'.tasks, t = .finished) → InTime s s''

theorem InTime.steps {s s' : State} (h : InTime s s') : Steps s s' := by
  induction h with
  | refl => exact .refl
  | tail _ h _ ih => exact .tail ih h

theorem countP_done {l : List Task} (h : ∀ t ∈ l, t = .finished) :
    l.countP (fun t => t ≠ .finished) = 0 := by
  rw [List.countP_eq_zero]
  intro t ht
  simp [h t ht]

/-- What holds when the loads are in time: while the timer does not sleep, or not yet, all are
finished, and else all but one. -/
def OneAtMost (s : State) : Prop :=
  unfinished s ≤ 1 ∧
    (s.timer = .want ∨ s.timer = .inside ∨ s.timer = .test → unfinished s = 0)

theorem one_step {s s' : State} {l : Label} (h : OneAtMost s) (hs : Step s l s')
    (hw : s.timer = .sleep → s'.timer = .test → ∀ t ∈ s.tasks, t = .finished) : OneAtMost s' := by
  obtain ⟨h1, h2⟩ := h
  cases hs with
  | testTrue a b => exact ⟨h1, fun _ => h2 (.inr (.inr a))⟩
  | testFalse a b => exact ⟨h1, by simp⟩
  | timerLock a b => exact ⟨h1, fun _ => h2 (.inl a)⟩
  | launch work a =>
    have h0 : s.tasks.countP (fun t => t ≠ .finished) = 0 := h2 (.inr (.inl a))
    refine ⟨?_, by simp⟩
    simp only [unfinished, List.countP_append, h0]
    simp
  | wake a =>
    have h0 : unfinished s = 0 := countP_done (hw a rfl)
    exact ⟨h1, fun _ => h0⟩
  | @begin k n l a =>
    have e : unfinished { s with tasks := k ++ .running n :: l } = unfinished s := by
      simp [unfinished, a]
    exact ⟨e ▸ h1, fun h => e ▸ h2 h⟩
  | @work k n l a =>
    have e : unfinished { s with tasks := k ++ .running n :: l } = unfinished s := by
      simp [unfinished, a]
    exact ⟨e ▸ h1, fun h => e ▸ h2 h⟩
  | @finish k l a =>
    have e : unfinished { s with tasks := k ++ .finished :: l } + 1 = unfinished s := by
      simp [unfinished, a]
      omega
    exact ⟨by omega, fun h => by have := h2 h; omega⟩
  | clear a => exact ⟨h1, h2⟩
  | stopLock a b => exact ⟨h1, h2⟩
  | timerEnded a b => exact ⟨h1, h2⟩
  | tasksEnded a b => exact ⟨h1, h2⟩

/-- C148 (partial): as long as every load is finished before the next tick, at most one is under way,
and when one begins all others are finished. Missing: loads that take longer than the interval
(`C148_fails`), and what finished ones leave behind (`C148_kept_fails`). -/
theorem C148_in_time_partial {s : State} (h : InTime State.start s) :
    unfinished s ≤ 1 ∧ ∀ {s' : State}, Step s .begin s' →
      ∃ k l n, s.tasks = k ++ .launched n :: l ∧ s'.tasks = k ++ .running n :: l ∧
        ∀ t ∈ k ++ l, t = .finished := by
  have hone : OneAtMost s := by
    induction h with
    | refl => exact ⟨by decide, fun _ => by decide⟩
    | tail _ hs hw ih => exact one_step ih hs hw
  refine ⟨hone.1, fun hs => ?_⟩
  cases hs with
  | @begin k n l a =>
    refine ⟨k, l, n, a, rfl, ?_⟩
    have h1 := hone.1
    simp only [unfinished, a, List.countP_append, List.countP_cons] at h1
    have h0 : (k ++ l).countP (fun t => decide (t ≠ .finished)) = 0 := by
      rw [List.countP_append]
      simp only [ne_eq, reduceCtorEq, not_false_eq_true, decide_true, if_true] at h1 ⊢
      omega
    rw [List.countP_eq_zero] at h0
    intro t ht
    simpa using h0 t ht

/-- One round of the timer loop. -/
theorem round {s : State} (h : Steps State.start s) (h1 : s.timer = .test) (h2 : s.mutex = none)
    (h3 : s.running = true) (n : Nat) :
    Steps State.start { s with tasks := s.tasks ++ [.launched n] } := by
  have a1 := Steps.tail h (.testTrue h1 h3)
  have a2 := Steps.tail a1 (.timerLock rfl h2)
  have a3 := Steps.tail a2 (.launch n rfl)
  have a4 := Steps.tail a3 (.wake rfl)
  obtain ⟨r, m, t, st, ts⟩ := s
  simp only at h1 h2 h3
  subst h1 h2 h3
  exact a4

/-- C148 is violated: any number of loads can be under way at once, since the timer does not wait for
the last one before it launches the next. -/
theorem C148_fails (n : Nat) : ∃ s, Steps State.start s ∧ s.running = true ∧
    s.tasks = List.replicate n (.running 1) := by
  suffices h : Steps State.start { State.start with tasks := List.replicate n (.running 1) } from
    ⟨_, h, rfl, rfl⟩
  induction n with
  | zero => exact .refl
  | succ n ih =>
    have a := round ih rfl rfl rfl 1
    have b := Steps.tail a (.begin (k := List.replicate n (.running 1)) rfl)
    rw [List.replicate_succ']
    exact b

/-- C148 is violated: every load leaves a finished task behind (`_futures2` is never emptied), so a
ticker grows for as long as it runs. -/
theorem C148_kept_fails (n : Nat) : ∃ s, InTime State.start s ∧ s.running = true ∧
    s.tasks = List.replicate n .finished := by
  suffices h : InTime State.start { State.start with tasks := List.replicate n .finished } from
    ⟨_, h, rfl, rfl⟩
  induction n with
  | zero => exact .refl
  | succ n ih =>
    have a1 := InTime.tail ih (.testTrue rfl rfl) (by simp)
    have a2 := InTime.tail a1 (.timerLock rfl rfl) (by simp)
    have a3 := InTime.tail a2 (.launch 0 rfl) (by simp)
    have a4 := InTime.tail a3 (.begin (k := List.replicate n .finished) rfl) (by simp)
    have a5 := InTime.tail a4 (.finish (k := List.replicate n .finished) rfl) (by simp)
    have a6 := InTime.tail a5 (.wake rfl) (by
      intro _ _ t ht
      simp only [List.mem_append, List.mem_replicate, List.mem_cons, List.not_mem_nil, or_false] at ht
      rcases ht with ⟨_, rfl⟩ | rfl <;> rfl)
    rw [List.replicate_succ']
    exact a6

/-- C148, the ticks: a load is launched by the timer only, one in each round, and is never launched
again or forgotten. -/
theorem C148_ticks {s s' : State} {l : Label} (h : Step s l s') :
    (s'.tasks.length = s.tasks.length ∧ (s.timer = .inside → s'.timer = .inside)) ∨
      (s.timer = .inside ∧ s'.timer = .sleep ∧ ∃ n, s'.tasks = s.tasks ++ [.launched n]) := by
  cases h with
  | launch work a => exact .inr ⟨a, rfl, work, rfl⟩
  | begin a => exact .inl ⟨by simp [a], id⟩
  | work a => exact .inl ⟨by simp [a], id⟩
  | finish a => exact .inl ⟨by simp [a], id⟩
  | testTrue a b => exact .inl ⟨rfl, by simp [a]⟩
  | testFalse a b => exact .inl ⟨rfl, by simp [a]⟩
  | timerLock a b => exact .inl ⟨rfl, by simp [a]⟩
  | wake a => exact .inl ⟨rfl, by simp [a]⟩
  | clear a => exact .inl ⟨rfl, id⟩
  | stopLock a b => exact .inl ⟨rfl, id⟩
  | timerEnded a b => exact .inl ⟨rfl, id⟩
  | tasksEnded a b => exact .inl ⟨rfl, id⟩

/-- Non-vacuity of C148: the second of two loads that are in time begins when the first is finished. -/
example : ∃ s s', InTime State.start s ∧ Step s .begin s' ∧
    s'.tasks = [.finished, .running 3] := by
  have h' : InTime State.start { State.start with tasks := [.finished] } := by
    have a1 := InTime.tail .refl (.testTrue rfl rfl : Step State.start _ _) (by simp)
    have a2 := InTime.tail a1 (.timerLock rfl rfl) (by simp)
    have a3 := InTime.tail a2 (.launch 0 rfl) (by simp)
    have a4 := InTime.tail a3 (.begin (k := []) rfl) (by simp)
    have a5 := InTime.tail a4 (.finish (k := []) rfl) (by simp)
    exact InTime.tail a5 (.wake rfl) (by simp)
  have a1 := InTime.tail h' (.testTrue rfl rfl) (by simp)
  have a2 := InTime.tail a1 (.timerLock rfl rfl) (by simp)
  have a3 := InTime.tail a2 (.launch 3 rfl) (by simp)
  exact ⟨_, _, a3, .begin (k := [.finished]) rfl, rfl⟩

end TickerProps
end Casbin
