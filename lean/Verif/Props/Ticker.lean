import Verif.Ticker

/-!
# C53, C54, C86: starting and stopping automatic loading
-/

namespace Casbin
namespace TickerProps

open Ticker

/-! ## What is claimed -/

/-- An execution that goes on for ever. -/
def Forever (s : State) : Prop :=
  ∃ f : Nat → State, f 0 = s ∧ ∀ n, ∃ l, Step (f n) l (f (n + 1))

/-- Nobody can make a step. -/
def Stuck (s : State) : Prop := ∀ l s', ¬ Step s l s'

/-- `stop` took the mutex while the timer loop was between its test of `_running` and taking it. -/
def Crossed (s : State) : Prop := s.stop = .waitTimer ∧ s.timer = .want

/-! ## Lemmas -/

/-- What holds in every state of a ticker. -/
structure Inv (s : State) : Prop where
  timer : s.mutex = some .timer ↔ (s.timer = .inside ∨ s.timer = .sleep)
  stopper : s.mutex = some .stopper ↔ (s.stop = .waitTimer ∨ s.stop = .waitTicks)
  flag : s.running = false ↔ s.stop ≠ .idle
  ended : s.stop = .waitTicks ∨ s.stop = .returned → s.timer = .done
  tasks : s.stop = .returned → ∀ t ∈ s.tasks, t = .finished

theorem inv_start : Inv State.start := by
  constructor <;> simp [State.start]

theorem inv_step {s s' : State} {l : Label} (h : Inv s) (hs : Step s l s') : Inv s' := by
  obtain ⟨h1, h2, h3, h4, h5⟩ := h
  cases hs with
  | testTrue a b =>
    refine ⟨by simp_all, h2, h3, fun h => ?_, fun h => h5 h⟩
    have := h4 h
    rw [a] at this
    cases this
  | testFalse a b => exact ⟨by simp_all, h2, h3, fun h => rfl, fun h => h5 h⟩
  | timerLock a b =>
    refine ⟨by simp, by simp_all, h3, fun h => ?_, fun h => h5 h⟩
    have := h4 h
    rw [a] at this
    cases this
  | launch work a =>
    refine ⟨by simp_all, h2, h3, fun h => ?_, fun h => ?_⟩
    · have := h4 h
      rw [a] at this
      cases this
    · have := h4 (.inr h)
      rw [a] at this
      cases this
  | wake a =>
    have hm : s.mutex = some .timer := h1.2 (.inr a)
    refine ⟨by simp, by simp_all, h3, fun h => ?_, fun h => h5 h⟩
    have := h4 h
    rw [a] at this
    cases this
  | begin a =>
    refine ⟨h1, h2, h3, h4, fun h => ?_⟩
    have := h5 h (.launched _) (a ▸ List.mem_append_right _ (List.mem_cons_self ..))
    cases this
  | work a =>
    refine ⟨h1, h2, h3, h4, fun h => ?_⟩
    have := h5 h (.running _) (a ▸ List.mem_append_right _ (List.mem_cons_self ..))
    cases this
  | finish a =>
    refine ⟨h1, h2, h3, h4, fun h => ?_⟩
    have := h5 h (.running _) (a ▸ List.mem_append_right _ (List.mem_cons_self ..))
    cases this
  | clear a => exact ⟨h1, by simp_all, by simp, by simp, by simp⟩
  | stopLock a b => exact ⟨by simp_all, by simp, by simp_all, by simp, by simp⟩
  | timerEnded a b => exact ⟨h1, by simp_all, by simp_all, fun _ => b, by simp⟩
  | tasksEnded a b =>
    have hd := h4 (.inl a)
    exact ⟨by simp_all, by simp, by simp_all, fun _ => hd, fun _ => b⟩

theorem inv_steps {s s' : State} (h : Inv s) (hs : Steps s s') : Inv s' := by
  induction hs with
  | refl => exact h
  | tail _ h2 ih => exact inv_step ih h2

theorem inv_reach {s : State} (h : Steps State.start s) : Inv s := inv_steps inv_start h

/-- Once called, `stop` is not forgotten. -/
theorem called_step {s s' : State} {l : Label} (hs : Step s l s') (h : s.stop ≠ .idle) :
    s'.stop ≠ .idle := by
  cases hs <;> simp_all

def timerLeft : TimerPc → Nat
  | .want => 4
  | .inside => 3
  | .sleep => 2
  | .test => 1
  | .done => 0

def stopLeft : StopPc → Nat
  | .idle => 4
  | .want => 3
  | .waitTimer => 2
  | .waitTicks => 1
  | .returned => 0

def taskLeft : Task → Nat
  | .launched n => n + 2
  | .running n => n + 1
  | .finished => 0

def workLeft (l : List Task) : Nat := (l.map taskLeft).sum

/-- What is left to do. -/
def left (s : State) : Nat × (Nat × Nat) :=
  (timerLeft s.timer, (stopLeft s.stop, workLeft s.tasks))

/-- Less is left to do. -/
def Less : Nat × (Nat × Nat) → Nat × (Nat × Nat) → Prop :=
  Prod.Lex (· < ·) (Prod.Lex (· < ·) (· < ·))

theorem less_wf : WellFounded Less :=
  (Prod.lex ⟨_, Nat.lt_wfRel.wf⟩ (Prod.lex ⟨_, Nat.lt_wfRel.wf⟩ ⟨_, Nat.lt_wfRel.wf⟩)).wf

theorem left_step {s s' : State} {l : Label} (hi : Inv s) (hc : s.stop ≠ .idle) (hs : Step s l s') :
    Less (left s') (left s) := by
  have hr := hi.flag.2 hc
  cases hs with
  | testTrue a b => rw [hr] at b; cases b
  | testFalse a b => exact Prod.Lex.left _ _ (by simp [a, timerLeft])
  | timerLock a b => exact Prod.Lex.left _ _ (by simp [a, timerLeft])
  | launch work a => exact Prod.Lex.left _ _ (by simp [a, timerLeft])
  | wake a => exact Prod.Lex.left _ _ (by simp [a, timerLeft])
  | begin a =>
    exact Prod.Lex.right _ (Prod.Lex.right _ (by simp [a, workLeft, taskLeft]))
  | work a =>
    exact Prod.Lex.right _ (Prod.Lex.right _ (by simp [a, workLeft, taskLeft]))
  | finish a =>
    exact Prod.Lex.right _ (Prod.Lex.right _ (by simp [a, workLeft, taskLeft]))
  | clear a => exact absurd a hc
  | stopLock a b => exact Prod.Lex.right _ (Prod.Lex.left _ _ (by simp [a, stopLeft]))
  | timerEnded a b => exact Prod.Lex.right _ (Prod.Lex.left _ _ (by simp [a, stopLeft]))
  | tasksEnded a b => exact Prod.Lex.right _ (Prod.Lex.left _ _ (by simp [a, stopLeft]))

theorem crossed_step {s s' : State} {l : Label} (hi : Inv s) (h : Crossed s) (hs : Step s l s') :
    Crossed s' := by
  obtain ⟨h1, h2⟩ := h
  have hm : s.mutex = some .stopper := hi.stopper.2 (.inl h1)
  cases hs <;> simp_all [Crossed]

theorem crossed_steps {s s' : State} (hi : Inv s) (h : Crossed s) (hs : Steps s s') :
    Crossed s' := by
  induction hs with
  | refl => exact h
  | tail h1 h2 ih => exact crossed_step (inv_steps hi h1) ih h2

theorem same_after {s s' : State} {l : Label} (hi : Inv s) (h : s.stop = .returned)
    (hs : Step s l s') :
    s'.stop = .returned ∧ s'.tasks.length = s.tasks.length ∧ l ≠ .begin := by
  have ht := hi.ended (.inr h)
  have hd := hi.tasks h
  cases hs with
  | begin a => cases hd (.launched _) (a ▸ List.mem_append_right _ (List.mem_cons_self ..))
  | work a => cases hd (.running _) (a ▸ List.mem_append_right _ (List.mem_cons_self ..))
  | finish a => cases hd (.running _) (a ▸ List.mem_append_right _ (List.mem_cons_self ..))
  | _ => simp_all

/-! ## C53 -/

/-- C53 is violated: there is a schedule after which `stop` holds the mutex that the timer loop wants
while it waits for the timer loop, and whatever happens then it never returns. -/
theorem C53_fails : ∃ s, Steps State.start s ∧ s.stop = .waitTimer ∧
    ∀ s', Steps s s' → s'.stop ≠ .returned := by
  have h1 : Steps State.start _ := .tail .refl (.testTrue rfl rfl)
  have h2 := Steps.tail h1 (.clear rfl)
  have h3 := Steps.tail h2 (.stopLock rfl rfl)
  refine ⟨_, h3, rfl, fun s' hs h => ?_⟩
  have := (crossed_steps (inv_reach h3) ⟨rfl, rfl⟩ hs).1
  rw [h] at this
  cases this

/-- C53 otherwise: once `stop` has been called, no schedule goes on for ever, and when nobody can make a
step any more then `stop` has returned, or it took the mutex in the window of `C53_fails`. Missing:
that this window is avoided, which is false. -/
theorem C53_partial {s : State} (hr : Steps State.start s) (hc : s.stop ≠ .idle) :
    ¬ Forever s ∧ ∀ s', Steps s s' → Stuck s' → s'.stop = .returned ∨ Crossed s' := by
  constructor
  · rintro ⟨f, hf, hs⟩
    have hi : ∀ n, Inv (f n) ∧ (f n).stop ≠ .idle := by
      intro n
      induction n with
      | zero => rw [hf]; exact ⟨inv_reach hr, hc⟩
      | succ n ih =>
        obtain ⟨l, h⟩ := hs n
        exact ⟨inv_step ih.1 h, called_step h ih.2⟩
    have key : ∀ m, ∀ n, left (f n) = m → False := by
      intro m
      induction m using less_wf.induction with
      | _ m ih =>
        intro n hn
        obtain ⟨l, h⟩ := hs n
        exact ih _ (hn ▸ left_step (hi n).1 (hi n).2 h) (n + 1) rfl
    exact key _ 0 rfl
  · intro s' hs hst
    have hi := inv_steps (inv_reach hr) hs
    have hc' : s'.stop ≠ .idle := by
      clear hi hst
      induction hs with
      | refl => exact hc
      | tail _ h2 ih => exact called_step h2 ih
    have hrun := hi.flag.2 hc'
    -- the timer loop can always go on, unless it waits for the mutex
    cases ht : s'.timer with
    | test => exact absurd (.testFalse ht hrun) (hst _ _)
    | inside => exact absurd (.launch 0 ht) (hst _ _)
    | sleep => exact absurd (.wake ht) (hst _ _)
    | want =>
      have hm : s'.mutex = some .stopper := by
        rcases hm : s'.mutex with _ | ⟨_ | _⟩
        · exact absurd (.timerLock ht hm) (hst _ _)
        · have := hi.timer.1 hm
          rw [ht] at this
          rcases this with h | h <;> cases h
        · rfl
      rcases hi.stopper.1 hm with h | h
      · exact .inr ⟨h, ht⟩
      · have := hi.ended (.inl h)
        rw [ht] at this
        cases this
    | done =>
      have hm : s'.mutex ≠ some .timer := fun h => by
        have := hi.timer.1 h
        rw [ht] at this
        rcases this with h | h <;> cases h
      cases hp : s'.stop with
      | idle => exact absurd hp hc'
      | want =>
        rcases hm' : s'.mutex with _ | ⟨_ | _⟩
        · exact absurd (.stopLock hp hm') (hst _ _)
        · exact absurd hm' hm
        · have := hi.stopper.1 hm'
          rw [hp] at this
          rcases this with h | h <;> cases h
      | waitTimer => exact absurd (.timerEnded hp ht) (hst _ _)
      | waitTicks =>
        refine absurd (.tasksEnded hp ?_) (hst _ _)
        intro t hmem
        obtain ⟨k, l, he⟩ := List.append_of_mem hmem
        cases t with
        | finished => rfl
        | launched n => exact absurd (.begin he) (hst _ _)
        | running n =>
          cases n with
          | zero => exact absurd (.finish he) (hst _ _)
          | succ n => exact absurd (.work he) (hst _ _)
      | returned => exact .inl rfl

/-- A ticker that launched a task and was then asked to stop while it slept. -/
def asleep : State := ⟨false, some .timer, .sleep, .want, [.launched 1]⟩

theorem asleep_reach : Steps State.start asleep :=
  .tail (.tail (.tail (.tail .refl (.testTrue rfl rfl)) (.timerLock rfl rfl)) (.launch 1 rfl))
    (.clear rfl)

/-- From there `stop` gets through: the loop ends, the task is run to its end. -/
example : ∃ s, Steps asleep s ∧ s.stop = .returned ∧ s.tasks = [.finished] := by
  have h1 := Steps.tail (.refl (s := asleep)) (.wake rfl)
  have h2 := Steps.tail h1 (.stopLock rfl rfl)
  have h3 := Steps.tail h2 (.testFalse rfl rfl)
  have h4 := Steps.tail h3 (.timerEnded rfl rfl)
  have h5 := Steps.tail h4 (.begin (k := []) rfl)
  have h6 := Steps.tail h5 (.work (k := []) rfl)
  have h7 := Steps.tail h6 (.finish (k := []) rfl)
  exact ⟨_, .tail h7 (.tasksEnded rfl (by simp)), rfl, rfl⟩

example : ¬ Forever asleep ∧
    ∀ s', Steps asleep s' → Stuck s' → s'.stop = .returned ∨ Crossed s' :=
  C53_partial asleep_reach (by simp [asleep])

/-- The next step of the timer loop while nobody stops it. -/
def onward (s : State) : State :=
  match s.timer with
  | .test => { s with timer := .want }
  | .want => { s with timer := .inside, mutex := some .timer }
  | .inside => { s with timer := .sleep, tasks := s.tasks ++ [.launched 0] }
  | .sleep => { s with timer := .test, mutex := none }
  | .done => s

/-- Before `stop` is called the loop may go on for ever: the hypothesis of `C53_partial` matters. -/
example : Forever State.start := by
  have key : ∀ n, (Nat.repeat onward n State.start).running = true ∧
      (Nat.repeat onward n State.start).timer ≠ .done ∧
      ((Nat.repeat onward n State.start).timer = .test ∨
        (Nat.repeat onward n State.start).timer = .want →
        (Nat.repeat onward n State.start).mutex = none) := by
    intro n
    induction n with
    | zero => simp [Nat.repeat, State.start]
    | succ n ih =>
      obtain ⟨h1, h2, h3⟩ := ih
      simp only [Nat.repeat]
      generalize Nat.repeat onward n State.start = s at *
      cases ht : s.timer <;> simp_all [onward]
  refine ⟨fun n => Nat.repeat onward n State.start, rfl, fun n => ⟨.other, ?_⟩⟩
  obtain ⟨h1, h2, h3⟩ := key n
  simp only [Nat.repeat]
  generalize Nat.repeat onward n State.start = s at *
  cases ht : s.timer <;> simp only [onward, ht]
  · exact .testTrue ht h1
  · exact .timerLock ht (h3 (.inr ht))
  · exact .launch 0 ht
  · exact .wake ht
  · exact absurd ht h2

/-! ## C54 -/

/-- C54: once `stop` has returned, no task of the ticker ever begins, none is under way, and none is
launched. -/
theorem C54_no_reload {s s₁ s₂ : State} {l : Label} (hr : Steps State.start s)
    (h : s.stop = .returned) (h1 : Steps s s₁) (h2 : Step s₁ l s₂) :
    l ≠ .begin ∧ (∀ t ∈ s₁.tasks, t = .finished) ∧ s₂.tasks.length = s.tasks.length := by
  have hstop : s₁.stop = .returned ∧ s₁.tasks.length = s.tasks.length := by
    clear h2
    induction h1 with
    | refl => exact ⟨h, rfl⟩
    | tail ha hb ih =>
      have hi := inv_steps (inv_reach hr) ha
      exact ⟨(same_after hi ih.1 hb).1, (same_after hi ih.1 hb).2.1.trans ih.2⟩
  have hi := inv_steps (inv_reach hr) h1
  exact ⟨(same_after hi hstop.1 h2).2.2, hi.tasks hstop.1, (same_after hi hstop.1 h2).2.1.trans hstop.2⟩

/-- The ticker of the example above after `stop` has returned. -/
def stopped : State := ⟨false, none, .done, .returned, [.finished]⟩

theorem stopped_reach : Steps State.start stopped := by
  have h1 := Steps.tail asleep_reach (.wake rfl)
  have h2 := Steps.tail h1 (.stopLock rfl rfl)
  have h3 := Steps.tail h2 (.testFalse rfl rfl)
  have h4 := Steps.tail h3 (.timerEnded rfl rfl)
  have h5 := Steps.tail h4 (.begin (k := []) rfl)
  have h6 := Steps.tail h5 (.work (k := []) rfl)
  have h7 := Steps.tail h6 (.finish (k := []) rfl)
  exact .tail h7 (.tasksEnded rfl (by simp))

example {s₁ s₂ : State} {l : Label} (h1 : Steps stopped s₁) (h2 : Step s₁ l s₂) :
    l ≠ .begin ∧ (∀ t ∈ s₁.tasks, t = .finished) ∧ s₂.tasks.length = 1 :=
  C54_no_reload stopped_reach rfl h1 h2

/-- While `stop` waits a task may still begin: it is the return of `stop` that matters. -/
example : ∃ s s', Steps State.start s ∧ s.stop = .waitTicks ∧ Step s .begin s' := by
  have h1 := Steps.tail asleep_reach (.wake rfl)
  have h2 := Steps.tail h1 (.stopLock rfl rfl)
  have h3 := Steps.tail h2 (.testFalse rfl rfl)
  have h4 := Steps.tail h3 (.timerEnded rfl rfl)
  exact ⟨_, _, h4, rfl, .begin (k := []) rfl⟩

/-! ## C86 -/

/-- A call of one of the two methods that control automatic loading. -/
inductive Ask
  | start
  | stop
  deriving DecidableEq, Repr

/-- The calls one after another. -/
def run : List Ask → M AutoLoad Unit
  | [] => pure ()
  | .start :: l => do
    let _ ← AutoLoad.start
    run l
  | .stop :: l => do
    AutoLoad.stop
    run l

/-- C86 is violated: `StopAutoLoadPolicy` on an enforcer that never loaded automatically dereferences
a null pointer. -/
theorem C86_fails : ∃ l, (run l AutoLoad.new).1 = .ub .nullDeref := ⟨[.stop], rfl⟩

/-- The flag that `IsAutoLoadingRunning` should show: whether the last call was a start. -/
def LoadsAfter (l : List Ask) : Bool := l.getLast? == some .start

theorem run_ticker (l : List Ask) (a : AutoLoad) (ha : a.ticker = true) :
    (run l a).1 = .ok () ∧
      (run l a).2 = ⟨if l = [] then a.running else LoadsAfter l, true⟩ := by
  induction l generalizing a with
  | nil => obtain ⟨r, t⟩ := a; cases ha; exact ⟨rfl, rfl⟩
  | cons c l ih =>
    obtain ⟨r, t⟩ := a
    cases ha
    cases c with
    | start =>
      have h : run (.start :: l) ⟨r, true⟩ = run l ⟨true, true⟩ := by
        cases r <;> rfl
      rw [h]
      refine ⟨(ih _ rfl).1, (ih _ rfl).2.trans ?_⟩
      cases l <;> simp [LoadsAfter, List.getLast?_cons]
    | stop =>
      have h : run (.stop :: l) ⟨r, true⟩ = run l ⟨false, true⟩ := by
        cases r <;> rfl
      rw [h]
      refine ⟨(ih _ rfl).1, (ih _ rfl).2.trans ?_⟩
      cases l <;> simp [LoadsAfter, List.getLast?_cons]

/-- C86 otherwise: any sequence of starts and stops whose first call is a start is safe, and
afterwards the flag says whether the last call was a start. Missing: sequences that begin with a stop,
for which it is false. -/
theorem C86_partial (l : List Ask) : (run (.start :: l) AutoLoad.new).1 = .ok () ∧
    (run (.start :: l) AutoLoad.new).2.running = LoadsAfter (.start :: l) := by
  have h : run (.start :: l) AutoLoad.new = run l ⟨true, true⟩ := by
    rfl
  have hr := run_ticker l ⟨true, true⟩ rfl
  rw [h]
  refine ⟨hr.1, ?_⟩
  rw [hr.2]
  cases l <;> simp [LoadsAfter, List.getLast?_cons]

example : (run [.start, .start, .stop] AutoLoad.new).2.running = false := (C86_partial [.start, .stop]).2
example : (run [.start, .stop, .start] AutoLoad.new).2.running = true := (C86_partial [.stop, .start]).2

end TickerProps
end Casbin
