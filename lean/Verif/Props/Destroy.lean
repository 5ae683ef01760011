import Verif.Destroy
import Verif.Props.Ticker

/-!
# C155: destroying a synced enforcer that is loading automatically

The property: after the destruction begins nothing uses a part of the enforcer that is destroyed, and
the destructor returns.
-/

namespace Casbin
namespace DestroyProps

open Destroy

/-! ## What is claimed -/

/-- Whatever a task uses is destroyed after the ticker. -/
def TickerFirst (order : List Part) : Prop :=
  ∀ pre p post, order = pre ++ p :: post → p ∈ usedByTask → Part.ticker ∈ pre

/-- Nothing is under way: the timer loop has ended and every task is finished. -/
def Quiet (s : Destroy.State) : Prop :=
  ∀ t, s.tick = some t → t.timer = .done ∧ ∀ x ∈ t.tasks, x = .finished

/-- An execution that goes on for ever. -/
def Forever (order : List Part) (s : Destroy.State) : Prop :=
  ∃ f : Nat → Destroy.State, f 0 = s ∧ ∀ n, Destroy.Step order (f n) (f (n + 1))

/-- Nobody can make a step. -/
def Stuck (order : List Part) (s : Destroy.State) : Prop := ∀ s', ¬ Destroy.Step order s s'

/-! ## Helpers -/

/-- What holds in every state. -/
structure Inv (order : List Part) (s : Destroy.State) : Prop where
  reach : ∀ t, s.tick = some t → Ticker.Steps .start t
  before : s.todo = none → s.gone = []
  cut : ∀ ps, s.todo = some ps → order = s.gone.reverse ++ ps
  rest : Part.ticker ∈ s.gone → AtRest s

theorem inv_new (order : List Part) : Inv order .new :=
  ⟨by simp [State.new], fun _ => rfl, by simp [State.new], by simp [State.new]⟩

/-- A ticker that has been stopped makes no step. -/
theorem no_step {t t' : Ticker.State} {l : Ticker.Label} (hr : Ticker.Steps .start t)
    (h : t.stop = .returned) : ¬ Ticker.Step t l t' := by
  intro hs
  have hi := TickerProps.inv_reach hr
  have hd := hi.ended (.inr h)
  have ht := hi.tasks h
  cases hs with
  | begin a => cases ht (.launched _) (a ▸ List.mem_append_right _ (List.mem_cons_self ..))
  | work a => cases ht (.running _) (a ▸ List.mem_append_right _ (List.mem_cons_self ..))
  | finish a => cases ht (.running _) (a ▸ List.mem_append_right _ (List.mem_cons_self ..))
  | testTrue a => rw [hd] at a; cases a
  | testFalse a => rw [hd] at a; cases a
  | timerLock a => rw [hd] at a; cases a
  | launch w a => rw [hd] at a; cases a
  | wake a => rw [hd] at a; cases a
  | clear a => rw [h] at a; cases a
  | stopLock a => rw [h] at a; cases a
  | timerEnded a => rw [h] at a; cases a
  | tasksEnded a => rw [h] at a; cases a

theorem inv_step {order : List Part} {s s' : Destroy.State} (h : Inv order s)
    (hs : Destroy.Step order s s') : Inv order s' := by
  obtain ⟨h1, h2, h3, h4⟩ := h
  cases hs with
  | @thread t t' l ht hst _ =>
    refine ⟨?_, h2, h3, ?_⟩
    · intro u hu; cases hu; exact .tail (h1 _ ht) hst
    · intro hg; exact absurd hst (no_step (h1 _ ht) (h4 hg _ ht))
  | start hn hr =>
    refine ⟨?_, h2, h3, ?_⟩
    · intro u hu; cases hu; exact .refl
    · intro hg
      simp only [h2 hn] at hg
      cases hg
  | stop hn ht hi hst hc =>
    refine ⟨?_, h2, h3, ?_⟩
    · intro u hu; cases hu; exact .tail (h1 _ ht) hst
    · intro hg; exact absurd hst (no_step (h1 _ ht) (h4 hg _ ht))
  | destroy hn hq =>
    refine ⟨h1, by simp, ?_, h4⟩
    intro ps hps
    simp only [Option.some.injEq] at hps
    rw [h2 hn, hps]; rfl
  | tickerStop hn ht hi hst hc =>
    refine ⟨?_, h2, h3, ?_⟩
    · intro u hu; cases hu; exact .tail (h1 _ ht) hst
    · intro hg; exact absurd hst (no_step (h1 _ ht) (h4 hg _ ht))
  | ticker hn hr =>
    refine ⟨h1, by simp, ?_, fun _ => hr⟩
    intro ps hps
    simp only [Option.some.injEq] at hps
    subst hps
    rw [h3 _ hn]
    simp
  | part hn hne =>
    refine ⟨h1, by simp, ?_, ?_⟩
    · intro ps hps
      simp only [Option.some.injEq] at hps
      subst hps
      rw [h3 _ hn]
      simp
    · intro hg
      rcases List.mem_cons.mp hg with h | h
      · exact absurd h.symm hne
      · exact h4 h

theorem inv_steps {order : List Part} {s s' : Destroy.State} (h : Inv order s)
    (hs : Destroy.Steps order s s') : Inv order s' := by
  induction hs with
  | refl => exact h
  | tail _ h2 ih => exact inv_step ih h2

theorem steps_trans {order : List Part} {s s' s'' : Destroy.State} (h : Destroy.Steps order s s')
    (h' : Destroy.Steps order s' s'') : Destroy.Steps order s s'' := by
  induction h' with
  | refl => exact h
  | tail _ h2 ih => exact .tail ih h2

theorem fault_step {order : List Part} (ho : TickerFirst order) {s s' : Destroy.State}
    (h : Inv order s) (hf : s.fault = false) (hs : Destroy.Step order s s') : s'.fault = false := by
  cases hs with
  | @thread t t' l ht hst _ =>
    have hnt : Part.ticker ∉ s.gone := fun hg => no_step (h.reach _ ht) (h.rest hg _ ht) hst
    simp only [hf, Bool.false_or]
    unfold bad
    split
    · rw [Bool.eq_false_iff]
      intro hany
      obtain ⟨p, hp, hpg⟩ := List.any_eq_true.mp hany
      simp only [decide_eq_true_eq] at hpg
      cases hn : s.todo with
      | none => rw [h.before hn] at hpg; cases hpg
      | some ps =>
        have hc := h.cut _ hn
        obtain ⟨a, b, hab⟩ := List.append_of_mem hpg
        have := ho b.reverse p (a.reverse ++ ps) (by rw [hc, hab]; simp) hp
        refine hnt ?_
        rw [hab]
        simp only [List.mem_reverse] at this
        simp [this]
    · simp [hnt]
  | start => exact hf
  | stop => exact hf
  | destroy => exact hf
  | tickerStop => exact hf
  | ticker => exact hf
  | part => exact hf

/-- Destroying parts other than the ticker. -/
theorem destroy_parts {order : List Part} (pre : List Part) : ∀ {s : Destroy.State} {ps : List Part},
    s.todo = some (pre ++ ps) → Part.ticker ∉ pre →
    Destroy.Steps order s { s with todo := some ps, gone := pre.reverse ++ s.gone } := by
  induction pre with
  | nil => intro s ps h _; obtain ⟨a, b, c, d⟩ := s; simp only [List.nil_append] at h; subst h; exact .refl
  | cons p pre ih =>
    intro s ps h hn
    have h1 : Destroy.Step order s { s with todo := some (pre ++ ps), gone := p :: s.gone } :=
      .part h (fun hp => hn (by simp [hp]))
    refine steps_trans (.tail .refl h1) ?_
    have := ih (s := { s with todo := some (pre ++ ps), gone := p :: s.gone }) (ps := ps) rfl
      (fun hp => hn (by simp [hp]))
    simpa using this

/-- Automatic loading has launched a task. -/
def loading : Ticker.State := ⟨true, some .timer, .sleep, .idle, [.launched 0]⟩

theorem loading_reach : Ticker.Steps .start loading :=
  .tail (.tail (.tail .refl (.testTrue rfl rfl)) (.timerLock rfl rfl)) (.launch 0 rfl)

/-- The enforcer after `StartAutoLoadPolicy`, with one task launched. -/
def busy : Destroy.State := { Destroy.State.new with tick := some loading }

theorem busy_reach (order : List Part) : Destroy.Steps order .new busy := by
  have h1 : Destroy.Steps order .new { Destroy.State.new with tick := some .start } :=
    .tail .refl (.start rfl (by simp [AtRest, State.new]))
  have h2 := Destroy.Steps.tail h1 (.thread rfl (.testTrue rfl rfl) (.inl rfl))
  have h3 := Destroy.Steps.tail h2 (.thread rfl (.timerLock rfl rfl) (.inl rfl))
  have h4 := Destroy.Steps.tail h3 (.thread rfl (.launch 0 rfl) (.inl rfl))
  exact h4

/-- What the destructor of `busy` has before it. -/
theorem busy_destroy (order : List Part) :
    Destroy.Steps order .new { busy with todo := some order } :=
  .tail (busy_reach order) (.destroy rfl (by simp [busy, loading]))

/-! ## C155 -/

/-- C155: a class that holds the ticker is destroyed without a use of destroyed memory, however its
threads are scheduled, just if the ticker comes before everything that the tasks use. -/
theorem C155_order (order : List Part) :
    (∀ s, Destroy.Steps order .new s → s.fault = false) ↔ TickerFirst order := by
  constructor
  · intro h pre p post ho hp
    refine Classical.byContradiction fun hn => ?_
    have hpt : p ≠ .ticker := by rintro rfl; simp [usedByTask] at hp
    have h1 := busy_destroy order
    have h2 := steps_trans h1 (destroy_parts (pre ++ [p]) (ps := post) (by simp [ho])
      (by simp [hn, hpt.symm]))
    have h3 := h _ (.tail h2 (.thread (t := loading) rfl (.begin (k := []) rfl) (.inl rfl)))
    rw [Bool.or_eq_false_iff] at h3
    have h4 := h3.2
    simp only [bad, ofTask] at h4
    rw [if_pos (by simp)] at h4
    rw [Bool.eq_false_iff, Ne, List.any_eq_true] at h4
    exact h4 ⟨p, hp, by simp⟩
  · intro ho s hs
    have key : Inv order s ∧ s.fault = false := by
      induction hs with
      | refl => exact ⟨inv_new order, rfl⟩
      | tail _ h2 ih => exact ⟨inv_step ih.1 h2, fault_step ho ih.1 ih.2 h2⟩
    exact key.2

theorem whole_first : TickerFirst whole := by
  intro pre p post h hp
  cases pre with
  | nil =>
    simp only [whole, parts, List.reverse_cons, List.reverse_nil, List.nil_append, List.cons_append,
      List.cons.injEq] at h
    rw [← h.1] at hp
    simp [usedByTask] at hp
  | cons a l =>
    simp only [whole, parts, List.reverse_cons, List.reverse_nil, List.nil_append, List.cons_append,
      List.cons.injEq] at h
    simp [← h.1]

/-- C155 for the class as it is declared: nothing destroyed is used, and when the destructor is done
every part is destroyed and no thread of the enforcer is left. -/
theorem C155_safe {s : Destroy.State} (hs : Destroy.Steps whole .new s) :
    s.fault = false ∧ (s.todo = some [] → s.gone = parts ∧ Quiet s) := by
  refine ⟨(C155_order whole).mpr whole_first s hs, fun hd => ?_⟩
  have hi := inv_steps (inv_new whole) hs
  have hg : s.gone = parts := by
    have := hi.cut _ hd
    rw [List.append_nil] at this
    have := congrArg List.reverse this
    simpa [whole] using this.symm
  refine ⟨hg, fun t ht => ?_⟩
  have hr := hi.rest (by simp [hg, parts]) t ht
  have hti := TickerProps.inv_reach (hi.reach t ht)
  exact ⟨hti.ended (.inr hr), hti.tasks hr⟩

/-- A whole run: an enforcer with a task under way is destroyed; the task is run to its end first. -/
example : ∃ s, Destroy.Steps whole .new s ∧ s.todo = some [] ∧
    s.tick = some ⟨false, none, .done, .returned, [.finished]⟩ := by
  have h0 := busy_destroy whole
  have h1 := Destroy.Steps.tail h0 (.tickerStop (t := loading) rfl rfl rfl (.clear rfl) (by simp))
  have h2 := Destroy.Steps.tail h1 (.thread rfl (.wake rfl) (.inl rfl))
  have h3 := Destroy.Steps.tail h2 (.thread rfl (.stopLock rfl rfl) (.inr (by simp)))
  have h4 := Destroy.Steps.tail h3 (.thread rfl (.testFalse rfl rfl) (.inl rfl))
  have h5 := Destroy.Steps.tail h4 (.thread rfl (.timerEnded rfl rfl) (.inr (by simp)))
  have h6 := Destroy.Steps.tail h5 (.thread rfl (.begin (k := []) rfl) (.inl rfl))
  have h7 := Destroy.Steps.tail h6 (.thread rfl (.finish (k := []) rfl) (.inl rfl))
  have h8 := Destroy.Steps.tail h7 (.thread rfl (.tasksEnded rfl (by simp)) (.inr (by simp)))
  have h9 := Destroy.Steps.tail h8 (.ticker (ps := [.watcher, .counter, .flag, .mutex, .base]) rfl
    (by intro t ht; cases ht; rfl))
  exact ⟨_, steps_trans h9 (destroy_parts [.watcher, .counter, .flag, .mutex, .base] (ps := []) rfl
    (by simp)), rfl, rfl⟩

/-- The order of the declarations matters: were `ticker` declared before the counter, a task could
count on after the counter is gone. -/
example : ∃ s, Destroy.Steps [.watcher, .counter, .ticker, .flag, .mutex, .base] .new s ∧
    s.fault = true := by
  refine Classical.byContradiction fun h => ?_
  have := (C155_order [.watcher, .counter, .ticker, .flag, .mutex, .base]).mp (fun s hs => by
    cases hf : s.fault with
    | false => rfl
    | true => exact absurd ⟨s, hs, hf⟩ h) [.watcher] .counter [.ticker, .flag, .mutex, .base] rfl
    (by simp [usedByTask])
  simp at this

/-- C155 is violated for an enforcer that is deleted through a pointer to `Enforcer`, whose destructor
is not virtual: the ticker goes on and its tasks load into a destroyed enforcer. -/
theorem C155_base_fails : ∃ s, Destroy.Steps baseOnly .new s ∧ s.todo = some [] ∧ ¬ Quiet s ∧
    ∃ s', Destroy.Step baseOnly s s' ∧ s'.fault = true := by
  have h1 := steps_trans (busy_destroy baseOnly) (destroy_parts [.base] (ps := []) rfl (by simp))
  refine ⟨_, h1, rfl, ?_, _, .thread (t := loading) rfl (.begin (k := []) rfl) (.inl rfl), ?_⟩
  · intro h
    have := (h loading rfl).1
    cases this
  · decide +kernel

/-- A step of the enforcer is a step of its ticker, or leaves the ticker alone, once its `stop` has
begun and the destructor is under way. -/
theorem ticker_alone {order : List Part} {s s' : Destroy.State} {t : Ticker.State}
    (ht : s.tick = some t) (hd : s.todo ≠ none) (hs : Destroy.Step order s s') :
    s'.todo ≠ none ∧ (s'.tick = some t ∨ ∃ l t', Ticker.Step t l t' ∧ s'.tick = some t') := by
  cases hs with
  | thread h hst _ =>
    rw [ht] at h
    cases h
    exact ⟨hd, .inr ⟨_, _, hst, rfl⟩⟩
  | start h => exact absurd h hd
  | stop h => exact absurd h hd
  | destroy h => exact absurd h hd
  | tickerStop _ h _ hst _ =>
    rw [ht] at h
    cases h
    exact ⟨hd, .inr ⟨_, _, hst, rfl⟩⟩
  | ticker => exact ⟨by simp, .inl ht⟩
  | part => exact ⟨by simp, .inl ht⟩

/-- C155 is violated in that the destructor need not return: it may wait for ever in `~Ticker`, as
`stop` may (C53). -/
theorem C155_waits_fails : ∃ s, Destroy.Steps whole .new s ∧ s.todo ≠ none ∧
    ∀ s', Destroy.Steps whole s s' → Part.ticker ∉ s'.gone ∧ s'.todo ≠ some [] := by
  have h0 : Destroy.Steps whole .new { Destroy.State.new with tick := some .start } :=
    .tail .refl (.start rfl (by simp [AtRest, State.new]))
  have h1 := Destroy.Steps.tail h0 (.destroy rfl (by simp [Ticker.State.start]))
  have h2 := Destroy.Steps.tail h1 (.thread rfl (.testTrue rfl rfl) (.inl rfl))
  have h3 := Destroy.Steps.tail h2 (.tickerStop (ps := [.watcher, .counter, .flag, .mutex, .base]) rfl rfl rfl (.clear rfl) (by simp))
  have h4 := Destroy.Steps.tail h3 (.thread rfl (.stopLock rfl rfl) (.inr (by simp)))
  refine ⟨_, h4, by simp, fun s' hs => ?_⟩
  have key : s'.todo ≠ none ∧ ∃ t, s'.tick = some t ∧ TickerProps.Crossed t := by
    have hr := h4
    revert hr
    generalize hs0 : Destroy.State.mk _ _ _ _ = s0 at hs
    intro hr
    have hstart : s0.todo ≠ none ∧ ∃ t, s0.tick = some t ∧ TickerProps.Crossed t := by
      subst hs0
      exact ⟨by simp, _, rfl, rfl, rfl⟩
    clear hs0
    induction hs with
    | refl => exact hstart
    | tail ha hb ih =>
      obtain ⟨hd, t, ht, hc⟩ := ih
      have hi := inv_steps (inv_new whole) (steps_trans hr ha)
      obtain ⟨hd', h | ⟨l, t', hst, h⟩⟩ := ticker_alone ht hd hb
      · exact ⟨hd', t, h, hc⟩
      · exact ⟨hd', t', h, TickerProps.crossed_step (TickerProps.inv_reach (hi.reach t ht)) hc hst⟩
  obtain ⟨hd, t, ht, hc⟩ := key
  have hi := inv_steps (inv_new whole) (steps_trans h4 hs)
  have hg : Part.ticker ∉ s'.gone := by
    intro hg
    have := hi.rest hg t ht
    rw [hc.1] at this
    cases this
  refine ⟨hg, fun hn => hg ?_⟩
  have := hi.cut _ hn
  rw [List.append_nil] at this
  rw [← List.mem_reverse, ← this]
  simp [whole, parts]

/-- What is left to do for the destructor. -/
def left (s : Destroy.State) : Nat × (Nat × (Nat × Nat)) :=
  ((s.todo.map List.length).elim 0 id, (s.tick.map TickerProps.left).elim (0, (0, 0)) id)

/-- Less is left to do. -/
def Less : Nat × (Nat × (Nat × Nat)) → Nat × (Nat × (Nat × Nat)) → Prop :=
  Prod.Lex (· < ·) TickerProps.Less

theorem less_wf : WellFounded Less :=
  (Prod.lex ⟨_, Nat.lt_wfRel.wf⟩ ⟨_, TickerProps.less_wf⟩).wf

/-- The destructor is under way and `~Ticker` has begun to stop the ticker, if there is one. -/
def Ending (s : Destroy.State) : Prop :=
  s.todo ≠ none ∧ ∀ t, s.tick = some t → t.stop ≠ .idle

theorem ending_step {order : List Part} {s s' : Destroy.State} (hi : Inv order s) (he : Ending s)
    (hs : Destroy.Step order s s') : Ending s' ∧ Less (left s') (left s) := by
  obtain ⟨hd, hc⟩ := he
  cases hs with
  | @thread t t' l ht hst _ =>
    refine ⟨⟨hd, fun u hu => ?_⟩, ?_⟩
    · cases hu
      exact TickerProps.called_step hst (hc _ ht)
    · have := TickerProps.left_step (TickerProps.inv_reach (hi.reach t ht)) (hc _ ht) hst
      simp only [left, ht]
      exact Prod.Lex.right _ this
  | start h => exact absurd h hd
  | stop h => exact absurd h hd
  | destroy h => exact absurd h hd
  | tickerStop _ ht h => exact absurd h (hc _ ht)
  | ticker h =>
    refine ⟨⟨by simp, hc⟩, ?_⟩
    simp only [left, h]
    exact Prod.Lex.left _ _ (by simp)
  | part h =>
    refine ⟨⟨by simp, hc⟩, ?_⟩
    simp only [left, h]
    exact Prod.Lex.left _ _ (by simp)

/-- C155 otherwise: once the destructor has begun and the ticker has been told to stop, no schedule
goes on for ever, and when nobody can make a step any more the destructor is done, or `stop` took the
mutex in the window of `C53_fails`. Missing: that this window is avoided, which is false
(`C155_waits_fails`), and the deletion through a pointer to `Enforcer` (`C155_base_fails`). -/
theorem C155_partial {order : List Part} {s : Destroy.State} (hr : Destroy.Steps order .new s)
    (he : Ending s) : ¬ Forever order s ∧ ∀ s', Destroy.Steps order s s' → Stuck order s' →
      s'.todo = some [] ∨ ∃ t, s'.tick = some t ∧ TickerProps.Crossed t := by
  constructor
  · rintro ⟨f, hf, hs⟩
    have hi : ∀ n, Inv order (f n) ∧ Ending (f n) := by
      intro n
      induction n with
      | zero => rw [hf]; exact ⟨inv_steps (inv_new order) hr, he⟩
      | succ n ih => exact ⟨inv_step ih.1 (hs n), (ending_step ih.1 ih.2 (hs n)).1⟩
    have key : ∀ m, ∀ n, left (f n) = m → False := by
      intro m
      induction m using less_wf.induction with
      | _ m ih =>
        intro n hn
        exact ih _ (hn ▸ (ending_step (hi n).1 (hi n).2 (hs n)).2) (n + 1) rfl
    exact key _ 0 rfl
  · intro s' hs hst
    have hi := inv_steps (inv_new order) (steps_trans hr hs)
    have he' : Ending s' := by
      clear hi hst
      have h0 := inv_steps (inv_new order) hr
      induction hs with
      | refl => exact he
      | tail ha hb ih => exact (ending_step (inv_steps h0 ha) ih hb).1
    cases hn : s'.todo with
    | none => exact absurd hn he'.1
    | some ps =>
      cases ps with
      | nil => exact .inl rfl
      | cons p ps =>
        by_cases hp : p = .ticker
        · subst hp
          cases ht : s'.tick with
          | none => exact absurd (.ticker hn (by simp [AtRest, ht])) (hst _)
          | some t =>
            have hstuck : TickerProps.Stuck t := by
              intro l t' h
              exact hst _ (.thread ht h (.inr (he'.2 t ht)))
            rcases (TickerProps.C53_partial (hi.reach t ht) (he'.2 t ht)).2 t .refl hstuck with h | h
            · refine absurd (.ticker hn ?_) (hst _)
              intro u hu
              rw [ht] at hu
              cases hu
              exact h
            · exact .inr ⟨t, rfl, h⟩
        · exact absurd (.part hn hp) (hst _)

/-- `busy` when `~Ticker` has told the ticker to stop. -/
example : ∃ s, Destroy.Steps whole .new s ∧ Ending s ∧ s.gone = [] ∧
    ∃ t, s.tick = some t ∧ t.tasks = [.launched 0] := by
  have h0 := busy_destroy whole
  have h1 := Destroy.Steps.tail h0 (.tickerStop (t := loading)
    (ps := [.watcher, .counter, .flag, .mutex, .base]) rfl rfl rfl (.clear rfl) (by simp))
  exact ⟨_, h1, ⟨by simp, by rintro t ⟨⟩; simp⟩, rfl, _, rfl, rfl⟩

end DestroyProps
end Casbin
