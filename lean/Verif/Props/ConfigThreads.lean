import Verif.ConfigThreads
import Mathlib.Algebra.BigOperators.Group.Finset.Basic
import Mathlib.Algebra.Order.BigOperators.Group.Finset

/-!
# C180: threads that read model files do not keep others waiting for ever

Any number of threads read model files and use synchronised enforcers. Without malformed files no thread waits
for ever. After a malformed file everyone who reads one does, and if one of them is in `LoadModel` of the
enforcer, so does everyone who uses that enforcer.
-/

namespace Casbin
namespace ConfigThreadProps

open ConfigThreads

variable {τ ε : Type} [DecidableEq τ] [DecidableEq ε]

/-! ## The specification -/

/-- A thread with these jobs, so far in the first one, is between `lock` and `unlock` of the mutex. -/
def inside : List (Job ε) → Nat → Bool
  | .parse _ :: _, _ + 1 => true
  | .load _ _ :: _, 2 => true
  | _, _ => false

/-- It has the lock of this enforcer for itself. -/
def owns (e : ε) : List (Job ε) → Nat → Bool
  | .load e' _ :: _, _ + 1 => e' = e
  | .call e' .unique :: _, _ + 1 => e' = e
  | _, _ => false

/-- It shares the lock of this enforcer. -/
def shares (e : ε) : List (Job ε) → Nat → Bool
  | .call e' .shared :: _, _ + 1 => e' = e
  | _, _ => false

/-- No thread reads a malformed file. -/
def Clean (jobs : τ → List (Job ε)) : Prop := ∀ i, .parse true ∉ jobs i ∧ ∀ e, .load e true ∉ jobs i

/-- Every thread has done all its jobs. -/
def Done (s : State τ ε) : Prop := ∀ i, s.jobs i = []

/-- A malformed file has been read: the mutex is locked, and nobody is there to unlock it. -/
def Dead (s : State τ ε) : Prop := s.cfg ≠ none ∧ ∀ i, inside (s.jobs i) (s.pos i) = false

/-! ## Helpers -/

structure Inv (s : State τ ε) : Prop where
  cfg : ∀ i, inside (s.jobs i) (s.pos i) = true → s.cfg = some i
  writer : ∀ e i, owns e (s.jobs i) (s.pos i) = true ↔ s.writer e = some i
  readers : ∀ e i, shares e (s.jobs i) (s.pos i) = true ↔ i ∈ s.readers e
  alone : ∀ e, s.writer e ≠ none → s.readers e = []
  pos : ∀ i, s.pos i ≤ 3

omit [DecidableEq ε] in
@[simp] theorem inside_zero (js : List (Job ε)) : inside js 0 = false := by
  rcases js with _ | ⟨⟨_⟩ | ⟨_, _⟩ | ⟨_, _ | _⟩, _⟩ <;> rfl
@[simp] theorem owns_zero (e : ε) (js : List (Job ε)) : owns e js 0 = false := by
  rcases js with _ | ⟨⟨_⟩ | ⟨_, _⟩ | ⟨_, _ | _⟩, _⟩ <;> rfl
@[simp] theorem shares_zero (e : ε) (js : List (Job ε)) : shares e js 0 = false := by
  rcases js with _ | ⟨⟨_⟩ | ⟨_, _⟩ | ⟨_, _ | _⟩, _⟩ <;> rfl

omit [DecidableEq ε] in
theorem inside_three (e : ε) (b : Bool) (rest : List (Job ε)) (n : Nat) : inside (.load e b :: rest) (n + 3) = false := rfl

omit [DecidableEq τ] in
theorem inv_start (jobs : τ → List (Job ε)) : Inv (start jobs) := by
  constructor <;> simp [start]

/-- What a step does, by the job and the position. -/
inductive Steps (i : τ) (s : State τ ε) : State τ ε → Prop
  | lock {b rest} : s.jobs i = .parse b :: rest → s.pos i = 0 → s.cfg = none →
      Steps i s ({ s with cfg := some i }.goto i 1)
  | parsed {b rest n} : s.jobs i = .parse b :: rest → s.pos i = n + 1 →
      Steps i s ({ s with cfg := if b then s.cfg else none }.finish i rest)
  | enter {e b rest} : s.jobs i = .load e b :: rest → s.pos i = 0 → s.writer e = none → s.readers e = [] →
      Steps i s ({ s with writer := upd s.writer e (some i) }.goto i 1)
  | lockIn {e b rest} : s.jobs i = .load e b :: rest → s.pos i = 1 → s.cfg = none →
      Steps i s ({ s with cfg := some i }.goto i 2)
  | failed {e rest} : s.jobs i = .load e true :: rest → s.pos i = 2 →
      Steps i s ({ s with writer := upd s.writer e none }.finish i rest)
  | unlock {e rest} : s.jobs i = .load e false :: rest → s.pos i = 2 →
      Steps i s ({ s with cfg := none }.goto i 3)
  | leave {e b rest n} : s.jobs i = .load e b :: rest → s.pos i = n + 3 →
      Steps i s ({ s with writer := upd s.writer e none }.finish i rest)
  | share {e rest} : s.jobs i = .call e .shared :: rest → s.pos i = 0 → s.writer e = none →
      Steps i s ({ s with readers := upd s.readers e (i :: s.readers e) }.goto i 1)
  | unshare {e rest n} : s.jobs i = .call e .shared :: rest → s.pos i = n + 1 →
      Steps i s ({ s with readers := upd s.readers e ((s.readers e).filter (· ≠ i)) }.finish i rest)
  | own {e rest} : s.jobs i = .call e .unique :: rest → s.pos i = 0 → s.writer e = none → s.readers e = [] →
      Steps i s ({ s with writer := upd s.writer e (some i) }.goto i 1)
  | disown {e rest n} : s.jobs i = .call e .unique :: rest → s.pos i = n + 1 →
      Steps i s ({ s with writer := upd s.writer e none }.finish i rest)

theorem steps_of {i : τ} {s t : State τ ε} (h : step i s = some t) : Steps i s t := by
  unfold step at h
  rcases hj : s.jobs i with _ | ⟨⟨b⟩ | ⟨e, b⟩ | ⟨e, k⟩, rest⟩
  · simp [hj] at h
  · rcases hp : s.pos i with _ | n
    · simp only [hj, hp] at h
      split at h
      · next hc => cases h; exact .lock hj hp hc
      · cases h
    · simp only [hj, hp] at h
      cases h
      exact .parsed hj hp
  · rcases hp : s.pos i with _ | _ | _ | n
    · simp only [hj, hp] at h
      split at h
      · next hc => cases h; exact .enter hj hp hc.1 hc.2
      · cases h
    · simp only [hj, hp] at h
      split at h
      · next hc => cases h; exact .lockIn hj hp hc
      · cases h
    · cases b
      · simp only [hj, hp] at h
        cases h
        exact .unlock hj hp
      · simp only [hj, hp] at h
        cases h
        exact .failed hj hp
    · cases b
      · simp only [hj, hp] at h
        cases h
        exact .leave hj hp
      · simp only [hj, hp] at h
        cases h
        exact .leave hj hp
  · rcases hp : s.pos i with _ | n <;> cases k
    · simp only [hj, hp] at h
      split at h
      · next hc => cases h; exact .own hj hp hc.1 hc.2
      · cases h
    · simp only [hj, hp] at h
      split at h
      · next hc => cases h; exact .share hj hp hc
      · cases h
    · simp only [hj, hp] at h
      cases h
      exact .disown hj hp
    · simp only [hj, hp] at h
      cases h
      exact .unshare hj hp

theorem Inv.step {i : τ} {s t : State τ ε} (h : Inv s) (hs : Steps i s t) : Inv t := by
  obtain ⟨h1, h2, h3, h4, h5⟩ := h
  have g2 : ∀ e, s.writer e = some i → owns e (s.jobs i) (s.pos i) = true := fun e => (h2 e i).mpr
  have g2' : ∀ e j, s.writer e = some j → owns e (s.jobs j) (s.pos j) = true := fun e j => (h2 e j).mpr
  have g3 : ∀ e, i ∈ s.readers e → shares e (s.jobs i) (s.pos i) = true := fun e => (h3 e i).mpr
  cases hs <;> (constructor <;> simp only [State.goto, State.finish, upd] <;>
    grind [inside_zero, owns_zero, shares_zero, inside, owns, shares])

theorem Inv.reach {s t : State τ ε} (h : Inv s) (hr : Reach s t) : Inv t := by
  induction hr with
  | refl => exact h
  | tail i _ hs ih => exact ih.step (steps_of hs)

/-- Without malformed files the mutex is held by a thread that is inside. -/
structure CleanInv (s : State τ ε) : Prop where
  jobs : Clean s.jobs
  cfg : ∀ i, s.cfg = some i → inside (s.jobs i) (s.pos i) = true

theorem CleanInv.step {i : τ} {s t : State τ ε} (h : CleanInv s) (hi : Inv s) (hs : Steps i s t) : CleanInv t := by
  obtain ⟨h1, h2⟩ := h
  obtain ⟨h3, -, -, -, -⟩ := hi
  have hc := h1 i
  cases hs <;> (constructor <;> simp only [State.goto, State.finish, upd, Clean] at * <;>
    grind [inside_zero, inside, inside_three])

theorem CleanInv.reach {s t : State τ ε} (h : CleanInv s) (hi : Inv s) (hr : Reach s t) : CleanInv t := by
  induction hr with
  | refl => exact h
  | tail i hr hs ih => exact ih.step (hi.reach hr) (steps_of hs)

theorem step_inside {i : τ} {s : State τ ε} (h : inside (s.jobs i) (s.pos i) = true) : ∃ t, step i s = some t := by
  unfold step
  rcases hj : s.jobs i with _ | ⟨⟨_ | _⟩ | ⟨_, _ | _⟩ | ⟨_, _ | _⟩, rest⟩ <;> rcases hp : s.pos i with _ | _ | _ | n <;>
    simp [hj, hp, inside] at h ⊢

theorem step_owns {i : τ} {e : ε} {s : State τ ε} (h : owns e (s.jobs i) (s.pos i) = true) (hc : s.cfg = none) :
    ∃ t, step i s = some t := by
  unfold step
  rcases hj : s.jobs i with _ | ⟨⟨_ | _⟩ | ⟨_, _ | _⟩ | ⟨_, _ | _⟩, rest⟩ <;> rcases hp : s.pos i with _ | _ | _ | n <;>
    simp [hj, hp, owns, hc] at h ⊢

theorem step_shares {i : τ} {e : ε} {s : State τ ε} (h : shares e (s.jobs i) (s.pos i) = true) : ∃ t, step i s = some t := by
  unfold step
  rcases hj : s.jobs i with _ | ⟨⟨_ | _⟩ | ⟨_, _ | _⟩ | ⟨_, _ | _⟩, rest⟩ <;> rcases hp : s.pos i with _ | _ | _ | n <;>
    simp [hj, hp, shares] at h ⊢

theorem step_free {i : τ} {s : State τ ε} (h : s.jobs i ≠ []) (hc : s.cfg = none) (hw : ∀ e, s.writer e = none)
    (hr : ∀ e, s.readers e = []) : ∃ t, step i s = some t := by
  unfold step
  rcases hj : s.jobs i with _ | ⟨⟨_ | _⟩ | ⟨_, _ | _⟩ | ⟨_, _ | _⟩, rest⟩ <;> rcases hp : s.pos i with _ | _ | _ | n <;>
    simp [hj, hc, hw, hr] at h ⊢

/-- The steps a thread has left, at most. -/
def left (s : State τ ε) (i : τ) : Nat := 4 * (s.jobs i).length - s.pos i

theorem left_step {i : τ} {s t : State τ ε} (h : Inv s) (hs : Steps i s t) :
    left t i < left s i ∧ ∀ j, j ≠ i → left t j = left s j := by
  have hp := h.pos i
  constructor
  · cases hs <;> simp only [left, State.goto, State.finish, upd, if_true, *, List.length_cons] <;> grind
  · intro j hj
    cases hs <;> simp only [left, State.goto, State.finish, upd, if_neg hj]

/-! ## C180 -/

/-- Never are two threads between `lock` and `unlock` of the mutex, and the lock of each enforcer is held by one
thread for itself or by threads that share it. -/
theorem C180_exclusive {jobs : τ → List (Job ε)} {s : State τ ε} (hr : Reach (start jobs) s) (e : ε) (i j : τ) :
    (inside (s.jobs i) (s.pos i) = true → inside (s.jobs j) (s.pos j) = true → i = j) ∧
    (owns e (s.jobs i) (s.pos i) = true → owns e (s.jobs j) (s.pos j) = true → i = j) ∧
    ¬ (owns e (s.jobs i) (s.pos i) = true ∧ shares e (s.jobs j) (s.pos j) = true) := by
  have h := (inv_start jobs).reach hr
  refine ⟨fun hi hj => ?_, fun hi hj => ?_, fun hh => ?_⟩
  · exact Option.some.inj ((h.cfg i hi).symm.trans (h.cfg j hj))
  · exact Option.some.inj (((h.writer e i).mp hi).symm.trans ((h.writer e j).mp hj))
  · have := h.alone e (by rw [(h.writer e i).mp hh.1]; simp)
    have h2 := (h.readers e j).mp hh.2
    rw [this] at h2
    cases h2

/-- C180 without malformed files: in whatever order the threads go on, as long as one has something left to do
some thread can go on. -/
theorem C180_progress_partial {jobs : τ → List (Job ε)} (hc : Clean jobs) {s : State τ ε} (hr : Reach (start jobs) s)
    (hs : ∀ i, step i s = none) : Done s := by
  have h := (inv_start jobs).reach hr
  have h' : CleanInv s := CleanInv.reach ⟨hc, by simp [start]⟩ (inv_start jobs) hr
  have no : ∀ {i : τ}, ¬ ∃ t, step i s = some t := by
    rintro i ⟨t, ht⟩
    rw [hs i] at ht
    cases ht
  have h1 : s.cfg = none := by
    rcases hx : s.cfg with _ | j
    · rfl
    · exact (no (step_inside (h'.cfg j hx))).elim
  have h2 : ∀ e, s.writer e = none := by
    intro e
    rcases hx : s.writer e with _ | j
    · rfl
    · exact (no (step_owns ((h.writer e j).mpr hx) h1)).elim
  have h3 : ∀ e, s.readers e = [] := by
    intro e
    rcases hx : s.readers e with _ | ⟨j, _⟩
    · rfl
    · exact (no (step_shares ((h.readers e j).mpr (by simp [hx])))).elim
  exact fun i => Classical.byContradiction fun hi => no (step_free hi h1 h2 h3)

/-- C180: no thread goes on for ever; a run has at most four steps for each job. -/
theorem C180_ends [Fintype τ] {jobs : τ → List (Job ε)} (f : Nat → State τ ε) (n : Nat) (h0 : f 0 = start jobs)
    (hf : ∀ k < n, ∃ i, step i (f k) = some (f (k + 1))) : n ≤ ∑ i, 4 * (jobs i).length := by
  have key : ∀ k ≤ n, Inv (f k) ∧ (∑ i, left (f k) i) + k ≤ ∑ i, 4 * (jobs i).length := by
    intro k
    induction k with
    | zero => exact fun _ => ⟨h0 ▸ inv_start jobs, by simp [h0, left, start]⟩
    | succ k ih =>
      intro hk
      obtain ⟨i1, i2⟩ := ih (by omega)
      obtain ⟨i, hi⟩ := hf k (by omega)
      obtain ⟨l1, l2⟩ := left_step i1 (steps_of hi)
      refine ⟨i1.step (steps_of hi), ?_⟩
      have : ∑ j, left (f (k + 1)) j < ∑ j, left (f k) j :=
        Finset.sum_lt_sum (fun j _ => by
          by_cases hj : j = i
          · rw [hj]; exact l1.le
          · rw [l2 j hj]) ⟨i, Finset.mem_univ i, l1⟩
      omega
  have := (key n le_rfl).2
  omega

/-- C180 without malformed files: whatever has happened, all threads can still get all their jobs done. With
`C180_progress_partial` and `C180_ends` they do, in whatever order they go on. -/
theorem C180_partial [Fintype τ] {jobs : τ → List (Job ε)} (hc : Clean jobs) {s : State τ ε} (hr : Reach (start jobs) s) :
    ∃ t, Reach s t ∧ Done t := by
  have key : ∀ (n : Nat) (s : State τ ε), ∑ i, left s i ≤ n → Reach (start jobs) s → ∃ t, Reach s t ∧ Done t := by
    intro n
    induction n with
    | zero =>
      intro s hn hr
      refine ⟨s, .refl, C180_progress_partial hc hr fun i => ?_⟩
      rcases hx : step i s with _ | t
      · rfl
      · have := (left_step ((inv_start jobs).reach hr) (steps_of hx)).1
        have := Finset.single_le_sum (f := left s) (fun j _ => Nat.zero_le _) (Finset.mem_univ i)
        omega
    | succ n ih =>
      intro s hn hr
      by_cases hx : ∀ i, step i s = none
      · exact ⟨s, .refl, C180_progress_partial hc hr hx⟩
      · obtain ⟨i, hi⟩ := Classical.not_forall.mp hx
        obtain ⟨u, hu⟩ := Option.ne_none_iff_exists'.mp hi
        obtain ⟨l1, l2⟩ := left_step ((inv_start jobs).reach hr) (steps_of hu)
        have : ∑ j, left u j < ∑ j, left s j :=
          Finset.sum_lt_sum (fun j _ => by
            by_cases hj : j = i
            · rw [hj]; exact l1.le
            · rw [l2 j hj]) ⟨i, Finset.mem_univ i, l1⟩
        obtain ⟨t, ht, hd⟩ := ih u (by omega) (.tail i hr hu)
        refine ⟨t, ?_, hd⟩
        clear hd
        induction ht with
        | refl => exact .tail i .refl hu
        | tail j _ hs ih' => exact .tail j ih' hs
  exact key _ s le_rfl hr

/-- Three threads that load the models of two enforcers, read files and ask requests, the second while the first
is inside. -/
example : ∃ t, Reach (({ start (fun i : Fin 3 => if i = 0 then [.load true false, .parse false] else if i = 1 then
      [.parse false, .call false .unique] else [.call true .shared, .load false false]) with
      cfg := some 1 }).goto 1 1) t ∧ Done t := by
  refine C180_partial (jobs := fun i : Fin 3 => if i = 0 then [.load true false, .parse false] else if i = 1 then
    [.parse false, .call false .unique] else [.call true .shared, .load false false]) ?_ (.tail 1 .refl rfl)
  unfold Clean
  decide

/-- A malformed file leaves the mutex locked with nobody to unlock it. -/
theorem C180_dead {jobs : τ → List (Job ε)} {s t : State τ ε} (hr : Reach (start jobs) s) {i : τ}
    (hi : inside (s.jobs i) (s.pos i) = true)
    (hb : ∃ rest, s.jobs i = .parse true :: rest ∨ ∃ e, s.jobs i = .load e true :: rest) (hs : step i s = some t) :
    Dead t := by
  have h := (inv_start jobs).reach hr
  have h1 := h.cfg
  have hst := steps_of hs
  obtain ⟨rest, hb⟩ := hb
  cases hst <;> (constructor <;> simp only [State.goto, State.finish, upd] <;> grind [inside, inside_zero])

theorem dead_step {s t : State τ ε} (h : Dead s) {i : τ} (hs : Steps i s t) : Dead t := by
  obtain ⟨h1, h2⟩ := h
  have h3 := h2 i
  cases hs <;> (constructor <;> simp only [State.goto, State.finish, upd] <;> grind [inside, inside_zero])

/-- C180 after a malformed file: a thread that waits for the mutex waits for ever. -/
theorem C180_waits {s t : State τ ε} (h : Dead s) {i : τ} {e : ε} {b : Bool} {rest : List (Job ε)}
    (hi : (s.jobs i = .parse b :: rest ∧ s.pos i = 0) ∨ (s.jobs i = .load e b :: rest ∧ s.pos i = 1))
    (hr : Reach s t) : Dead t ∧ t.jobs i = s.jobs i ∧ t.pos i = s.pos i := by
  induction hr with
  | refl => exact ⟨h, rfl, rfl⟩
  | tail j hr hs ih =>
    obtain ⟨i1, i2, i3⟩ := ih
    have hst := steps_of hs
    refine ⟨dead_step i1 hst, ?_⟩
    obtain ⟨i4, -⟩ := i1
    cases hst <;> simp only [State.goto, State.finish, upd] <;> grind

/-- C180 after a malformed file: if `LoadModel` of a synchronised enforcer waits for the mutex, no other call
of that enforcer ever gets its lock, whoever makes it. -/
theorem C180_blocks {jobs : τ → List (Job ε)} {s t : State τ ε} (hs : Reach (start jobs) s) (h : Dead s) {i : τ} {e : ε} {b : Bool}
    {rest : List (Job ε)} (hi : s.jobs i = .load e b :: rest ∧ s.pos i = 1) (hr : Reach s t) {k : τ} {c : Job ε}
    {rest' : List (Job ε)} (hc : (∃ l, c = .call e l) ∨ ∃ b', c = .load e b') (hk : s.jobs k = c :: rest' ∧ s.pos k = 0) :
    t.jobs k = s.jobs k ∧ t.pos k = 0 := by
  induction hr with
  | refl => exact ⟨rfl, hk.2⟩
  | tail j hr hst ih =>
    obtain ⟨w1, w2, w3⟩ := C180_waits h (.inr hi) hr
    have hi1 := ((inv_start jobs).reach hs).reach hr
    have hw := (hi1.writer e i).mp (by rw [w2, w3, hi.1, hi.2]; simp [owns])
    have hst := steps_of hst
    obtain ⟨i1, i2⟩ := ih
    rcases hc with ⟨l, rfl⟩ | ⟨b', rfl⟩ <;>
      (cases hst <;> simp only [State.goto, State.finish, upd] <;> grind)

theorem noLoad_reach {s t : State τ ε} (hr : Reach s t) {e : ε} (h : ∀ i b, .load e b ∉ s.jobs i) :
    ∀ i b, .load e b ∉ t.jobs i := by
  induction hr with
  | refl => exact h
  | tail j _ hs ih =>
    have hj := ih j
    have hst := steps_of hs
    cases hst <;> simp only [State.goto, State.finish, upd] <;> grind

/-- C180, also with malformed files: an enforcer whose model nobody loads goes on; as long as a thread is at a
call of it, some thread at a call of it can take a step. -/
theorem C180_others_partial {jobs : τ → List (Job ε)} {s : State τ ε} (hr : Reach (start jobs) s) {e : ε}
    (hl : ∀ i b, .load e b ∉ jobs i) {k : τ} {l : LockKind} {rest : List (Job ε)} (hk : s.jobs k = .call e l :: rest) :
    ∃ k' l' rest' t, s.jobs k' = .call e l' :: rest' ∧ step k' s = some t := by
  have h := (inv_start jobs).reach hr
  have hn := noLoad_reach hr hl
  rcases hw : s.writer e with _ | j
  · rcases hq : s.readers e with _ | ⟨j, js⟩
    · refine ⟨k, l, rest, ?_⟩
      unfold step
      cases l <;> rcases hp : s.pos k with _ | n <;> simp [hk, hw, hq]
    · have hj := (h.readers e j).mpr (by simp [hq])
      have hstep := step_shares hj
      rcases hx : s.jobs j with _ | ⟨⟨_ | _⟩ | ⟨_, _ | _⟩ | ⟨e', _ | _⟩, rest'⟩ <;> rcases hp : s.pos j with _ | n <;>
        simp [hx, hp, shares] at hj
      subst hj
      obtain ⟨t, ht⟩ := hstep
      exact ⟨j, _, _, t, hx, ht⟩
  · have hj := (h.writer e j).mpr hw
    have hnj := hn j
    rcases hx : s.jobs j with _ | ⟨⟨_ | _⟩ | ⟨e', b⟩ | ⟨e', _ | _⟩, rest'⟩ <;> rcases hp : s.pos j with _ | n <;>
      simp [hx, hp, owns] at hj
    · subst hj
      exact (hnj b (by simp [hx])).elim
    · subst hj
      refine ⟨j, .unique, rest', ?_⟩
      unfold step
      simp [hx, hp]

/-- A thread that reads a malformed file and then loads the model of one enforcer; one that asks another. -/
def two : Fin 2 → List (Job Bool)
  | 0 => [.parse true, .load true false]
  | 1 => [.call false .shared]

/-- The mutex is dead and the first thread waits for it, holding the lock of its enforcer; the other enforcer can
be asked. -/
example : ∃ s, Reach (start two) s ∧ Dead s ∧ s.writer true = some 0 ∧ step 0 s = none ∧
    ∃ k' l' rest' t, s.jobs k' = .call false l' :: rest' ∧ step k' s = some t := by
  have hr : Reach (start two) _ := .tail 0 (.tail 0 (.tail 0 .refl rfl) rfl) rfl
  refine ⟨_, hr, ⟨by decide, by decide⟩, by decide, by rfl, ?_⟩
  exact C180_others_partial (k := 1) hr (by intro i b; revert i b; decide) rfl

/-- One thread reads a malformed file, one loads the model of the enforcer from a good one, one asks a request. -/
def three : Fin 3 → List (Job Unit)
  | 0 => [.parse true]
  | 1 => [.load () false]
  | 2 => [.call () .shared]

/-- The state in which the second thread waits for the mutex. -/
def hung : State (Fin 3) Unit :=
  { cfg := some 0, writer := fun _ => some 1, readers := fun _ => [], jobs := upd three 0 [], pos := upd (fun _ => 0) 1 1 }

theorem hung_reached : Reach (start three) hung := by
  have e1 : step 0 (start three) = some ({ start three with cfg := some 0 }.goto 0 1) := rfl
  have e2 : step 0 ({ start three with cfg := some 0 }.goto 0 1) =
      some ({ { start three with cfg := some 0 }.goto 0 1 with cfg := some 0 }.finish 0 []) := rfl
  have e3 : step 1 ({ { start three with cfg := some 0 }.goto 0 1 with cfg := some 0 }.finish 0 []) = some hung := by
    refine congrArg some ?_
    unfold hung start State.goto State.finish
    congr 1
    funext j
    revert j
    decide
  exact .tail 1 (.tail 0 (.tail 0 .refl e1) e2) e3

/-- C180 is false with a malformed file: a request to the synchronised enforcer, made by a thread that reads no
file, never gets the lock. -/
theorem C180_fails : ¬ ∀ (jobs : Fin 3 → List (Job Unit)) (s : State (Fin 3) Unit), Reach (start jobs) s →
    ∃ t, Reach s t ∧ Done t := by
  intro h
  obtain ⟨t, ht, hd⟩ := h three hung hung_reached
  have hdead : Dead hung := ⟨by simp [hung], by decide⟩
  have := C180_blocks hung_reached hdead (i := 1) ⟨rfl, rfl⟩ ht (k := 2) (.inl ⟨.shared, rfl⟩) ⟨rfl, rfl⟩
  rw [hd 2] at this
  exact absurd this.1 (by decide)

end ConfigThreadProps
end Casbin
