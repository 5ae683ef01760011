import Verif.AutoThreads

/-!
# C149: automatic loading started and stopped from several threads
-/

namespace Casbin
namespace AutoThreadProps

open AutoThreads

variable {τ : Type} [DecidableEq τ]

/-! ## What fails -/

/-- C149 is violated: two threads that start automatic loading at once both find it not running; the
second destroys the ticker of the first, which the first then starts. -/
theorem C149_fails :
    (runs ([true, false, true, true, false, true, true, false, false, true].map fun i => (i, Call.start))
      (State.new : State Bool)).fault = some .dead := by
  decide

/-- C149 is violated with a thread that starts and a thread that stops: the second stop has read the
pointer when the start replaces the ticker. -/
theorem C149_stop_fails :
    let a := List.replicate 6 (true, Call.start)
    let b := List.replicate 3 (false, Call.stop)
    let s := runs (a ++ b) (State.new : State Bool)
    (s.fault = none ∧ s.flag = false ∧ s.pc true = .idle ∧ s.pc false = .idle) ∧
      (runs ((false, .stop) :: (List.replicate 4 (true, .start) ++ [(false, .stop)])) s).fault =
        some .dead := by
  decide

/-- C149 is violated by a stop that comes while the first start is under way: the flag says that automatic
loading runs, and there is no ticker yet. A stop before any start ends the same way. -/
theorem C149_null_fails :
    let s := runs (List.replicate 2 (true, Call.start)) (State.new : State Bool)
    (s.fault = none ∧ s.flag = true ∧ s.ptr = none) ∧ (runs [(false, .stop)] s).fault = some .null ∧
      (runs [(false, .stop)] (State.new : State Bool)).fault = some .null := by
  decide

/-- C149 is violated by a stop that comes between the making and the start of the ticker: all calls
return, the flag is down, and the ticker runs. -/
theorem C149_lost_stop_fails :
    let s := runs (List.replicate 4 (true, Call.start)) (State.new : State Bool)
    let s' := runs (List.replicate 3 (false, Call.stop) ++ List.replicate 2 (true, Call.start)) s
    s.tickers = [⟨true, false⟩] ∧ s'.fault = none ∧ s'.flag = false ∧ s'.pc true = .idle ∧
      s'.pc false = .idle ∧ s'.ptr = some 0 ∧ s'.tickers = [⟨true, true⟩] := by
  decide

/-! ## No ticker is forgotten -/

/-- What holds in every state. -/
structure Inv (s : State τ) : Prop where
  ptr : ∀ k, s.ptr = some k → k < s.tickers.length
  old : ∀ i k, s.pc i = .startDrop (some k) → k < s.tickers.length ∧ s.ptr ≠ some k
  once : ∀ i j k, s.pc i = .startDrop (some k) → s.pc j = .startDrop (some k) → i = j
  alive : ∀ (k : Nat) (t : Tick), s.tickers[k]? = some t →
    (t.alive = true ↔ s.ptr = some k ∨ ∃ i, s.pc i = .startDrop (some k))

theorem goto_self (s : State τ) (i : τ) (q : Pc) : (s.goto i q).pc i = q := by simp [State.goto]

theorem goto_other (s : State τ) {i j : τ} (q : Pc) (h : j ≠ i) : (s.goto i q).pc j = s.pc j := by
  simp [State.goto, h]

/-- A step between places where no ticker is to be destroyed. -/
theorem inv_goto {s : State τ} (h : Inv s) {i : τ} {q : Pc} (hi : ∀ k, s.pc i ≠ .startDrop (some k))
    (hq : ∀ k, q ≠ .startDrop (some k)) : Inv (s.goto i q) := by
  have key : ∀ j k, (s.goto i q).pc j = .startDrop (some k) ↔ s.pc j = .startDrop (some k) := by
    intro j k
    by_cases hj : j = i
    · subst hj
      rw [goto_self]
      exact ⟨fun e => absurd e (hq k), fun e => absurd e (hi k)⟩
    · rw [goto_other s q hj]
  refine ⟨h.ptr, fun j k e => h.old j k ((key j k).mp e), fun a b k e e' => h.once a b k
    ((key a k).mp e) ((key b k).mp e'), fun k t ht => ?_⟩
  rw [h.alive k t ht]
  simp only [key]
  rfl

omit [DecidableEq τ] in
theorem inv_flag {s : State τ} (h : Inv s) (b : Bool) : Inv { s with flag := b } :=
  ⟨h.ptr, h.old, h.once, h.alive⟩

omit [DecidableEq τ] in
theorem inv_fault {s : State τ} (h : Inv s) (b : Option Fault) : Inv { s with fault := b } :=
  ⟨h.ptr, h.old, h.once, h.alive⟩

omit [DecidableEq τ] in
theorem inv_use {s : State τ} (h : Inv s) (p : Nat) {f : Tick → Tick}
    (hf : ∀ t, (f t).alive = t.alive) : Inv (s.use p f) := by
  unfold State.use
  split
  · rename_i t ht
    split
    · refine ⟨by simpa using h.ptr, by simpa using h.old, h.once, fun k t' ht' => ?_⟩
      simp only at ht'
      by_cases hk : p = k
      · subst hk
        rw [List.getElem?_set_self (List.getElem?_eq_some_iff.mp ht).1] at ht'
        obtain rfl := Option.some.inj ht'
        rw [hf]
        exact h.alive p t ht
      · rw [List.getElem?_set_ne hk] at ht'
        exact h.alive k t' ht'
    · exact inv_fault h _
  · exact inv_fault h _

omit [DecidableEq τ] in
theorem use_pc (s : State τ) (p : Nat) (f : Tick → Tick) :
    (s.use p f).pc = s.pc ∧ (s.use p f).ptr = s.ptr ∧ (s.use p f).flag = s.flag := by
  unfold State.use
  split
  · split <;> exact ⟨rfl, rfl, rfl⟩
  · exact ⟨rfl, rfl, rfl⟩

theorem inv_step {s : State τ} (h : Inv s) (i : τ) (c : Call) : Inv (advance s i c) := by
  unfold advance
  cases hp : s.pc i with
  | idle =>
    have hi : ∀ k, s.pc i ≠ .startDrop (some k) := by simp [hp]
    cases c with
    | start =>
      simp only
      split
      · exact h
      · exact inv_goto h hi (by simp)
    | stop =>
      simp only
      split
      · exact inv_goto h hi (by simp)
      · exact inv_fault h _
  | startSet => exact inv_goto (inv_flag h true) (by simp [hp]) (by simp)
  | startMake =>
    have hnew : ∀ j k, (s.make.goto i (.startDrop s.ptr)).pc j = .startDrop (some k) ↔
        (j = i ∧ s.ptr = some k) ∨ s.pc j = .startDrop (some k) := by
      intro j k
      by_cases hj : j = i
      · subst hj
        rw [goto_self]
        simp [hp]
      · rw [goto_other _ _ hj]
        simp [hj, State.make]
    refine ⟨?_, ?_, ?_, ?_⟩
    · intro k hk
      simp only [State.goto, State.make, Option.some.injEq] at hk
      simp [State.goto, State.make, ← hk]
    · intro j k e
      have hlt : k < s.tickers.length := by
        rcases (hnew j k).mp e with ⟨_, e'⟩ | e'
        · exact h.ptr k e'
        · exact (h.old j k e').1
      refine ⟨by simp [State.goto, State.make]; omega, ?_⟩
      simp only [State.goto, State.make, ne_eq, Option.some.injEq]
      omega
    · intro a b k e e'
      rcases (hnew a k).mp e with ⟨ha, e1⟩ | e1 <;> rcases (hnew b k).mp e' with ⟨hb, e2⟩ | e2
      · rw [ha, hb]
      · exact absurd e1 (h.old b k e2).2
      · exact absurd e2 (h.old a k e1).2
      · exact h.once a b k e1 e2
    · intro k t ht
      simp only [hnew]
      simp only [State.goto, State.make] at ht
      by_cases hk : k < s.tickers.length
      · rw [List.getElem?_append_left hk] at ht
        rw [h.alive k t ht]
        simp only [State.goto, State.make, Option.some.injEq]
        have : s.tickers.length ≠ k := by omega
        simp only [this, false_or]
        constructor
        · rintro (e | ⟨j, e⟩)
          · exact ⟨i, .inl ⟨rfl, e⟩⟩
          · exact ⟨j, .inr e⟩
        · rintro ⟨j, ⟨-, e⟩ | e⟩
          · exact .inl e
          · exact .inr ⟨j, e⟩
      · have hl := (List.getElem?_eq_some_iff.mp ht).1
        simp only [List.length_append, List.length_singleton] at hl
        obtain rfl : k = s.tickers.length := by omega
        simp only [List.getElem?_append_right (Nat.le_refl _), Nat.sub_self,
          List.getElem?_cons_zero, Option.some.injEq] at ht
        subst ht
        simp [State.goto, State.make]
  | startDrop old =>
    cases old with
    | none => exact inv_goto h (by simp [hp]) (by simp)
    | some k =>
      simp only
      obtain ⟨hkl, hkp⟩ := h.old i k hp
      obtain ⟨u1, u2, u3⟩ := use_pc s k fun _ => ⟨false, false⟩
      have hal : (s.tickers[k]).alive = true :=
        (h.alive k _ (List.getElem?_eq_getElem hkl)).mpr (.inr ⟨i, hp⟩)
      have hu : s.use k (fun _ => ⟨false, false⟩) =
          { s with tickers := s.tickers.set k ⟨false, false⟩ } := by
        unfold State.use
        rw [List.getElem?_eq_getElem hkl]
        simp [hal]
      have key : ∀ j m, ((s.use k fun _ => ⟨false, false⟩).goto i .startRead).pc j = .startDrop (some m) ↔
          j ≠ i ∧ s.pc j = .startDrop (some m) := by
        intro j m
        by_cases hj : j = i
        · subst hj
          rw [goto_self]
          simp
        · rw [goto_other _ _ hj, u1]
          simp [hj]
      refine ⟨?_, ?_, ?_, ?_⟩
      · intro m hm
        rw [hu] at hm ⊢
        simpa [State.goto] using h.ptr m hm
      · intro j m e
        obtain ⟨h1, h2⟩ := h.old j m ((key j m).mp e).2
        rw [hu]
        exact ⟨by simpa [State.goto] using h1, h2⟩
      · intro a b m e e'
        exact h.once a b m ((key a m).mp e).2 ((key b m).mp e').2
      · intro m t ht
        simp only [key]
        rw [hu] at ht ⊢
        simp only [State.goto] at ht ⊢
        by_cases hm : k = m
        · subst hm
          rw [List.getElem?_set_self hkl] at ht
          obtain rfl := Option.some.inj ht
          simp only [Bool.false_eq_true, false_iff, not_or, not_exists, not_and]
          exact ⟨hkp, fun j hj e => hj (h.once j i k e hp)⟩
        · rw [List.getElem?_set_ne hm] at ht
          rw [h.alive m t ht]
          constructor
          · rintro (e | ⟨j, e⟩)
            · exact .inl e
            · refine .inr ⟨j, fun hj => ?_, e⟩
              subst hj
              rw [hp] at e
              simp at e
              exact hm e
          · rintro (e | ⟨j, -, e⟩)
            · exact .inl e
            · exact .inr ⟨j, e⟩
  | startRead =>
    simp only
    split
    · exact inv_goto h (by simp [hp]) (by simp)
    · exact inv_fault h _
  | startRun p =>
    have := inv_use (s := s) h p (f := fun t => { t with running := true }) fun _ => rfl
    exact inv_goto this (by simp [(use_pc s p _).1, hp]) (by simp)
  | stopRun p =>
    have := inv_use (s := s) h p (f := fun t => { t with running := false }) fun _ => rfl
    exact inv_goto this (by simp [(use_pc s p _).1, hp]) (by simp)
  | stopFlag => exact inv_goto (inv_flag h false) (by simp [hp]) (by simp)

theorem inv_runs : ∀ (l : List (τ × Call)) {s : State τ}, Inv s → Inv (runs l s)
  | [], _, h => h
  | x :: l, _, h => inv_runs l (inv_step h x.1 x.2)

omit [DecidableEq τ] in
theorem inv_new : Inv (State.new : State τ) := by
  constructor <;> simp [State.new]

/-- C149: whatever the threads do, no ticker is forgotten: when all calls have returned, the only ticker
that exists is the one the enforcer holds. -/
theorem C149_one (l : List (τ × Call)) :
    let s := runs l (State.new : State τ)
    (∀ i, s.pc i = .idle) → ∀ (k : Nat) (t : Tick), s.tickers[k]? = some t →
      (t.alive = true ↔ s.ptr = some k) := by
  intro s hi k t ht
  rw [(inv_runs l inv_new).alive k t ht]
  constructor
  · rintro (e | ⟨i, e⟩)
    · exact e
    · have := hi i
      rw [e] at this
      cases this
  · exact .inl

/-! ## Stopping from several threads -/

/-- Every call of `StartAutoLoadPolicy` finds automatic loading running. -/
def Meets : List (τ × Call) → State τ → Prop
  | [], _ => True
  | x :: l, s => (s.pc x.1 = .idle → x.2 = .start → s.flag = true) ∧ Meets l (advance s x.1 x.2)

/-- What holds while nobody starts anew. -/
structure Held (p : Nat) (s : State τ) : Prop where
  fault : s.fault = none
  ptr : s.ptr = some p
  ticker : ∃ r, s.tickers[p]? = some ⟨true, r⟩ ∧
    ((s.flag = false ∨ ∃ i, s.pc i = .stopFlag) → r = false)
  pc : ∀ i, s.pc i = .idle ∨ s.pc i = .stopRun p ∨ s.pc i = .stopFlag

theorem held_step {p : Nat} {s : State τ} (h : Held p s) {i : τ} {c : Call}
    (hm : s.pc i = .idle → c = .start → s.flag = true) : Held p (advance s i c) := by
  obtain ⟨h1, h2, ⟨r, h3, h4⟩, h5⟩ := h
  have hpc : ∀ (q : Pc) (s' : State τ), s'.pc = s.pc → (q = .idle ∨ q = .stopRun p ∨ q = .stopFlag) →
      ∀ j, (s'.goto i q).pc j = .idle ∨ (s'.goto i q).pc j = .stopRun p ∨
        (s'.goto i q).pc j = .stopFlag := by
    intro q s' e hq j
    by_cases hj : j = i
    · rw [hj, goto_self]; exact hq
    · rw [goto_other _ _ hj, e]; exact h5 j
  unfold advance
  rcases h5 i with hp | hp | hp
  · rw [hp]
    cases c with
    | start =>
      simp only [hm hp rfl, if_true]
      exact ⟨h1, h2, ⟨r, h3, h4⟩, h5⟩
    | stop =>
      simp only [h2]
      refine ⟨h1, h2, ⟨r, h3, ?_⟩, hpc _ s rfl (.inr (.inl rfl))⟩
      rintro (e | ⟨j, e⟩)
      · exact h4 (.inl e)
      · refine h4 (.inr ⟨j, ?_⟩)
        by_cases hj : j = i
        · rw [hj, goto_self] at e; cases e
        · rwa [goto_other _ _ hj] at e
  · rw [hp]
    have hl : p < s.tickers.length := (List.getElem?_eq_some_iff.mp h3).1
    have hu : s.use p (fun t => { t with running := false }) =
        { s with tickers := s.tickers.set p ⟨true, false⟩ } := by
      unfold State.use
      rw [h3]
      rfl
    simp only [hu]
    refine ⟨h1, h2, ⟨false, ?_, fun _ => rfl⟩, hpc _ _ rfl (.inr (.inr rfl))⟩
    simp [State.goto, hl]
  · rw [hp]
    refine ⟨h1, h2, ⟨r, h3, fun _ => h4 (.inr ⟨i, hp⟩)⟩, hpc _ _ rfl (.inl rfl)⟩

/-- C149 (partial): while automatic loading runs, any threads may stop it at once, and may start it until
one of these calls has returned: no destroyed or missing ticker is used, and once the flag is down the
timer loop has ended. Missing: starting it anew while another call is under way (`C149_fails`,
`C149_stop_fails`). -/
theorem C149_stops_partial {s : State τ} {p : Nat} {r : Bool} (h1 : s.fault = none) (h2 : s.flag = true)
    (h3 : s.ptr = some p) (h4 : s.tickers[p]? = some ⟨true, r⟩) (h5 : ∀ i, s.pc i = .idle)
    (l : List (τ × Call)) (hl : Meets l s) :
    let s' := runs l s
    s'.fault = none ∧ s'.ptr = some p ∧ ∃ r', s'.tickers[p]? = some ⟨true, r'⟩ ∧
      (s'.flag = false → r' = false) := by
  have key : ∀ (l : List (τ × Call)) (s : State τ), Held p s → Meets l s → Held p (runs l s) := by
    intro l
    induction l with
    | nil => intro s h _; exact h
    | cons x l ih => intro s h hm; exact ih _ (held_step h hm.1) hm.2
  have h0 : Held p s := ⟨h1, h3, ⟨r, h4, by simp [h2, h5]⟩, fun i => .inl (h5 i)⟩
  obtain ⟨a, b, ⟨r', c, d⟩, -⟩ := key l s h0 hl
  exact ⟨a, b, r', c, fun e => d (.inl e)⟩

/-! ## One call after the other -/

/-- Thread `i` goes on until it is in no call, at most `n` steps. -/
def finish (i : τ) : Nat → State τ → State τ
  | 0, s => s
  | n + 1, s => if s.pc i = .idle then s else finish i n (advance s i .start)

/-- A whole call by thread `i`, with nobody else making a step. -/
def whole (s : State τ) (x : τ × Call) : State τ := finish x.1 5 (advance s x.1 x.2)

/-- Calls one after the other, each by any thread. -/
def serial (l : List (τ × Call)) (s : State τ) : State τ := l.foldl whole s

/-- Between calls: the enforcer has a ticker, whose timer loop runs if the flag is up. -/
structure Rest (s : State τ) : Prop where
  fault : s.fault = none
  idle : ∀ i, s.pc i = .idle
  ticker : ∃ p, s.ptr = some p ∧ s.tickers[p]? = some ⟨true, s.flag⟩

theorem goto_idle {s : State τ} {i : τ} {q : Pc} (h : ∀ j, j ≠ i → s.pc j = .idle) (hq : q = .idle)
    (j : τ) : (s.goto i q).pc j = .idle := by
  by_cases hj : j = i
  · rw [hj, goto_self, hq]
  · rw [goto_other _ _ hj, h j hj]

/-- A start that finds automatic loading not running. -/
theorem whole_start {s : State τ} (hf : s.fault = none) (hi : ∀ i, s.pc i = .idle)
    (hp : ∀ p, s.ptr = some p → ∃ r, s.tickers[p]? = some ⟨true, r⟩) (hn : s.flag = false) (i : τ) :
    Rest (whole s (i, .start)) ∧ (whole s (i, .start)).flag = true := by
  cases hptr : s.ptr with
  | none =>
    have hw : whole s (i, .start) =
        ⟨true, some s.tickers.length, s.tickers ++ [⟨true, true⟩], fun j => if j = i then .idle else s.pc j,
          none⟩ := by
      simp [whole, finish, advance, State.goto, State.make, State.use, hi, hn, hptr, hf]
      funext j
      split <;> rfl
    rw [hw]
    refine ⟨⟨rfl, fun j => by simp [hi], ⟨_, rfl, by simp⟩⟩, rfl⟩
  | some k =>
    obtain ⟨r, hk⟩ := hp k hptr
    have hkl : k < s.tickers.length := (List.getElem?_eq_some_iff.mp hk).1
    have hw : whole s (i, .start) =
        ⟨true, some s.tickers.length, s.tickers.set k ⟨false, false⟩ ++ [⟨true, true⟩],
          fun j => if j = i then .idle else s.pc j, none⟩ := by
      simp [whole, finish, advance, State.goto, State.make, State.use, hi, hn, hptr, hf,
        List.getElem?_append_left hkl, hk, List.set_append_left _ _ hkl]
      funext j
      split <;> rfl
    rw [hw]
    refine ⟨⟨rfl, fun j => by simp [hi], ⟨_, rfl, by simp⟩⟩, rfl⟩

theorem whole_rest {s : State τ} (h : Rest s) (x : τ × Call) :
    Rest (whole s x) ∧ ((whole s x).flag = true ↔ x.2 = .start) := by
  obtain ⟨h1, h2, p, h3, h4⟩ := h
  obtain ⟨i, c⟩ := x
  cases c with
  | start =>
    cases hf : s.flag with
    | true =>
      have hw : whole s (i, .start) = s := by simp [whole, finish, advance, h2, hf]
      rw [hw]
      exact ⟨⟨h1, h2, p, h3, h4⟩, by simp [hf]⟩
    | false =>
      have := whole_start h1 h2 (fun q hq => by
        obtain rfl : p = q := by simpa [h3] using hq
        exact ⟨_, h4⟩) hf i
      exact ⟨this.1, by simp [this.2]⟩
  | stop =>
    have hl : p < s.tickers.length := (List.getElem?_eq_some_iff.mp h4).1
    have hw : whole s (i, .stop) =
        ⟨false, some p, s.tickers.set p ⟨true, false⟩, fun j => if j = i then .idle else s.pc j, none⟩ := by
      simp [whole, finish, advance, State.goto, State.use, h1, h2, h3, h4]
      funext j
      split <;> rfl
    rw [hw]
    exact ⟨⟨rfl, fun j => by simp [h2], ⟨p, rfl, by simp [hl]⟩⟩, by simp⟩

/-- C149 (partial): calls that do not overlap are safe, whichever threads make them, if the first is a
start; afterwards the enforcer has a ticker, and it runs if and only if the last call was a start.
Missing: calls that overlap (`C149_fails`, `C149_stop_fails`; `C149_stops_partial`). -/
theorem C149_serial_partial (i : τ) (l : List (τ × Call)) :
    let s := serial ((i, .start) :: l) (State.new : State τ)
    s.fault = none ∧ (∀ j, s.pc j = .idle) ∧
      ∃ p, s.ptr = some p ∧ s.tickers[p]? = some
        ⟨true, (((i, Call.start) :: l).map Prod.snd).getLast? == some .start⟩ := by
  have key : ∀ (l : List (τ × Call)) (s : State τ) (c : Call), Rest s → (s.flag = true ↔ c = .start) →
      Rest (serial l s) ∧ ((serial l s).flag = true ↔ (c :: l.map Prod.snd).getLast? = some .start) := by
    intro l
    induction l with
    | nil => intro s c h hc; exact ⟨h, by simpa [serial] using hc⟩
    | cons x l ih =>
      intro s c h _
      obtain ⟨a, b⟩ := whole_rest h x
      have := ih _ x.2 a b
      simpa [serial, List.getLast?_cons] using this
  obtain ⟨a, b⟩ := whole_start (s := (State.new : State τ)) rfl (fun _ => rfl) (by simp [State.new]) rfl i
  obtain ⟨⟨h1, h2, p, h3, h4⟩, h5⟩ := key l _ .start a (by simp [b])
  refine ⟨h1, h2, p, h3, ?_⟩
  refine h4.trans ?_
  congr 2
  rw [Bool.eq_iff_iff]
  simpa using h5

/-- Non-vacuity of C149: two threads stop at once, another one starts in vain, and afterwards automatic
loading is started again by a third thread. -/
example :
    let s := serial [((0 : Fin 3), Call.start), (1, .start)] (State.new : State (Fin 3))
    let l := [((0 : Fin 3), Call.stop), (1, .stop), (2, .start), (0, .stop), (1, .stop), (0, .stop), (1, .stop)]
    Meets l s ∧ (runs l s).flag = false ∧ (runs l s).tickers = [⟨true, false⟩] ∧
      (serial [(2, .start)] (runs l s)).tickers = [⟨false, false⟩, ⟨true, true⟩] := by
  refine ⟨⟨by decide, by decide, by decide, by decide, by decide, by decide, by decide, trivial⟩, ?_⟩
  decide

end AutoThreadProps
end Casbin
