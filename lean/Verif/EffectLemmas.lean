import Verif.Effect

/-! # Helper lemmas about the rule loop -/

namespace Casbin

/-- Pure version of the loop: the step is a function of the rule only. -/
def pureRules (f : Rule → Outcome (Bool × Effect)) (expr : Str) (rules : List Rule) :
    Outcome (Option (Effect × Option Nat)) :=
  (runRules (σ := Unit) (fun r => M.lift (f r)) expr rules ()).1

/-- A stateful step that behaves like `f` whatever the (invariant-satisfying) state makes the
loop behave like the pure loop. -/
theorem ruleLoop_sim {σ : Type} (step : Rule → M σ (Bool × Effect)) (Inv : σ → Prop)
    (f : Rule → Outcome (Bool × Effect)) (expr : Str) (len : Nat) (rs : List Rule)
    (h : ∀ r ∈ rs, ∀ s, Inv s → ∃ s', step r s = (f r, s') ∧ Inv s') :
    ∀ (idx : Nat) (es : List Effect) (ms : List Bool) (last : Option (Effect × Option Nat)) (s : σ),
      Inv s → ∃ s', ruleLoop step expr len rs idx es ms last s
        = ((ruleLoop (σ := Unit) (fun r => M.lift (f r)) expr len rs idx es ms last ()).1, s')
        ∧ Inv s' := by
  induction rs with
  | nil => intro idx es ms last s hs; exact ⟨s, by simp [ruleLoop], hs⟩
  | cons r rs ih =>
    intro idx es ms last s hs
    obtain ⟨s1, h1, hs1⟩ := h r (by simp) s hs
    have ih' := ih (fun r' hr' => h r' (List.mem_cons_of_mem _ hr'))
    simp only [ruleLoop, M.bind_run, h1]
    cases hf : f r with
    | throw e => exact ⟨s1, by simp, hs1⟩
    | ub u => exact ⟨s1, by simp, hs1⟩
    | ok me =>
      simp only [M.lift_run]
      cases hm : mergeEffects expr (es.set idx me.2) (ms.set idx me.1) idx len with
      | throw e => exact ⟨s1, by simp, hs1⟩
      | ub u => exact ⟨s1, by simp, hs1⟩
      | ok res =>
        by_cases hr : res.1 ≠ Effect.indeterminate
        · simp only [if_pos hr]
          exact ⟨s1, by simp, hs1⟩
        · simp only [if_neg hr]
          exact ih' _ _ _ _ _ hs1

theorem runRules_sim {σ : Type} (step : Rule → M σ (Bool × Effect)) (Inv : σ → Prop)
    (f : Rule → Outcome (Bool × Effect)) (expr : Str) (rs : List Rule)
    (h : ∀ r ∈ rs, ∀ s, Inv s → ∃ s', step r s = (f r, s') ∧ Inv s') (s : σ) (hs : Inv s) :
    ∃ s', runRules step expr rs s = (pureRules f expr rs, s') ∧ Inv s' := by
  unfold pureRules runRules
  exact ruleLoop_sim step Inv f expr rs.length rs h _ _ _ _ _ hs

/-- vectors after processing `done`, with `n` rules still to come -/
def esOf (done : List (Bool × Effect)) (n : Nat) : List Effect :=
  done.map Prod.snd ++ List.replicate n .indeterminate
def msOf (done : List (Bool × Effect)) (n : Nat) : List Bool :=
  done.map Prod.fst ++ List.replicate n false

theorem set_append_replicate {α : Type} (l : List α) (a b : α) (n : Nat) :
    (l ++ List.replicate (n + 1) a).set l.length b = (l ++ [b]) ++ List.replicate n a := by
  simp [List.replicate_succ]

theorem esOf_set (done : List (Bool × Effect)) (n : Nat) (p : Bool × Effect) :
    (esOf done (n + 1)).set done.length p.2 = esOf (done ++ [p]) n := by
  have := set_append_replicate (done.map Prod.snd) Effect.indeterminate p.2 n
  simp only [List.length_map] at this
  simp [esOf, this]

theorem msOf_set (done : List (Bool × Effect)) (n : Nat) (p : Bool × Effect) :
    (msOf done (n + 1)).set done.length p.1 = msOf (done ++ [p]) n := by
  have := set_append_replicate (done.map Prod.fst) false p.1 n
  simp only [List.length_map] at this
  simp [msOf, this]

theorem vecAt_esOf (done : List (Bool × Effect)) (n : Nat) (p : Bool × Effect) :
    vecAt (esOf (done ++ [p]) n) done.length = .ok p.2 := by
  simp [vecAt, esOf]

theorem vecAt_msOf (done : List (Bool × Effect)) (n : Nat) (p : Bool × Effect) :
    vecAt (msOf (done ++ [p]) n) done.length = .ok p.1 := by
  simp [vecAt, msOf]

/-- Abstract loop over (matched, effect) pairs with a merge function that sees the pairs
processed so far (including the current one) and the number of pairs still to come. -/
def absLoop (mg : List (Bool × Effect) → Nat → Effect × Option Nat) :
    List (Bool × Effect) → List (Bool × Effect) → Option (Effect × Option Nat) →
    Option (Effect × Option Nat)
  | _, [], last => last
  | done, p :: ps, _ =>
    let res := mg (done ++ [p]) ps.length
    if res.1 ≠ .indeterminate then some res else absLoop mg (done ++ [p]) ps (some res)

theorem ruleLoop_abs (f : Rule → Bool × Effect) (expr : Str)
    (mg : List (Bool × Effect) → Nat → Effect × Option Nat) (len : Nat)
    (hmg : ∀ done p n, done.length + 1 + n = len →
      mergeEffects expr (esOf (done ++ [p]) n) (msOf (done ++ [p]) n) done.length len
        = .ok (mg (done ++ [p]) n)) :
    ∀ (rs : List Rule) (done : List (Bool × Effect)) (last : Option (Effect × Option Nat)),
      done.length + rs.length = len →
      (ruleLoop (σ := Unit) (fun r => M.lift (.ok (f r))) expr len rs done.length
        (esOf done rs.length) (msOf done rs.length) last ())
      = (.ok (absLoop mg done (rs.map f) last), ()) := by
  intro rs
  induction rs with
  | nil => intro done last _; simp [ruleLoop, absLoop]
  | cons r rs ih =>
    intro done last hlen
    simp only [ruleLoop, M.bind_run, M.lift_run, List.map_cons, absLoop, List.length_cons,
      List.length_map] at hlen ⊢
    rw [esOf_set, msOf_set, hmg done (f r) rs.length (by omega)]
    simp only
    by_cases hr : (mg (done ++ [f r]) rs.length).1 ≠ Effect.indeterminate
    · simp [hr]
    · simp only [hr, if_false]
      have := ih (done ++ [f r]) (some (mg (done ++ [f r]) rs.length)) (by simp; omega)
      simpa using this

theorem pureRules_abs (f : Rule → Bool × Effect) (expr : Str)
    (mg : List (Bool × Effect) → Nat → Effect × Option Nat) (rs : List Rule)
    (hmg : ∀ done p n, done.length + 1 + n = rs.length →
      mergeEffects expr (esOf (done ++ [p]) n) (msOf (done ++ [p]) n) done.length rs.length
        = .ok (mg (done ++ [p]) n)) :
    pureRules (fun r => .ok (f r)) expr rs = .ok (absLoop mg [] (rs.map f) none) := by
  unfold pureRules runRules
  have := ruleLoop_abs f expr mg rs.length hmg rs [] none (by simp)
  simp only [esOf, msOf, List.map_nil, List.nil_append, List.length_nil] at this
  rw [this]

/-! ### The four merge functions -/

/-- first index (from `i`) of a pair with `matched` and effect `e` -/
def firstHit (e : Effect) : List (Bool × Effect) → Nat → Option Nat
  | [], _ => none
  | p :: ps, i => if p.1 = true ∧ p.2 = e then some i else firstHit e ps (i + 1)

def lastPair (l : List (Bool × Effect)) : Bool × Effect := l.getLast?.getD (false, .indeterminate)

@[simp] theorem lastPair_append (l : List (Bool × Effect)) (p : Bool × Effect) :
    lastPair (l ++ [p]) = p := by simp [lastPair]

def mgAllow (seen : List (Bool × Effect)) (_n : Nat) : Effect × Option Nat :=
  let p := lastPair seen
  if p.1 = true ∧ p.2 = .allow then (.allow, some (seen.length - 1)) else (.indeterminate, none)

def mgDeny (seen : List (Bool × Effect)) (n : Nat) : Effect × Option Nat :=
  let p := lastPair seen
  if p.1 = true ∧ p.2 = .deny then (.deny, some (seen.length - 1))
  else if n = 0 then (.allow, none) else (.indeterminate, none)

def mgBoth (seen : List (Bool × Effect)) (n : Nat) : Effect × Option Nat :=
  let p := lastPair seen
  if p.1 = true ∧ p.2 = .deny then (.deny, some (seen.length - 1))
  else if n ≠ 0 then (.indeterminate, none)
  else match firstHit .allow seen 0 with
    | some i => (.allow, some i)
    | none => (.indeterminate, none)

/-- last index of a matched pair with a determinate effect -/
def lastDet : List (Bool × Effect) → Nat → Option (Effect × Nat)
  | [], _ => none
  | p :: ps, i =>
    match lastDet ps (i + 1) with
    | some r => some r
    | none => if p.1 = true ∧ p.2 ≠ .indeterminate then some (p.2, i) else none

def mgPriority (seen : List (Bool × Effect)) (_n : Nat) : Effect × Option Nat :=
  match lastDet seen 0 with
  | some (e, i) => (if e = .allow then .allow else .deny, some i)
  | none => (.indeterminate, none)

theorem merge_allow (done : List (Bool × Effect)) (p : Bool × Effect) (n len : Nat) :
    mergeEffects exprAllowOverride (esOf (done ++ [p]) n) (msOf (done ++ [p]) n) done.length len
      = .ok (mgAllow (done ++ [p]) n) := by
  unfold mergeEffects mgAllow
  simp only [if_true, vecAt_msOf, vecAt_esOf, Outcome.ok_bind, lastPair_append, List.length_append]
  obtain ⟨m, e⟩ := p
  cases m <;> cases e <;> simp

theorem exprDeny_ne : exprDenyOverride ≠ exprAllowOverride := by decide
theorem exprBoth_ne1 : exprAllowAndDeny ≠ exprAllowOverride := by decide
theorem exprBoth_ne2 : exprAllowAndDeny ≠ exprDenyOverride := by decide
theorem exprPrio_ne1 : exprPriority ≠ exprAllowOverride := by decide
theorem exprPrio_ne2 : exprPriority ≠ exprDenyOverride := by decide
theorem exprPrio_ne3 : exprPriority ≠ exprAllowAndDeny := by decide

theorem merge_deny (done : List (Bool × Effect)) (p : Bool × Effect) (n len : Nat)
    (h : done.length + 1 + n = len) :
    mergeEffects exprDenyOverride (esOf (done ++ [p]) n) (msOf (done ++ [p]) n) done.length len
      = .ok (mgDeny (done ++ [p]) n) := by
  unfold mergeEffects mgDeny
  have h1 : done.length + 1 = len ↔ n = 0 := by omega
  simp only [exprDeny_ne, if_false, if_true, vecAt_msOf, vecAt_esOf, Outcome.ok_bind,
    lastPair_append, h1]
  obtain ⟨m, e⟩ := p
  cases m <;> cases e <;> simp <;> split <;> rfl

theorem scanAllow_zip (ps : List (Bool × Effect)) (i : Nat) :
    scanAllow (ps.map Prod.snd) (ps.map Prod.fst) i
      = .ok (match firstHit .allow ps i with
        | some j => (.allow, some j)
        | none => (.indeterminate, none)) := by
  induction ps generalizing i with
  | nil => simp [scanAllow, firstHit]
  | cons p ps ih =>
    obtain ⟨m, e⟩ := p
    simp only [List.map_cons, scanAllow, firstHit, ih]
    cases m <;> cases e <;> simp

theorem merge_both (done : List (Bool × Effect)) (p : Bool × Effect) (n len : Nat)
    (h : done.length + 1 + n = len) :
    mergeEffects exprAllowAndDeny (esOf (done ++ [p]) n) (msOf (done ++ [p]) n) done.length len
      = .ok (mgBoth (done ++ [p]) n) := by
  unfold mergeEffects mgBoth
  have h1 : done.length + 1 < len ↔ n ≠ 0 := by omega
  simp only [exprBoth_ne1, exprBoth_ne2, if_false, if_true, vecAt_msOf, vecAt_esOf,
    Outcome.ok_bind, lastPair_append, h1]
  have hs : n = 0 → scanAllow (esOf (done ++ [p]) n) (msOf (done ++ [p]) n) 0
      = .ok (match firstHit .allow (done ++ [p]) 0 with
        | some j => (.allow, some j)
        | none => (.indeterminate, none)) := by
    intro hn; subst hn
    have := scanAllow_zip (done ++ [p]) 0
    simpa [esOf, msOf] using this
  obtain ⟨m, e⟩ := p
  by_cases hn : n = 0
  · have hs' := hs hn
    subst hn
    cases m <;> cases e <;> simp [hs'] 
  · cases m <;> cases e <;> simp [hn]

theorem vecAt_append_left {α : Type} (l l' : List α) (i : Nat) (h : i < l.length) :
    vecAt (l ++ l') i = vecAt l i := by
  simp [vecAt, List.getElem?_append_left h]

theorem lastDet_append (ps : List (Bool × Effect)) (p : Bool × Effect) (i : Nat) :
    lastDet (ps ++ [p]) i =
      if p.1 = true ∧ p.2 ≠ .indeterminate then some (p.2, i + ps.length) else lastDet ps i := by
  induction ps generalizing i with
  | nil => simp [lastDet]
  | cons q ps ih =>
    simp only [List.cons_append, lastDet, ih, List.length_cons]
    have : i + 1 + ps.length = i + (ps.length + 1) := by omega
    rw [this]
    by_cases hp : p.1 = true ∧ p.2 ≠ Effect.indeterminate
    · simp only [if_pos hp]
    · simp only [if_neg hp]

theorem scanBack_zip (ps : List (Bool × Effect)) (es : List Effect) (ms : List Bool) :
    ∀ k, k ≤ ps.length →
    scanBack (ps.map Prod.snd ++ es) (ps.map Prod.fst ++ ms) k
      = .ok (mgPriority (ps.take k) 0) := by
  intro k
  induction k with
  | zero => intro _; simp [scanBack, mgPriority, lastDet]
  | succ k ih =>
    intro hk
    have ih := ih (by omega)
    have hk' : k < ps.length := by omega
    have htake : ps.take (k + 1) = ps.take k ++ [ps[k]] := by
      simp [List.take_append_getElem]
    simp only [scanBack]
    rw [vecAt_append_left _ _ _ (by simpa using hk'), vecAt_append_left _ _ _ (by simpa using hk'),
      vecAt_ok (by simpa using hk'), vecAt_ok (by simpa using hk'), htake]
    simp only [Outcome.ok_bind, List.getElem_map, ih, mgPriority, lastDet_append]
    have hl : (ps.take k).length = k := by simp; omega
    generalize ps[k] = q
    obtain ⟨m, e⟩ := q
    cases m <;> cases e <;> simp [hl]

theorem scanBack_replicate (es : List Effect) (ms : List Bool) 
    (he : ms.length = es.length) :
    ∀ n, scanBack (es ++ List.replicate n .indeterminate) (ms ++ List.replicate n false)
      (es.length + n) = scanBack (es ++ List.replicate n .indeterminate)
        (ms ++ List.replicate n false) es.length := by
  intro n
  suffices H : ∀ j, j ≤ n → scanBack (es ++ List.replicate n .indeterminate)
      (ms ++ List.replicate n false) (es.length + j)
      = scanBack (es ++ List.replicate n .indeterminate) (ms ++ List.replicate n false) es.length from
    H n (Nat.le_refl n)
  intro j
  induction j with
  | zero => intro _; rfl
  | succ j ih =>
    intro hj
    have : vecAt (ms ++ List.replicate n false) (es.length + j) = .ok false := by
      have h1 : (ms ++ List.replicate n false)[es.length + j]? = some false := by
        rw [List.getElem?_append_right (by omega)]
        have : es.length + j - ms.length < n := by omega
        simp [this]
      simp [vecAt, h1]
    rw [← Nat.add_assoc]
    simp only [scanBack, this, Outcome.ok_bind, if_true]
    exact ih (by omega)

theorem merge_priority (done : List (Bool × Effect)) (p : Bool × Effect) (n len : Nat) :
    mergeEffects exprPriority (esOf (done ++ [p]) n) (msOf (done ++ [p]) n) done.length len
      = .ok (mgPriority (done ++ [p]) n) := by
  unfold mergeEffects
  simp only [exprPrio_ne1, exprPrio_ne2, exprPrio_ne3, if_false, if_true]
  have h1 := scanBack_replicate ((done ++ [p]).map Prod.snd) ((done ++ [p]).map Prod.fst)
    (by simp) n
  have h2 := scanBack_zip (done ++ [p]) (List.replicate n .indeterminate) (List.replicate n false)
    (done ++ [p]).length (Nat.le_refl _)
  have h3 : (esOf (done ++ [p]) n).length = ((done ++ [p]).map Prod.snd).length + n := by
    simp [esOf]; omega
  rw [h3]
  unfold esOf msOf
  rw [h1, List.length_map, h2, List.take_length]
  rfl

/-! ### The abstract loops -/

theorem firstHit_some (e : Effect) (ps : List (Bool × Effect)) (k i : Nat) :
    firstHit e ps k = some i ↔
      k ≤ i ∧ (∃ p, ps[i - k]? = some p ∧ p.1 = true ∧ p.2 = e) ∧
      ∀ j, k ≤ j → j < i → ∀ p, ps[j - k]? = some p → ¬ (p.1 = true ∧ p.2 = e) := by
  induction ps generalizing k with
  | nil => simp [firstHit]
  | cons q ps ih =>
    simp only [firstHit]
    by_cases hq : q.1 = true ∧ q.2 = e
    · simp only [if_pos hq]
      constructor
      · intro h
        have h : k = i := by simpa using h
        subst h
        refine ⟨Nat.le_refl _, ⟨q, by simp, hq⟩, ?_⟩
        intro j h1 h2; omega
      · rintro ⟨hk, _, h3⟩
        by_cases hik : k = i
        · simp [hik]
        · exfalso; exact h3 k (Nat.le_refl _) (by omega) q (by simp) hq
    · simp only [hq, if_false, ih]
      constructor
      · rintro ⟨hk, ⟨p, hp, hpe⟩, h3⟩
        refine ⟨by omega, ⟨p, ?_, hpe⟩, ?_⟩
        · have : i - k = (i - (k + 1)) + 1 := by omega
          rw [this]; simpa using hp
        · intro j h1 h2 p' hp'
          by_cases hjk : j = k
          · subst hjk; simp at hp'; subst hp'; exact hq
          · have : j - k = (j - (k + 1)) + 1 := by omega
            rw [this] at hp'
            exact h3 j (by omega) h2 p' (by simpa using hp')
      · rintro ⟨hk, ⟨p, hp, hpe⟩, h3⟩
        have hki : k ≠ i := by
          intro he; subst he; simp at hp; subst hp; exact hq hpe
        refine ⟨by omega, ⟨p, ?_, hpe⟩, ?_⟩
        · have : i - k = (i - (k + 1)) + 1 := by omega
          rw [this] at hp; simpa using hp
        · intro j h1 h2 p' hp'
          have : j - k = (j - (k + 1)) + 1 := by omega
          exact h3 j (by omega) h2 p' (by rw [this]; simpa using hp')

theorem firstHit_none (e : Effect) (ps : List (Bool × Effect)) (k : Nat) :
    firstHit e ps k = none ↔ ∀ p ∈ ps, ¬ (p.1 = true ∧ p.2 = e) := by
  induction ps generalizing k with
  | nil => simp [firstHit]
  | cons q ps ih =>
    simp only [firstHit, List.mem_cons, forall_eq_or_imp]
    by_cases hq : q.1 = true ∧ q.2 = e
    · simp [hq]
    · simp only [hq, if_false, ih, not_false_eq_true, true_and]

theorem firstHit_shift (e : Effect) (ps : List (Bool × Effect)) (k : Nat) :
    firstHit e ps k = (firstHit e ps 0).map (· + k) := by
  induction ps generalizing k with
  | nil => simp [firstHit]
  | cons q ps ih =>
    simp only [firstHit]
    split
    · simp
    · rw [ih (k + 1), ih (0 + 1)]
      cases firstHit e ps 0 <;> simp; omega

theorem firstHit_append (e : Effect) (ps qs : List (Bool × Effect)) (k : Nat) :
    firstHit e (ps ++ qs) k = match firstHit e ps k with
      | some i => some i
      | none => firstHit e qs (k + ps.length) := by
  induction ps generalizing k with
  | nil => simp [firstHit]
  | cons q ps ih =>
    simp only [List.cons_append, firstHit, ih, List.length_cons]
    split
    · rfl
    · have : k + 1 + ps.length = k + (ps.length + 1) := by omega
      rw [this]

/-- Result of the allow-override loop. -/
def resAllow (ps : List (Bool × Effect)) : Effect × Option Nat :=
  match firstHit .allow ps 0 with
  | some i => (.allow, some i)
  | none => (.indeterminate, none)

/-- Result of the deny-override loop. -/
def resDeny (ps : List (Bool × Effect)) : Effect × Option Nat :=
  match firstHit .deny ps 0 with
  | some i => (.deny, some i)
  | none => (.allow, none)

/-- Result of the allow-and-deny loop. -/
def resBoth (ps : List (Bool × Effect)) : Effect × Option Nat :=
  match firstHit .deny ps 0 with
  | some i => (.deny, some i)
  | none => resAllow ps

/-- first index (from `i`) of a matched pair with a determinate effect -/
def firstDet : List (Bool × Effect) → Nat → Option (Effect × Nat)
  | [], _ => none
  | p :: ps, i => if p.1 = true ∧ p.2 ≠ .indeterminate then some (p.2, i) else firstDet ps (i + 1)

/-- Result of the priority loop. -/
def resPriority (ps : List (Bool × Effect)) : Effect × Option Nat :=
  match firstDet ps 0 with
  | some (e, i) => (e, some i)
  | none => (.indeterminate, none)

theorem absLoop_allow (done ps : List (Bool × Effect)) (last : Option (Effect × Option Nat))
    (hne : ps ≠ []) :
    absLoop mgAllow done ps last = some (match firstHit .allow ps done.length with
      | some i => (.allow, some i)
      | none => (.indeterminate, none)) := by
  induction ps generalizing done last with
  | nil => exact absurd rfl hne
  | cons p ps ih =>
    simp only [absLoop, mgAllow, lastPair_append, firstHit]
    by_cases hp : p.1 = true ∧ p.2 = Effect.allow
    · simp [hp]
    · simp only [hp, if_false]
      cases ps with
      | nil => simp [absLoop, firstHit]
      | cons q qs =>
        have := ih (done ++ [p]) (some (Effect.indeterminate, none)) (by simp)
        simpa using this

theorem absLoop_deny (done ps : List (Bool × Effect)) (last : Option (Effect × Option Nat))
    (hne : ps ≠ []) :
    absLoop mgDeny done ps last = some (match firstHit .deny ps done.length with
      | some i => (.deny, some i)
      | none => (.allow, none)) := by
  induction ps generalizing done last with
  | nil => exact absurd rfl hne
  | cons p ps ih =>
    simp only [absLoop, mgDeny, lastPair_append, firstHit]
    by_cases hp : p.1 = true ∧ p.2 = Effect.deny
    · simp [hp]
    · simp only [hp, if_false]
      cases ps with
      | nil => simp [firstHit]
      | cons q qs =>
        have := ih (done ++ [p]) (some (Effect.indeterminate, none)) (by simp)
        simpa using this

theorem absLoop_both (done ps : List (Bool × Effect)) (last : Option (Effect × Option Nat))
    (hne : ps ≠ []) :
    absLoop mgBoth done ps last = some (match firstHit .deny ps done.length with
      | some i => (.deny, some i)
      | none => match firstHit .allow (done ++ ps) 0 with
        | some i => (.allow, some i)
        | none => (.indeterminate, none)) := by
  induction ps generalizing done last with
  | nil => exact absurd rfl hne
  | cons p ps ih =>
    simp only [absLoop, mgBoth, lastPair_append, firstHit]
    by_cases hp : p.1 = true ∧ p.2 = Effect.deny
    · simp [hp]
    · simp only [hp, if_false]
      cases ps with
      | nil =>
        simp only [List.length_nil, ne_eq, not_true_eq_false, if_false, firstHit, absLoop]
        cases firstHit Effect.allow (done ++ [p]) 0 <;> simp
      | cons q qs =>
        have := ih (done ++ [p]) (some (Effect.indeterminate, none)) (by simp)
        simpa using this

theorem absLoop_priority (done ps : List (Bool × Effect)) (last : Option (Effect × Option Nat))
    (hne : ps ≠ []) (hdone : lastDet done 0 = none) :
    absLoop mgPriority done ps last = some (match firstDet ps done.length with
      | some (e, i) => (e, some i)
      | none => (.indeterminate, none)) := by
  induction ps generalizing done last with
  | nil => exact absurd rfl hne
  | cons p ps ih =>
    simp only [absLoop, mgPriority, lastDet_append, hdone, firstDet, Nat.zero_add]
    by_cases hp : p.1 = true ∧ p.2 ≠ Effect.indeterminate
    · simp only [hp, ne_eq, not_false_eq_true, and_self, if_true]
      obtain ⟨m, e⟩ := p
      cases e <;> simp_all
    · simp only [hp, if_false]
      cases ps with
      | nil => simp [absLoop, firstDet]
      | cons q qs =>
        have := ih (done ++ [p]) (some (Effect.indeterminate, none)) (by simp)
          (by rw [lastDet_append, if_neg hp, hdone])
        simpa using this

theorem pureRules_allow (f : Rule → Bool × Effect) (rs : List Rule) (hne : rs ≠ []) :
    pureRules (fun r => .ok (f r)) exprAllowOverride rs = .ok (some (resAllow (rs.map f))) := by
  rw [pureRules_abs f _ mgAllow rs (fun done p n _ => merge_allow done p n _),
    absLoop_allow _ _ _ (by simpa using hne)]
  rfl

theorem pureRules_deny (f : Rule → Bool × Effect) (rs : List Rule) (hne : rs ≠ []) :
    pureRules (fun r => .ok (f r)) exprDenyOverride rs = .ok (some (resDeny (rs.map f))) := by
  rw [pureRules_abs f _ mgDeny rs (fun done p n h => merge_deny done p n _ h),
    absLoop_deny _ _ _ (by simpa using hne)]
  rfl

theorem pureRules_both (f : Rule → Bool × Effect) (rs : List Rule) (hne : rs ≠ []) :
    pureRules (fun r => .ok (f r)) exprAllowAndDeny rs = .ok (some (resBoth (rs.map f))) := by
  rw [pureRules_abs f _ mgBoth rs (fun done p n h => merge_both done p n _ h),
    absLoop_both _ _ _ (by simpa using hne)]
  rfl

theorem pureRules_priority (f : Rule → Bool × Effect) (rs : List Rule) (hne : rs ≠ []) :
    pureRules (fun r => .ok (f r)) exprPriority rs = .ok (some (resPriority (rs.map f))) := by
  rw [pureRules_abs f _ mgPriority rs (fun done p n _ => merge_priority done p n _),
    absLoop_priority _ _ _ (by simpa using hne) (by rfl)]
  rfl

end Casbin
