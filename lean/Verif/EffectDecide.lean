import Verif.EffectLemmas

/-!
# Which rule decides

Helper lemmas: the result of the rule loop in terms of the first deciding rule, also when a later
rule fails.
-/

namespace Casbin

/-- The four supported effect expressions. -/
def Supported (eff : Str) : Prop :=
  eff = exprAllowOverride ∨ eff = exprDenyOverride ∨ eff = exprAllowAndDeny ∨ eff = exprPriority

/-- The loop depends only on what the step does on the given rules. -/
theorem pureRules_congr {f g : Rule → Outcome (Bool × Effect)} (expr : Str) (rs : List Rule)
    (h : ∀ r ∈ rs, f r = g r) : pureRules f expr rs = pureRules g expr rs := by
  obtain ⟨s', hs, _⟩ := runRules_sim (σ := Unit) (fun r => M.lift (f r)) (fun _ => True) g expr rs
    (fun r hr s _ => ⟨s, by simp [h r hr], trivial⟩) () trivial
  show (runRules (σ := Unit) (fun r => M.lift (f r)) expr rs ()).1 = _
  rw [hs]

/-- The pair decides the request under the effect expression, given all pairs. -/
def DecPair (eff : Str) (ps : List (Bool × Effect)) (q : Bool × Effect) : Prop :=
  q.1 = true ∧
  ((eff = exprAllowOverride ∧ q.2 = .allow) ∨ (eff = exprDenyOverride ∧ q.2 = .deny) ∨
   (eff = exprAllowAndDeny ∧
      (q.2 = .deny ∨ (q.2 = .allow ∧ ∀ q' ∈ ps, ¬ (q'.1 = true ∧ q'.2 = .deny)))) ∨
   (eff = exprPriority ∧ q.2 ≠ .indeterminate))

/-- The result is that of the first deciding pair, or the default. -/
def FirstDecides (D : Bool × Effect → Prop) (dflt : Effect) (ps : List (Bool × Effect))
    (res : Effect × Option Nat) : Prop :=
  (∃ i q, ps[i]? = some q ∧ D q ∧ (∀ j < i, ∀ q', ps[j]? = some q' → ¬ D q') ∧
    res = (q.2, some i)) ∨
  ((∀ q ∈ ps, ¬ D q) ∧ res = (dflt, none))

theorem firstDecides_hit (w : Effect) (dflt : Effect) (ps : List (Bool × Effect)) :
    FirstDecides (fun q => q.1 = true ∧ q.2 = w) dflt ps (match firstHit w ps 0 with
      | some i => (w, some i)
      | none => (dflt, none)) := by
  cases h : firstHit w ps 0 with
  | some i =>
    rw [firstHit_some] at h
    obtain ⟨_, ⟨q, hq, h1, h2⟩, h3⟩ := h
    refine Or.inl ⟨i, q, by simpa using hq, ⟨h1, h2⟩, ?_, by rw [h2]⟩
    intro j hj q' hq'
    exact h3 j (Nat.zero_le _) hj q' (by simpa using hq')
  | none =>
    rw [firstHit_none] at h
    exact Or.inr ⟨h, rfl⟩

theorem firstDet_spec (ps : List (Bool × Effect)) (k : Nat) :
    match firstDet ps k with
    | some (e, i) => k ≤ i ∧ (∃ q, ps[i - k]? = some q ∧ q.1 = true ∧ q.2 ≠ .indeterminate ∧ q.2 = e) ∧
        ∀ j, k ≤ j → j < i → ∀ q, ps[j - k]? = some q → ¬ (q.1 = true ∧ q.2 ≠ .indeterminate)
    | none => ∀ q ∈ ps, ¬ (q.1 = true ∧ q.2 ≠ .indeterminate) := by
  induction ps generalizing k with
  | nil => simp [firstDet]
  | cons p ps ih =>
    unfold firstDet
    by_cases hp : p.1 = true ∧ p.2 ≠ .indeterminate
    · simp only [if_pos hp]
      refine ⟨Nat.le_refl _, ⟨p, by simp, hp.1, hp.2, rfl⟩, ?_⟩
      intro j h1 h2; omega
    · simp only [if_neg hp]
      have := ih (k + 1)
      cases hf : firstDet ps (k + 1) with
      | none =>
        simp only [hf] at this ⊢
        intro q hq
        rcases List.mem_cons.mp hq with rfl | hq
        · exact hp
        · exact this q hq
      | some ei =>
        obtain ⟨e, i⟩ := ei
        simp only [hf] at this ⊢
        obtain ⟨h1, ⟨q, hq, h2⟩, h3⟩ := this
        refine ⟨by omega, ⟨q, ?_, h2⟩, ?_⟩
        · rw [show i - k = (i - (k + 1)) + 1 by omega]; simpa using hq
        · intro j hj1 hj2 q' hq'
          by_cases hjk : j = k
          · subst hjk
            simp at hq'
            subst hq'; exact hp
          · apply h3 j (by omega) hj2 q'
            rw [show j - k = (j - (k + 1)) + 1 by omega] at hq'
            simpa using hq'

theorem firstDecides_det (ps : List (Bool × Effect)) :
    FirstDecides (fun q => q.1 = true ∧ q.2 ≠ .indeterminate) .indeterminate ps
      (match firstDet ps 0 with
        | some (e, i) => (e, some i)
        | none => (.indeterminate, none)) := by
  have := firstDet_spec ps 0
  cases h : firstDet ps 0 with
  | some ei =>
    obtain ⟨e, i⟩ := ei
    simp only [h] at this
    obtain ⟨_, ⟨q, hq, h1, h2, h3⟩, h4⟩ := this
    refine Or.inl ⟨i, q, by simpa using hq, ⟨h1, h2⟩, ?_, by rw [h3]⟩
    intro j hj q' hq'
    exact h4 j (Nat.zero_le _) hj q' (by simpa using hq')
  | none =>
    simp only [h] at this
    exact Or.inr ⟨this, rfl⟩

theorem FirstDecides.congr {D D' : Bool × Effect → Prop} {dflt : Effect}
    {ps : List (Bool × Effect)} {res : Effect × Option Nat} (h : FirstDecides D dflt ps res)
    (hD : ∀ q ∈ ps, D q ↔ D' q) : FirstDecides D' dflt ps res := by
  rcases h with ⟨i, q, h1, h2, h3, h4⟩ | ⟨h1, h2⟩
  · refine Or.inl ⟨i, q, h1, (hD q (List.mem_of_getElem? h1)).mp h2, ?_, h4⟩
    intro j hj q' hq'
    exact fun hd => h3 j hj q' hq' ((hD q' (List.mem_of_getElem? hq')).mpr hd)
  · exact Or.inr ⟨fun q hq hd => h1 q hq ((hD q hq).mpr hd), h2⟩

/-- The effect of a request no rule decides. -/
def defaultEffect (eff : Str) : Effect := if eff = exprDenyOverride then .allow else .indeterminate

/-- The rule loop on rules that all evaluate. -/
theorem pureRules_decide {eff : Str} (hs : Supported eff) (f : Rule → Bool × Effect)
    (rs : List Rule) (hne : rs ≠ []) :
    ∃ res, pureRules (fun r => .ok (f r)) eff rs = .ok (some res) ∧
      FirstDecides (DecPair eff (rs.map f)) (defaultEffect eff) (rs.map f) res := by
  have n1 := exprDeny_ne
  have n2 := exprBoth_ne1
  have n3 := exprBoth_ne2
  have n4 := exprPrio_ne1
  have n5 := exprPrio_ne2
  have n6 := exprPrio_ne3
  rcases hs with rfl | rfl | rfl | rfl
  · refine ⟨_, pureRules_allow f rs hne, ?_⟩
    rw [show defaultEffect exprAllowOverride = .indeterminate by simp [defaultEffect, n1.symm]]
    refine (firstDecides_hit .allow .indeterminate _).congr (fun q _ => ?_)
    simp [DecPair, n1.symm, n2.symm, n4.symm]
  · refine ⟨_, pureRules_deny f rs hne, ?_⟩
    rw [show defaultEffect exprDenyOverride = .allow by simp [defaultEffect]]
    refine (firstDecides_hit .deny .allow _).congr (fun q _ => ?_)
    simp [DecPair, n1, n3.symm, n5.symm]
  · refine ⟨_, pureRules_both f rs hne, ?_⟩
    rw [show defaultEffect exprAllowAndDeny = .indeterminate by simp [defaultEffect, n3]]
    unfold resBoth
    have hd := firstDecides_hit .deny .indeterminate (rs.map f)
    cases h : firstHit .deny (rs.map f) 0 with
    | some i =>
      simp only [h] at hd ⊢
      refine hd.congr (fun q hq => ?_)
      have : ¬ ∀ q' ∈ rs.map f, ¬ (q'.1 = true ∧ q'.2 = .deny) := by
        intro hall
        rw [← firstHit_none _ _ 0] at hall
        simp [h] at hall
      simp only [DecPair, n2, n3, n6.symm, false_and, true_and, false_or, or_false, this, and_false]
    | none =>
      simp only
      have hall := (firstHit_none _ _ 0).mp h
      refine (firstDecides_hit .allow .indeterminate _).congr (fun q hq => ?_)
      have hq' := hall q hq
      simp only [DecPair, n2, n3, n6.symm, false_and, true_and, false_or, or_false]
      constructor
      · rintro ⟨h1, h2⟩; exact ⟨h1, Or.inr ⟨h2, hall⟩⟩
      · rintro ⟨h1, h2 | h2⟩
        · exact absurd ⟨h1, h2⟩ hq'
        · exact ⟨h1, h2.1⟩
  · refine ⟨_, pureRules_priority f rs hne, ?_⟩
    rw [show defaultEffect exprPriority = .indeterminate by simp [defaultEffect, n5]]
    refine (firstDecides_det _).congr (fun q _ => ?_)
    simp [DecPair, n4, n5, n6]

/-! ### A rule that fails -/

/-- The loop over a prefix, with `n` more rules to come. -/
def absPrefix (mg : List (Bool × Effect) → Nat → Effect × Option Nat) (n : Nat) :
    List (Bool × Effect) → List (Bool × Effect) → Option (Effect × Option Nat)
  | _, [] => none
  | done, p :: ps =>
    if (mg (done ++ [p]) (ps.length + n)).1 ≠ .indeterminate then
      some (mg (done ++ [p]) (ps.length + n))
    else absPrefix mg n (done ++ [p]) ps

theorem ruleLoop_prefix (f : Rule → Outcome (Bool × Effect)) (g : Rule → Bool × Effect) (expr : Str)
    (mg : List (Bool × Effect) → Nat → Effect × Option Nat) (len : Nat)
    (hmg : ∀ done p n, done.length + 1 + n = len →
      mergeEffects expr (esOf (done ++ [p]) n) (msOf (done ++ [p]) n) done.length len
        = .ok (mg (done ++ [p]) n)) (bad : Rule) (post : List Rule)
    (hbad : ¬ (f bad).IsOk) :
    ∀ (pre : List Rule) (done : List (Bool × Effect)) (last : Option (Effect × Option Nat)),
      (∀ r ∈ pre, f r = .ok (g r)) →
      done.length + (pre.length + (post.length + 1)) = len →
      (ruleLoop (σ := Unit) (fun r => M.lift (f r)) expr len (pre ++ bad :: post) done.length
        (esOf done (pre.length + (post.length + 1))) (msOf done (pre.length + (post.length + 1)))
        last ()).1
      = match absPrefix mg (post.length + 1) done (pre.map g) with
        | some res => .ok (some res)
        | none => (f bad).map (fun _ => none) := by
  intro pre
  induction pre with
  | nil =>
    intro done last _ _
    simp only [List.nil_append, ruleLoop, M.bind_run, M.lift_run, List.map_nil, absPrefix]
    cases hb : f bad with
    | ok a => simp [hb, Outcome.IsOk] at hbad
    | throw e => rfl
    | ub u => rfl
  | cons r pre ih =>
    intro done last hpre hlen
    simp only [List.cons_append, ruleLoop, M.bind_run, M.lift_run, hpre r (by simp), List.map_cons,
      absPrefix, List.length_cons, List.length_map] at hlen ⊢
    rw [show pre.length + 1 + (post.length + 1) = (pre.length + (post.length + 1)) + 1 by omega,
      esOf_set, msOf_set, hmg done (g r) (pre.length + (post.length + 1)) (by omega)]
    simp only
    by_cases hr : (mg (done ++ [g r]) (pre.length + (post.length + 1))).1 ≠ Effect.indeterminate
    · simp only [if_pos hr]; rfl
    · simp only [if_neg hr]
      have := ih (done ++ [g r]) (some (mg (done ++ [g r]) (pre.length + (post.length + 1))))
        (fun r' hr' => hpre r' (by simp [hr'])) (by simp; omega)
      simpa using this

theorem pureRules_prefix (f : Rule → Outcome (Bool × Effect)) (g : Rule → Bool × Effect)
    (expr : Str) (mg : List (Bool × Effect) → Nat → Effect × Option Nat)
    (pre : List Rule) (bad : Rule) (post : List Rule)
    (hmg : ∀ done p n, done.length + 1 + n = (pre ++ bad :: post).length →
      mergeEffects expr (esOf (done ++ [p]) n) (msOf (done ++ [p]) n) done.length
        (pre ++ bad :: post).length = .ok (mg (done ++ [p]) n))
    (hbad : ¬ (f bad).IsOk) (hpre : ∀ r ∈ pre, f r = .ok (g r)) :
    pureRules f expr (pre ++ bad :: post)
      = match absPrefix mg (post.length + 1) [] (pre.map g) with
        | some res => .ok (some res)
        | none => (f bad).map (fun _ => none) := by
  unfold pureRules runRules
  have := ruleLoop_prefix f g expr mg (pre ++ bad :: post).length hmg bad post hbad pre [] none hpre
    (by simp)
  simpa [esOf, msOf] using this

theorem absPrefix_decided (mg : List (Bool × Effect) → Nat → Effect × Option Nat) (n : Nat)
    (ps : List (Bool × Effect)) :
    ∀ done res, absPrefix mg n done ps = some res →
      ∃ ps1 p ps2, ps = ps1 ++ p :: ps2 ∧ res = mg (done ++ ps1 ++ [p]) (ps2.length + n) ∧
        res.1 ≠ .indeterminate := by
  induction ps with
  | nil => intro done res h; simp [absPrefix] at h
  | cons p ps ih =>
    intro done res h
    simp only [absPrefix] at h
    split at h
    · rename_i hr
      simp only [Option.some.injEq] at h
      exact ⟨[], p, ps, rfl, by simpa using h.symm, by rw [← h]; exact hr⟩
    · obtain ⟨ps1, q, ps2, h1, h2, h3⟩ := ih _ _ h
      exact ⟨p :: ps1, q, ps2, by simp [h1], by simpa using h2, h3⟩

/-- When a rule fails, the request fails too unless an earlier rule decided it; and an earlier rule
that decides for allow satisfies the matcher and allows. -/
theorem pureRules_bad {eff : Str} (hs : Supported eff) (f : Rule → Outcome (Bool × Effect))
    (g : Rule → Bool × Effect) (pre : List Rule) (bad : Rule) (post : List Rule)
    (hbad : ¬ (f bad).IsOk) (hpre : ∀ r ∈ pre, f r = .ok (g r)) :
    (∃ i r, pre[i]? = some r ∧ (g r).1 = true ∧ (g r).2 ≠ .indeterminate ∧
      pureRules f eff (pre ++ bad :: post) = .ok (some ((g r).2, some i))) ∨
    pureRules f eff (pre ++ bad :: post) = (f bad).map (fun _ => none) := by
  have main : ∀ mg : List (Bool × Effect) → Nat → Effect × Option Nat,
      (∀ done p n, done.length + 1 + n = (pre ++ bad :: post).length →
        mergeEffects eff (esOf (done ++ [p]) n) (msOf (done ++ [p]) n) done.length
          (pre ++ bad :: post).length = .ok (mg (done ++ [p]) n)) →
      (∀ seen n, n ≠ 0 → (mg seen n).1 ≠ .indeterminate →
        ∃ i q, seen[i]? = some q ∧ q.1 = true ∧ q.2 ≠ .indeterminate ∧ mg seen n = (q.2, some i)) →
      ((∃ i r, pre[i]? = some r ∧ (g r).1 = true ∧ (g r).2 ≠ .indeterminate ∧
        pureRules f eff (pre ++ bad :: post) = .ok (some ((g r).2, some i))) ∨
      pureRules f eff (pre ++ bad :: post) = (f bad).map (fun _ => none)) := by
    intro mg hmg hdec
    rw [pureRules_prefix f g eff mg pre bad post hmg hbad hpre]
    cases ha : absPrefix mg (post.length + 1) [] (pre.map g) with
    | none => right; rfl
    | some res =>
      left
      obtain ⟨ps1, p, ps2, h1, h2, h3⟩ := absPrefix_decided mg _ _ _ _ ha
      rw [h2] at h3
      obtain ⟨i, q, hq, hq1, hq2, hq3⟩ := hdec _ _ (by omega) h3
      have hlen : i < ps1.length + 1 := by
        have := (List.getElem?_eq_some_iff.mp hq).1
        simpa using this
      have hq' : (pre.map g)[i]? = some q := by
        rw [h1, show ps1 ++ p :: ps2 = (ps1 ++ [p]) ++ ps2 by simp,
          List.getElem?_append_left (by simpa using hlen)]
        simpa using hq
      rw [List.getElem?_map, Option.map_eq_some_iff] at hq'
      obtain ⟨r, hr, rfl⟩ := hq'
      exact ⟨i, r, hr, hq1, hq2, by simp only; rw [h2, hq3]⟩
  have hlast : ∀ (seen : List (Bool × Effect)) (w : Effect), w ≠ .indeterminate →
      (lastPair seen).1 = true → (lastPair seen).2 = w →
      ∃ i q, seen[i]? = some q ∧ q.1 = true ∧ q.2 ≠ .indeterminate ∧
        (w, some (seen.length - 1)) = (q.2, some i) := by
    intro seen w hw h1 h2
    cases hl : seen.getLast? with
    | none => simp [lastPair, hl] at h1
    | some q =>
      have hq : lastPair seen = q := by simp [lastPair, hl]
      rw [hq] at h1 h2
      refine ⟨seen.length - 1, q, ?_, h1, by rw [h2]; exact hw, by rw [h2]⟩
      rw [← List.getLast?_eq_getElem?]; exact hl
  rcases hs with rfl | rfl | rfl | rfl
  · refine main mgAllow (fun done p n _ => merge_allow done p n _) ?_
    intro seen n _ h
    unfold mgAllow at h ⊢
    by_cases hp : (lastPair seen).1 = true ∧ (lastPair seen).2 = .allow
    · simp only [if_pos hp] at h ⊢
      exact hlast seen .allow (by simp) hp.1 hp.2
    · simp [hp] at h
  · refine main mgDeny (fun done p n h => merge_deny done p n _ h) ?_
    intro seen n hn h
    unfold mgDeny at h ⊢
    by_cases hp : (lastPair seen).1 = true ∧ (lastPair seen).2 = .deny
    · simp only [if_pos hp] at h ⊢
      exact hlast seen .deny (by simp) hp.1 hp.2
    · simp [hp, hn] at h
  · refine main mgBoth (fun done p n h => merge_both done p n _ h) ?_
    intro seen n hn h
    unfold mgBoth at h ⊢
    by_cases hp : (lastPair seen).1 = true ∧ (lastPair seen).2 = .deny
    · simp only [if_pos hp] at h ⊢
      exact hlast seen .deny (by simp) hp.1 hp.2
    · simp [hp, hn] at h
  · refine main mgPriority (fun done p n _ => merge_priority done p n _) ?_
    intro seen n hn h
    unfold mgPriority at h ⊢
    have hld : ∀ (ps : List (Bool × Effect)) k e i, lastDet ps k = some (e, i) →
        k ≤ i ∧ ∃ q, ps[i - k]? = some q ∧ q.1 = true ∧ q.2 ≠ .indeterminate ∧ q.2 = e := by
      intro ps
      induction ps with
      | nil => intro k e i h; simp [lastDet] at h
      | cons p ps ih =>
        intro k e i h
        simp only [lastDet] at h
        cases hl : lastDet ps (k + 1) with
        | some r =>
          simp only [hl, Option.some.injEq] at h
          subst h
          obtain ⟨h1, q, hq, h2⟩ := ih _ _ _ hl
          refine ⟨by omega, q, ?_, h2⟩
          rw [show i - k = (i - (k + 1)) + 1 by omega]; simpa using hq
        | none =>
          simp only [hl] at h
          split at h
          · rename_i hp
            simp only [Option.some.injEq, Prod.mk.injEq] at h
            obtain ⟨rfl, rfl⟩ := h
            exact ⟨Nat.le_refl _, p, by simp, hp.1, hp.2, rfl⟩
          · simp at h
    cases hl : lastDet seen 0 with
    | none => simp [hl] at h
    | some ei =>
      obtain ⟨e, i⟩ := ei
      obtain ⟨_, q, hq, h1, h2, h3⟩ := hld _ _ _ _ hl
      refine ⟨i, q, by simpa using hq, h1, h2, ?_⟩
      simp only
      cases e <;> simp_all

end Casbin
