import Verif.EffectDecide

/-!
# The rules are looked at in order

Helper lemmas for `Props/InOrder.lean`: how far the rule loop of a request gets.
-/

namespace Casbin

/-- The contribution of a rule settles the request at once under the effect expression `eff`. -/
def SettlesPair (eff : Str) (q : Bool × Effect) : Prop :=
  q.1 = true ∧ ((eff = exprAllowOverride ∧ q.2 = .allow) ∨
    ((eff = exprDenyOverride ∨ eff = exprAllowAndDeny) ∧ q.2 = .deny) ∨
    (eff = exprPriority ∧ q.2 ≠ .indeterminate))

theorem lastDet_none {ps : List (Bool × Effect)}
    (h : ∀ q ∈ ps, ¬ (q.1 = true ∧ q.2 ≠ .indeterminate)) (k : Nat) : lastDet ps k = none := by
  induction ps generalizing k with
  | nil => rfl
  | cons q ps ih =>
    simp only [lastDet, ih (fun q hq => h q (by simp [hq])) (k + 1), if_neg (h q (by simp))]

/-- What the effector answers while nothing is settled, and at the pair that settles. -/
theorem settles_merge {eff : Str} (hs : Supported eff) (len : Nat) :
    ∃ mg : List (Bool × Effect) → Nat → Effect × Option Nat,
      (∀ done p n, done.length + 1 + n = len →
        mergeEffects eff (esOf (done ++ [p]) n) (msOf (done ++ [p]) n) done.length len
          = .ok (mg (done ++ [p]) n)) ∧
      (∀ done p n, (∀ q ∈ done, ¬ SettlesPair eff q) → ¬ SettlesPair eff p → n ≠ 0 →
        (mg (done ++ [p]) n).1 = .indeterminate) ∧
      (∀ done p n, (∀ q ∈ done, ¬ SettlesPair eff q) → SettlesPair eff p →
        mg (done ++ [p]) n = (p.2, some done.length) ∧ p.2 ≠ .indeterminate) := by
  rcases hs with rfl | rfl | rfl | rfl
  · refine ⟨mgAllow, fun done p n _ => merge_allow done p n _, ?_, ?_⟩
    · intro done p n _ hp _
      have hp' : ¬ (p.1 = true ∧ p.2 = .allow) := fun h => hp ⟨h.1, Or.inl ⟨rfl, h.2⟩⟩
      simp [mgAllow, hp']
    · intro done p n _ hp
      have hp' : p.1 = true ∧ p.2 = .allow := by
        refine ⟨hp.1, ?_⟩
        rcases hp.2 with h | h | h
        · exact h.2
        · rcases h.1 with h | h
          · exact absurd h.symm exprDeny_ne
          · exact absurd h.symm exprBoth_ne1
        · exact absurd h.1.symm exprPrio_ne1
      simp [mgAllow, hp']
  · refine ⟨mgDeny, fun done p n h => merge_deny done p n _ h, ?_, ?_⟩
    · intro done p n _ hp hn
      have hp' : ¬ (p.1 = true ∧ p.2 = .deny) := fun h => hp ⟨h.1, Or.inr (Or.inl ⟨Or.inl rfl, h.2⟩)⟩
      simp [mgDeny, hp', hn]
    · intro done p n _ hp
      have hp' : p.1 = true ∧ p.2 = .deny := by
        refine ⟨hp.1, ?_⟩
        rcases hp.2 with h | h | h
        · exact absurd h.1 exprDeny_ne
        · exact h.2
        · exact absurd h.1.symm exprPrio_ne2
      simp [mgDeny, hp']
  · refine ⟨mgBoth, fun done p n h => merge_both done p n _ h, ?_, ?_⟩
    · intro done p n _ hp hn
      have hp' : ¬ (p.1 = true ∧ p.2 = .deny) := fun h => hp ⟨h.1, Or.inr (Or.inl ⟨Or.inr rfl, h.2⟩)⟩
      simp [mgBoth, hp', hn]
    · intro done p n _ hp
      have hp' : p.1 = true ∧ p.2 = .deny := by
        refine ⟨hp.1, ?_⟩
        rcases hp.2 with h | h | h
        · exact absurd h.1 exprBoth_ne1
        · exact h.2
        · exact absurd h.1.symm exprPrio_ne3
      simp [mgBoth, hp']
  · have key : ∀ q, SettlesPair exprPriority q ↔ q.1 = true ∧ q.2 ≠ .indeterminate := by
      intro q
      refine ⟨fun h => ⟨h.1, ?_⟩, fun h => ⟨h.1, Or.inr (Or.inr ⟨rfl, h.2⟩)⟩⟩
      rcases h.2 with h | h | h
      · exact absurd h.1 exprPrio_ne1
      · rcases h.1 with h | h
        · exact absurd h exprPrio_ne2
        · exact absurd h exprPrio_ne3
      · exact h.2
    refine ⟨mgPriority, fun done p n _ => merge_priority done p n _, ?_, ?_⟩
    · intro done p n hd hp _
      simp only [key] at hd hp
      simp only [mgPriority, lastDet_append, if_neg hp, lastDet_none hd]
    · intro done p n hd hp
      simp only [key] at hd hp
      refine ⟨?_, hp.2⟩
      simp only [mgPriority, lastDet_append, if_pos hp, Nat.zero_add]
      obtain ⟨m, e⟩ := p
      cases e <;> simp_all

/-- The loop gets past rules that settle nothing. -/
theorem ruleLoop_passes {eff : Str} {len : Nat}
    {mg : List (Bool × Effect) → Nat → Effect × Option Nat}
    (hmg : ∀ done p n, done.length + 1 + n = len →
      mergeEffects eff (esOf (done ++ [p]) n) (msOf (done ++ [p]) n) done.length len
        = .ok (mg (done ++ [p]) n))
    (hgo : ∀ done p n, (∀ q ∈ done, ¬ SettlesPair eff q) → ¬ SettlesPair eff p → n ≠ 0 →
      (mg (done ++ [p]) n).1 = .indeterminate)
    (f : Rule → Outcome (Bool × Effect)) (g : Rule → Bool × Effect) (rest : List Rule)
    (hrest : rest ≠ []) :
    ∀ (pre : List Rule) (done : List (Bool × Effect)) (last : Option (Effect × Option Nat)),
      (∀ q ∈ done, ¬ SettlesPair eff q) →
      (∀ r ∈ pre, f r = .ok (g r) ∧ ¬ SettlesPair eff (g r)) →
      done.length + (pre.length + rest.length) = len →
      ∃ last', ruleLoop (σ := Unit) (fun r => M.lift (f r)) eff len (pre ++ rest) done.length
          (esOf done (pre.length + rest.length)) (msOf done (pre.length + rest.length)) last ()
        = ruleLoop (σ := Unit) (fun r => M.lift (f r)) eff len rest (done ++ pre.map g).length
          (esOf (done ++ pre.map g) rest.length) (msOf (done ++ pre.map g) rest.length) last' () := by
  have hpos : rest.length ≠ 0 := fun h => hrest (List.length_eq_zero_iff.mp h)
  intro pre
  induction pre with
  | nil => intro done last _ _ _; exact ⟨last, by simp⟩
  | cons r pre ih =>
    intro done last hd hpre hlen
    obtain ⟨hf, hns⟩ := hpre r (by simp)
    simp only [List.length_cons] at hlen
    obtain ⟨last', h⟩ := ih (done ++ [g r]) (some (mg (done ++ [g r]) (pre.length + rest.length)))
      (by
        intro q hq
        rcases List.mem_append.mp hq with hq | hq
        · exact hd q hq
        · rw [List.mem_singleton.mp hq]; exact hns)
      (fun r' hr' => hpre r' (by simp [hr'])) (by simp; omega)
    refine ⟨last', ?_⟩
    simp only [List.cons_append, ruleLoop, M.bind_run, M.lift_run, hf, List.length_cons]
    rw [show pre.length + 1 + rest.length = (pre.length + rest.length) + 1 by omega,
      esOf_set, msOf_set, hmg done (g r) (pre.length + rest.length) (by omega)]
    have hi := hgo done (g r) (pre.length + rest.length) hd hns (by omega)
    simp only [hi, ne_eq, not_true_eq_false, if_false]
    have hl : (done ++ [g r]).length = done.length + 1 := by simp
    rw [hl] at h
    rw [h]
    simp

/-- The first rule that settles gives the answer; no rule after it is looked at. -/
theorem pureRules_settled {eff : Str} (hs : Supported eff) (f : Rule → Outcome (Bool × Effect))
    (g : Rule → Bool × Effect) (pre : List Rule) (rule : Rule) (post : List Rule)
    (hpre : ∀ r ∈ pre, f r = .ok (g r) ∧ ¬ SettlesPair eff (g r))
    (hrule : f rule = .ok (g rule)) (hset : SettlesPair eff (g rule)) :
    pureRules f eff (pre ++ rule :: post) = .ok (some ((g rule).2, some pre.length)) := by
  obtain ⟨mg, hmg, hgo, hst⟩ := settles_merge hs (pre ++ rule :: post).length
  obtain ⟨last', h⟩ := ruleLoop_passes hmg hgo f g (rule :: post) (by simp) pre [] none (by simp)
    hpre (by simp)
  unfold pureRules runRules
  have hl : (pre ++ rule :: post).length = pre.length + (rule :: post).length := by simp
  simp only [esOf, msOf, List.map_nil, List.nil_append, List.length_nil] at h
  rw [hl] at h ⊢
  rw [h]
  have hd : ∀ q ∈ pre.map g, ¬ SettlesPair eff q := by
    intro q hq
    obtain ⟨r, hr, rfl⟩ := List.mem_map.mp hq
    exact (hpre r hr).2
  obtain ⟨h1, h2⟩ := hst (pre.map g) (g rule) post.length hd hset
  have e1 := esOf_set (pre.map g) post.length (g rule)
  have m1 := msOf_set (pre.map g) post.length (g rule)
  have hm := hmg (pre.map g) (g rule) post.length (by simp; omega)
  rw [hl] at hm
  simp only [esOf, msOf] at e1 m1 hm
  simp only [ruleLoop, M.bind_run, M.lift_run, hrule, List.length_cons, e1, m1]
  simp only [List.length_cons] at hm
  rw [hm, h1]
  simp [h2]

/-- A rule that fails makes the request fail when nothing before it settles. -/
theorem pureRules_failing {eff : Str} (hs : Supported eff) (f : Rule → Outcome (Bool × Effect))
    (g : Rule → Bool × Effect) (pre : List Rule) (bad : Rule) (post : List Rule)
    (hpre : ∀ r ∈ pre, f r = .ok (g r) ∧ ¬ SettlesPair eff (g r)) (hbad : ¬ (f bad).IsOk) :
    pureRules f eff (pre ++ bad :: post) = (f bad).map (fun _ => none) := by
  obtain ⟨mg, hmg, hgo, _⟩ := settles_merge hs (pre ++ bad :: post).length
  obtain ⟨last', h⟩ := ruleLoop_passes hmg hgo f g (bad :: post) (by simp) pre [] none (by simp)
    hpre (by simp)
  unfold pureRules runRules
  have hl : (pre ++ bad :: post).length = pre.length + (bad :: post).length := by simp
  simp only [esOf, msOf, List.map_nil, List.nil_append, List.length_nil] at h
  rw [hl] at h ⊢
  rw [h]
  simp only [ruleLoop, M.bind_run, M.lift_run]
  cases hb : f bad with
  | ok a => simp [hb, Outcome.IsOk] at hbad
  | throw e => rfl
  | ub u => rfl

end Casbin
