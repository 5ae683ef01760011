import Verif.Props.Cached

/-!
# C151: what a caching enforcer answers, exactly

For any history of questions, changes of the policy, switches of the cache and calls of
`InvalidateCache`. No request is left out: not those with dollar signs, not those that raise an exception.
A question of a batch is a question of its own here (`C151_batch`).
-/

namespace Casbin
namespace CachedProps

open CachedEnforcer DecisionProps Fixtures

variable [IterOrder] {lib : ExprLib}

/-- The request is asked with this key, and so the enforcer itself would be asked. -/
inductive Poses (lib : ExprLib) : Act → Str → M Enforcer Bool → Prop
  | ask (m : Str) (vs : List ReqVal) : Poses lib (.ask m vs) (key m vs) (Enforcer.enforceWithMatcher lib m vs)
  | askMap (vs : UMap Str ReqVal) : Poses lib (.askMap vs) (mapKey [] vs) (Enforcer.enforceMap lib vs)

/-- After the history `h`, with the cache in use, `a` asks a request with key `k`, and the enforcer as it
then is answers `b`. -/
def AnsweredAt (lib : ExprLib) (c₀ : CachedEnforcer) (h : List Act) (a : Act) (k : Str) (b : Bool) : Prop :=
  (acts lib h c₀).enableCache = true ∧ ∃ ask, Poses lib a k ask ∧ (ask (acts lib h c₀).base).1 = .ok b

/-- Since the map was last emptied no request with this key was asked that the enforcer had an answer to. -/
def Unanswered (lib : ExprLib) (c₀ : CachedEnforcer) (hist : List Act) (k : Str) : Prop :=
  ∀ h a h' b, hist = h ++ a :: h' → Act.invalidate ∉ h' → ¬ AnsweredAt lib c₀ h a k b

/-- The first request with this key since the map was last emptied that the enforcer had an answer to, and
that answer. -/
def FirstAnswer (lib : ExprLib) (c₀ : CachedEnforcer) (hist : List Act) (k : Str) (b : Bool) : Prop :=
  ∃ h a h', hist = h ++ a :: h' ∧ Act.invalidate ∉ h' ∧ AnsweredAt lib c₀ h a k b ∧ Unanswered lib c₀ h k

theorem acts_append (h h' : List Act) : ∀ (c : CachedEnforcer),
    acts lib (h ++ h') c = acts lib h' (acts lib h c) := by
  induction h with
  | nil => intro c; rfl
  | cons a h ih => intro c; exact ih _

omit [IterOrder] in
theorem throughCache_run (k : Str) (ask : M Enforcer Bool) (c : CachedEnforcer) :
    throughCache k ask c =
      if c.enableCache then
        match c.cache.get k with
        | some b => (.ok b, c)
        | none =>
          match ask c.base with
          | (.ok b, E) => (.ok b, { c with base := E, cache := c.cache.set k b })
          | (o, E) => (o, { c with base := E })
      else ((ask c.base).1, { c with base := (ask c.base).2 }) := by
  unfold throughCache
  simp only [M.bind_run, M.get_run]
  by_cases he : c.enableCache = true
  · rw [if_pos he, if_pos he]
    cases c.cache.get k with
    | some b => rfl
    | none =>
      simp only [inherited, M.bind_run]
      cases ask c.base with
      | mk o s => cases o <;> rfl
  · rw [if_neg he, if_neg he]; rfl

omit [IterOrder] in
/-- The ways to split a list with one more element at the end. -/
theorem split_snoc {α : Type} {l h h' : List α} {x a : α} (e : l ++ [x] = h ++ a :: h') :
    (h = l ∧ a = x ∧ h' = []) ∨ ∃ t, h' = t ++ [x] ∧ l = h ++ a :: t := by
  rcases List.eq_nil_or_concat h' with rfl | ⟨t, y, rfl⟩
  · left
    have := List.append_inj' e (by simp)
    exact ⟨this.1.symm, by simpa using this.2.symm, rfl⟩
  · right
    rw [List.concat_eq_append] at e ⊢
    rw [← List.cons_append, ← List.append_assoc] at e
    have := List.append_inj' e (by simp)
    refine ⟨t, ?_, by simpa using this.1⟩
    rw [(List.cons.inj this.2).1]

theorem unanswered_snoc {c₀ : CachedEnforcer} {hist : List Act} {x : Act} {k : Str} :
    Unanswered lib c₀ (hist ++ [x]) k ↔
      (∀ b, ¬ AnsweredAt lib c₀ hist x k b) ∧ (x ≠ .invalidate → Unanswered lib c₀ hist k) := by
  constructor
  · intro H
    refine ⟨fun b => H hist x [] b rfl (by simp), fun hx h a h' b e hi => ?_⟩
    refine H h a (h' ++ [x]) b (by simp [e]) ?_
    simp only [List.mem_append, List.mem_singleton, not_or]
    exact ⟨hi, fun e => hx e.symm⟩
  · rintro ⟨H1, H2⟩ h a h' b e hi
    rcases split_snoc e with ⟨rfl, rfl, rfl⟩ | ⟨t, rfl, e'⟩
    · exact H1 b
    · simp only [List.mem_append, List.mem_singleton, not_or] at hi
      exact H2 (fun e => hi.2 e.symm) h a t b e' hi.1

theorem first_snoc {c₀ : CachedEnforcer} {hist : List Act} {x : Act} {k : Str} {b : Bool} :
    FirstAnswer lib c₀ (hist ++ [x]) k b ↔
      (AnsweredAt lib c₀ hist x k b ∧ Unanswered lib c₀ hist k) ∨
      (x ≠ .invalidate ∧ FirstAnswer lib c₀ hist k b) := by
  constructor
  · rintro ⟨h, a, h', e, hi, ha, hu⟩
    rcases split_snoc e with ⟨rfl, rfl, rfl⟩ | ⟨t, rfl, e'⟩
    · exact Or.inl ⟨ha, hu⟩
    · simp only [List.mem_append, List.mem_singleton, not_or] at hi
      exact Or.inr ⟨fun e => hi.2 e.symm, h, a, t, e', hi.1, ha, hu⟩
  · rintro (⟨ha, hu⟩ | ⟨hx, h, a, h', e, hi, ha, hu⟩)
    · exact ⟨hist, x, [], rfl, by simp, ha, hu⟩
    · refine ⟨h, a, h' ++ [x], by simp [e], ?_, ha, hu⟩
      simp only [List.mem_append, List.mem_singleton, not_or]
      exact ⟨hi, fun e => hx e.symm⟩

/-- Something that asks nothing is not answered. -/
theorem not_answered {c₀ : CachedEnforcer} {hist : List Act} {x : Act} {k : Str}
    (hx : ∀ k ask, ¬ Poses lib x k ask) (b : Bool) : ¬ AnsweredAt lib c₀ hist x k b := by
  rintro ⟨_, ask, hp, _⟩
  exact hx _ _ hp

/-- A question changes what is kept as the definitions say. -/
theorem question_step {c₀ : CachedEnforcer} {hist : List Act} {x : Act} {kx : Str} {ask : M Enforcer Bool}
    (hp : Poses lib x kx ask) (hact : act lib x (acts lib hist c₀) = (throughCache kx ask (acts lib hist c₀)).2)
    {k : Str}
    (ih1 : ∀ b, (acts lib hist c₀).cache.get k = some b ↔ FirstAnswer lib c₀ hist k b)
    (ih2 : (acts lib hist c₀).cache.get k = none ↔ Unanswered lib c₀ hist k) :
    (∀ b, (act lib x (acts lib hist c₀)).cache.get k = some b ↔ FirstAnswer lib c₀ (hist ++ [x]) k b) ∧
    ((act lib x (acts lib hist c₀)).cache.get k = none ↔ Unanswered lib c₀ (hist ++ [x]) k) := by
  have hx : x ≠ .invalidate := by rintro rfl; cases hp
  have hans : ∀ b, AnsweredAt lib c₀ hist x k b ↔
      (acts lib hist c₀).enableCache = true ∧ kx = k ∧ (ask (acts lib hist c₀).base).1 = .ok b := by
    intro b
    constructor
    · rintro ⟨h1, ask', hp', h2⟩
      cases hp <;> cases hp' <;> exact ⟨h1, rfl, h2⟩
    · rintro ⟨h1, rfl, h2⟩; exact ⟨h1, ask, hp, h2⟩
  rw [hact, throughCache_run, unanswered_snoc]
  simp only [first_snoc, hans]
  generalize acts lib hist c₀ = c at *
  by_cases he : c.enableCache = true
  · rw [if_pos he]
    cases hg : c.cache.get kx with
    | some b₀ =>
      by_cases hk : kx = k
      · subst hk
        have hn : ¬ Unanswered lib c₀ hist kx := fun hu => by
          rw [ih2.mpr hu] at hg; simp at hg
        refine ⟨fun b => ?_, ?_⟩
        · simp only [ih1 b]
          constructor
          · intro h; exact Or.inr ⟨hx, h⟩
          · rintro (⟨_, hu⟩ | ⟨_, h⟩)
            · exact absurd hu hn
            · exact h
        · simp only [ih2]
          constructor
          · intro h; exact absurd h hn
          · intro h; exact h.2 hx
      · refine ⟨fun b => ?_, ?_⟩
        · simp only [ih1 b, hk, false_and, and_false, false_or, hx, ne_eq, not_false_eq_true, true_and]
        · simp only [ih2, hk, false_and, and_false, not_false_eq_true, hx, ne_eq, true_imp_iff,
            true_and, implies_true]
    | none =>
      cases ha : ask c.base with
      | mk o s =>
        cases o with
        | ok b₁ =>
          simp only [UMap.get_set]
          by_cases hk : kx = k
          · subst hk
            have hu := ih2.mp hg
            have hno : ∀ b, ¬ FirstAnswer lib c₀ hist kx b := fun b h => by
              rw [(ih1 b).mpr h] at hg; simp at hg
            refine ⟨fun b => ?_, ?_⟩
            · simp [he, hu, hno]
            · simp [he]
          · have hk' : ¬ k = kx := fun e => hk e.symm
            refine ⟨fun b => ?_, ?_⟩
            · simp [hk, hx, ih1 b]
            · simp [hk, hx, ih2]
        | throw e =>
          refine ⟨fun b => ?_, ?_⟩
          · simp [hx, ih1 b]
          · simp [hx, ih2]
        | ub u =>
          refine ⟨fun b => ?_, ?_⟩
          · simp [hx, ih1 b]
          · simp [hx, ih2]
  · rw [if_neg he]
    refine ⟨fun b => ?_, ?_⟩
    · simp [hx, he, ih1 b]
    · simp [hx, he, ih2]

/-- What the map holds, from the history alone. -/
theorem map_holds {c₀ : CachedEnforcer} (h0 : c₀.cache = []) (hist : List Act)
    (hb : ∀ rs, Act.batch rs ∉ hist) (k : Str) :
    (∀ b, (acts lib hist c₀).cache.get k = some b ↔ FirstAnswer lib c₀ hist k b) ∧
    ((acts lib hist c₀).cache.get k = none ↔ Unanswered lib c₀ hist k) := by
  induction hist using List.reverseRecOn with
  | nil =>
    simp only [acts, h0]
    refine ⟨fun b => ⟨fun h => by simp [UMap.get] at h, ?_⟩, fun _ h a h' b e => by simp at e, fun _ => rfl⟩
    rintro ⟨h, a, h', e, _⟩
    simp at e
  | append_singleton hist x ih =>
    obtain ⟨ih1, ih2⟩ := ih (fun rs h => hb rs (by simp [h]))
    have hap : acts lib (hist ++ [x]) c₀ = act lib x (acts lib hist c₀) := acts_append hist [x] c₀
    rw [hap]
    have quiet : ∀ (hx : ∀ k ask, ¬ Poses lib x k ask) (hi : x ≠ .invalidate)
        (hc : (act lib x (acts lib hist c₀)).cache = (acts lib hist c₀).cache),
        (∀ b, (act lib x (acts lib hist c₀)).cache.get k = some b ↔ FirstAnswer lib c₀ (hist ++ [x]) k b) ∧
        ((act lib x (acts lib hist c₀)).cache.get k = none ↔ Unanswered lib c₀ (hist ++ [x]) k) := by
      intro hx hi hc
      refine ⟨fun b => ?_, ?_⟩
      · rw [hc, first_snoc, ih1 b]
        exact ⟨fun h => Or.inr ⟨hi, h⟩, fun h => h.elim (fun h => absurd h.1 (not_answered hx b)) (·.2)⟩
      · rw [hc, unanswered_snoc, ih2]
        exact ⟨fun h => ⟨not_answered hx, fun _ => h⟩, fun h => h.2 hi⟩
    cases x with
    | ask m vs => exact question_step (Poses.ask m vs) rfl ih1 ih2
    | askMap vs => exact question_step (Poses.askMap vs) rfl ih1 ih2
    | batch rs => exact absurd (by simp) (hb rs)
    | change f => exact quiet (fun _ _ h => by cases h) (by simp) rfl
    | enable b => exact quiet (fun _ _ h => by cases h) (by simp) rfl
    | invalidate =>
      have hx : ∀ k ask, ¬ Poses lib .invalidate k ask := fun _ _ h => by cases h
      refine ⟨fun b => ?_, ?_⟩
      · rw [first_snoc]
        simp only [not_answered hx, ne_eq, not_true_eq_false, false_and, or_self, iff_false]
        simp [act, invalidateCache]
      · rw [unanswered_snoc]
        simp only [not_answered hx, ne_eq, not_true_eq_false, false_imp_iff, implies_true,
          not_false_eq_true, and_self, iff_true]
        rfl

theorem kept_answer {c₀ : CachedEnforcer} (h0 : c₀.cache = []) {hist : List Act}
    (hb : ∀ rs, Act.batch rs ∉ hist) (k : Str) (ask : M Enforcer Bool) :
    (∀ b, (acts lib hist c₀).enableCache = true → FirstAnswer lib c₀ hist k b →
      (throughCache k ask (acts lib hist c₀)).1 = .ok b) ∧
    ((acts lib hist c₀).enableCache = false ∨ Unanswered lib c₀ hist k →
      (throughCache k ask (acts lib hist c₀)).1 = (ask (acts lib hist c₀).base).1) := by
  constructor
  · intro b hon hf
    rw [throughCache_run, if_pos hon, ((map_holds h0 hist hb k).1 b).mpr hf]
  · intro hf
    apply throughCache_miss
    intro hon
    rcases hf with hf | hf
    · simp [hon] at hf
    · exact (map_holds h0 hist hb k).2.mpr hf

/-- C151: with the cache in use, a request is answered as the first request with the same key since the map
was last emptied was answered, whatever has happened to the policy meanwhile and whatever the requests are.
If no request with this key has been answered, or the cache is off, the answer is what the enforcer answers
now. -/
theorem C151_answer {c₀ : CachedEnforcer} (h0 : c₀.cache = []) {hist : List Act}
    (hb : ∀ rs, Act.batch rs ∉ hist) (m : Str) (vs : List ReqVal) :
    (∀ b, (acts lib hist c₀).enableCache = true → FirstAnswer lib c₀ hist (key m vs) b →
      (enforceWithMatcher lib m vs (acts lib hist c₀)).1 = .ok b) ∧
    ((acts lib hist c₀).enableCache = false ∨ Unanswered lib c₀ hist (key m vs) →
      (enforceWithMatcher lib m vs (acts lib hist c₀)).1 =
        ((acts lib hist c₀).base.enforceWithMatcher lib m vs).1) :=
  kept_answer h0 hb _ _

/-- The same for a request given as a map. -/
theorem C151_answer_map {c₀ : CachedEnforcer} (h0 : c₀.cache = []) {hist : List Act}
    (hb : ∀ rs, Act.batch rs ∉ hist) (vs : UMap Str ReqVal) :
    (∀ b, (acts lib hist c₀).enableCache = true → FirstAnswer lib c₀ hist (mapKey [] vs) b →
      (enforceMap lib vs (acts lib hist c₀)).1 = .ok b) ∧
    ((acts lib hist c₀).enableCache = false ∨ Unanswered lib c₀ hist (mapKey [] vs) →
      (enforceMap lib vs (acts lib hist c₀)).1 = ((acts lib hist c₀).base.enforceMap lib vs).1) :=
  kept_answer h0 hb _ _

/-- One of the two cases of `C151_answer` is always given, never both, and there is one first answer at
most. -/
theorem C151_cases {c₀ : CachedEnforcer} (h0 : c₀.cache = []) {hist : List Act}
    (hb : ∀ rs, Act.batch rs ∉ hist) (k : Str) :
    (Unanswered lib c₀ hist k ∧ ∀ b, ¬ FirstAnswer lib c₀ hist k b) ∨
    (¬ Unanswered lib c₀ hist k ∧ ∃ b, ∀ b', FirstAnswer lib c₀ hist k b' ↔ b' = b) := by
  obtain ⟨h1, h2⟩ := map_holds (lib := lib) h0 hist hb k
  simp only [← h1, ← h2]
  cases (acts lib hist c₀).cache.get k with
  | none => left; simp
  | some b => right; exact ⟨by simp, b, fun b' => by simp [eq_comm]⟩

/-- A batch does what its requests do one after the other, up to the first that raises an exception. So a
history with batches is one without. -/
theorem C151_batch (rs : List (List ReqVal)) : ∀ (c : CachedEnforcer),
    ∃ n, n ≤ rs.length ∧
      act lib (.batch rs) c = acts lib ((rs.take n).map (Act.ask [])) c ∧
      ((∃ bs, (batchEnforce lib rs c).1 = .ok bs) → n = rs.length) := by
  induction rs with
  | nil => intro c; exact ⟨0, by simp, rfl, fun _ => rfl⟩
  | cons v rs ih =>
    intro c
    cases hc : enforceWithMatcher lib [] v c with
    | mk o c' =>
      have hstep : act lib (.ask [] v) c = c' := by simp only [act, hc]
      cases o with
      | ok b =>
        obtain ⟨n, hn, he, hl⟩ := ih c'
        refine ⟨n + 1, by simpa using hn, ?_, ?_⟩
        · simp only [act] at he
          simp only [List.take_succ_cons, List.map_cons, acts, hstep]
          rw [← he]
          simp only [act, batchEnforce, M.bind_run, enforce, hc]
          cases batchEnforce lib rs c' with
          | mk o c'' => cases o <;> rfl
        · rintro ⟨bs, hbs⟩
          have : ∃ bs, (batchEnforce lib rs c').1 = .ok bs := by
            simp only [batchEnforce, M.bind_run, enforce, hc] at hbs
            cases hb : batchEnforce lib rs c' with
            | mk o c'' =>
              rw [hb] at hbs
              cases o with
              | ok bs => exact ⟨bs, rfl⟩
              | throw e => simp at hbs
              | ub u => simp at hbs
          simp [hl this]
      | throw e =>
        refine ⟨1, by simp, ?_, ?_⟩
        · simp only [List.take_succ_cons, List.take_zero, List.map_cons, List.map_nil, acts, hstep]
          simp only [act, batchEnforce, M.bind_run, enforce, hc]
        · rintro ⟨bs, hbs⟩
          simp [batchEnforce, M.bind_run, enforce, hc] at hbs
      | ub u =>
        refine ⟨1, by simp, ?_, ?_⟩
        · simp only [List.take_succ_cons, List.take_zero, List.map_cons, List.map_nil, acts, hstep]
          simp only [act, batchEnforce, M.bind_run, enforce, hc]
        · rintro ⟨bs, hbs⟩
          simp [batchEnforce, M.bind_run, enforce, hc] at hbs

/-- The hypotheses can be met, and the first answer is not the enforcer's any more: alice's request was
answered, then alice's rule was removed and another request with the same key asked. -/
example :
    letI := insertionOrder
    let q := [ReqVal.str c!"a$$b", .str c!"c", .str c!"d"]
    let q' := [ReqVal.str c!"a", .str c!"b$$c", .str c!"d"]
    let hist : List Act := [.ask [] q, .change fun E => (Enforcer.removePolicy [c!"a$$b", c!"c", c!"d"] E).2]
    let c := acts miniLib hist (.new (acl [[c!"a$$b", c!"c", c!"d"]]))
    FirstAnswer miniLib (.new (acl [[c!"a$$b", c!"c", c!"d"]])) hist (key [] q') true ∧
    (enforceWithMatcher miniLib [] q' c).1 = .ok true ∧
    (c.base.enforceWithMatcher miniLib [] q').1 = .ok false := by
  let _ := insertionOrder
  intro q q' hist c
  have hf : FirstAnswer miniLib (.new (acl [[c!"a$$b", c!"c", c!"d"]])) hist (key [] q') true := by
    refine ⟨[], _, _, rfl, by simp, ⟨rfl, _, Poses.ask [] q, ?_⟩, ?_⟩
    · decide +kernel
    · intro h a h' b e; simp at e
  refine ⟨hf, ?_, ?_⟩
  · refine (C151_answer rfl ?_ [] q').1 true ?_ hf
    · intro rs h; simp [hist] at h
    · decide +kernel
  · decide +kernel

end CachedProps
end Casbin
