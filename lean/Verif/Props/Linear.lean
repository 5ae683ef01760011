import Verif.Threads
import Verif.Props.Synced

/-!
# C52: concurrent calls of the synchronised enforcer
-/

set_option linter.unusedSectionVars false

namespace Casbin
namespace Threads

variable {τ σ ρ : Type} [DecidableEq τ]

/-! ## What is claimed -/

/-- The body of a call alone, from one state to another. -/
inductive Alone (op : Op σ ρ) : op.Loc → σ → op.Loc → σ → Prop
  | refl {l : op.Loc} {m : σ} : Alone op l m l m
  | tail {l l' : op.Loc} {m m' : σ} : Alone op l m l' m' → op.out l' = none →
      Alone op l m (op.step l' m').1 (op.step l' m').2

/-- The call, executed alone on `m`, returns `r` and leaves `m'`. -/
def Returns (op : Op σ ρ) (m : σ) (r : ρ) (m' : σ) : Prop :=
  ∃ l, Alone op op.init m l m' ∧ op.out l = some r

/-- A call that returned: who made it, the call, its result. -/
abbrev Entry (τ σ ρ : Type) := τ × Op σ ρ × ρ

/-- Calls executed one after the other. -/
inductive Sequential : σ → List (Entry τ σ ρ) → σ → Prop
  | nil {m : σ} : Sequential m [] m
  | snoc {m m' m'' : σ} {h : List (Entry τ σ ρ)} {i : τ} {op : Op σ ρ} {r : ρ} :
      Sequential m h m' → Returns op m' r m'' → Sequential m (h ++ [(i, op, r)]) m''

/-- The calls that returned in an execution, in the order in which they returned. -/
def history : List (Event τ σ ρ) → List (Entry τ σ ρ)
  | [] => []
  | .release i op r :: es => (i, op, r) :: history es
  | _ :: es => history es

/-- The results of one thread. -/
def resultsOf (i : τ) (h : List (Entry τ σ ρ)) : List ρ :=
  (h.filter fun e => decide (e.1 = i)).map fun e => e.2.2

/-- Each thread makes the calls its program asks for. -/
def Follows (P : Prog τ σ ρ) (h : List (Entry τ σ ρ)) : Prop :=
  ∀ h₁ h₂ i op r, h = h₁ ++ (i, op, r) :: h₂ → P i (resultsOf i h₁) = some op

/-- In the states of `I`, the steps of a call taking the lock shared leave the object as it is. -/
def ReadOnly (I : σ → Prop) (op : Op σ ρ) : Prop :=
  op.kind = some .shared → ∀ l m, I m → (op.step l m).2 = m

/-- A call keeps `I`. -/
def Keeps (I : σ → Prop) (op : Op σ ρ) : Prop := ∀ m r m', I m → Returns op m r m' → I m'

/-! ## Lemmas -/

theorem history_append (es es' : List (Event τ σ ρ)) :
    history (es ++ es') = history es ++ history es' := by
  induction es with
  | nil => rfl
  | cons e es ih => cases e <;> simp [history, ih]

theorem resultsOf_append (i : τ) (h h' : List (Entry τ σ ρ)) :
    resultsOf i (h ++ h') = resultsOf i h ++ resultsOf i h' := by simp [resultsOf]

theorem alone_readOnly {I : σ → Prop} {op : Op σ ρ} (hr : ReadOnly I op) (hk : op.kind = some .shared)
    {l l' : op.Loc} {m m' : σ} (hm : I m) (h : Alone op l m l' m') : m' = m := by
  induction h with
  | refl => rfl
  | tail h ho ih => rw [ih hm, hr hk _ _ hm]

omit [DecidableEq τ] in
theorem kinds {k : Option LockKind} (h : k.isSome = true) : k = some .unique ∨ k = some .shared := by
  rcases k with _ | ⟨_ | _⟩ <;> simp_all

/-- What holds all along an execution: the calls that returned, executed one after the other, give the
object `m` that the calls in their critical sections found. -/
structure Inv (P : Prog τ σ ρ) (I : σ → Prop) (m₀ : σ) (es : List (Event τ σ ρ)) (c : Conf τ σ ρ)
    (m : σ) : Prop where
  seq : Sequential m₀ (history es) m
  good : I m
  results : ∀ i, (c.thread i).results = resultsOf i (history es)
  follows : Follows P (history es)
  asked : ∀ i x, (c.thread i).cur = some x → P i (c.thread i).results = some x.op
  running : ∀ i x, (c.thread i).cur = some x → Alone x.op x.op.init m x.loc c.mem
  alone : ∀ i x, (c.thread i).cur = some x → x.op.kind = some .unique →
    ∀ j, j ≠ i → (c.thread j).cur = none
  mem : (∀ i x, (c.thread i).cur = some x → x.op.kind = some .shared) → c.mem = m

theorem follows_snoc {P : Prog τ σ ρ} {h : List (Entry τ σ ρ)} {i : τ} {op : Op σ ρ} {r : ρ}
    (hf : Follows P h) (hp : P i (resultsOf i h) = some op) : Follows P (h ++ [(i, op, r)]) := by
  intro h₁ h₂ i' op' r' he
  rcases List.eq_nil_or_concat h₂ with rfl | ⟨h₃, e, rfl⟩
  · have := List.append_inj' he rfl
    obtain ⟨rfl, h2⟩ := this
    simp only [List.cons.injEq, Prod.mk.injEq, and_true] at h2
    obtain ⟨rfl, rfl, rfl⟩ := h2
    exact hp
  · have he' : h ++ [(i, op, r)] = (h₁ ++ (i', op', r') :: h₃) ++ [e] := by
      rw [he]; simp
    exact hf _ _ _ _ _ (List.append_inj' he' rfl).1

theorem inv_exec {P : Prog τ σ ρ} {I : σ → Prop} {m₀ : σ} (hI : I m₀)
    (hP : ∀ i rs op, P i rs = some op → op.kind.isSome = true ∧ ReadOnly I op ∧ Keeps I op)
    {es : List (Event τ σ ρ)} {c : Conf τ σ ρ} (h : Exec P (Conf.start m₀) es c) :
    ∃ m, Inv P I m₀ es c m := by
  induction h with
  | nil =>
    refine ⟨m₀, .nil, hI, fun _ => rfl, ?_, ?_, ?_, ?_, fun _ => rfl⟩
    · intro h₁ h₂ i op r he
      simp [history] at he
    all_goals
      intro i x hx
      simp [Conf.start] at hx
  | @snoc es c c' e hex hstep ih =>
    obtain ⟨m, inv⟩ := ih
    cases hstep with
    | @acquire i op hc hp hfree =>
      have hh : history (es ++ [Event.acquire i op]) = history es := by
        rw [history_append]; simp [history]
      have hsome : ∀ j x, (c.thread j).cur = some x → x.op.kind.isSome = true :=
        fun j x hx => (hP _ _ _ (inv.asked j x hx)).1
      have hmem : c.mem = m := by
        refine inv.mem fun j x hx => ?_
        rcases kinds (hP _ _ _ hp).1 with hk | hk
        · rw [hk] at hfree
          have h1 := hfree j x hx
          have h2 := hsome j x hx
          rw [h1] at h2
          cases h2
        · rw [hk] at hfree
          exact (kinds (hsome j x hx)).resolve_left (hfree j x hx)
      refine ⟨m, by rw [hh]; exact inv.seq, inv.good, ?_, by rw [hh]; exact inv.follows, ?_, ?_, ?_,
        ?_⟩
      · intro j
        rw [hh]
        by_cases hj : j = i
        · subst hj; simp [Conf.put, inv.results]
        · simp [Conf.put, hj, inv.results]
      · intro j x hx
        by_cases hj : j = i
        · subst hj
          simp only [Conf.put, if_true, Option.some.injEq] at hx ⊢
          subst hx
          exact hp
        · simp only [Conf.put, if_neg hj] at hx ⊢
          exact inv.asked j x hx
      · intro j x hx
        by_cases hj : j = i
        · subst hj
          simp only [Conf.put, if_true, Option.some.injEq] at hx ⊢
          subst hx
          rw [hmem]
          exact .refl
        · simp only [Conf.put, if_neg hj] at hx ⊢
          exact inv.running j x hx
      · intro j x hx hk k hkj
        by_cases hj : j = i
        · subst hj
          simp only [Conf.put, if_true, Option.some.injEq] at hx
          subst hx
          simp only at hk
          rw [hk] at hfree
          simp only [Conf.put, if_neg hkj]
          rcases hy : (c.thread k).cur with _ | y
          · rfl
          · have h1 := hfree k y hy
            have h2 := hsome k y hy
            rw [h1] at h2
            cases h2
        · simp only [Conf.put, if_neg hj] at hx
          exfalso
          rcases kinds (hP _ _ _ hp).1 with hko | hko
          · rw [hko] at hfree
            have := hfree j x hx
            rw [this] at hk
            cases hk
          · rw [hko] at hfree
            exact hfree j x hx hk
      · intro _
        exact hmem
    | @work i x hc ho =>
      have hh : history (es ++ [Event.work i]) = history es := by
        rw [history_append]; simp [history]
      have hro := (hP _ _ _ (inv.asked i x hc)).2.1
      have hrun := inv.running i x hc
      -- a reader's step changes nothing
      have hsame : x.op.kind = some .shared → c.mem = m ∧ (x.op.step x.loc c.mem).2 = c.mem := by
        intro hk
        have := alone_readOnly hro hk inv.good hrun
        exact ⟨this, hro hk _ _ (by rw [this]; exact inv.good)⟩
      refine ⟨m, by rw [hh]; exact inv.seq, inv.good, ?_, by rw [hh]; exact inv.follows, ?_, ?_, ?_,
        ?_⟩
      · intro j
        rw [hh]
        by_cases hj : j = i
        · subst hj; simp [Conf.put, inv.results]
        · simp [Conf.put, hj, inv.results]
      · intro j y hy
        by_cases hj : j = i
        · subst hj
          simp only [Conf.put, if_true, Option.some.injEq] at hy ⊢
          subst hy
          exact inv.asked j x hc
        · simp only [Conf.put, if_neg hj] at hy ⊢
          exact inv.asked j y hy
      · intro j y hy
        by_cases hj : j = i
        · subst hj
          simp only [Conf.put, if_true, Option.some.injEq] at hy ⊢
          subst hy
          exact .tail hrun ho
        · simp only [Conf.put, if_neg hj] at hy ⊢
          rcases kinds (hP _ _ _ (inv.asked i x hc)).1 with hk | hk
          · have := inv.alone i x hc hk j hj
            rw [hy] at this
            cases this
          · rw [(hsame hk).2]
            exact inv.running j y hy
      · intro j y hy hk k hkj
        by_cases hj : j = i
        · subst hj
          simp only [Conf.put, if_true, Option.some.injEq] at hy
          subst hy
          simp only [Conf.put, if_neg hkj]
          exact inv.alone j x hc hk k hkj
        · simp only [Conf.put, if_neg hj] at hy
          have := inv.alone j y hy hk i (fun h => hj h.symm)
          rw [hc] at this
          cases this
      · intro hall
        have hk : x.op.kind = some .shared := by
          have := hall i ⟨x.op, (x.op.step x.loc c.mem).1⟩ (by simp [Conf.put])
          exact this
        simp only
        rw [(hsame hk).2, (hsame hk).1]
    | @release i x r hc ho =>
      have hh : history (es ++ [Event.release i x.op r]) = history es ++ [(i, x.op, r)] := by
        rw [history_append]; simp [history]
      have hp := inv.asked i x hc
      have hret : Returns x.op m r c.mem := ⟨x.loc, inv.running i x hc, ho⟩
      have hro := (hP _ _ _ hp).2.1
      have hothers : ∀ j y, j ≠ i → (c.thread j).cur = some y → c.mem = m := by
        intro j y hj hy
        rcases kinds (hP _ _ _ hp).1 with hk | hk
        · have := inv.alone i x hc hk j hj
          rw [hy] at this
          cases this
        · exact alone_readOnly hro hk inv.good (inv.running i x hc)
      refine ⟨c.mem, ?_, (hP _ _ _ hp).2.2 _ _ _ inv.good hret, ?_, ?_, ?_, ?_, ?_, ?_⟩
      · rw [hh]; exact .snoc inv.seq hret
      · intro j
        rw [hh, resultsOf_append]
        by_cases hj : j = i
        · subst hj; simp [Conf.put, inv.results, resultsOf]
        · have hj' : ¬ i = j := fun h => hj h.symm
          simp [Conf.put, hj, hj', inv.results, resultsOf]
      · rw [hh]
        refine follows_snoc inv.follows ?_
        rw [← inv.results]
        exact hp
      · intro j y hy
        by_cases hj : j = i
        · subst hj
          simp [Conf.put] at hy
        · simp only [Conf.put, if_neg hj] at hy ⊢
          exact inv.asked j y hy
      · intro j y hy
        by_cases hj : j = i
        · subst hj
          simp [Conf.put] at hy
        · simp only [Conf.put, if_neg hj] at hy ⊢
          have := inv.running j y hy
          rw [hothers j y hj hy] at this ⊢
          exact this
      · intro j y hy hk k hkj
        by_cases hj : j = i
        · subst hj
          simp [Conf.put] at hy
        · simp only [Conf.put, if_neg hj] at hy
          by_cases hki : k = i
          · simp [Conf.put, hki]
          · simp only [Conf.put, if_neg hki]
            exact inv.alone j y hy hk k hkj
      · intro _
        rfl

end Threads
end Casbin
