import Verif.Bodies
import Verif.SectionLemmas
import Verif.Props.Linear
import Verif.Props.Synced
import Verif.Props.EndToEnd

/-!
# C52: concurrent calls of the synchronised enforcer

`Props/Linear.lean` is about any object behind a `std::shared_mutex`; here it is used for the
enforcer.
-/

set_option linter.unusedSectionVars false

namespace Casbin
namespace ConcurrentProps

open Threads SyncedEnforcer Fixtures M Model
open SyncedProps (onPlain Blocks NotWatcher C51_partial C51_fails)

variable [IterOrder] {τ : Type} [DecidableEq τ]

/-! ## What is claimed -/

/-- `op` is a body of the call `c`: it takes the lock of `c`, alone on the enforcer it does what `c`
does and returns only if `c` does, and inside a shared lock it writes only where `c` writes. -/
structure Implements (lib : ExprLib) (op : Op Enforcer (Outcome Ret)) (c : Call) : Prop where
  lock : op.kind = lockOf c
  result : ∀ E r E', Returns op E r E' →
    run lib c ⟨E, none, none⟩ = (r, ⟨E', none, none⟩) ∧ r.Safe
  writes : op.kind = some .shared → ∀ E, (run lib c ⟨E, none, none⟩).2.base = E →
    ∀ l, (op.step l E).2 = E

/-- What each thread calls, depending on the results it has got. -/
abbrev Calls (τ : Type) := τ → List (Outcome Ret) → Option Call

/-- A call that returned: the thread, the call, the result. -/
abbrev Done (τ : Type) := τ × Call × Outcome Ret

/-- The results of one thread. -/
def resultsIn (i : τ) (h : List (Done τ)) : List (Outcome Ret) :=
  (h.filter fun e => decide (e.1 = i)).map fun e => e.2.2

/-- The calls executed one after the other on one enforcer, by one thread, give these results. -/
inductive InOrder (lib : ExprLib) : Enforcer → List (Done τ) → Enforcer → Prop
  | nil {E : Enforcer} : InOrder lib E [] E
  | snoc {E E' E'' : Enforcer} {h : List (Done τ)} {i : τ} {c : Call} {r : Outcome Ret} :
      InOrder lib E h E' → run lib c ⟨E', none, none⟩ = (r, ⟨E'', none, none⟩) →
      InOrder lib E (h ++ [(i, c, r)]) E''

/-- Each thread made the calls it wanted to make. -/
def Wanted (calls : Calls τ) (h : List (Done τ)) : Prop :=
  ∀ h₁ h₂ i c r, h = h₁ ++ (i, c, r) :: h₂ → calls i (resultsIn i h₁) = some c

/-- The results of the threads are those of the same calls in some sequential order. -/
def Explained (lib : ExprLib) (calls : Calls τ) (E : Enforcer)
    (c : Conf τ Enforcer (Outcome Ret)) : Prop :=
  ∃ h E', InOrder lib E h E' ∧ Wanted calls h ∧ ∀ i, (c.thread i).results = resultsIn i h

/-- Who returned, with which result, in the order in which this happened. -/
def returns : List (Event τ Enforcer (Outcome Ret)) → List (τ × Outcome Ret)
  | [] => []
  | .release i _ r :: es => (i, r) :: returns es
  | _ :: es => returns es

/-- The model read by `LoadModel` has the sections `p` and `g`. -/
def FullModel : Call → Prop
  | .loadModel (.ok m) => m.Full
  | _ => True

/-! ## Lemmas -/

theorem keeps_of_reads {σ α : Type} {I : σ → Prop} {f : M σ α} (h : ∀ s, I s → (f s).2 = s) :
    M.Keeps I f := fun s hs => by rw [h s hs]; exact hs

theorem full_onPlain (lib : ExprLib) (c : Call) (hl : (lockOf c).isSome = true)
    (hm : FullModel c) : M.Keeps Enforcer.Full (onPlain lib c) := by
  cases c
  case loadModel file =>
    refine keeps_bind ?_ fun _ => keeps_pure _
    intro E hE
    cases file with
    | ok m => exact ⟨hm, hE.2⟩
    | throw e => exact hE
    | ub u => exact hE
  case clearPolicy => exact keeps_bind (Enforcer.full_clear) fun _ => keeps_pure _
  case loadPolicy => exact keeps_bind (Enforcer.full_loadPolicy) fun _ => keeps_pure _
  case savePolicy => exact keeps_bind (Enforcer.full_savePolicy) fun _ => keeps_pure _
  case buildRoleLinks => exact keeps_bind (Enforcer.full_buildRoleLinks) fun _ => keeps_pure _
  case enforce => exact keeps_bind (Enforcer.full_enforceWithMatcher _ _ _) fun _ => keeps_pure _
  case syncedEnforceWithMatcher => exact keeps_bind (Enforcer.full_enforceWithMatcher _ _ _) fun _ => keeps_pure _
  case enforceMap => exact keeps_bind (keeps_bind (Enforcer.full_enforceExMap _ _ _ _) fun _ => keeps_pure _) fun _ => keeps_pure _
  case syncedEnforceExMap => exact keeps_bind (Enforcer.full_enforceExMap _ _ _ _) fun _ => keeps_pure _
  case syncedEnforceEx => exact keeps_bind (Enforcer.full_enforceEx _ _ _ _) fun _ => keeps_pure _
  case batchEnforce => exact keeps_bind (Enforcer.full_batch _ _) fun _ => keeps_pure _
  case batchEnforceWithMatcher => exact keeps_bind (Enforcer.full_batchWith _ _ _) fun _ => keeps_pure _
  case addNamedPolicy => exact keeps_bind (Enforcer.full_addPolicyI _ _ _) fun _ => keeps_pure _
  case addPolicy => exact keeps_bind (Enforcer.full_addPolicyI _ _ _) fun _ => keeps_pure _
  case addNamedPolicies => exact keeps_bind (Enforcer.full_addPoliciesI _ _ _) fun _ => keeps_pure _
  case addPolicies => exact keeps_bind (Enforcer.full_addPoliciesI _ _ _) fun _ => keeps_pure _
  case removeNamedPolicy => exact keeps_bind (Enforcer.full_removePolicyI _ _ _) fun _ => keeps_pure _
  case removePolicy => exact keeps_bind (Enforcer.full_removePolicyI _ _ _) fun _ => keeps_pure _
  case removeNamedPolicies => exact keeps_bind (Enforcer.full_removePoliciesI _ _ _) fun _ => keeps_pure _
  case removePolicies => exact keeps_bind (Enforcer.full_removePoliciesI _ _ _) fun _ => keeps_pure _
  case removeFilteredNamedPolicy => exact keeps_bind (Enforcer.full_removeFilteredI _ _ _ _) fun _ => keeps_pure _
  case removeFilteredPolicy => exact keeps_bind (Enforcer.full_removeFilteredI _ _ _ _) fun _ => keeps_pure _
  case updateNamedPolicy => exact keeps_bind (Enforcer.full_updatePolicyI _ _ _ _) fun _ => keeps_pure _
  case updatePolicy => exact keeps_bind (Enforcer.full_updatePolicyI _ _ _ _) fun _ => keeps_pure _
  case updateNamedPolicies => exact keeps_bind (Enforcer.full_updatePoliciesI _ _ _ _) fun _ => keeps_pure _
  case updatePolicies => exact keeps_bind (Enforcer.full_updatePoliciesI _ _ _ _) fun _ => keeps_pure _
  case addNamedGroupingPolicy => exact keeps_bind (Enforcer.full_addNamedGrouping _ _) fun _ => keeps_pure _
  case addGroupingPolicy => exact keeps_bind (Enforcer.full_addNamedGrouping _ _) fun _ => keeps_pure _
  case removeNamedGroupingPolicy => exact keeps_bind (Enforcer.full_removeNamedGrouping _ _) fun _ => keeps_pure _
  case removeGroupingPolicy => exact keeps_bind (Enforcer.full_removeNamedGrouping _ _) fun _ => keeps_pure _
  case removeFilteredNamedGroupingPolicy => exact keeps_bind (Enforcer.full_removeFilteredNamedGrouping _ _ _) fun _ => keeps_pure _
  case removeFilteredGroupingPolicy => exact keeps_bind (Enforcer.full_removeFilteredNamedGrouping _ _ _) fun _ => keeps_pure _
  case getAllSubjects =>
    exact keeps_bind (keeps_of_reads fun E hE => Enforcer.same_onModel (same_valuesAll _ _ _ hE.1.1)) fun _ => keeps_pure _
  case getAllObjects =>
    exact keeps_bind (keeps_of_reads fun E hE => Enforcer.same_onModel (same_valuesAll _ _ _ hE.1.1)) fun _ => keeps_pure _
  case getAllActions =>
    exact keeps_bind (keeps_of_reads fun E hE => Enforcer.same_onModel (same_valuesAll _ _ _ hE.1.1)) fun _ => keeps_pure _
  case getAllRoles =>
    exact keeps_bind (keeps_of_reads fun E hE => Enforcer.same_onModel (same_valuesAll _ _ _ hE.1.2)) fun _ => keeps_pure _
  case getAllNamedSubjects =>
    exact keeps_bind (keeps_of_reads fun E hE => Enforcer.same_onModel (same_values _ _ _ _)) fun _ => keeps_pure _
  case getAllNamedObjects =>
    exact keeps_bind (keeps_of_reads fun E hE => Enforcer.same_onModel (same_values _ _ _ _)) fun _ => keeps_pure _
  case getAllNamedActions =>
    exact keeps_bind (keeps_of_reads fun E hE => Enforcer.same_onModel (same_values _ _ _ _)) fun _ => keeps_pure _
  case getAllNamedRoles =>
    exact keeps_bind (keeps_of_reads fun E hE => Enforcer.same_onModel (same_values _ _ _ _)) fun _ => keeps_pure _
  case getNamedPolicy =>
    exact keeps_bind (keeps_of_reads fun E hE => Enforcer.same_onModel (same_getPolicy _ _ _)) fun _ => keeps_pure _
  case getPolicy =>
    exact keeps_bind (keeps_of_reads fun E hE => Enforcer.same_onModel (same_getPolicy _ _ _)) fun _ => keeps_pure _
  case getNamedGroupingPolicy =>
    exact keeps_bind (keeps_of_reads fun E hE => Enforcer.same_onModel (same_getPolicy _ _ _)) fun _ => keeps_pure _
  case getGroupingPolicy =>
    exact keeps_bind (keeps_of_reads fun E hE => Enforcer.same_onModel (same_getPolicy _ _ _)) fun _ => keeps_pure _
  case getFilteredNamedPolicy =>
    exact keeps_bind (keeps_of_reads fun E hE => Enforcer.same_onModel (same_getFiltered _ _ _ _ _)) fun _ => keeps_pure _
  case getFilteredNamedGroupingPolicy =>
    exact keeps_bind (keeps_of_reads fun E hE => Enforcer.same_onModel (same_getFiltered _ _ _ _ _)) fun _ => keeps_pure _
  case getFilteredGroupingPolicy =>
    exact keeps_bind (keeps_of_reads fun E hE => Enforcer.same_onModel (same_getFiltered _ _ _ _ _)) fun _ => keeps_pure _
  case getFilteredPolicy =>
    exact keeps_bind (keeps_of_reads fun E hE => Enforcer.same_onModel (same_getFiltered _ _ _ _ _)) fun _ => keeps_pure _
  case hasNamedPolicy =>
    exact keeps_bind (keeps_of_reads fun E hE => Enforcer.same_onModel (same_hasPolicy _ _ _ _)) fun _ => keeps_pure _
  case hasPolicy =>
    exact keeps_bind (keeps_of_reads fun E hE => Enforcer.same_onModel (same_hasPolicy _ _ _ _)) fun _ => keeps_pure _
  case hasNamedGroupingPolicy =>
    exact keeps_bind (keeps_of_reads fun E hE => Enforcer.same_onModel (same_hasPolicy _ _ _ _)) fun _ => keeps_pure _
  case hasGroupingPolicy =>
    exact keeps_bind (keeps_of_reads fun E hE => Enforcer.same_onModel (same_hasPolicy _ _ _ _)) fun _ => keeps_pure _
  case addNamedGroupingPolicies => exact keeps_bind (Enforcer.full_addPoliciesI _ _ _) fun _ => keeps_pure _
  case addGroupingPolicies => exact keeps_bind (Enforcer.full_addPoliciesI _ _ _) fun _ => keeps_pure _
  case removeNamedGroupingPolicies => exact keeps_bind (Enforcer.full_removePoliciesI _ _ _) fun _ => keeps_pure _
  case removeGroupingPolicies => exact keeps_bind (Enforcer.full_removePoliciesI _ _ _) fun _ => keeps_pure _
  case updateNamedGroupingPolicy => exact keeps_bind (Enforcer.full_updatePolicyI _ _ _ _) fun _ => keeps_pure _
  case updateGroupingPolicy => exact keeps_bind (Enforcer.full_updatePolicyI _ _ _ _) fun _ => keeps_pure _
  all_goals exact absurd hl Bool.false_ne_true

/-- The calls that take the lock shared leave a full enforcer as it is. -/
theorem reads (lib : ExprLib) (c : Call) (hl : lockOf c = some .shared) (E : Enforcer)
    (hE : E.Full) : (run lib c ⟨E, none, none⟩).2.base = E := by
  by_cases hb : Blocks E c
  · cases c
    case getPolicy => rfl
    case getGroupingPolicy => rfl
    case getFilteredGroupingPolicy => rfl
    case hasPolicy => rfl
    case hasGroupingPolicy => rfl
    all_goals first | exact hb.elim | cases hl
  · have hw : NotWatcher c := by
      cases c <;> trivial
    rw [C51_partial lib c ⟨E, none, none⟩ rfl hb hw]
    show (onPlain lib c E).2 = E
    cases c
    case getAllSubjects => exact same_bind (Enforcer.same_onModel (same_valuesAll _ _ _ hE.1.1)) fun _ => rfl
    case getAllObjects => exact same_bind (Enforcer.same_onModel (same_valuesAll _ _ _ hE.1.1)) fun _ => rfl
    case getAllRoles => exact same_bind (Enforcer.same_onModel (same_valuesAll _ _ _ hE.1.2)) fun _ => rfl
    case getAllNamedSubjects => exact same_bind (Enforcer.same_onModel (same_values _ _ _ _)) fun _ => rfl
    case getAllNamedObjects => exact same_bind (Enforcer.same_onModel (same_values _ _ _ _)) fun _ => rfl
    case getAllNamedActions => exact same_bind (Enforcer.same_onModel (same_values _ _ _ _)) fun _ => rfl
    case getAllNamedRoles => exact same_bind (Enforcer.same_onModel (same_values _ _ _ _)) fun _ => rfl
    case getNamedPolicy => exact same_bind (Enforcer.same_onModel (same_getPolicy _ _ _)) fun _ => rfl
    case getPolicy => exact same_bind (Enforcer.same_onModel (same_getPolicy _ _ _)) fun _ => rfl
    case getNamedGroupingPolicy => exact same_bind (Enforcer.same_onModel (same_getPolicy _ _ _)) fun _ => rfl
    case getGroupingPolicy => exact same_bind (Enforcer.same_onModel (same_getPolicy _ _ _)) fun _ => rfl
    case getFilteredNamedPolicy => exact same_bind (Enforcer.same_onModel (same_getFiltered _ _ _ _ _)) fun _ => rfl
    case getFilteredNamedGroupingPolicy => exact same_bind (Enforcer.same_onModel (same_getFiltered _ _ _ _ _)) fun _ => rfl
    case getFilteredGroupingPolicy => exact same_bind (Enforcer.same_onModel (same_getFiltered _ _ _ _ _)) fun _ => rfl
    case hasNamedPolicy => exact same_bind (Enforcer.same_onModel (same_hasPolicy _ _ _ _)) fun _ => rfl
    case hasPolicy => exact same_bind (Enforcer.same_onModel (same_hasPolicy _ _ _ _)) fun _ => rfl
    case hasNamedGroupingPolicy => exact same_bind (Enforcer.same_onModel (same_hasPolicy _ _ _ _)) fun _ => rfl
    case hasGroupingPolicy => exact same_bind (Enforcer.same_onModel (same_hasPolicy _ _ _ _)) fun _ => rfl
    all_goals cases hl

/-- What a call that returned did. -/
theorem returned_plain {lib : ExprLib} {op : Op Enforcer (Outcome Ret)} {c : Call}
    (h : Implements lib op c) (hl : (lockOf c).isSome = true) {E E' : Enforcer} {r : Outcome Ret}
    (hr : Returns op E r E') : E' = (onPlain lib c E).2 := by
  obtain ⟨h1, h2⟩ := h.result E r E' hr
  have hb : ¬ Blocks E c := by
    intro hb
    have := C51_fails lib c ⟨E, none, none⟩ rfl hb
    rw [h1] at this
    simp only at this
    rw [this] at h2
    exact h2
  have hw : NotWatcher c := by cases c <;> trivial
  rw [C51_partial lib c ⟨E, none, none⟩ rfl hb hw] at h1
  simp only [Prod.mk.injEq, SyncedEnforcer.mk.injEq] at h1
  exact h1.2.1.symm

theorem implements_ok {lib : ExprLib} {op : Op Enforcer (Outcome Ret)} {c : Call}
    (h : Implements lib op c) (hl : (lockOf c).isSome = true) (hm : FullModel c) :
    op.kind.isSome = true ∧ ReadOnly Enforcer.Full op ∧ Threads.Keeps Enforcer.Full op := by
  refine ⟨by rw [h.lock]; exact hl, ?_, ?_⟩
  · intro hk l E hE
    exact h.writes hk E (reads lib c (by rw [← h.lock]; exact hk) E hE) l
  · intro E r E' hE hr
    rw [returned_plain h hl hr]
    exact full_onPlain lib c hl hm E hE

theorem resultsIn_append (i : τ) (h h' : List (Done τ)) :
    resultsIn i (h ++ h') = resultsIn i h ++ resultsIn i h' := by simp [resultsIn]

theorem wanted_snoc {calls : Calls τ} {h : List (Done τ)} {i : τ} {c : Call} {r : Outcome Ret}
    (hf : Wanted calls h) (hp : calls i (resultsIn i h) = some c) : Wanted calls (h ++ [(i, c, r)]) := by
  intro h₁ h₂ i' c' r' he
  rcases List.eq_nil_or_concat h₂ with rfl | ⟨h₃, e, rfl⟩
  · have := List.append_inj' he rfl
    obtain ⟨rfl, h2⟩ := this
    simp only [List.cons.injEq, Prod.mk.injEq, and_true] at h2
    obtain ⟨rfl, rfl, rfl⟩ := h2
    exact hp
  · have he' : h ++ [(i, c, r)] = (h₁ ++ (i', c', r') :: h₃) ++ [e] := by
      rw [he]; simp
    exact hf _ _ _ _ _ (List.append_inj' he' rfl).1

theorem resultsIn_eq {h : List (Done τ)} {k : List (Entry τ Enforcer (Outcome Ret))}
    (he : h.map (fun e => (e.1, e.2.2)) = k.map (fun e => (e.1, e.2.2))) (i : τ) :
    resultsIn i h = resultsOf i k := by
  induction h generalizing k with
  | nil =>
    cases k with
    | nil => rfl
    | cons a k => simp at he
  | cons a h ih =>
    cases k with
    | nil => simp at he
    | cons b k =>
      simp only [List.map_cons, List.cons.injEq, Prod.mk.injEq] at he
      have := ih he.2
      simp only [resultsIn, resultsOf, List.filter_cons] at this ⊢
      rw [he.1.1]
      split
      · simp only [List.map_cons, he.1.2, this]
      · exact this

theorem returns_eq (es : List (Event τ Enforcer (Outcome Ret))) :
    returns es = (history es).map (fun e => (e.1, e.2.2)) := by
  induction es with
  | nil => rfl
  | cons e es ih => cases e <;> simp [returns, history, ih]

theorem follows_init {P : Prog τ Enforcer (Outcome Ret)} {h : List (Entry τ Enforcer (Outcome Ret))}
    {x : Entry τ Enforcer (Outcome Ret)} (hf : Follows P (h ++ [x])) : Follows P h := by
  intro h₁ h₂ i op r he
  exact hf h₁ (h₂ ++ [x]) i op r (by rw [he]; simp)

/-- From bodies to calls. -/
theorem to_calls {lib : ExprLib} {calls : Calls τ} {impl : Call → Op Enforcer (Outcome Ret)}
    (hi : ∀ i rs c, calls i rs = some c → Implements lib (impl c) c)
    {E E' : Enforcer} {k : List (Entry τ Enforcer (Outcome Ret))} (hs : Sequential E k E')
    (hf : Follows (fun i rs => (calls i rs).map impl) k) :
    ∃ h, InOrder lib E h E' ∧ Wanted calls h ∧
      h.map (fun e => (e.1, e.2.2)) = k.map (fun e => (e.1, e.2.2)) := by
  induction hs with
  | nil =>
    refine ⟨[], .nil, ?_, rfl⟩
    intro h₁ h₂ i c r he
    simp at he
  | @snoc E' E'' k i op r hs hr ih =>
    obtain ⟨h, h1, h2, h3⟩ := ih (follows_init hf)
    have ha := hf k [] i op r rfl
    simp only [Option.map_eq_some_iff] at ha
    obtain ⟨c, hc, rfl⟩ := ha
    refine ⟨h ++ [(i, c, r)], .snoc h1 ((hi i _ c hc).result _ _ _ hr).1, wanted_snoc h2 ?_, ?_⟩
    · rw [resultsIn_eq h3]; exact hc
    · simp [h3]

/-! ## C52 -/

/-- C52 for the methods that take the lock, on an enforcer whose model has the sections `p` and `g`:
whatever the number of threads, the programs, the steps the bodies are made of and the schedule, the
results of all threads are those of the same calls executed one after the other, in the order in which
they returned; and while nobody is inside, the enforcer is the one these calls leave. A call that
blocks (`C51_fails`) does not return. Missing: the inherited methods, which take no lock
(`C52_fails`, `C52_torn_fails`), and models without a section `g` (`C52_race_fails`). -/
theorem C52_partial (lib : ExprLib) (calls : Calls τ) (impl : Call → Op Enforcer (Outcome Ret))
    (hi : ∀ i rs c, calls i rs = some c → Implements lib (impl c) c ∧
      (lockOf c).isSome = true ∧ FullModel c)
    (E₀ : Enforcer) (hE : E₀.Full) {es : List (Event τ Enforcer (Outcome Ret))}
    {c : Conf τ Enforcer (Outcome Ret)}
    (h : Exec (fun i rs => (calls i rs).map impl) (Conf.start E₀) es c) :
    ∃ hist E, InOrder lib E₀ hist E ∧ Wanted calls hist ∧
      (∀ i, (c.thread i).results = resultsIn i hist) ∧
      hist.map (fun e => (e.1, e.2.2)) = returns es ∧
      ((∀ i, (c.thread i).cur = none) → c.mem = E) := by
  obtain ⟨E, inv⟩ := inv_exec (I := Enforcer.Full) hE (by
    intro i rs op ho
    simp only [Option.map_eq_some_iff] at ho
    obtain ⟨c, hc, rfl⟩ := ho
    obtain ⟨h1, h2, h3⟩ := hi i rs c hc
    exact implements_ok h1 h2 h3) h
  obtain ⟨hist, h1, h2, h3⟩ := to_calls (fun i rs c hc => (hi i rs c hc).1) inv.seq inv.follows
  refine ⟨hist, E, h1, h2, fun i => ?_, by rw [h3, returns_eq], fun hn => ?_⟩
  · rw [inv.results, resultsIn_eq h3]
  · refine inv.mem fun i x hx => ?_
    rw [hn i] at hx
    cases hx

/-- In particular they are explained by a sequential order. -/
theorem C52_explained_partial (lib : ExprLib) (calls : Calls τ)
    (impl : Call → Op Enforcer (Outcome Ret))
    (hi : ∀ i rs c, calls i rs = some c → Implements lib (impl c) c ∧
      (lockOf c).isSome = true ∧ FullModel c)
    (E₀ : Enforcer) (hE : E₀.Full) {es : List (Event τ Enforcer (Outcome Ret))}
    {c : Conf τ Enforcer (Outcome Ret)}
    (h : Exec (fun i rs => (calls i rs).map impl) (Conf.start E₀) es c) :
    Explained lib calls E₀ c := by
  obtain ⟨hist, E, h1, h2, h3, _⟩ := C52_partial lib calls impl hi E₀ hE h
  exact ⟨hist, E, h1, h2, h3⟩

/-- Bodies exist: every call as one step is one. -/
theorem whole_implements (lib : ExprLib) (c : Call) (hw : NotWatcher c) :
    Implements lib (whole lib c) c := by
  refine ⟨rfl, ?_, ?_⟩
  · rintro E r E' ⟨l, ha, ho⟩
    have key : ∀ l m, Alone (whole lib c) none E l m →
        (l = none ∧ m = E) ∨ (l = some (run lib c ⟨E, none, none⟩).1 ∧
          m = (run lib c ⟨E, none, none⟩).2.base) := by
      clear ha ho
      intro l m ha
      induction ha with
      | refl => exact .inl ⟨rfl, rfl⟩
      | tail _ _ ih =>
        rcases ih with ⟨rfl, rfl⟩ | ⟨rfl, rfl⟩
        · exact .inr ⟨rfl, rfl⟩
        · exact .inr ⟨rfl, rfl⟩
    rcases key l E' ha with ⟨rfl, rfl⟩ | ⟨rfl, rfl⟩
    · cases ho
    · simp only [whole, Option.bind_some, returned] at ho
      rcases hr : run lib c ⟨E, none, none⟩ with ⟨o, ⟨E', k, w⟩⟩
      rw [hr] at ho
      have hb : ¬ Blocks E c := by
        intro hb
        have := C51_fails lib c ⟨E, none, none⟩ rfl hb
        rw [hr] at this
        simp only at this
        subst this
        cases ho
      have h2 := C51_partial lib c ⟨E, none, none⟩ rfl hb hw
      rw [hr] at h2
      simp only [Prod.mk.injEq, SyncedEnforcer.mk.injEq] at h2
      obtain ⟨h3, h4, rfl, rfl⟩ := h2
      cases o with
      | ub u => cases ho
      | ok a => cases ho; exact ⟨rfl, trivial⟩
      | throw e => cases ho; exact ⟨rfl, trivial⟩
  · intro _ E h l
    cases l with
    | none => exact h
    | some r => rfl

theorem alone_head {op : Op Enforcer (Outcome Ret)} {l l' : op.Loc} {m m' : Enforcer}
    (h : Alone op l m l' m') :
    (l' = l ∧ m' = m) ∨ (op.out l = none ∧ Alone op (op.step l m).1 (op.step l m).2 l' m') := by
  induction h with
  | refl => exact .inl ⟨rfl, rfl⟩
  | tail h ho ih =>
    rcases ih with ⟨rfl, rfl⟩ | ⟨h1, h2⟩
    · exact .inr ⟨ho, .refl⟩
    · exact .inr ⟨h1, .tail h2 ho⟩

theorem returns_step {op : Op Enforcer (Outcome Ret)} {l : op.Loc} {m m' : Enforcer}
    {r : Outcome Ret} (hn : op.out l = none)
    (h : ∃ l', Alone op l m l' m' ∧ op.out l' = some r) :
    ∃ l', Alone op (op.step l m).1 (op.step l m).2 l' m' ∧ op.out l' = some r := by
  obtain ⟨l', ha, ho⟩ := h
  rcases alone_head ha with ⟨rfl, rfl⟩ | ⟨_, h2⟩
  · rw [hn] at ho; cases ho
  · exact ⟨l', h2, ho⟩

/-- A step of `runRequest` after another. -/
theorem runRequest_bind (f : M ReqSt Unit) (g : M ReqSt Bool) (E : Enforcer)
    (hx : ∀ s, (f s).2.explain = s.explain) :
    Enforcer.runRequest [] (do f; g) E =
      match Enforcer.runRequest [] (do f; Pure.pure false) E with
      | (.ok _, E') => Enforcer.runRequest [] g E'
      | (.throw e, E') => (.throw e, E')
      | (.ub u, E') => (.ub u, E') := by
  unfold Enforcer.runRequest
  have := hx { ev := E.evaluator, heap := E.heap, explain := [] }
  rcases hf : f { ev := E.evaluator, heap := E.heap, explain := [] } with ⟨o, s⟩
  rw [hf] at this
  simp only at this
  cases o with
  | ok a =>
    obtain ⟨ev, heap, x⟩ := s
    simp only at this
    subst this
    simp only [M.bind_run, hf, M.pure_run, Outcome.map]
    rfl
  | throw e => simp only [M.bind_run, hf, Outcome.map]
  | ub u => simp only [M.bind_run, hf, Outcome.map]

theorem onEv_explain {α : Type} (f : M Evaluator α) (s : ReqSt) :
    (ReqSt.onEv f s).2.explain = s.explain := rfl

theorem alone_done {lib : ExprLib} {matcher : Str} {vals : List ReqVal} {o : Outcome Ret}
    {l0 l : (enforceInTwo lib matcher vals).Loc} {E E' : Enforcer}
    (h : Alone (enforceInTwo lib matcher vals) l0 E l E')
    (h0 : l0 = Stage.done o) : l = Stage.done o ∧ E' = E := by
  induction h with
  | refl => exact ⟨h0, rfl⟩
  | tail _ _ ih =>
    obtain ⟨rfl, rfl⟩ := ih
    exact ⟨rfl, rfl⟩

theorem returned_some {o x : Outcome Ret} (h : returned o = some x) : x = o ∧ x.Safe := by
  cases o <;> simp only [returned, Option.some.injEq, reduceCtorEq] at h
  · subst h; exact ⟨rfl, trivial⟩
  · subst h; exact ⟨rfl, trivial⟩

/-- The body in two steps is a body of `EnforceWithMatcher`. -/
theorem two_implements (lib : ExprLib) (matcher : Str) (vals : List ReqVal) :
    Implements lib (enforceInTwo lib matcher vals) (.enforceWithMatcher matcher vals) := by
  refine ⟨rfl, ?_, fun h => by cases h⟩
  rintro E r E' h
  have hrun : run lib (.enforceWithMatcher matcher vals) ⟨E, none, none⟩ =
      ((Enforcer.enforceEx lib matcher vals [] E).1.map fun b => .bool b.1,
        ⟨(Enforcer.enforceEx lib matcher vals [] E).2, none, none⟩) := by
    show (plain (Enforcer.enforceEx lib matcher vals [] >>= fun x => Pure.pure x.1) >>=
      fun x => Pure.pure (Ret.bool x)) _ = _
    rw [M.bind_run]
    unfold plain
    rw [M.bind_run]
    rcases Enforcer.enforceEx lib matcher vals [] E with ⟨o, E1⟩
    cases o <;> rfl
  rw [hrun]
  have hdone : ∀ (o : Outcome Ret) (E1 : Enforcer),
      (∃ l, Alone (enforceInTwo lib matcher vals) (.done o) E1 l E' ∧
        (enforceInTwo lib matcher vals).out l = some r) → r = o ∧ E' = E1 ∧ r.Safe := by
    rintro o E1 ⟨l, ha, ho⟩
    obtain ⟨rfl, rfl⟩ := alone_done ha rfl
    obtain ⟨h1, h2⟩ := returned_some ho
    exact ⟨h1, rfl, h2⟩
  have h := returns_step (op := enforceInTwo lib matcher vals) rfl h
  rcases hr : E.model.find c!"r" c!"r" with _ | ra
  · have hs : (enforceInTwo lib matcher vals).step (enforceInTwo lib matcher vals).init E =
        (.done (.ub .nullDeref), E) := by simp [enforceInTwo, hr]
    rw [hs] at h
    obtain ⟨rfl, _, h3⟩ := hdone _ _ h
    exact h3.elim
  · by_cases hl : vals.length ≠ ra.tokens.length
    · have hs : (enforceInTwo lib matcher vals).step (enforceInTwo lib matcher vals).init E =
          (.done (.ok (.bool false)), E) := by simp [enforceInTwo, hr, hl]
      rw [hs] at h
      obtain ⟨rfl, rfl, h3⟩ := hdone _ _ h
      simp [Enforcer.enforceEx, M.bind_run, M.get_run, hr, hl, Outcome.map, Outcome.Safe]
    · have hl : vals.length = ra.tokens.length := not_not.1 hl
      have he : Enforcer.enforceEx lib matcher vals [] E = Enforcer.runRequest [] (do
            ReqSt.onEv (pushRequest ra.tokens vals)
            mEnforce lib E.model E.enabled matcher) E := by
        simp [Enforcer.enforceEx, M.bind_run, M.get_run, hr, hl]
      rw [he, runRequest_bind _ _ _ (onEv_explain _)]
      rcases hp : Enforcer.runRequest [] (do
        ReqSt.onEv (pushRequest ra.tokens vals)
        Pure.pure false) E with ⟨o, E1⟩
      have hm : E1.model = E.model ∧ E1.enabled = E.enabled := by
        have := congrArg Prod.snd hp
        simp only at this
        rw [← this]
        exact ⟨rfl, rfl⟩
      cases o with
      | ok b =>
        have hs : (enforceInTwo lib matcher vals).step (enforceInTwo lib matcher vals).init E =
            (.pushed, E1) := by simp [enforceInTwo, hr, hl, hp]
        rw [hs] at h
        have h := returns_step (op := enforceInTwo lib matcher vals) rfl h
        have hs2 : (enforceInTwo lib matcher vals).step Stage.pushed E1 =
            (.done ((Enforcer.runRequest [] (mEnforce lib E.model E.enabled matcher) E1).1.map
              fun b => .bool b.1),
             (Enforcer.runRequest [] (mEnforce lib E.model E.enabled matcher) E1).2) := by
          simp [enforceInTwo, hm.1, hm.2]
        rw [hs2] at h
        obtain ⟨rfl, rfl, h3⟩ := hdone _ _ h
        exact ⟨rfl, h3⟩
      | throw e =>
        have hs : (enforceInTwo lib matcher vals).step (enforceInTwo lib matcher vals).init E =
            (.done (.throw e), E1) := by simp [enforceInTwo, hr, hl, hp]
        rw [hs] at h
        obtain ⟨rfl, rfl, h3⟩ := hdone _ _ h
        exact ⟨rfl, h3⟩
      | ub u =>
        have hs : (enforceInTwo lib matcher vals).step (enforceInTwo lib matcher vals).init E =
            (.done (.ub u), E1) := by simp [enforceInTwo, hr, hl, hp]
        rw [hs] at h
        obtain ⟨rfl, rfl, h3⟩ := hdone _ _ h
        exact h3.elim

/-- The bodies: `EnforceWithMatcher` in two steps, everything else in one. -/
def bodyOf (lib : ExprLib) : Call → Op Enforcer (Outcome Ret)
  | .enforceWithMatcher matcher vals => enforceInTwo lib matcher vals
  | c => whole lib c

theorem bodyOf_implements (lib : ExprLib) (c : Call) (hw : NotWatcher c) :
    Implements lib (bodyOf lib c) c := by
  cases c
  case enforceWithMatcher => exact two_implements _ _ _
  all_goals exact whole_implements _ _ hw

/-- What the calls before a call did. -/
theorem inOrder_split {lib : ExprLib} {E E' : Enforcer} {h h₁ h₂ : List (Done τ)} {i : τ} {c : Call}
    {r : Outcome Ret} (hs : InOrder lib E h E') (he : h = h₁ ++ (i, c, r) :: h₂) :
    ∃ E₁, InOrder lib E h₁ E₁ ∧ (run lib c ⟨E₁, none, none⟩).1 = r := by
  induction hs generalizing h₂ with
  | nil => simp at he
  | snoc hs hr ih =>
    rcases List.eq_nil_or_concat h₂ with rfl | ⟨h₃, e, rfl⟩
    · have := List.append_inj' he rfl
      obtain ⟨rfl, h2⟩ := this
      simp only [List.cons.injEq, Prod.mk.injEq, and_true] at h2
      obtain ⟨rfl, rfl, rfl⟩ := h2
      exact ⟨_, hs, by rw [hr]⟩
    · refine ih (h₂ := h₃) ?_
      refine (List.append_inj' (s₁ := _) (t₁ := [_]) (t₂ := [e]) (he.trans ?_) rfl).1
      simp

theorem inOrder_one {lib : ExprLib} {E E' : Enforcer} {i : τ} {c : Call} {r : Outcome Ret}
    (hs : InOrder lib E [(i, c, r)] E') : E' = (run lib c ⟨E, none, none⟩).2.base := by
  generalize hh : [(i, c, r)] = h at hs
  cases hs with
  | nil => cases hh
  | @snoc E1 _ h j d q hs hr =>
    have := List.append_inj' (s₁ := []) (t₁ := [(i, c, r)]) hh rfl
    obtain ⟨rfl, h2⟩ := this
    simp only [List.cons.injEq, Prod.mk.injEq, and_true] at h2
    obtain ⟨rfl, rfl, rfl⟩ := h2
    generalize hn : ([] : List (Done τ)) = h0 at hs
    cases hs with
    | nil => rw [hr]
    | snoc hs hr => simp at hn

omit [IterOrder] in
theorem first_result {h : List (Done τ)} {i : τ} {x : Outcome Ret} {xs : List (Outcome Ret)}
    (hr : resultsIn i h = x :: xs) :
    ∃ h₁ c h₂, h = h₁ ++ (i, c, x) :: h₂ ∧ resultsIn i h₁ = [] := by
  induction h with
  | nil => simp [resultsIn] at hr
  | cons e h ih =>
    obtain ⟨j, c, r⟩ := e
    by_cases hj : j = i
    · subst hj
      simp only [resultsIn, List.filter_cons, decide_true, if_true, List.map_cons,
        List.cons.injEq] at hr
      obtain ⟨rfl, _⟩ := hr
      exact ⟨[], c, h, rfl, rfl⟩
    · obtain ⟨h₁, d, h₂, rfl, h3⟩ := ih (by simpa [resultsIn, List.filter_cons, hj] using hr)
      exact ⟨(j, c, r) :: h₁, d, h₂, rfl, by simpa [resultsIn, List.filter_cons, hj] using h3⟩

/-- The request of each of two threads: only the second one is permitted. -/
def asked : Bool → List ReqVal
  | false => [.str c!"mallory", .str c!"data1", .str c!"read"]
  | true => [.str c!"alice", .str c!"data1", .str c!"read"]

/-- Each thread calls `EnforceWithMatcher` once. -/
def asking : Calls Bool := fun i rs => if rs = [] then some (.enforceWithMatcher [] (asked i)) else none

/-- Two threads with one call each: in a sequential order the first thread's call comes first or
second. -/
theorem one_each {lib : ExprLib} {calls : Calls Bool} {k : Bool → Call}
    (h0 : ∀ i, calls i [] = some (k i)) (h1 : ∀ i x xs, calls i (x :: xs) = none)
    {E E' : Enforcer} {h : List (Done Bool)} {x : Outcome Ret} (hs : InOrder lib E h E')
    (hw : Wanted calls h) (hA : resultsIn false h = [x]) :
    (run lib (k false) ⟨E, none, none⟩).1 = x ∨
    (run lib (k false) ⟨(run lib (k true) ⟨E, none, none⟩).2.base, none, none⟩).1 = x := by
  obtain ⟨h₁, c, h₂, rfl, hn⟩ := first_result hA
  have hc := hw h₁ h₂ false c _ rfl
  rw [hn, h0, Option.some.injEq] at hc
  subst hc
  obtain ⟨E₁, hi, hrun⟩ := inOrder_split hs rfl
  have hone : h₁ = [] ∨ ∃ r, h₁ = [(true, k true, r)] := by
    rcases h₁ with _ | ⟨⟨i, c, r⟩, l⟩
    · exact .inl rfl
    · right
      have hi : i = true := by
        cases i with
        | true => rfl
        | false => simp [resultsIn] at hn
      subst hi
      have hc := hw [] (l ++ (false, _, _) :: h₂) true c r rfl
      simp only [resultsIn, List.filter_nil, List.map_nil, h0, Option.some.injEq] at hc
      subst hc
      refine ⟨r, ?_⟩
      rcases l with _ | ⟨⟨j, d, q⟩, l⟩
      · rfl
      · exfalso
        cases j with
        | false => simp [resultsIn] at hn
        | true =>
          have := hw [(true, k true, r)] (l ++ (false, _, _) :: h₂) true d q rfl
          simp [resultsIn, h1] at this
  rcases hone with rfl | ⟨r, rfl⟩
  · left
    have : E₁ = E := by
      generalize hn : ([] : List (Done Bool)) = h0 at hi
      cases hi with
      | nil => rfl
      | snoc hs hr => simp at hn
    rw [← this]
    exact hrun
  · right
    rw [inOrder_one hi] at hrun
    exact hrun

omit [IterOrder] in
/-- The two requests cross. -/
theorem crossed (lib : ExprLib) (ord : IterOrder) (E0 : Enforcer)
    (sA1 sB1 sA2 sB2 : Stage × Enforcer)
    (hA1 : sA1 = (enforceInTwo lib [] (asked false)).step Stage.start E0)
    (hB1 : sB1 = (enforceInTwo lib [] (asked true)).step Stage.start sA1.2)
    (hA2 : sA2 = (enforceInTwo lib [] (asked false)).step sA1.1 sB1.2)
    (hB2 : sB2 = (enforceInTwo lib [] (asked true)).step sB1.1 sA2.2)
    (oA1 : (enforceInTwo lib [] (asked false)).out sA1.1 = none)
    (oB1 : (enforceInTwo lib [] (asked true)).out sB1.1 = none)
    (rA rB : Outcome Ret)
    (oA2 : (enforceInTwo lib [] (asked false)).out sA2.1 = some rA)
    (oB2 : (enforceInTwo lib [] (asked true)).out sB2.1 = some rB) :
    ∃ es c, Exec (fun i rs => (asking i rs).map (bodyOf lib)) (Conf.start E0) es c ∧
      (c.thread false).results = [rA] ∧ (c.thread true).results = [rB] ∧
      ∀ i, (c.thread i).cur = none := by
  subst hA1 hB1 hA2 hB2
  let P : Prog Bool Enforcer (Outcome Ret) := fun i rs => (asking i rs).map (bodyOf lib)
  have h1 := Exec.snoc Exec.nil (Step.acquire (P := P) (c := Conf.start E0) (i := false)
    (op := enforceInTwo lib [] (asked false)) rfl rfl trivial)
  have h2 := Exec.snoc h1 (Step.acquire (i := true) (op := enforceInTwo lib [] (asked true))
    rfl rfl trivial)
  have h3 := Exec.snoc h2 (Step.work (i := false) (x := ⟨enforceInTwo lib [] (asked false),
    Stage.start⟩) rfl rfl)
  have h4 := Exec.snoc h3 (Step.work (i := true) (x := ⟨enforceInTwo lib [] (asked true),
    Stage.start⟩) rfl rfl)
  have h5 := Exec.snoc h4 (Step.work (i := false) (x := ⟨enforceInTwo lib [] (asked false), _⟩)
    rfl oA1)
  have h6 := Exec.snoc h5 (Step.release (i := false) (x := ⟨enforceInTwo lib [] (asked false), _⟩)
    rfl oA2)
  have h7 := Exec.snoc h6 (Step.work (i := true) (x := ⟨enforceInTwo lib [] (asked true), _⟩)
    rfl oB1)
  have h8 := Exec.snoc h7 (Step.release (i := true) (x := ⟨enforceInTwo lib [] (asked true), _⟩)
    rfl oB2)
  refine ⟨_, _, h8, rfl, rfl, ?_⟩
  intro i
  cases i <;> rfl

omit [IterOrder] in
/-- C52 is violated by the inherited `EnforceWithMatcher` (and `EnforceEx`), which take no lock: two
threads make a request each, and the one whose request must be refused is told that it is permitted,
as in no sequential order. -/
theorem C52_fails : ¬ ∀ (_ : IterOrder) (lib : ExprLib) (_ : SoundLib lib) (calls : Calls Bool)
    (E₀ : Enforcer) (_ : E₀.Full) (es : List (Event Bool Enforcer (Outcome Ret)))
    (c : Conf Bool Enforcer (Outcome Ret)),
    Exec (fun i rs => (calls i rs).map (bodyOf lib)) (Conf.start E₀) es c →
    Explained lib calls E₀ c := by
  intro hall
  obtain ⟨es, c, hex, hA, _, _⟩ := crossed miniLib insertionOrder (rbac [alice] []) _ _ _ _ rfl rfl rfl
    rfl (by decide +kernel) (by decide +kernel) (.ok (.bool true)) (.ok (.bool true))
    (by decide +kernel) (by decide +kernel)
  obtain ⟨h, E', hs, hw, hr⟩ := hall insertionOrder miniLib miniLib_sound asking (rbac [alice] [])
    ⟨⟨by decide +kernel, by decide +kernel⟩, fun a ha => by cases ha⟩ es c hex
  rcases @one_each insertionOrder miniLib asking (fun i => .enforceWithMatcher [] (asked i))
    (fun _ => rfl) (fun _ _ _ => rfl) _ _ _ _ hs hw ((hr false).symm.trans hA) with h1 | h1
  · exact absurd h1 (by decide +kernel)
  · exact absurd h1 (by decide +kernel)

/-- Each of two threads calls `GetAllRoles` once. -/
def listing : Calls Bool := fun _ rs => if rs = [] then some .getAllRoles else none

/-- C52, the lock: on a model without a section `g` the call `GetAllRoles`, which takes the lock
shared, inserts that section. So two threads are inside at the same time while one of them changes the
map the other one reads: a data race, whatever the enforcer is. -/
theorem C52_race_fails (lib : ExprLib) (E : Enforcer) (hg : E.model.has c!"g" = false) :
    ∃ es c, Exec (fun i rs => (listing i rs).map (whole lib)) (Conf.start E) es c ∧
      (∀ i : Bool, ∃ x, (c.thread i).cur = some x ∧ x.op.kind = some .shared) ∧
      E.model.has c!"g" = false ∧ c.mem.model.has c!"g" = true := by
  let P : Prog Bool Enforcer (Outcome Ret) := fun i rs => (listing i rs).map (whole lib)
  have h1 := Exec.snoc Exec.nil (Step.acquire (P := P) (c := Conf.start E) (i := false)
    (op := whole lib .getAllRoles) rfl rfl (by intro j x hx; cases hx))
  have h2 := Exec.snoc h1 (Step.acquire (i := true) (op := whole lib .getAllRoles) rfl rfl (by
    intro j x hx
    cases j with
    | false => cases hx; intro h; cases h
    | true => cases hx))
  have h3 := Exec.snoc h2 (Step.work (i := false) (x := ⟨whole lib .getAllRoles, none⟩) rfl rfl)
  refine ⟨_, _, h3, ?_, hg, ?_⟩
  · intro i
    cases i
    · exact ⟨_, rfl, rfl⟩
    · exact ⟨_, rfl, rfl⟩
  · show (run lib .getAllRoles ⟨E, none, none⟩).2.base.model.has c!"g" = true
    rw [C51_partial lib .getAllRoles ⟨E, none, none⟩ rfl (fun h => h) trivial]
    show (onPlain lib .getAllRoles E).2.model.has c!"g" = true
    have hm : (getValuesForFieldAllTypes c!"g" 1 E.model).2 = E.model.ensureSec c!"g" := by
      unfold getValuesForFieldAllTypes
      rw [M.bind_run_ok (M.modify_run _ _)]
      exact same_bind rfl fun m => same_bind (same_valuesAllTypes _ _ _ _) fun _ => rfl
    have hh : (E.model.ensureSec c!"g").has c!"g" = true := by
      unfold ensureSec
      rw [if_neg (by rw [hg]; exact Bool.false_ne_true), UMap.has_iff, UMap.mem_keys_set]
      exact .inl rfl
    have hb : ∀ {α β : Type} (f : M Enforcer α) (g : α → β),
        ((f >>= fun x => Pure.pure (g x)) E).2 = (f E).2 := by
      intro α β f g
      rw [M.bind_run]
      rcases f E with ⟨o, E1⟩
      cases o <;> rfl
    have he : (onPlain lib .getAllRoles E).2 = (Enforcer.getAllRoles E).2 := hb _ _
    rw [he]
    show (getValuesForFieldAllTypes c!"g" 1 E.model).2.has c!"g" = true
    rw [hm]
    exact hh

/-- Non-vacuity: the ACL model has no section `g`. -/
example (P : List Rule) : (acl P).model.has c!"g" = false := by
  rfl

/-! ### The RBAC methods made of several calls -/

/-- An enforcer where alice has the role admin, and the permission to read data1. -/
def staffed : Enforcer :=
  let _ := insertionOrder
  (Enforcer.buildRoleLinks (rbac [alice] [[c!"alice", c!"admin"]])).2

/-- The permission of the role. -/
def adminRule : Rule := [c!"admin", c!"data1", c!"read"]

/-- The first thread calls `GetImplicitPermissionsForUser("alice")` and the second one replaces alice's
permission by one of the role. -/
def moving : Calls Bool
  | false, [] => some (.getImplicitPermissionsForUser c!"alice" [])
  | true, [] => some (.updateNamedPolicy c!"p" alice adminRule)
  | _, _ => none

/-- The same with the calls that `GetImplicitPermissionsForUser` makes for its answer
(rbac_api.cpp 197–221): it takes no lock itself, each of these does. -/
def movingParts : Calls Bool
  | false, [] => some (.getFilteredNamedPolicy c!"p" 0 [c!"alice"])
  | false, [_] => some (.getFilteredNamedPolicy c!"p" 0 [c!"admin"])
  | true, [] => some (.updateNamedPolicy c!"p" alice adminRule)
  | _, _ => none

/-- The answer of `GetImplicitPermissionsForUser` from those of its parts: one list after the other. -/
def joined : List (Outcome Ret) → Option (Outcome Ret)
  | [.ok (.pols a), .ok (.pols b)] => some (.ok (.rules (a.items ++ b.items)))
  | _ => none

/-- C52 is violated by `GetImplicitPermissionsForUser`, which takes the lock anew for each of its
parts: between two of them another thread replaces a permission, and the answer has the old permission
and the new one, as in no sequential order. -/
theorem C52_torn_fails : let _ := insertionOrder
    -- alone, the call gives what its parts give
    joined [(run miniLib (.getFilteredNamedPolicy c!"p" 0 [c!"alice"]) ⟨staffed, none, none⟩).1,
        (run miniLib (.getFilteredNamedPolicy c!"p" 0 [c!"admin"]) ⟨staffed, none, none⟩).1] =
      some (run miniLib (.getImplicitPermissionsForUser c!"alice" []) ⟨staffed, none, none⟩).1 ∧
    ∃ es c a, Exec (fun i rs => (movingParts i rs).map (whole miniLib)) (Conf.start staffed) es c ∧
      (∀ i, (c.thread i).cur = none) ∧ (c.thread true).results = [.ok (.bool true)] ∧
      joined (c.thread false).results = some a ∧
      ∀ h E', InOrder miniLib staffed h E' → Wanted moving h → resultsIn false h ≠ [a] := by
  intro ord
  refine ⟨by decide +kernel, ?_⟩
  let k1 := Call.getFilteredNamedPolicy c!"p" 0 [c!"alice"]
  let k2 := Call.getFilteredNamedPolicy c!"p" 0 [c!"admin"]
  let k3 := Call.updateNamedPolicy c!"p" alice adminRule
  let P : Prog Bool Enforcer (Outcome Ret) := fun i rs => (movingParts i rs).map (whole miniLib)
  have h1 := Exec.snoc Exec.nil (Step.acquire (P := P) (c := Conf.start staffed) (i := false)
    (op := whole miniLib k1) rfl rfl (by intro j x hx; cases hx))
  have h2 := Exec.snoc h1 (Step.work (i := false) (x := ⟨whole miniLib k1, none⟩) rfl rfl)
  have h3 := Exec.snoc h2 (Step.release (i := false) (x := ⟨whole miniLib k1, _⟩)
    (r := .ok (.pols (.vector [alice]))) rfl (by decide +kernel))
  have h4 := Exec.snoc h3 (Step.acquire (i := true) (op := whole miniLib k3) rfl rfl (by
    intro j x hx; cases j <;> cases hx))
  have h5 := Exec.snoc h4 (Step.work (i := true) (x := ⟨whole miniLib k3, none⟩) rfl rfl)
  have h6 := Exec.snoc h5 (Step.release (i := true) (x := ⟨whole miniLib k3, _⟩)
    (r := .ok (.bool true)) rfl (by decide +kernel))
  have h7 := Exec.snoc h6 (Step.acquire (i := false) (op := whole miniLib k2) rfl rfl (by
    intro j x hx; cases j <;> cases hx))
  have h8 := Exec.snoc h7 (Step.work (i := false) (x := ⟨whole miniLib k2, none⟩) rfl rfl)
  have h9 := Exec.snoc h8 (Step.release (i := false) (x := ⟨whole miniLib k2, _⟩)
    (r := .ok (.pols (.vector [adminRule]))) rfl (by decide +kernel))
  refine ⟨_, _, .ok (.rules [alice, adminRule]), h9, ?_, rfl, rfl, ?_⟩
  · intro i
    cases i <;> rfl
  · intro h E' hs hw hA
    rcases @one_each insertionOrder miniLib moving (fun i => match i with
      | false => .getImplicitPermissionsForUser c!"alice" []
      | true => .updateNamedPolicy c!"p" alice adminRule)
      (fun i => by cases i <;> rfl) (fun i _ _ => by cases i <;> rfl) _ _ _ _ hs hw hA with h1 | h1
    · exact absurd h1 (by decide +kernel)
    · exact absurd h1 (by decide +kernel)

/-- Non-vacuity of C52: the execution of `C52_torn_fails` meets the hypotheses; taken as calls of the
parts it is explained by a sequential order. -/
example : let _ := insertionOrder
    ∃ es c, Exec (fun i rs => (movingParts i rs).map (whole miniLib)) (Conf.start staffed) es c ∧
      (c.thread true).results = [.ok (.bool true)] ∧
      Explained miniLib movingParts staffed c := by
  intro ord
  obtain ⟨_, es, c, a, h, _, h2, _⟩ := C52_torn_fails
  refine ⟨es, c, h, h2, C52_explained_partial miniLib movingParts (whole miniLib) ?_ staffed ?_ h⟩
  · intro i rs k hk
    have : k = .getFilteredNamedPolicy c!"p" 0 [c!"alice"] ∨
        k = .getFilteredNamedPolicy c!"p" 0 [c!"admin"] ∨
        k = .updateNamedPolicy c!"p" alice adminRule := by
      unfold movingParts at hk
      split at hk <;> simp_all
    rcases this with rfl | rfl | rfl
    · exact ⟨whole_implements _ _ trivial, rfl, trivial⟩
    · exact ⟨whole_implements _ _ trivial, rfl, trivial⟩
    · exact ⟨whole_implements _ _ trivial, rfl, trivial⟩
  · refine ⟨⟨by decide +kernel, by decide +kernel⟩, fun a ha => ?_⟩
    have : staffed.adapter = none := by decide +kernel
    rw [this] at ha
    cases ha

end ConcurrentProps
end Casbin
