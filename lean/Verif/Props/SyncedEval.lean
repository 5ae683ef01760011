import Verif.SyncedEval
import Verif.EffectorLemmas
import Verif.Props.Custom
import Verif.MiniLib

/-!
# C177: the synchronised enforcer asks an evaluator of the caller

A request through an evaluator of the caller is answered as the evaluator and the rules say, leaves the
enforcer as it was and the lock free; but not if the evaluator itself asks the enforcer.
-/

namespace Casbin
namespace SyncedEvalProps

open Custom Owner SyncedEval Fixtures

variable {σ : Type} [IterOrder]

/-- The evaluator, asking the enforcer a question before each evaluation. -/
def asking (ev : EvalImpl σ) (q : M SyncedEnforcer Bool) : EvalImpl (σ × SyncedEnforcer) :=
  { evLeft ev with eval := fun text => do
      let _ ← right q
      left (ev.eval text) }

/-- The answer and the explanation of `m_enforce` with an evaluator on its own objects alone. -/
def answer (ev : EvalImpl σ) (E : Enforcer) (matcher : Str) (explain : Rule) (s : σ) : Outcome (Bool × Rule) :=
  let r := Custom.mEnforce ev Custom.default E.model E.enabled matcher { obj := s, explain := explain }
  r.1.map fun b => (b, r.2.explain)

/-! ## Helpers -/

theorem inherited_alike {ev : EvalImpl (σ × SyncedEnforcer)} {ev' : EvalImpl σ} {S : SyncedEnforcer}
    (H : EvalAlike (fun (s : σ × SyncedEnforcer) t => s = (t, S)) ev ev') (matcher : Str) (explain : Rule) (s : σ) :
    (inherited ev matcher explain (s, S)).1 = answer ev' S.base matcher explain s ∧
    (inherited ev matcher explain (s, S)).2.2 = S := by
  have h := alike_mEnforce H alike_default S.base.model S.base.enabled matcher
    { obj := (s, S), explain := explain } { obj := s, explain := explain } ⟨rfl, rfl⟩
  refine ⟨?_, congrArg Prod.snd h.2.1⟩
  show Outcome.map _ _ = Outcome.map _ _
  rw [h.1, h.2.2]

omit [IterOrder] in
theorem asking_alike (ev : EvalImpl σ) {q : M SyncedEnforcer Bool} {S : SyncedEnforcer} {b : Bool}
    (hq : q S = (.ok b, S)) :
    EvalAlike (fun (s : σ × SyncedEnforcer) t => s = (t, S)) (asking ev q) ev :=
  { evalAlike S ev with
    eval := by
      rintro text s t rfl
      simp only [asking, M.bind_run, right, hq]
      exact ⟨rfl, rfl⟩ }

/-! ## C177 -/

/-- C177 for an evaluator that does not call the enforcer: whatever it does, the answer and the explanation
are those of the enforcer without a lock, the enforcer is as before and the lock is free, also after an
exception. -/
theorem C177_alone_partial (ev : EvalImpl σ) {S : SyncedEnforcer} (hS : S.held = none) (matcher : Str)
    (explain : Rule) (s : σ) :
    (ex (evLeft ev) matcher explain (s, S)).1 = answer ev S.base matcher explain s ∧
    (ex (evLeft ev) matcher explain (s, S)).2.2 = S := by
  obtain ⟨h1, h2⟩ := inherited_alike (evalAlike { S with held := some .unique } ev) matcher explain s
  unfold ex
  simp only [hS]
  refine ⟨h1, ?_⟩
  show { (inherited (evLeft ev) matcher explain (s, { S with held := some .unique })).2.2 with held := none } = S
  rw [h2]
  cases S
  cases hS
  rfl

/-- The same for the overloads that only answer. -/
theorem C177_withMatcher_partial (ev : EvalImpl σ) {S : SyncedEnforcer} (hS : S.held = none) (matcher : Str)
    (s : σ) :
    (withMatcher (evLeft ev) matcher (s, S)).1 = (answer ev S.base matcher [] s).map (·.1) ∧
    (withMatcher (evLeft ev) matcher (s, S)).2.2 = S := by
  obtain ⟨h1, h2⟩ := C177_alone_partial ev hS matcher [] s
  unfold withMatcher
  rw [M.bind_run]
  rw [← h1]
  cases hx : ex (evLeft ev) matcher [] (s, S) with
  | mk x S' =>
    rw [hx] at h2
    cases x <;> exact ⟨rfl, h2⟩

/-- C177 for the overload for a map: as the enforcer without a lock, and the lock is free. -/
theorem C177_map (lib : ExprLib) {S : SyncedEnforcer} (hS : S.held = none) (matcher : Str) (vals : UMap Str ReqVal) :
    (withMatcherMap lib matcher vals S).1 = (Enforcer.enforceExMap lib matcher vals [] S.base).1.map (·.1) ∧
    (withMatcherMap lib matcher vals S).2 =
      { S with base := (Enforcer.enforceExMap lib matcher vals [] S.base).2 } := by
  unfold withMatcherMap SyncedEnforcer.locked SyncedEnforcer.plain
  simp only [hS, M.bind_run]
  cases hx : Enforcer.enforceExMap lib matcher vals [] S.base with
  | mk x E => cases x <;> exact ⟨rfl, rfl⟩

/-- C177 for the inherited methods, which take no lock: there the evaluator may ask the enforcer any question
that returns and changes nothing. -/
theorem C177_inherited (ev : EvalImpl σ) {q : M SyncedEnforcer Bool} {S : SyncedEnforcer} {b : Bool}
    (hq : q S = (.ok b, S)) (matcher : Str) (explain : Rule) (s : σ) :
    (inherited (asking ev q) matcher explain (s, S)).1 = answer ev S.base matcher explain s ∧
    (inherited (asking ev q) matcher explain (s, S)).2.2 = S :=
  inherited_alike (asking_alike ev hq) matcher explain s

omit [IterOrder] in
/-- C177 is false for an evaluator that asks the enforcer: the question waits for the lock that the request
holds. -/
theorem C177_asks_fails : ¬ ∀ (_ : IterOrder) (ev : EvalImpl Told) (q : M SyncedEnforcer Bool) (S : SyncedEnforcer)
    (b : Bool) (s : Told), S.held = none → q S = (.ok b, S) →
    (ex (asking ev q) [] [] (s, S)).1 = answer ev S.base [] [] s := by
  intro h
  let := insertionOrder
  have := h insertionOrder (oracle sameSub) (SyncedEnforcer.hasNamedPolicy c!"p" alice) ⟨acl [alice], none, none⟩ true
    (pushed alice).obj rfl rfl
  rw [show (ex (asking (oracle sameSub) (SyncedEnforcer.hasNamedPolicy c!"p" alice)) [] []
    ((pushed alice).obj, ⟨acl [alice], none, none⟩)).1 = .ub .relock by decide +kernel] at this
  exact absurd this (by decide +kernel)

/-- Alice asks through an evaluator of the caller. -/
example : letI := insertionOrder
    (ex (evLeft (oracle sameSub)) [] [] ((pushed alice).obj, ⟨acl [alice, bob], none, none⟩)).1
      = .ok (true, alice) := by
  let := insertionOrder
  rw [(C177_alone_partial (oracle sameSub) rfl [] [] _).1]
  decide +kernel

/-- The same where only the answer is asked for. -/
example : letI := insertionOrder
    (withMatcher (evLeft (oracle sameSub)) [] ((pushed alice).obj, ⟨acl [alice, bob], none, none⟩)).1 = .ok true := by
  let := insertionOrder
  rw [(C177_withMatcher_partial (oracle sameSub) rfl [] _).1]
  decide +kernel

/-- And with the request as a map. -/
example : letI := insertionOrder
    (withMatcherMap miniLib [] [(c!"sub", .str c!"alice"), (c!"obj", .str c!"data1"), (c!"act", .str c!"read")]
      ⟨acl [bob, alice], none, none⟩).1 = .ok true := by
  let := insertionOrder
  rw [(C177_map miniLib rfl [] _).1]
  decide +kernel

/-- The same when the evaluator asks for Bob's rule and no lock is taken. -/
example : letI := insertionOrder
    (inherited (asking (oracle sameSub) (SyncedEnforcer.hasNamedPolicy c!"p" bob)) [] []
      ((pushed alice).obj, ⟨acl [alice, bob], none, none⟩)).1 = .ok (true, alice) := by
  let := insertionOrder
  rw [(C177_inherited (oracle sameSub) (q := SyncedEnforcer.hasNamedPolicy c!"p" bob) (b := true)
    (S := ⟨acl [alice, bob], none, none⟩) rfl [] [] _).1]
  decide +kernel

end SyncedEvalProps
end Casbin
