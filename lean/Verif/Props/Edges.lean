import Verif.Props.Requests
import Verif.Props.Maps
import Verif.Props.Policy

/-!
# C08 and C13, exactly

What a disabled enforcer answers to any request, and what an enforcer without rules answers to any request.
-/

set_option linter.unusedSectionVars false

namespace Casbin
namespace DecisionProps

open Enforcer Fixtures PolicyProps

variable [IterOrder] {lib : ExprLib} {E : Enforcer} {r p e : Assertion}

/-! ## C08 -/

/-- C08, exactly: a disabled enforcer grants the requests with the right number of values and no others. -/
theorem C08_exact (hdis : E.enabled = false) (hr : E.model.find c!"r" c!"r" = some r)
    (hl : ∀ t ∈ r.tokens, 2 ≤ t.length)
    (hv : ∀ t ∈ r.tokens, Evaluator.validSymbol (reqName t) = true) (vs : List ReqVal) (matcher : Str)
    (X : Rule) :
    (E.enforceEx lib matcher vs X).1 =
      .ok (decide (vs.length = r.tokens.length), if vs.length = r.tokens.length then [] else X) := by
  by_cases h : vs.length = r.tokens.length
  · rw [C08_disabled_partial hdis hr hl hv vs h]; simp [h]
  · rw [(C09_wrong_arity hr vs h matcher X).1]; simp [h]

example : ((enableEnforce false (acl [alice])).2.enforceEx miniLib c!"garbage(" [.str [], .json, .json]
      bob).1 = .ok (true, []) ∧
    ((enableEnforce false (acl [alice])).2.enforceEx miniLib [] [.str c!"alice"] bob).1 = .ok (false, bob) :=
  ⟨C08_exact (E := { acl [alice] with enabled := false }) (r := rA) rfl rfl (by decide) (by decide) _ _ _,
   C08_exact (E := { acl [alice] with enabled := false }) (r := rA) rfl rfl (by decide) (by decide) _ _ _⟩

/-- C08 for requests given as a map: they are granted whatever entries there are, as long as the names are
names of the matcher language. -/
theorem C08_map (hdis : E.enabled = false) (q : List (Str × Str))
    (hv : ∀ kv ∈ q, Evaluator.validSymbol (c!"r." ++ kv.1) = true) (matcher : Str) (X : Rule) :
    (E.enforceExMap lib matcher (strMap q) X).1 = .ok (true, []) := by
  obtain ⟨q', hq', hperm⟩ := strMap_perm_of (IterOrder.iter_perm (strMap q))
  have h := pushMap_run q' (fun kv hkv => hv kv (hperm.mem_iff.mp hkv)) E.evaluator
  unfold Enforcer.enforceExMap
  simp only [M.bind_run, M.get_run, Enforcer.runRequest, ReqSt.onEv, hq', h, hdis, mEnforce,
    M.modify_run, Bool.not_false, if_true, M.pure_run, Outcome.map_ok]

example : ((enableEnforce false (acl [])).2.enforceExMap miniLib [] (strMap [(c!"nonsense", c!"x")])
    alice).1 = .ok (true, []) :=
  C08_map (E := { acl [] with enabled := false }) rfl [(c!"nonsense", c!"x")] (by decide) _ _

theorem edits_enabled (es : List Edit) : ∀ E : Enforcer, (runEdits E es).enabled = E.enabled := by
  induction es with
  | nil => intro E; rfl
  | cons e es ih => intro E; exact (ih _).trans (e.did E).rest.2.2.1

theorem edits_request (es : List Edit) : ∀ {E : Enforcer} {r : Assertion},
    E.model.find c!"r" c!"r" = some r →
    ∃ r', (runEdits E es).model.find c!"r" c!"r" = some r' ∧ r'.tokens = r.tokens := by
  induction es with
  | nil => intro E r h; exact ⟨r, h, rfl⟩
  | cons e es ih =>
    intro E r h
    have h2 : (e.onStore E.model).2.find c!"r" c!"r" = E.model.find c!"r" c!"r" := by
      rcases e.onStore_edited E.model with h | ⟨a, P, _, h⟩
      · rw [h]
      · rw [h, Model.find_put_ne]
        rintro ⟨h1, _⟩
        revert h1
        cases e with
        | updateMany pt o n => simp [Edit.target]
        | add g | addMany g | remove g | removeMany g | removeFiltered g | update g =>
          cases g <;> simp [Edit.target, Edit.secOf]
    have h3 := (e.did E).rules c!"r" c!"r"
    rw [h2, h] at h3
    cases hf : (e.run E).2.model.find c!"r" c!"r" with
    | none => rw [hf] at h3; simp at h3
    | some r1 =>
      rw [hf] at h3
      simp only [Option.map_some, Option.some.injEq, Assertion.strip, Assertion.mk.injEq] at h3
      obtain ⟨r', h4, h5⟩ := ih hf
      refine ⟨r', h4, h5.trans ?_⟩
      simp_all

/-- C08 after any history of editing calls that follows `EnableEnforce(false)`. -/
theorem C08_history (es : List Edit) (hr : E.model.find c!"r" c!"r" = some r)
    (hl : ∀ t ∈ r.tokens, 2 ≤ t.length)
    (hv : ∀ t ∈ r.tokens, Evaluator.validSymbol (reqName t) = true) (vs : List ReqVal) (matcher : Str)
    (X : Rule) :
    ((runEdits (enableEnforce false E).2 es).enforceEx lib matcher vs X).1 =
      .ok (decide (vs.length = r.tokens.length), if vs.length = r.tokens.length then [] else X) := by
  obtain ⟨r', h1, h2⟩ := edits_request es (E := { E with enabled := false }) hr
  have := C08_exact (lib := lib) (E := runEdits { E with enabled := false } es) (r := r')
    (edits_enabled es _) h1 (by rw [h2]; exact hl) (by rw [h2]; exact hv) vs matcher X
  rw [h2] at this
  exact this

example : ((runEdits (enableEnforce false (acl [alice])).2
    [.remove false c!"p" alice, .add true c!"g" [c!"x", c!"y"]]).enforceEx miniLib []
      [.str c!"alice", .str c!"data1", .str c!"read"] []).1 = .ok (true, []) :=
  C08_history (E := acl [alice]) (r := rA) _ rfl (by decide) (by decide) _ _ _

/-! ## C13 -/

/-- C13, exactly: without rules a request is granted by deny-override whatever it is, and by the other effects
when the matcher accepts it with a rule of empty values. -/
theorem C13_exact {matcher exp : Str} {vals : List Str} {b : Bool}
    (hR : Request lib E r p e matcher exp vals) (hs : Supported e.value)
    (hempty : p.policy.items = []) (hnoeval : hasEval exp = false)
    (hm : verdict lib E.model E.heap exp r.tokens p.tokens vals (p.tokens.map fun _ => []) = .ok b) :
    (E.enforceWithMatcher lib matcher (vals.map ReqVal.str)).1 =
      .ok (b || decide (e.value = c!"!some(where (p.eft == deny))")) := by
  have hc : candidates p vals = [] := by simp [candidates, hempty]
  obtain ⟨ev', h1, _⟩ := enforceWithMatcher_decision hR (by simp [hc])
  rw [h1]
  simp only [verdict, ruleText, hnoeval, Bool.false_eq_true, if_false, Outcome.ok_bind] at hm
  have hcomp : Compiles lib (naming E.model r.tokens p.tokens vals (p.tokens.map fun _ => [])) exp := by
    unfold holds at hm
    cases hp : lib.parse exp with
    | none => simp [hp] at hm
    | some x =>
      simp only [hp] at hm
      split at hm
      · rename_i hk; exact ⟨x, hp, hk⟩
      · simp at hm
  simp only [decisionOf, hc, ne_eq, not_true_eq_false, if_false, emptyDecision, hnoeval,
    Bool.false_eq_true, if_pos hcomp, hm]
  rcases hs with h | h | h | h <;> rw [h] <;> cases b <;> decide

example : ((eft exprDenyOverride []).enforceWithMatcher miniLib []
      [.str c!"mallory", .str c!"data1", .str c!"read"]).1 = .ok true ∧
    ((acl []).enforceWithMatcher miniLib [] [.str [], .str [], .str []]).1 = .ok true :=
  ⟨C13_exact (b := false) (request_eft exprDenyOverride (.vector []) [c!"mallory", c!"data1", c!"read"] rfl)
      (.inr (.inl rfl)) rfl (by decide)
      ((verdict_mAcl miniLib_sound _ _ [c!"p_eft"] c!"mallory" c!"data1" c!"read" [] [] [] [[]]).trans (by decide)),
    C13_exact (b := true) (request_acl (.vector []) [[], [], []] rfl) (.inl rfl) rfl (by decide)
      ((verdict_mAcl miniLib_sound _ _ [] [] [] [] [] [] [] []).trans (by decide))⟩

/-- C13 for `eval(`: without rules every request throws. -/
theorem C13_eval {matcher exp : Str} {vals : List Str}
    (hR : Request lib E r p e matcher exp vals) (hempty : p.policy.items = [])
    (heval : hasEval exp = true) :
    (E.enforceWithMatcher lib matcher (vals.map ReqVal.str)).1 = .throw .enforcer := by
  have hc : candidates p vals = [] := by simp [candidates, hempty]
  obtain ⟨ev', h1, _⟩ := enforceWithMatcher_decision hR (by simp [hc])
  rw [h1]
  simp only [decisionOf, hc, ne_eq, not_true_eq_false, if_false, emptyDecision, heval, if_true]
  rfl

example : ((acl []).enforceWithMatcher miniLib mEval [.str c!"a", .str c!"b", .str c!"c"]).1 =
    .throw .enforcer :=
  C13_eval (vals := [c!"a", c!"b", c!"c"])
    ⟨consistent_acl _ (.vector []), rfl, rfl, rfl, by decide, rfl⟩ rfl (by decide)

end DecisionProps
end Casbin
