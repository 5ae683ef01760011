import Verif.EffectorLemmas
import Verif.Props.Custom
import Verif.MiniLib

/-!
# C163: an effector given to an enforcer decides the requests that follow

`Owner` is an enforcer with its effector as a member. The specification of an effector is any function of
the effects and the results of the rules (`asked`, as in C143).
-/

namespace Casbin
namespace Owner

open Custom Fixtures

variable {ω : Type} [IterOrder]

/-- The step sets neither an effector nor a model. -/
def Step.Keeps : Step ω → Prop
  | .method (.setModel _) => False
  | .method _ => True
  | .setEffector _ => False
  | .loadModel file => ∀ m, file ≠ .ok m

/-! ## Helpers -/

theorem Step.Keeps.eft {c : Step ω} (h : c.Keeps) (lib : ExprLib) (W : Owner ω) :
    (c.run lib W).2.eft = W.eft := by
  cases c with
  | setEffector ef => exact h.elim
  | loadModel file =>
    cases file with
    | ok m => exact absurd rfl (h m)
    | throw e => rfl
    | ub u => rfl
  | method c =>
    refine leaves_run lib ?_ W
    cases c <;> exact h

theorem eft_after (lib : ExprLib) {cs : List (Step ω)} : ∀ {W : Owner ω}, (∀ c ∈ cs, c.Keeps) →
    (after lib cs W).eft = W.eft := by
  induction cs with
  | nil => intro W _; rfl
  | cons c cs ih =>
    intro W h
    exact (ih fun c hc => h c (by simp [hc])).trans ((h c (by simp)).eft lib W)

theorem answers_new (lib : ExprLib) (cs : List Method) (w : ω) : ∀ E,
    answers lib (cs.map .method) (new E w) = Method.answers lib cs E := by
  induction cs with
  | nil => intro E; rfl
  | cons c cs ih =>
    intro E
    have h := same_run (ω := ω) lib c E w
    show (run lib c (new E w)).1 :: answers lib (cs.map .method) (run lib c (new E w)).2 = _
    rw [h, ih]
    rfl

/-! ## C163 -/

/-- C163, the effector of the library: an enforcer that was given no effector answers every history of
calls as the enforcer of the other properties does. -/
theorem C163_library (lib : ExprLib) (E : Enforcer) (w : ω) (cs : List Method) :
    answers lib (cs.map .method) (new E w) = Method.answers lib cs E := answers_new lib cs w E

/-- C163: an effector without objects of its own has been given, and any calls have followed, among them
edits, loads, requests, and loads of models that failed. A request then asks that effector: let `k` be the
first rule after which it answers other than indeterminate, or the last one, and `i` the rule it names;
the request is granted exactly if it answers allow, and explained by the rule `i`. Missing: `SetModel` and
`LoadModel` among the calls (`C163_model_fails`), effectors that name no rule (`C143_index_fails`), and
policies without a candidate rule (`C143_empty_fails`). -/
theorem C163_decides_partial (lib : ExprLib)
    (f : Str → List Effect → List Bool → Nat → Nat → Effect × Option (Option Nat)) (W₀ : Owner ω)
    {cs : List (Step ω)} (hcs : ∀ c ∈ cs, c.Keeps) {W : Owner ω}
    (hW : W = after lib (.setEffector (some (EffImpl.ofFun f)) :: cs) W₀)
    {r p e : Assertion} {matcher exp : Str} {vals : List Str}
    (R : Request lib W.base r p e matcher exp vals) (g : Rule → Bool × Effect)
    (J : Judged lib W.base exp r p vals g) (k : Nat) (hk : k < (candidates p vals).length)
    (hbefore : ∀ j < k, (asked f e.value ((candidates p vals).map g) j).1 = .indeterminate)
    (hlast : (asked f e.value ((candidates p vals).map g) k).1 ≠ .indeterminate ∨
      k + 1 = (candidates p vals).length)
    (i : Option Nat) (hi : (asked f e.value ((candidates p vals).map g) k).2 = some i) (X : Rule) :
    (enforceEx lib matcher (vals.map ReqVal.str) X W).1 =
      .ok (decide ((asked f e.value ((candidates p vals).map g) k).1 = .allow),
        Custom.explained (candidates p vals) i) := by
  have heft : W.eft = some (EffImpl.ofFun f) := by
    rw [hW]
    exact eft_after lib (W := (Step.run lib (.setEffector (some (EffImpl.ofFun f))) W₀).2) hcs
  obtain ⟨s1, hlive, hrun⟩ := enforceEx_start lib R
    (by rw [heft]; exact effAlike_fun W.own f) X
  have hne : candidates p vals ≠ [] := by intro h0; rw [h0] at hk; simp at hk
  have hC := R.state
  obtain ⟨s', hloop, _⟩ := loop_decides (Custom.ruleStep (exprtk lib) exp p.tokens)
    (fun t : LibObj => Live lib W.base.model r p W.base.heap [] vals
      { ev := t.1, heap := t.2, explain := [] }) g f e.value ((candidates p vals).map g) k
    (by simpa using hk) i hi (by simpa using hlast) hbefore (candidates p vals) [] none none s1
    (by simp) (by simp) hlive
    (fun rule hrule s hs => step_lib lib hC.defs hC.roles R.arity.symm exp rule (J rule hrule).2.1
      (judge_judged (tokens_nodup hC.defs) J rule hrule) s hs)
  have hloop' : Custom.runRules (EffImpl.ofFun f) (Custom.ruleStep (exprtk lib) exp p.tokens) e.value
      (candidates p vals) s1 =
      (.ok (some (asked f e.value ((candidates p vals).map g) k).1, some i), s') := by
    simpa [Custom.runRules] using hloop
  rw [hrun]
  simp only [if_pos hne, M.bind_run, CallSt.on, hloop', Custom.finish_run, Outcome.map_ok]

/-- C163 is false: `SetModel` and a successful `LoadModel` take the effector away without a word. Whatever
effector was given before, all later calls are answered as if none had been. -/
theorem C163_model_fails (lib : ExprLib) (ef : Option (EffImpl ω)) (m : Model) (E : Enforcer) (w : ω)
    (cs : List Method) :
    answers lib (.setEffector ef :: .method (.setModel m) :: cs.map .method) (new E w) =
      .ok .done :: Method.answers lib (.setModel m :: cs) E ∧
    answers lib (.setEffector ef :: .loadModel (.ok m) :: cs.map .method) (new E w) =
      .ok .done :: Method.answers lib (.setModel m :: cs) E := by
  have h := answers_new lib cs w ((Method.setModel m).run lib E).2
  constructor
  · show Outcome.ok Answer.done :: Outcome.ok Answer.done :: answers lib (cs.map .method)
      (new ((Method.setModel m).run lib E).2 w) = _
    rw [h]
    rfl
  · show Outcome.ok Answer.done :: Outcome.ok Answer.done :: answers lib (cs.map .method)
      (new ((Method.setModel m).run lib E).2 w) = _
    rw [h]
    rfl

/-- C163, a null pointer: `SetEffector` accepts it, and every later request that has a rule to look at and
can evaluate it calls through it. -/
theorem C163_null_fails (lib : ExprLib) (W₀ : Owner ω) {cs : List (Step ω)}
    (hcs : ∀ c ∈ cs, c.Keeps) {W : Owner ω} (hW : W = after lib (.setEffector none :: cs) W₀)
    {r p e : Assertion} {matcher exp : Str} {vals : List Str}
    (R : Request lib W.base r p e matcher exp vals) (g : Rule → Bool × Effect)
    (J : Judged lib W.base exp r p vals g) (hne : candidates p vals ≠ []) (X : Rule) :
    (enforceEx lib matcher (vals.map ReqVal.str) X W).1 = .ub .nullDeref := by
  have heft : W.eft = none := by
    rw [hW]
    exact eft_after lib (W := (Step.run lib (.setEffector none) W₀).2) hcs
  obtain ⟨s1, hlive, hrun⟩ := enforceEx_start lib R (by rw [heft]; exact effAlike_null W.own) X
  have hC := R.state
  rw [hrun]
  simp only [if_pos hne, M.bind_run, CallSt.on, Custom.runRules]
  cases hc : candidates p vals with
  | nil => exact absurd hc hne
  | cons rule rest =>
    have hrule : rule ∈ candidates p vals := by rw [hc]; simp
    obtain ⟨s', hs', _⟩ := step_lib lib hC.defs hC.roles R.arity.symm exp rule (J rule hrule).2.1
      (judge_judged (tokens_nodup hC.defs) J rule hrule) s1 hlive
    simp only [Custom.ruleLoop, M.bind_run, hs']
    rfl

omit [IterOrder] in
/-- An effector that refuses everything, set before the model is set again: the refused request is
granted. -/
theorem C163_grant_fails : letI := insertionOrder
    let refuse : EffImpl Unit := EffImpl.ofFun fun _ _ _ _ _ => (.deny, some none)
    let ask : Step Unit := .method (.ask [] (alice.map ReqVal.str))
    answers miniLib [ask, .setEffector (some refuse), ask, .method (.setModel (acl [alice]).model), ask]
      (new (acl [alice]) ()) =
    [.ok (.bool true), .ok .done, .ok (.bool false), .ok .done, .ok (.bool true)] := by
  decide +kernel

/-! ## Examples -/

/-- Two of the rules have to match: a history of a request, a failed load of a model and an edit, then a
request that one rule matches twice. -/
def quorumHistory : List (Step Unit) :=
  [.method (.ask [] (bob.map ReqVal.str)), .loadModel (.throw .illegalArgument),
   .method (.edit (.add false c!"p" bob))]

omit [IterOrder] in
example : letI := insertionOrder
    let two : EffImpl Unit := EffImpl.ofFun fun _ _ ms _ _ =>
      (if 2 ≤ ms.count true then .allow else .indeterminate, some none)
    answers miniLib (.setEffector (some two) :: quorumHistory ++
        [.method (.ask c!"" (bob.map ReqVal.str)), .method (.ask [] (alice.map ReqVal.str))])
      (new (acl [alice, alice]) ()) =
    [.ok .done, .ok (.bool false), .throw .illegalArgument, .ok (.bool true), .ok (.bool false),
     .ok (.bool true)] := by
  decide +kernel

omit [IterOrder] in
example : ∀ c ∈ quorumHistory, c.Keeps := by
  simp [quorumHistory, Step.Keeps]

omit [IterOrder] in
/-- Non-vacuity of `C163_decides_partial` and `C163_null_fails`. -/
example : letI := insertionOrder
    Judged miniLib (acl [alice, bob]) mAcl rA (pA (.vector [alice, bob])) alice
      (fun rule => (decide (rule = alice), .allow)) := by
  let _ := insertionOrder
  intro rule hrule
  have hm : rule = alice ∨ rule = bob := by simpa [candidates, pA, asrt, Policies.vector] using hrule
  refine ⟨?_, ?_, ?_, ?_⟩
  · rcases hm with rfl | rfl <;> rfl
  · rcases hm with rfl | rfl <;> decide
  · refine (verdict_acl (.vector [alice, bob]) alice rule).trans ?_
    rcases hm with rfl | rfl <;> decide +kernel
  · left; rcases hm with rfl | rfl <;> decide

example : letI := insertionOrder
    (enforceEx miniLib [] (alice.map ReqVal.str) []
      (after miniLib [.setEffector (some (EffImpl.ofFun fun _ _ ms _ _ =>
        (if 2 ≤ ms.count true then .allow else .indeterminate, some none)))]
        (new (acl [alice, alice]) ()))).1 = .ok (true, []) := by
  let _ := insertionOrder
  refine C163_decides_partial (cs := []) miniLib (fun _ _ ms _ _ =>
      (if 2 ≤ ms.count true then .allow else .indeterminate, some none)) (new (acl [alice, alice]) ())
    (by simp) rfl (request_acl (.vector [alice, alice]) alice rfl) (fun _ => (true, .allow)) ?_ 1
    (by decide) (by decide) (.inl (by decide)) none rfl []
  intro rule hrule
  have hm : rule = alice := by simpa [candidates, pA, asrt, Policies.vector] using hrule
  subst hm
  refine ⟨rfl, by decide, ?_, .inl (by decide)⟩
  exact (verdict_acl (.vector [alice, alice]) alice alice).trans (by decide +kernel)

end Owner
end Casbin
