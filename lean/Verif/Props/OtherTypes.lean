import Verif.DecisionEdit
import Verif.Props.Exceptions

/-!
# C157: which definitions take part in a decision

A model can have several request, policy, effect and matcher definitions (`r2`, `p2`, `e2`, `m2`).
`m_enforce` reads `r`, `p`, `e`, `m` and the role definitions (enforcer.cpp 56–101, 174, 215). The
property: rules of further policy types, and further definitions, never change an answer.
-/

set_option linter.unusedSectionVars false

namespace Casbin
namespace OtherTypes

open Enforcer ExceptionProps Fixtures

variable [IterOrder]

/-! ## What is claimed -/

/-- Two models with the same role definitions and the same `r`, `p`, `e` and `m` as far as a decision
needs them: the fields of a request, the columns and rules of the policy, the texts of effect and
matcher. -/
structure Agree (m m' : Model) : Prop where
  request : (m'.find c!"r" c!"r").map (·.tokens) = (m.find c!"r" c!"r").map (·.tokens)
  policy : (m'.find c!"p" c!"p").map (fun a => (a.tokens, a.policy)) =
    (m.find c!"p" c!"p").map (fun a => (a.tokens, a.policy))
  effect : (m'.find c!"e" c!"e").map (·.value) = (m.find c!"e" c!"e").map (·.value)
  matcher : (m'.find c!"m" c!"m").map (·.value) = (m.find c!"m" c!"m").map (·.value)
  roles : m'.secMap c!"g" = m.secMap c!"g"

/-- Two enforcers with such models, the same role managers, evaluators and switches. -/
structure Alike (E E' : Enforcer) : Prop where
  model : Agree E.model E'.model
  heap : E'.heap = E.heap
  rm : E'.rm = E.rm
  eval : E'.eval = E.eval
  enabled : E'.enabled = E.enabled
  autoBuild : E'.autoBuild = E.autoBuild

/-- A request: with a matcher of its own or (empty text) with that of the model. -/
inductive Question
  | list (matcher : Str) (vals : List ReqVal)
  | map (matcher : Str) (vals : UMap Str ReqVal)

/-- The answer and the explanation. -/
def Question.ask (lib : ExprLib) : Question → M Enforcer (Bool × Rule)
  | .list matcher vals => enforceEx lib matcher vals []
  | .map matcher vals => enforceExMap lib matcher vals []

/-- A request, or an edit of the rules of one policy type. -/
inductive Event
  | ask (q : Question)
  | edit (e : Edit)

/-- The answers in a history. -/
def answers (lib : ExprLib) : List Event → Enforcer → List (Outcome (Bool × Rule))
  | [], _ => []
  | .ask q :: es, E => (q.ask lib E).1 :: answers lib es (q.ask lib E).2
  | .edit e :: es, E => answers lib es (e.run E).2

/-- An edit of a policy type other than `p`. -/
def Other (e : Edit) : Prop := e.target.1 = c!"p" ∧ e.target.2 ≠ c!"p"

/-- The policy type of a line of a policy: the text before the first comma, trimmed. -/
def lineType (line : Str) : Str := trim (line.takeWhile (· ≠ ','))

/-- A line of a policy that is about `p` or about roles. -/
def Counts (line : Str) : Prop := lineType line = c!"p" ∨ (lineType line).head? = some 'g'

instance (line : Str) : Decidable (Counts line) := inferInstanceAs (Decidable (_ ∨ _))

/-! ## Helpers -/

omit [IterOrder] in
theorem lineType_split {l k : Str} {vs : List Str} (h : split l c!"," = k :: vs) : lineType l = trim k := by
  have key : ∀ l : Str, (match findSub c!"," l with
      | some pos => l.take pos
      | none => l) = l.takeWhile (· ≠ ',') := by
    intro l
    induction l with
    | nil => rfl
    | cons x l ih =>
      by_cases hx : x = ','
      · subst hx
        simp [findSub]
      · have hx' : ¬ ',' = x := fun h => hx h.symm
        simp only [findSub, List.isPrefixOf, Bool.false_and, if_false,
          List.takeWhile_cons, decide_true, Bool.false_eq_true, ne_eq, not_false_eq_true, hx, if_true, ← ih,
          show (',' == x) = false from by simp [hx']]
        cases findSub c!"," l <;> rfl
  unfold lineType
  rw [← key l]
  rw [show split l c!"," = splitLoop c!"," (splitLARGE - 1) l from rfl] at h
  rw [show splitLARGE - 1 = splitLARGE - 2 + 1 from rfl, splitLoop] at h
  split at h <;> rename_i hs <;> simp only [List.cons.injEq] at h <;> rw [hs, ← h.1]

theorem Agree.refl (m : Model) : Agree m m := ⟨rfl, rfl, rfl, rfl, rfl⟩

theorem Agree.trans {m m' m'' : Model} (h : Agree m m') (h' : Agree m' m'') : Agree m m'' :=
  ⟨h'.request.trans h.request, h'.policy.trans h.policy, h'.effect.trans h.effect,
    h'.matcher.trans h.matcher, h'.roles.trans h.roles⟩

theorem Alike.refl (E : Enforcer) : Alike E E := ⟨.refl _, rfl, rfl, rfl, rfl, rfl⟩

theorem Alike.trans {E E' E'' : Enforcer} (h : Alike E E') (h' : Alike E' E'') : Alike E E'' :=
  ⟨h.model.trans h'.model, h'.heap.trans h.heap, h'.rm.trans h.rm, h'.eval.trans h.eval,
    h'.enabled.trans h.enabled, h'.autoBuild.trans h.autoBuild⟩

theorem Alike.core {E E' E'' : Enforcer} (h : Alike E E') (hc : SameCore E' E'') : Alike E E'' := by
  obtain ⟨a1, a2, a3, a4, a5, _, a7, _⟩ := hc
  exact ⟨a1 ▸ h.model, a2.trans h.heap, a3.trans h.rm, a4.trans h.eval, a5.trans h.enabled,
    a7.trans h.autoBuild⟩

/-- What follows reads only a part of the assertion. -/
theorem need_congr {α β : Type} {m m' : Model} {s t : Str} (f : Assertion → α)
    (h : (m'.find s t).map f = (m.find s t).map f) (g : α → M ReqSt β) :
    (needAssertion m' s t >>= fun a => g (f a)) = (needAssertion m s t >>= fun a => g (f a)) := by
  unfold needAssertion
  cases h1 : m.find s t <;> cases h2 : m'.find s t <;> rw [h1, h2] at h <;> simp at h
  funext x
  simp [M.bind_run, h]

theorem select_congr {m m' : Model} (h : Agree m m') (ev : Evaluator) :
    selectPolicies m' ev = selectPolicies m ev := by
  unfold selectPolicies
  have h1 := h.policy
  have h2 := h.request
  cases hp : m.find c!"p" c!"p" <;> cases hp' : m'.find c!"p" c!"p" <;> rw [hp, hp'] at h1 <;>
    simp at h1
  simp only [h1.2]
  cases hr : m.find c!"r" c!"r" <;> cases hr' : m'.find c!"r" c!"r" <;> rw [hr, hr'] at h2 <;>
    simp at h2
  simp only [h2]

/-- C157, one decision: what `m_enforce` does, to the evaluator and the role managers too, depends on
nothing else in the model. -/
theorem C157_reads {m m' : Model} (h : Agree m m') (lib : ExprLib) (enabled : Bool) (matcher : Str) :
    mEnforce lib m' enabled matcher = mEnforce lib m enabled matcher := by
  have hg : gFunctions m' = gFunctions m := by unfold gFunctions; rw [h.roles]
  have tail : ∀ exp : Str, (do
      let _ ← needAssertion m' c!"r" c!"r"
      let p ← needAssertion m' c!"p" c!"p"
      let s ← M.get
      let rules ← M.lift (selectPolicies m' s.ev)
      let e ← needAssertion m' c!"e" c!"e"
      if rules ≠ [] then do
        let res ← runRules (ruleStep lib exp p.tokens) e.value rules
        finish rules res
      else enforceEmpty lib exp p.tokens e.value : M ReqSt Bool) = (do
      let _ ← needAssertion m c!"r" c!"r"
      let p ← needAssertion m c!"p" c!"p"
      let s ← M.get
      let rules ← M.lift (selectPolicies m s.ev)
      let e ← needAssertion m c!"e" c!"e"
      if rules ≠ [] then do
        let res ← runRules (ruleStep lib exp p.tokens) e.value rules
        finish rules res
      else enforceEmpty lib exp p.tokens e.value : M ReqSt Bool) := by
    intro exp
    simp only [select_congr h]
    refine (need_congr (fun a => a.tokens) h.request fun _ => _).trans
      (congrArg _ (funext fun _ => ?_))
    refine Eq.trans (congrArg _ (funext fun p => ?_)) (need_congr (fun a => a.tokens) (by
      have := congrArg (Option.map Prod.fst) h.policy
      simpa [Option.map_map, Function.comp_def] using this) fun tokens => (do
        let s ← M.get
        let rules ← M.lift (selectPolicies m s.ev)
        let e ← needAssertion m c!"e" c!"e"
        if rules ≠ [] then do
          let res ← runRules (ruleStep lib exp tokens) e.value rules
          finish rules res
        else enforceEmpty lib exp tokens e.value : M ReqSt Bool))
    refine congrArg _ (funext fun _ => congrArg _ (funext fun rules => ?_))
    exact need_congr (fun a => a.value) h.effect fun eff =>
      (if rules ≠ [] then do
        let res ← runRules (ruleStep lib exp p.tokens) eff rules
        finish rules res
      else enforceEmpty lib exp p.tokens eff : M ReqSt Bool)
  unfold mEnforce
  rw [hg]
  refine congrArg _ (funext fun _ => ?_)
  split
  · rfl
  refine congrArg _ (funext fun _ => congrArg _ (funext fun _ => ?_))
  split
  · dsimp only
    simp only [tail]
    exact need_congr (fun a => a.value) h.matcher fun v => (do
      let exp ← pure v
      let _ ← needAssertion m c!"r" c!"r"
      let p ← needAssertion m c!"p" c!"p"
      let s ← M.get
      let rules ← M.lift (selectPolicies m s.ev)
      let e ← needAssertion m c!"e" c!"e"
      if rules ≠ [] then do
        let res ← runRules (ruleStep lib exp p.tokens) e.value rules
        finish rules res
      else enforceEmpty lib exp p.tokens e.value : M ReqSt Bool)
  · dsimp only
    simp only [tail]

/-- C157, requests: enforcers that are alike answer alike, and are alike afterwards. -/
theorem ask_alike {E E' : Enforcer} (h : Alike E E') (lib : ExprLib) (q : Question) :
    (q.ask lib E').1 = (q.ask lib E).1 ∧ Alike (q.ask lib E).2 (q.ask lib E').2 := by
  have hev : E'.evaluator = E.evaluator := by unfold Enforcer.evaluator; rw [h.eval]
  have hrun : ∀ f : M ReqSt Bool, (runRequest [] f E').1 = (runRequest [] f E).1 ∧
      Alike (runRequest [] f E).2 (runRequest [] f E').2 := by
    intro f
    simp only [runRequest, hev, h.heap]
    exact ⟨trivial, h.model, rfl, h.rm, rfl, h.enabled, h.autoBuild⟩
  cases q with
  | map matcher vals =>
    simp only [Question.ask, enforceExMap, M.bind_run, M.get_run, h.enabled, C157_reads h.model]
    exact hrun _
  | list matcher vals =>
    simp only [Question.ask, enforceEx, M.bind_run, M.get_run, h.enabled, C157_reads h.model]
    have hr := h.model.request
    cases h1 : E.model.find c!"r" c!"r" <;> cases h2 : E'.model.find c!"r" c!"r" <;>
      rw [h1, h2] at hr <;> simp at hr
    · exact ⟨rfl, h⟩
    · simp only [hr]
      split
      · exact ⟨rfl, h⟩
      · exact hrun _

theorem find_of_secMap {m m' : Model} {s : Str} (h : m'.secMap s = m.secMap s) (t : Str) :
    m'.find s t = m.find s t := by rw [Casbin.find_secMap, Casbin.find_secMap, h]

/-- Rules of another type are not looked at. -/
theorem agree_put {m : Model} {s t : Str} {a : Assertion} (ha : m.find s t = some a) (P : Policies)
    (hs : s ≠ c!"g") (hp : ¬ (s = c!"p" ∧ t = c!"p")) :
    Agree m (m.put s t { a with policy := P }) := by
  have key : ∀ {α : Type} (f : Assertion → α) (hf : ∀ a P, f { a with policy := P } = f a) (s' t' : Str),
      ((m.put s t { a with policy := P }).find s' t').map f = (m.find s' t').map f := by
    intro α f hf s' t'
    rw [Model.find_put]
    split
    · rename_i h
      rw [← h.1, ← h.2, ha]
      simp [hf]
    · rfl
  refine ⟨key _ (fun _ _ => rfl) _ _, ?_, key _ (fun _ _ => rfl) _ _, key _ (fun _ _ => rfl) _ _,
    secMap_put_ne _ _ hs⟩
  rw [Model.find_put_ne _ _ hp]

theorem saveOf_core (e : Edit) (E : Enforcer) : SameCore E (saveOf e E).2 := by
  cases e with
  | add g pt r => exact (saveStep_call _ E).1
  | addMany g pt rs => exact (saveStep_batch _ E).1
  | remove g pt r => exact (saveStep_call _ E).1
  | removeMany g pt rs => exact (saveStep_batch _ E).1
  | removeFiltered g pt i vs => exact (saveStep_call _ E).1
  | update g pt o n => exact .refl E
  | updateMany pt o n => exact .refl E

theorem edit_alike {e : Edit} (ho : Other e) (E : Enforcer) : Alike E (e.run E).2 := by
  have hed := Edit.onStore_edited e E.model
  rw [run_p e ho.1]
  have hm : Agree E.model (e.onStore E.model).2 := by
    rcases hed with h | ⟨a, P, ha, h⟩
    · rw [h]; exact .refl _
    · rw [h]
      exact agree_put ha P (by rw [ho.1]; decide) (fun h => ho.2 h.2)
  rcases h : e.onStore E.model with ⟨o, m⟩
  rw [h] at hm
  have hA : Alike E { E with model := m } := ⟨hm, rfl, rfl, rfl, rfl, rfl⟩
  cases o with
  | throw x => exact hA
  | ub u => exact hA
  | ok b =>
    cases b with
    | false => exact hA
    | true =>
      have hc := saveOf_core e { E with model := m }
      simp only [rest]
      rcases hs : saveOf e { E with model := m } with ⟨o, E1⟩
      rw [hs] at hc
      cases o with
      | throw x => exact hA.core hc
      | ub u => exact hA.core hc
      | ok _ => exact (hA.core hc).core (afterNotify_core _)

/-- C157, histories: enforcers whose models differ in other definitions give the same answers, and
edits of other policy types, whether they return or raise, change none. -/
theorem C157_history (lib : ExprLib) (es : List Event) : ∀ {E E' : Enforcer}, Alike E E' →
    (∀ e, .edit e ∈ es → Other e) →
    answers lib es E' = answers lib (es.filter fun | .ask _ => true | .edit _ => false) E := by
  induction es with
  | nil => intro E E' _ _; rfl
  | cons x es ih =>
    intro E E' h ho
    have ho' : ∀ e, .edit e ∈ es → Other e := fun e he => ho e (List.mem_cons_of_mem _ he)
    cases x with
    | ask q =>
      obtain ⟨h1, h2⟩ := ask_alike h lib q
      simp only [List.filter, answers, h1]
      rw [ih h2 ho']
    | edit e =>
      simp only [List.filter, answers]
      exact ih (h.trans (edit_alike (ho e List.mem_cons_self) E')) ho'

/-! ## Loading -/

theorem agree_policy {m m' : Model} (h : Agree m m') {k : Str} (hk : k = c!"p" ∨ k.head? = some 'g') :
    (m'.find (k.take 1) k).map (·.policy) = (m.find (k.take 1) k).map (·.policy) := by
  rcases hk with rfl | hk
  · have := congrArg (Option.map Prod.snd) h.policy
    simpa [Option.map_map, Function.comp_def] using this
  · have : k.take 1 = c!"g" := by cases k <;> simp_all
    rw [this, find_of_secMap h.roles]

theorem secMap_put_self (m : Model) (s t : Str) (a : Assertion) :
    (m.put s t a).secMap s = (m.secMap s).set t a := by
  unfold Model.put Model.secMap
  cases m.get s <;> simp [UMap.set]

theorem agree_put_g {m m' : Model} (h : Agree m m') (k : Str) (a : Assertion) :
    Agree (m.put c!"g" k a) (m'.put c!"g" k a) := by
  refine ⟨?_, ?_, ?_, ?_, ?_⟩
  · rw [Model.find_put_ne _ _ (by rintro ⟨h, _⟩; revert h; decide),
      Model.find_put_ne _ _ (by rintro ⟨h, _⟩; revert h; decide)]; exact h.request
  · rw [Model.find_put_ne _ _ (by rintro ⟨h, _⟩; revert h; decide),
      Model.find_put_ne _ _ (by rintro ⟨h, _⟩; revert h; decide)]; exact h.policy
  · rw [Model.find_put_ne _ _ (by rintro ⟨h, _⟩; revert h; decide),
      Model.find_put_ne _ _ (by rintro ⟨h, _⟩; revert h; decide)]; exact h.effect
  · rw [Model.find_put_ne _ _ (by rintro ⟨h, _⟩; revert h; decide),
      Model.find_put_ne _ _ (by rintro ⟨h, _⟩; revert h; decide)]; exact h.matcher
  · rw [secMap_put_self, secMap_put_self, h.roles]

theorem agree_put_same {m m' : Model} (h : Agree m m') {k : Str} {a a' : Assertion} {P : Policies}
    (ha : m.find (k.take 1) k = some a) (ha' : m'.find (k.take 1) k = some a')
    (hk : k = c!"p" ∨ k.head? = some 'g') :
    Agree (m.put (k.take 1) k { a with policy := P }) (m'.put (k.take 1) k { a' with policy := P }) := by
  rcases hk with rfl | hk
  · change m.find c!"p" c!"p" = _ at ha
    change m'.find c!"p" c!"p" = _ at ha'
    show Agree (m.put c!"p" c!"p" _) (m'.put c!"p" c!"p" _)
    refine ⟨?_, ?_, ?_, ?_, ?_⟩
    · rw [Model.find_put_ne _ _ (by decide), Model.find_put_ne _ _ (by decide)]; exact h.request
    · have := h.policy
      rw [ha, ha'] at this
      rw [Model.find_put_self, Model.find_put_self]
      simp at this ⊢
      exact this.1
    · rw [Model.find_put_ne _ _ (by decide), Model.find_put_ne _ _ (by decide)]; exact h.effect
    · rw [Model.find_put_ne _ _ (by decide), Model.find_put_ne _ _ (by decide)]; exact h.matcher
    · rw [secMap_put_ne _ _ (by decide), secMap_put_ne _ _ (by decide)]; exact h.roles
  · have hg : k.take 1 = c!"g" := by cases k <;> simp_all
    rw [hg] at ha ha' ⊢
    have : a' = a := by
      rw [find_of_secMap h.roles, ha] at ha'
      exact (Option.some.inj ha').symm
    subst this
    exact agree_put_g h k _

/-- A line that is read. -/
theorem line_ok {l : Str} {m m1 : Model} (h : loadPolicyLine l m = (.ok (), m1)) :
    m1 = m ∨ ∃ a P, m.find ((lineType l).take 1) (lineType l) = some a ∧
      m1 = m.put ((lineType l).take 1) (lineType l) { a with policy := P } := by
  unfold loadPolicyLine at h
  split at h
  · left
    cases h; rfl
  · cases hs : split l c!"," with
    | nil => simp [hs, trimAll, M.ub] at h
    | cons k vs =>
      have hk : lineType l = trim k := lineType_split hs
      simp only [hs, trimAll, List.map_cons, M.bind_run] at h
      cases hf : m.find ((trim k).take 1) (trim k) with
      | none => simp [Model.at_, hf] at h
      | some a =>
        simp only [Model.at_, hf, Model.setPolicy, Prod.mk.injEq, true_and] at h
        rw [hk]
        exact .inr ⟨a, _, hf, h.symm⟩

theorem line_other {l : Str} (hl : ¬ Counts l) {m m1 : Model} (h : loadPolicyLine l m = (.ok (), m1)) :
    Agree m m1 := by
  rcases line_ok h with rfl | ⟨a, P, ha, rfl⟩
  · exact .refl _
  · unfold Counts at hl
    refine agree_put ha P ?_ ?_
    · intro hg
      refine hl (.inr ?_)
      cases hk : lineType l <;> rw [hk] at hg <;> simp at hg ⊢
      exact hg
    · rintro ⟨_, hp⟩
      exact hl (.inl hp)

theorem line_same {l : Str} (hl : Counts l) {m m' m1 : Model} (hA : Agree m m')
    (h : loadPolicyLine l m = (.ok (), m1)) : ∃ m1', loadPolicyLine l m' = (.ok (), m1') ∧ Agree m1 m1' := by
  unfold loadPolicyLine at h ⊢
  split at h
  · rename_i hc
    cases h
    exact ⟨m', by simp only [hc, if_true]; rfl, hA⟩
  · rename_i hc
    simp only [hc, if_false]
    cases hs : split l c!"," with
    | nil => simp [hs, trimAll, M.ub] at h
    | cons k vs =>
      have hk : lineType l = trim k := lineType_split hs
      unfold Counts at hl
      rw [hk] at hl
      simp only [hs, trimAll, List.map_cons, M.bind_run] at h ⊢
      have hp := agree_policy hA hl
      cases hf : m.find ((trim k).take 1) (trim k) with
      | none => simp [Model.at_, hf] at h
      | some a =>
        cases hf' : m'.find ((trim k).take 1) (trim k) with
        | none => simp [hf, hf'] at hp
        | some a' =>
          simp only [hf, hf', Option.map_some, Option.some.injEq] at hp
          simp only [Model.at_, hf, Model.setPolicy, Prod.mk.injEq, true_and] at h
          simp only [Model.at_, hf', Model.setPolicy, hp]
          subst h
          exact ⟨_, rfl, agree_put_same hA hf hf' hl⟩

theorem lines_same (ls : List Str) : ∀ {m m' m1 : Model}, Agree m m' → loadLines ls m = (.ok (), m1) →
    ∃ m1', loadLines (ls.filter fun l => decide (Counts l)) m' = (.ok (), m1') ∧ Agree m1 m1' := by
  induction ls with
  | nil => intro m m' m1 hA h; cases h; exact ⟨m', rfl, hA⟩
  | cons l ls ih =>
    intro m m' m1 hA h
    simp only [loadLines, M.bind_run] at h
    rcases hl : loadPolicyLine l m with ⟨o, m2⟩
    rw [hl] at h
    cases o with
    | throw x => cases h
    | ub u => cases h
    | ok _ =>
      simp only at h
      by_cases hc : Counts l
      · obtain ⟨m2', h1, h2⟩ := line_same hc hA hl
        obtain ⟨m1', h3, h4⟩ := ih h2 h
        refine ⟨m1', ?_, h4⟩
        simp only [hc, decide_true, List.filter_cons_of_pos, loadLines, M.bind_run, h1, h3]
      · obtain ⟨m1', h3, h4⟩ := ih (m' := m') (by
          have := line_other hc hl
          exact ⟨hA.request.trans this.request.symm, hA.policy.trans this.policy.symm,
            hA.effect.trans this.effect.symm, hA.matcher.trans this.matcher.symm,
            hA.roles.trans this.roles.symm⟩) h
        exact ⟨m1', by simpa [hc] using h3, h4⟩

theorem agree_clear {m m' : Model} (h : Agree m m') : Agree m.clearPolicy m'.clearPolicy := by
  have hs : ∀ m : Model, m.clearPolicy.secMap c!"g" =
      (m.secMap c!"g").map fun kv => (kv.1, { kv.2 with policy := kv.2.policy.clear }) := by
    intro m
    have : (m.clearSec c!"p").get c!"g" = m.get c!"g" := by
      unfold Model.clearSec
      cases m.get c!"p" <;> simp [UMap.get_set]
    unfold Model.clearPolicy
    rw [Model.clearSec.eq_def (m.clearSec c!"p"), this]
    unfold Model.secMap
    cases m.get c!"g" <;> simp
  refine ⟨?_, ?_, ?_, ?_, by rw [hs, hs, h.roles]⟩
  · simp only [Model.find_clearPolicy]; exact h.request
  · have := h.policy
    simp only [Model.find_clearPolicy]
    cases h1 : m.find c!"p" c!"p" <;> cases h2 : m'.find c!"p" c!"p" <;> rw [h1, h2] at this <;>
      simp_all
  · simp only [Model.find_clearPolicy]; exact h.effect
  · simp only [Model.find_clearPolicy]; exact h.matcher

theorem buildAll_alike (ks : List Str) : ∀ {E E' : Enforcer}, Alike E E' →
    (buildAll ks E').1 = (buildAll ks E).1 ∧ Alike (buildAll ks E).2 (buildAll ks E').2 := by
  induction ks with
  | nil => intro E E' h; exact ⟨rfl, h⟩
  | cons k ks ih =>
    intro E E' h
    simp only [buildAll, M.bind_run, M.get_run, find_of_secMap h.model.roles]
    cases ha : E.model.find c!"g" k with
    | none => exact ⟨rfl, h⟩
    | some a =>
      simp only [M.bind_run, onModel_run, M.modify_run, onRm, h.rm, h.heap]
      rcases hb : onHeap E.rm (Assertion.buildLinks a.value .add a.policy.iterate) E.heap with ⟨o, H⟩
      have hA : Alike
          { E with model := (E.model.put c!"g" k { a with rm := some E.rm }), heap := H }
          { E' with model := (E'.model.put c!"g" k { a with rm := some E.rm }), heap := H, rm := E.rm } :=
        ⟨agree_put_g h.model k _, rfl, rfl, h.eval, h.enabled, h.autoBuild⟩
      cases o with
      | throw x => exact ⟨rfl, hA⟩
      | ub u => exact ⟨rfl, hA⟩
      | ok _ => exact ih hA

theorem secMap_ensure (m : Model) (s s' : Str) : (m.ensureSec s).secMap s' = m.secMap s' := by
  unfold Model.ensureSec
  by_cases h : m.has s
  · rw [if_pos h]
  · rw [if_neg h]
    unfold Model.secMap
    by_cases hs : s = s'
    · subst hs
      have : m.get s = none := by
        cases hg : m.get s with
        | none => rfl
        | some x => exact absurd (by simp [UMap.has, hg]) h
      simp [this]
    · simp [UMap.get_set, hs]

theorem buildRoleLinks_alike {E E' : Enforcer} (h : Alike E E') :
    (buildRoleLinks E').1 = (buildRoleLinks E).1 ∧ Alike (buildRoleLinks E).2 (buildRoleLinks E').2 := by
  simp only [buildRoleLinks, M.bind_run, M.get_run, onRm, h.rm, h.heap]
  rcases onHeap E.rm (M.modify RM.clear) E.heap with ⟨o, H⟩
  cases o with
  | throw x => exact ⟨rfl, h.model, rfl, rfl, h.eval, h.enabled, h.autoBuild⟩
  | ub u => exact ⟨rfl, h.model, rfl, rfl, h.eval, h.enabled, h.autoBuild⟩
  | ok _ =>
    simp only [onModel_run, M.modify_run, secMap_ensure, h.model.roles]
    refine buildAll_alike _ ⟨⟨?_, ?_, ?_, ?_, ?_⟩, rfl, rfl, h.eval, h.enabled, h.autoBuild⟩
    · simp only [Model.find_ensureSec]; exact h.model.request
    · simp only [Model.find_ensureSec]; exact h.model.policy
    · simp only [Model.find_ensureSec]; exact h.model.effect
    · simp only [Model.find_ensureSec]; exact h.model.matcher
    · simp only [secMap_ensure]; exact h.model.roles

/-- C157, loading: a policy loads like the policy without the lines that are about other types than
`p` and the role types, provided those lines can be read. -/
theorem C157_load {E E' : Enforcer} (h : Alike E E') {A A' : Adapter} (hA : E.adapter = some A)
    (hA' : E'.adapter = some A') {ls : List Str} (hl : A.loadPolicy = loadLines ls)
    (hl' : A'.loadPolicy = loadLines (ls.filter fun l => decide (Counts l))) {R : Enforcer}
    (hr : loadPolicy E = (.ok (), R)) : ∃ R', loadPolicy E' = (.ok (), R') ∧ Alike R R' := by
  simp only [loadPolicy, clearPolicy, M.bind_run, onModel_run, M.modify_run, M.get_run, hA, hA',
    onAdapter, hl, hl'] at hr ⊢
  rcases hm : loadLines ls E.model.clearPolicy with ⟨o, m1⟩
  rw [hm] at hr
  cases o with
  | throw x => cases hr
  | ub u => cases hr
  | ok _ =>
    obtain ⟨m1', h1, h2⟩ := lines_same ls (agree_clear h.model) hm
    simp only [h1, h.autoBuild] at hr ⊢
    have h3 : Alike
        { E with model := m1, adapter := some { A with log := A.log ++ [.load] } }
        { E' with model := m1', adapter := (some { A' with log := A'.log ++ [.load] }), autoBuild := E.autoBuild } :=
      ⟨h2, h.heap, h.rm, h.eval, h.enabled, rfl⟩
    split
    · rename_i hb
      rw [if_pos hb] at hr
      obtain ⟨h4, h5⟩ := buildRoleLinks_alike h3
      rw [hr] at h4 h5
      exact ⟨(buildRoleLinks _).2, Prod.ext h4 rfl, h5⟩
    · rename_i hb
      rw [if_neg hb] at hr
      cases hr
      exact ⟨_, rfl, h3⟩

/-! ## Examples -/

/-- The RBAC model with a second policy type and a second matcher. -/
def twoTypes (P P2 : List Rule) : Model :=
  [(c!"m", [(c!"m", asrt c!"m" mRbac []), (c!"m2", asrt c!"m2" c!"true" [])]), (c!"r", rDef),
   (c!"p", [(c!"p2", asrt c!"p2" c!"sub, obj" [c!"p2_sub", c!"p2_obj"] (.vector P2)),
      (c!"p", asrt c!"p" c!"sub, obj, act" [c!"p_sub", c!"p_obj", c!"p_act"] (.vector P))]),
   (c!"g", [(c!"g", asrt c!"g" c!"_, _" [])]), (c!"e", eDef)]

omit [IterOrder] in
/-- The models differ, and agree. -/
theorem agree_two (P P2 : List Rule) : Agree (twoTypes P P2) (rbacModel P []) :=
  ⟨rfl, rfl, rfl, rfl, rfl⟩

/-- Non-vacuity of `C157_history`: edits of `p2` before and between requests, against an enforcer that
has no `p2`. -/
example (lib : ExprLib) (q q' : Question) :
    answers lib [.edit (.add false c!"p2" [c!"alice", c!"data1"]), .ask q,
        .edit (.removeFiltered false c!"p2" 0 [c!"alice"]), .ask q'] (enforcer (twoTypes [alice] [])) =
      answers lib [.ask q, .ask q'] (enforcer (twoTypes [alice] [])) :=
  C157_history lib _ (.refl _) (by
    intro e he
    simp only [List.mem_cons, Event.edit.injEq, List.not_mem_nil, or_false, reduceCtorEq, false_or] at he
    rcases he with rfl | rfl <;> exact ⟨rfl, by decide⟩)

omit [IterOrder] in
/-- The edits of the example change something. -/
example : letI := insertionOrder
    (addNamedPolicy c!"p2" [c!"alice", c!"data1"] (enforcer (twoTypes [alice] []))).1 = .ok true := by
  decide +kernel

omit [IterOrder] in
/-- Non-vacuity of `C157_load`: a policy with rules of `p2`. -/
example : letI := insertionOrder
    let text := c!"p, alice, data1, read\np2, bob, data2\ng, bob, alice"
    let E := { enforcer (twoTypes [] []) with adapter := some (Adapter.string text) }
    ((loadPolicy E).1 = .ok () ∧ ((split text c!"\n").filter fun l => decide (Counts l)) =
      split c!"p, alice, data1, read\ng, bob, alice" c!"\n") ∧
    ((loadPolicy E).2.model.find c!"p" c!"p2").map (·.policy.items) = some [[c!"bob", c!"data2"]] := by
  decide +kernel

end OtherTypes
end Casbin
