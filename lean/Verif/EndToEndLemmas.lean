import Verif.StableLemmas
import Verif.MiniLib
import Verif.Props.Requests
import Verif.Props.Links

/-!
# Helper lemmas for the end-to-end properties

Histories of editing calls and requests, and the answer of a request under allow-override.
-/

namespace Casbin

open Enforcer DecisionProps

section
variable [IterOrder] {lib : ExprLib} {E : Enforcer} {r p e : Assertion} {matcher exp : Str}
  {vals : List Str}

/-- The answer under allow-override without an effect column, when the matcher has a value for
every rule of the right length. -/
theorem allow_answer (hR : Request lib E r p e matcher exp vals) (heff : e.value = exprAllowOverride)
    (hft : c!"p_eft" ∉ p.tokens) (hev : hasEval exp = false)
    (hlen : ∀ rule ∈ candidates p vals, rule.length = p.tokens.length) (V : Rule → Bool)
    (hV : ∀ rule, rule.length = p.tokens.length →
      verdict lib E.model E.heap exp r.tokens p.tokens vals rule = .ok (V rule)) :
    (E.enforceWithMatcher lib matcher (vals.map ReqVal.str)).1 =
      .ok (if candidates p vals = [] then V (p.tokens.map fun _ => [])
           else (candidates p vals).any V) := by
  have htext : ∀ rule : Rule, ruleText exp p.tokens rule ≠ .ok [] :=
    fun rule => by simp [ruleText, hev, hR.nonempty]
  by_cases hc : candidates p vals = []
  · rw [if_pos hc]
    have hm := hV (p.tokens.map fun _ => []) (by simp)
    obtain ⟨ev', h1, _⟩ := enforceWithMatcher_decision hR (by simp [hc])
    rw [h1]
    simp only [verdict, ruleText, hev, Bool.false_eq_true, if_false, Outcome.ok_bind] at hm
    have hcomp : Compiles lib (naming E.model r.tokens p.tokens vals (p.tokens.map fun _ => [])) exp := by
      unfold holds at hm
      cases hp : lib.parse exp with
      | none => simp [hp] at hm
      | some x =>
        simp only [hp] at hm
        split at hm
        · rename_i hk; exact ⟨x, hp, hk⟩
        · simp at hm
    simp only [decisionOf, hc, ne_eq, not_true_eq_false, if_false, emptyDecision, hev,
      Bool.false_eq_true, if_pos hcomp, hm]
    cases V (p.tokens.map fun _ => []) <;>
      simp [mergeEmpty, mergeEffects, heff, vecAt, conclude, explained]
  · rw [if_neg hc]
    obtain ⟨b, h1, h2⟩ := C01_allow_override hR heff hc
      (fun rule hr => ⟨hlen rule hr, htext rule, _, hV rule (hlen rule hr)⟩)
    rw [h1]
    congr 1
    rw [Bool.eq_iff_iff, h2, List.any_eq_true]
    constructor
    · rintro ⟨rule, hr, hs, _⟩
      refine ⟨rule, hr, ?_⟩
      unfold Satisfies at hs
      rw [hV rule (hlen rule hr)] at hs
      exact Outcome.ok.inj hs
    · rintro ⟨rule, hr, hs⟩
      refine ⟨rule, hr, ?_, .inl hft⟩
      unfold Satisfies
      rw [hV rule (hlen rule hr), hs]

end

/-- What a client of the enforcer does: an editing call, or a request. -/
inductive Act
  | edit (e : Edit)
  | ask (vals : List Str)

variable [IterOrder]

/-- The enforcer after the act, whether it returned or threw. -/
def Act.run (lib : ExprLib) : Act → Enforcer → Enforcer
  | .edit e, E => (e.run E).2
  | .ask vals, E => (E.enforce lib (vals.map ReqVal.str)).2

def runActs (lib : ExprLib) : List Act → Enforcer → Enforcer
  | [], E => E
  | a :: as, E => runActs lib as (a.run lib E)

/-- An enforcer ready for requests with request definition `r`, policy definition `p`, effect
definition `e` and matcher text `exp`. -/
structure Setup (lib : ExprLib) (E : Enforcer) (r p e : Assertion) (exp : Str) : Prop where
  ready : Ready lib E r p
  enabled : E.enabled = true
  effect : E.model.find c!"e" c!"e" = some e
  matcher : matcherOf E.model [] = some exp
  nonempty : exp ≠ []
  noEval : hasEval exp = false

omit [IterOrder] in
theorem Setup.request {lib : ExprLib} {E : Enforcer} {r p e : Assertion} {exp : Str}
    (h : Setup lib E r p e exp) {vals : List Str} (hl : vals.length = r.tokens.length) :
    Request lib E r p e [] exp vals :=
  ⟨h.ready.state, h.enabled, h.effect, h.matcher, h.nonempty, hl⟩

theorem ask_state {lib : ExprLib} {E : Enforcer} {r p e : Assertion} {exp : Str}
    (h : Setup lib E r p e exp) (vals : List Str) :
    ∃ ev, Act.run lib (.ask vals) E = { E with eval := ev } ∧
      Consistent lib { E with eval := ev } r p := by
  by_cases hl : vals.length = r.tokens.length
  · obtain ⟨ev', h1, h2⟩ := enforceWithMatcher_decision (h.request hl)
      (fun rule _ _ => by simp [ruleText, h.noEval, h.nonempty])
    refine ⟨some ev', ?_, h2⟩
    show (E.enforceWithMatcher lib [] _).2 = _
    rw [h1]
  · refine ⟨E.eval, ?_, h.ready.state⟩
    show (E.enforce lib _).2 = _
    rw [(C09_wrong_arity h.ready.state.defs.findR _ (by simpa using hl) [] []).2.2]

/-- Every act keeps the enforcer ready. -/
theorem Setup.act {lib : ExprLib} {E : Enforcer} {r p e : Assertion} {exp : Str}
    (h : Setup lib E r p e exp) (a : Act) :
    ∃ p', p'.tokens = p.tokens ∧ Setup lib (a.run lib E) r p' e exp := by
  cases a with
  | ask vals =>
    obtain ⟨ev, h1, h2⟩ := ask_state h vals
    rw [h1]
    exact ⟨p, rfl, ⟨⟨h2, h.ready.ptr, h.ready.idx⟩, h.enabled, h.effect, h.matcher, h.nonempty,
      h.noEval⟩⟩
  | edit ed =>
    have hs := Edit.keeps ed E h.ready.stable
    obtain ⟨p', ht, hr⟩ := Stable.ready h.ready hs
    refine ⟨p', ht, ⟨hr, hs.enabled.trans h.enabled, ?_, ?_, h.nonempty, h.noEval⟩⟩
    · show (ed.run E).2.model.find _ _ = _
      rw [hs.other _ _ (by simp) (by simp)]; exact h.effect
    · have := h.matcher
      unfold matcherOf at this ⊢
      show (if ([] : Str) = [] then Option.map _ ((ed.run E).2.model.find _ _) else _) = _
      rw [hs.other _ _ (by simp) (by simp)]; exact this

theorem Setup.acts {lib : ExprLib} {r e : Assertion} {exp : Str} (as : List Act) :
    ∀ {E : Enforcer} {p : Assertion}, Setup lib E r p e exp →
      ∃ p', p'.tokens = p.tokens ∧ Setup lib (runActs lib as E) r p' e exp := by
  induction as with
  | nil => intro E p h; exact ⟨p, rfl, h⟩
  | cons a as ih =>
    intro E p h
    obtain ⟨p1, ht1, h1⟩ := h.act a
    obtain ⟨p2, ht2, h2⟩ := ih h1
    exact ⟨p2, ht2.trans ht1, h2⟩

/-- Every editing call of the history returns and is faithful in the state it meets. -/
def FaithfulActs (lib : ExprLib) : List Act → Enforcer → Prop
  | [], _ => True
  | .ask vals :: as, E => FaithfulActs lib as (Act.run lib (.ask vals) E)
  | .edit e :: as, E => LinkProps.Faithful E e ∧ (e.run E).1.IsOk ∧
      FaithfulActs lib as (Act.run lib (.edit e) E)

/-- A ready enforcer whose links are those of the grouping rules. -/
structure Linked (lib : ExprLib) (E : Enforcer) (r p e : Assertion) (exp : Str) : Prop where
  setup : Setup lib E r p e exp
  mirrors : Mirrors 10 E
  auto : E.autoBuild = true

theorem Linked.acts {lib : ExprLib} {r e : Assertion} {exp : Str} (as : List Act) :
    ∀ {E : Enforcer} {p : Assertion}, Linked lib E r p e exp → FaithfulActs lib as E →
      ∃ p', p'.tokens = p.tokens ∧ Linked lib (runActs lib as E) r p' e exp ∧
        (∀ t, (E.model.find c!"g" t).map Assertion.value =
          ((runActs lib as E).model.find c!"g" t).map Assertion.value) ∧
        (p.policy.hash = false → p'.policy.hash = false) := by
  induction as with
  | nil => intro E p h _; exact ⟨p, rfl, h, fun _ => rfl, fun h => h⟩
  | cons a as ih =>
    intro E p h hf
    obtain ⟨p1, ht1, h1⟩ := h.setup.act a
    have hstep : Linked lib (a.run lib E) r p1 e exp ∧
        (∀ t, (E.model.find c!"g" t).map Assertion.value =
          ((a.run lib E).model.find c!"g" t).map Assertion.value) ∧
        (p.policy.hash = false → p1.policy.hash = false) ∧ FaithfulActs lib as (a.run lib E) := by
      cases a with
      | ask vals =>
        obtain ⟨ev, e1, e2⟩ := ask_state h.setup vals
        refine ⟨⟨h1, ?_, ?_⟩, ?_, ?_, hf⟩
        · rw [e1]; exact ⟨h.mirrors.groups, h.mirrors.links.of_heap rfl rfl⟩
        · rw [e1]; exact h.auto
        · rw [e1]; exact fun _ => rfl
        · intro hh
          have hp1 := h1.ready.state.defs.findP
          rw [e1] at hp1
          rw [h.setup.ready.state.defs.findP] at hp1
          cases hp1; exact hh
      | edit ed =>
        obtain ⟨f1, f2, f3⟩ := hf
        have hs := Edit.keeps ed E h.setup.ready.stable
        have hd := Edit.did ed E
        refine ⟨⟨h1, ?_, hd.rest.2.2.2.2.1.trans h.auto⟩, fun t => (hs.vals t).symm, ?_, f3⟩
        · rcases hx : ed.run E with ⟨o, R⟩
          rw [hx] at f2
          cases o with
          | throw _ => exact absurd f2 (by simp [Outcome.IsOk])
          | ub _ => exact absurd f2 (by simp [Outcome.IsOk])
          | ok b =>
            simp only [Act.run, hx]
            exact LinkProps.mirror_step h.mirrors h.auto ed f1 hx
        · intro hh
          refine Edit.vec (s := c!"p") (t := c!"p") ed ?_ p1 h1.ready.state.defs.findP
          intro a ha
          rw [h.setup.ready.state.defs.findP] at ha
          cases ha; exact hh
    obtain ⟨h2, h3, h4, h5⟩ := hstep
    obtain ⟨p2, ht2, i1, i2, i3⟩ := ih h2 h5
    exact ⟨p2, ht2.trans ht1, i1, fun t => (h3 t).trans (i2 t), fun hh => i3 (h4 hh)⟩

omit [IterOrder] in
/-- Membership in terms of the stored rules. -/
theorem linked_mirrors {E : Enforcer} (h : Mirrors 10 E) (x y : Str) :
    linked E.heap (some E.rm) x y = true ↔ ∃ n ≤ 10, RM.Path (StoredLinks E.model) n x y := by
  obtain ⟨rm, h1, h2, h3⟩ := h.links
  simp only [linked, h1.here, decide_eq_true_eq, h2]
  constructor
  · rintro ⟨n, hn, hp⟩; exact ⟨n, hn, hp.congr h3⟩
  · rintro ⟨n, hn, hp⟩; exact ⟨n, hn, hp.congr fun a b => (h3 a b).symm⟩

/-- After the role links have been built, a consistent enforcer is ready and linked. -/
theorem linked_rebuilt {lib : ExprLib} {E : Enforcer} {r p e : Assertion} {exp : Str}
    (hW : WellDefined E.model r p) (hG : GoodRoles E.model E.heap) (heval : E.eval = none)
    (hp : NoPat 10 E) (hgr : GroupsOk E.model) (hen : E.enabled = true)
    (he : E.model.find c!"e" c!"e" = some e) (hm : matcherOf E.model [] = some exp)
    (hne : exp ≠ []) (hev : hasEval exp = false) (hauto : E.autoBuild = true) :
    ∃ p', p'.tokens = p.tokens ∧ p'.policy = p.policy ∧
      Linked lib (buildRoleLinks E).2 r p' e exp ∧
      (∀ t, (E.model.find c!"g" t).map Assertion.strip =
          ((buildRoleLinks E).2.model.find c!"g" t).map Assertion.strip) := by
  obtain ⟨rm, h1, h2, h3⟩ := hp
  obtain ⟨rm', m', e1, s1, w1, p1, l1, ed, _, f1⟩ := buildRoleLinks_run h1 h2 hgr
  have hidx : E.rm < E.heap.length := (List.getElem?_eq_some_iff.mp h1).1
  have hst : Stable False E.model E.rm p.tokens E.eval E.enabled E :=
    ⟨fun _ _ _ _ => rfl, ⟨p, hW.findP, rfl⟩, fun _ => rfl, False.elim, hW.gNodup, rfl,
      fun R hR => ⟨hG.wf R hR, hG.plain R hR⟩, hidx, rfl, rfl⟩
  have hs := keeps_buildRoleLinks E hst
  obtain ⟨p0, hp0⟩ := (buildRoleLinks_linkOnly E).1.some hW.findP
  have hmir : Mirrors 10 (buildRoleLinks E).2 := by
    obtain ⟨E', g1, _, g3⟩ := buildRoleLinks_mirrors ⟨rm, h1, h2, h3⟩ hgr
    rw [g1]; exact g3
  have hptr : ∀ t a, (buildRoleLinks E).2.model.find c!"g" t = some a → a.rm = some E.rm := by
    rw [e1]; exact f1
  refine ⟨{ p with rm := p0 }, rfl, rfl, ⟨⟨⟨⟨⟨?_, hp0, hW.rLen, hW.rValid, hW.pValid, hW.rNodup,
    hW.pNodup, hs.keys, fun k a hk => ?_⟩, ⟨fun R hR => (hs.heap R hR).1, fun R hR => (hs.heap R hR).2, ?_⟩, ?_⟩, ?_, ?_⟩,
    hs.enabled.trans hen, ?_, ?_, hne, hev⟩, hmir,
    (buildRoleLinks_linkOnly E).2.2.2.2.2.2.2.1.trans hauto⟩, fun t => ?_⟩
  · rw [hs.other _ _ (by simp) (by simp)]; exact hW.findR
  · have hv := hs.vals k
    rw [hk] at hv
    cases h2 : E.model.find c!"g" k with
    | none => rw [h2] at hv; simp at hv
    | some b => exact hW.gLower k b h2
  · intro k a i hk hi
    rw [hptr k a hk] at hi
    cases hi
    exact hs.idx
  · have : (buildRoleLinks E).2.evaluator = Evaluator.new := by
      unfold Enforcer.evaluator; rw [hs.eval, heval]
    rw [this]; exact evOK_new ..
  · rw [hs.rm]; exact hptr
  · rw [hs.rm]; exact hs.idx
  · rw [hs.other _ _ (by simp) (by simp)]; exact he
  · unfold matcherOf at hm ⊢
    rw [hs.other _ _ (by simp) (by simp)]; exact hm
  · exact ((buildRoleLinks_linkOnly E).1 c!"g" t).symm

end Casbin
