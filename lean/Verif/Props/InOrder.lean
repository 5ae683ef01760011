import Verif.Props.Requests
import Verif.InOrder

/-!
# C125: the rules are looked at in order

The vocabulary (`Request`, `Satisfies`, `Evaluates`, `candidates`) is that of Props/Decision.lean.
C01–C05 speak of policies whose rules can all be evaluated; here any rule may be malformed or fail.
-/

namespace Casbin
namespace DecisionProps

open Fixtures

variable [IterOrder] {lib : ExprLib} {E E' : Enforcer} {r p e : Assertion} {matcher exp : Str}
  {vals : List Str}

/-- The rule settles the request at once: it satisfies the matcher, and under the effect expression
`eff` no later rule can change the answer. -/
def Settles (lib : ExprLib) (E : Enforcer) (exp eff : Str) (r p : Assertion) (vals : List Str)
    (rule : Rule) : Prop :=
  Satisfies lib E exp r p vals rule ∧
  ((eff = c!"some(where (p.eft == allow))" ∧ HasEffect p.tokens rule .allow) ∨
   ((eff = c!"!some(where (p.eft == deny))" ∨
     eff = c!"some(where (p.eft == allow)) && !some(where (p.eft == deny))") ∧
      HasEffect p.tokens rule .deny) ∨
   (eff = c!"priority(p.eft) || deny" ∧
     (HasEffect p.tokens rule .allow ∨ HasEffect p.tokens rule .deny)))

/-- The rule can be evaluated and does not settle the request. -/
def Passes (lib : ExprLib) (E : Enforcer) (exp eff : Str) (r p : Assertion) (vals : List Str)
    (rule : Rule) : Prop :=
  Evaluates lib E exp r p vals rule ∧ ¬ Settles lib E exp eff r p vals rule

/-- What is left of a request at a rule for which the matcher has no value. -/
inductive FailsWith (lib : ExprLib) (E : Enforcer) (exp : Str) (r p : Assertion) (vals : List Str)
    (rule : Rule) : Outcome (Bool × Rule) → Prop
  | length : rule.length ≠ p.tokens.length →
      FailsWith lib E exp r p vals rule (.throw .enforcer)
  | throws (x : Exn) : rule.length = p.tokens.length →
      verdict lib E.model E.heap exp r.tokens p.tokens vals rule = .throw x →
      FailsWith lib E exp r p vals rule (.throw x)
  | ub (u : UB) : rule.length = p.tokens.length →
      verdict lib E.model E.heap exp r.tokens p.tokens vals rule = .ub u →
      FailsWith lib E exp r p vals rule (.ub u)

omit [IterOrder] in
theorem settlesPair_iff (hW : WellDefined E.model r p) {eff : Str} {rule : Rule}
    (hl : rule.length = p.tokens.length) :
    SettlesPair eff (pairOf lib E exp r p vals rule) ↔ Settles lib E exp eff r p vals rule := by
  unfold SettlesPair Settles
  rw [pairOf_fst, pairOf_snd hW hl, pairOf_snd hW hl]
  have h1 : (pairOf lib E exp r p vals rule).2 ≠ .indeterminate ↔
      HasEffect p.tokens rule .allow ∨ HasEffect p.tokens rule .deny := by
    rw [← pairOf_snd (lib := lib) (exp := exp) (vals := vals) hW hl,
      ← pairOf_snd (lib := lib) (exp := exp) (vals := vals) hW hl]
    cases (pairOf lib E exp r p vals rule).2 <;> simp
  rw [h1]
  exact Iff.rfl

omit [IterOrder] in
theorem judge_passes (hW : WellDefined E.model r p) {eff : Str} {rule : Rule}
    (h : Passes lib E exp eff r p vals rule) :
    judge lib E.model E.heap exp r p vals rule = .ok (pairOf lib E exp r p vals rule) ∧
      ¬ SettlesPair eff (pairOf lib E exp r p vals rule) :=
  ⟨judge_pair hW h.1, fun hs => h.2 ((settlesPair_iff hW h.1.length).mp hs)⟩

/-- C125: the first rule that settles the request gives the answer and the explanation. Nothing is
asked of the rules behind it. -/
theorem C125_settled (hR : Request lib E r p e matcher exp vals) (hs : Supported e.value)
    (htext : ∀ rule ∈ candidates p vals, rule.length = p.tokens.length →
      ruleText exp p.tokens rule ≠ .ok [])
    {pre : List Rule} {rule : Rule} {post : List Rule}
    (hc : candidates p vals = pre ++ rule :: post)
    (hpre : ∀ y ∈ pre, Passes lib E exp e.value r p vals y)
    (hev : Evaluates lib E exp r p vals rule) (hset : Settles lib E exp e.value r p vals rule)
    (X : Rule) :
    ∃ b, (E.enforceEx lib matcher (vals.map ReqVal.str) X).1 = .ok (b, rule) ∧
      (b = true ↔ HasEffect p.tokens rule .allow) := by
  obtain ⟨ev', h1, _⟩ := enforceEx_decision hR htext X
  have hW := hR.state.defs
  refine ⟨decide ((pairOf lib E exp r p vals rule).2 = .allow), ?_, ?_⟩
  · rw [h1]
    unfold decisionOf
    rw [if_pos (by simp [hc]), hc, pureRules_settled hs _ (pairOf lib E exp r p vals) pre rule post
      (fun y hy => judge_passes hW (hpre y hy)) (judge_pair hW hev)
      ((settlesPair_iff hW hev.length).mpr hset)]
    simp [conclude, explained]
  · simp only [decide_eq_true_eq]
    exact pairOf_snd hW hev.length .allow

/-- C125: a rule with the wrong number of values, or for which the matcher throws, ends the request
with that exception when no rule before it settles the request. -/
theorem C125_failing (hR : Request lib E r p e matcher exp vals) (hs : Supported e.value)
    (htext : ∀ rule ∈ candidates p vals, rule.length = p.tokens.length →
      ruleText exp p.tokens rule ≠ .ok [])
    {pre : List Rule} {bad : Rule} {post : List Rule}
    (hc : candidates p vals = pre ++ bad :: post)
    (hpre : ∀ y ∈ pre, Passes lib E exp e.value r p vals y)
    {o : Outcome (Bool × Rule)} (hbad : FailsWith lib E exp r p vals bad o) (X : Rule) :
    (E.enforceEx lib matcher (vals.map ReqVal.str) X).1 = o := by
  obtain ⟨ev', h1, _⟩ := enforceEx_decision hR htext X
  have hW := hR.state.defs
  rw [h1]
  unfold decisionOf
  have hp : ∀ hb, pureRules (judge lib E.model E.heap exp r p vals) e.value (pre ++ bad :: post) = _ :=
    fun hb => pureRules_failing hs _ (pairOf lib E exp r p vals) pre bad post
      (fun y hy => judge_passes hW (hpre y hy)) hb
  rw [if_pos (by simp [hc]), hc]
  cases hbad with
  | length hl =>
    have hj : judge lib E.model E.heap exp r p vals bad = .throw .enforcer := by
      simp [judge, Ne.symm hl]
    rw [hp (by simp [hj, Outcome.IsOk]), hj]; rfl
  | throws x hl hv =>
    have hj : judge lib E.model E.heap exp r p vals bad = .throw x := by
      simp [judge, hl, hv]
    rw [hp (by simp [hj, Outcome.IsOk]), hj]; rfl
  | ub u hl hv =>
    have hj : judge lib E.model E.heap exp r p vals bad = .ub u := by
      simp [judge, hl, hv]
    rw [hp (by simp [hj, Outcome.IsOk]), hj]; rfl

omit [IterOrder] in
theorem settles_differs {P : Policies} (hd : Differs E E' p P) (eff : Str) (rule : Rule) :
    Settles lib E' exp eff r { p with policy := P } vals rule ↔
      Settles lib E exp eff r p vals rule := by
  unfold Settles
  rw [hd.satisfies]

omit [IterOrder] in
theorem passes_differs {P : Policies} (hd : Differs E E' p P) (eff : Str) (rule : Rule) :
    Passes lib E' exp eff r { p with policy := P } vals rule ↔
      Passes lib E exp eff r p vals rule := by
  unfold Passes
  rw [settles_differs hd, hd.evaluates]

/-- C125: a settled request does not depend on the rules behind the one that settles it: with any
other rules there, the answer and the explanation are the same. -/
theorem C125_tail (hR : Request lib E r p e matcher exp vals) (hs : Supported e.value)
    (htext : ∀ rule ∈ candidates p vals, rule.length = p.tokens.length →
      ruleText exp p.tokens rule ≠ .ok [])
    {pre : List Rule} {rule : Rule} {post post' : List Rule}
    (hc : candidates p vals = pre ++ rule :: post)
    (hpre : ∀ y ∈ pre, Passes lib E exp e.value r p vals y)
    (hev : Evaluates lib E exp r p vals rule) (hset : Settles lib E exp e.value r p vals rule)
    {P : Policies} (hd : Differs E E' p P)
    (hc' : candidates { p with policy := P } vals = pre ++ rule :: post')
    (htext' : ∀ y ∈ post', y.length = p.tokens.length → ruleText exp p.tokens y ≠ .ok [])
    (X : Rule) :
    (E'.enforceEx lib matcher (vals.map ReqVal.str) X).1
      = (E.enforceEx lib matcher (vals.map ReqVal.str) X).1 := by
  obtain ⟨b, h1, h2⟩ := C125_settled hR hs htext hc hpre hev hset X
  obtain ⟨b', h1', h2'⟩ := C125_settled (hR.differs hd) hs (by
      intro y hy
      rw [hc'] at hy
      rcases List.mem_append.mp hy with hy | hy
      · exact fun _ => (hpre y hy).1.text
      · rcases List.mem_cons.mp hy with rfl | hy
        · exact fun _ => hev.text
        · exact htext' y hy) hc'
    (fun y hy => (passes_differs hd _ y).mpr (hpre y hy)) ((hd.evaluates rule).mpr hev)
    ((settles_differs hd _ rule).mpr hset) X
  rw [h1, h1']
  have : b' = b := by
    have h3 : b' = true ↔ b = true := h2'.trans h2.symm
    cases b <;> cases b' <;> simp_all
  rw [this]

omit [IterOrder] in
/-- Every rule passes, or there is a first one that does not. -/
theorem first_not_passing (P : Rule → Prop) (l : List Rule) :
    (∀ y ∈ l, P y) ∨ ∃ pre b post, l = pre ++ b :: post ∧ ¬ P b ∧ ∀ y ∈ pre, P y := by
  induction l with
  | nil => left; simp
  | cons a l ih =>
    by_cases ha : P a
    · rcases ih with h | ⟨pre, b, post, h1, h2, h3⟩
      · left; simpa [ha] using h
      · right
        exact ⟨a :: pre, b, post, by simp [h1], h2, by simpa [ha] using h3⟩
    · right
      exact ⟨[], a, l, rfl, ha, by simp⟩

/-- C125: every request over at least one rule ends in exactly one of three ways. The rules are
passed in order up to the first that settles the request, and the answer is its effect; or up to the
first that fails, and the request fails like it; or all are passed, and the answer is that of the
effect expression. -/
theorem C125_in_order (hR : Request lib E r p e matcher exp vals) (hs : Supported e.value)
    (htext : ∀ rule ∈ candidates p vals, rule.length = p.tokens.length →
      ruleText exp p.tokens rule ≠ .ok [])
    (hne : candidates p vals ≠ []) (X : Rule) :
    (∃ pre rule post b, candidates p vals = pre ++ rule :: post ∧
      (∀ y ∈ pre, Passes lib E exp e.value r p vals y) ∧
      Evaluates lib E exp r p vals rule ∧ Settles lib E exp e.value r p vals rule ∧
      (E.enforceEx lib matcher (vals.map ReqVal.str) X).1 = .ok (b, rule) ∧
      (b = true ↔ HasEffect p.tokens rule .allow)) ∨
    (∃ pre bad post o, candidates p vals = pre ++ bad :: post ∧
      (∀ y ∈ pre, Passes lib E exp e.value r p vals y) ∧
      FailsWith lib E exp r p vals bad o ∧
      (E.enforceEx lib matcher (vals.map ReqVal.str) X).1 = o) ∨
    ((∀ y ∈ candidates p vals, Passes lib E exp e.value r p vals y) ∧
      ∃ b x, (E.enforceEx lib matcher (vals.map ReqVal.str) X).1 = .ok (b, x) ∧
        (b = true ↔ e.value = c!"!some(where (p.eft == deny))" ∨
          (e.value = c!"some(where (p.eft == allow)) && !some(where (p.eft == deny))" ∧
            ∃ rule ∈ candidates p vals, Satisfies lib E exp r p vals rule ∧
              HasEffect p.tokens rule .allow))) := by
  rcases first_not_passing (Passes lib E exp e.value r p vals) (candidates p vals) with
    hall | ⟨pre, bad, post, hc, hb, hpre⟩
  · right; right
    refine ⟨hall, ?_⟩
    obtain ⟨ev', h1, _⟩ := enforceEx_decision hR htext X
    have hev : ∀ rule ∈ candidates p vals, Evaluates lib E exp r p vals rule :=
      fun y hy => (hall y hy).1
    obtain ⟨b, x, h2, h3⟩ := decision_main hR hs hne hev
    refine ⟨b, x, by rw [h1]; exact h2, ?_⟩
    rcases h3 with ⟨i, hi, hd, _, hb⟩ | ⟨hx, hno, hb⟩
    · have hxm := List.mem_of_getElem? hi
      have hns := (hall x hxm).2
      rcases hd with ⟨hsat, hd | hd | hd | hd⟩
      · exact absurd ⟨hsat, Or.inl hd⟩ hns
      · exact absurd ⟨hsat, Or.inr (Or.inl ⟨Or.inl hd.1, hd.2⟩)⟩ hns
      · rcases hd with ⟨he, hd | ⟨hd, _⟩⟩
        · exact absurd ⟨hsat, Or.inr (Or.inl ⟨Or.inr he, hd⟩)⟩ hns
        · exact ⟨fun _ => Or.inr ⟨he, x, hxm, hsat, hd⟩, fun _ => hb.mpr hd⟩
      · exact absurd ⟨hsat, Or.inr (Or.inr hd)⟩ hns
    · constructor
      · intro h; exact Or.inl (hb.mp h)
      · rintro (h | ⟨he, y, hy, hsat, hal⟩)
        · exact hb.mpr h
        · exfalso
          refine hno y hy ⟨hsat, Or.inr (Or.inr (Or.inl ⟨he, Or.inr ⟨hal, ?_⟩⟩))⟩
          intro y' hy' hden
          exact (hall y' hy').2 ⟨hden.1, Or.inr (Or.inl ⟨Or.inr he, hden.2⟩)⟩
  · have hbm : bad ∈ candidates p vals := by rw [hc]; simp
    by_cases hev : Evaluates lib E exp r p vals bad
    · left
      have hset : Settles lib E exp e.value r p vals bad := by
        by_contra h; exact hb ⟨hev, h⟩
      obtain ⟨b, h1, h2⟩ := C125_settled hR hs htext hc hpre hev hset X
      exact ⟨pre, bad, post, b, hc, hpre, hev, hset, h1, h2⟩
    · right; left
      have hf : ∃ o, FailsWith lib E exp r p vals bad o := by
        by_cases hl : bad.length = p.tokens.length
        · cases hv : verdict lib E.model E.heap exp r.tokens p.tokens vals bad with
          | ok b => exact absurd ⟨hl, htext bad hbm hl, b, hv⟩ hev
          | throw x => exact ⟨_, .throws x hl hv⟩
          | ub u => exact ⟨_, .ub u hl hv⟩
        · exact ⟨_, .length hl⟩
      obtain ⟨o, ho⟩ := hf
      exact ⟨pre, bad, post, o, hc, hpre, ho, C125_failing hR hs htext hc hpre ho X⟩

/-! ### Examples -/

/-- A rule with too few fields behind one that grants; `torn` is from Props/Requests.lean. -/
example := C125_settled (request_acl (.vector torn) [c!"alice", c!"data1", c!"read"] rfl) (Or.inl rfl)
  torn_text (pre := []) (rule := alice) (post := [[c!"bob"]]) rfl (by simp)
  (evaluates_acl _ _ _ _ _ _ _)
  ⟨(satisfies_acl _ _ _ _ _ _ _).mpr ⟨rfl, rfl, rfl⟩, Or.inl ⟨rfl, Or.inl (by decide)⟩⟩ []

/-- The same rule when nothing before it settles the request. -/
example : ((acl torn).enforceEx miniLib [] [.str c!"bob", .str c!"data1", .str c!"read"] []).1
    = .throw .enforcer :=
  C125_failing (request_acl (.vector torn) [c!"bob", c!"data1", c!"read"] rfl) (Or.inl rfl)
    torn_text (pre := [alice]) (bad := [c!"bob"]) (post := []) rfl (by
      intro rule hr
      simp only [List.mem_singleton] at hr
      subst hr
      exact ⟨evaluates_acl _ _ _ _ _ _ _, fun h => absurd ((satisfies_acl _ _ _ _ _ _ _).mp h.1)
        (by decide)⟩) (.length (by decide)) []

example := C125_in_order (request_acl (.vector torn) [c!"bob", c!"data1", c!"read"] rfl) (Or.inl rfl)
  torn_text (by decide) []

/-- An allowing rule settles nothing under allow-and-deny: the malformed rule behind it is reached. -/
example : (letI := insertionOrder;
    ((eft exprAllowAndDeny [[c!"alice", c!"data1", c!"read", c!"allow"], [c!"bob"]]).enforceEx miniLib []
      [.str c!"alice", .str c!"data1", .str c!"read"] []).1) = .throw .enforcer := by
  decide +kernel

/-- Behind the deciding rule anything may be stored. -/
example (post' : List Rule) := C125_tail (E' := enforcer (aclModel (.vector (alice :: post'))))
  (P := .vector (alice :: post'))
  (request_acl (.vector [alice]) [c!"alice", c!"data1", c!"read"] rfl) (Or.inl rfl)
  (fun _ _ _ => text_noEval (by decide) (by decide) _ _) (pre := []) (rule := alice) (post := [])
  (post' := post') rfl (by simp)
  (evaluates_acl _ _ _ _ _ _ _)
  ⟨(satisfies_acl _ _ _ _ _ _ _).mpr ⟨rfl, rfl, rfl⟩, Or.inl ⟨rfl, Or.inl (by decide)⟩⟩
  ⟨rfl, rfl, rfl, rfl⟩ rfl (fun _ _ _ => text_noEval (by decide) (by decide) _ _) []

end DecisionProps
end Casbin
