import Verif.EvalSubLemmas
import Verif.Props.Decision
import Mathlib.Tactic.IntervalCases

/-!
# C67, C71, C81: `eval()` in a matcher

The specification is `EvalProps.Cut`: the text is cut at its leftmost `eval(...)` calls.
-/

namespace Casbin
namespace EvalProps

open Fixtures

/-! ## C67 -/

/-- C67: every text has exactly one cut into calls and the text around them; `ReplaceEvalWithMap`
replaces each call whose argument is bound and keeps every other part; `GetEvalValue` lists the
arguments; `HasEval` says whether there is a call. -/
theorem C67_substitution (s : Str) :
    ∃ ps, Cut s ps ∧ (∀ qs, Cut s qs → qs = ps) ∧ (ps.map Piece.source).flatten = s ∧
      (∀ sets : UMap Str Str, replaceEval sets s = (ps.map (Piece.subst sets.get)).flatten) ∧
      getEvalValue s = ps.filterMap Piece.key ∧
      (hasEval s = true ↔ ∃ w k, Piece.call w k ∈ ps) := by
  obtain ⟨ps, h⟩ := cut_exists (s.length + 1) s (by omega)
  exact ⟨ps, h, fun qs hq => cut_unique hq h, cut_source h, fun sets => cut_replace sets h,
    cut_keys h, cut_has h⟩

/-- C67: a text without calls is untouched. -/
theorem C67_untouched (s : Str) (h : ∀ a w k b, ¬ Occurs s a w k b) (sets : UMap Str Str) :
    replaceEval sets s = s ∧ hasEval s = false ∧ getEvalValue s = [] := by
  have hc := Cut.last h
  refine ⟨by rw [cut_replace sets hc]; simp [Piece.subst], ?_, by rw [cut_keys hc]; simp [Piece.key]⟩
  simp [hasEval, search_none h]

/-- C67: a text all of whose arguments are unbound is untouched. -/
theorem C67_unbound (s : Str) (sets : UMap Str Str)
    (h : ∀ k ∈ getEvalValue s, sets.get k = none) : replaceEval sets s = s := by
  obtain ⟨ps, hc⟩ := cut_exists (s.length + 1) s (by omega)
  rw [cut_replace sets hc]
  rw [cut_keys hc] at h
  conv_rhs => rw [← cut_source hc]
  congr 1
  apply List.map_congr_left
  intro q hq
  cases q with
  | text t => rfl
  | call w k =>
    have : sets.get k = none := h k (by
      rw [List.mem_filterMap]
      exact ⟨_, hq, rfl⟩)
    simp [Piece.subst, Piece.source, this]

/-- C67 in a request: the text evaluated for a rule is the matcher with every `eval(k)` replaced by
the column of the rule that `k` names (after its first `.` became `_`). -/
theorem C67_rule {exp : Str} {ps : List Piece} (hc : Cut exp ps) {pt : List Str} (hn : pt.Nodup)
    {rule : Rule} (hl : rule.length = pt.length) (f : Str → Option Str)
    (hf : ∀ w k, Piece.call w k ∈ ps → ∃ v, f k = some v ∧ Column pt rule k v) :
    ruleText exp pt rule = .ok (ps.map (Piece.subst f)).flatten := by
  have hkeys : ∀ k ∈ getEvalValue exp, ∃ w, Piece.call w k ∈ ps := by
    intro k hkm
    rw [cut_keys hc, List.mem_filterMap] at hkm
    obtain ⟨q, hq, he⟩ := hkm
    cases q with
    | text t => simp [Piece.key] at he
    | call w k' =>
      simp only [Piece.key, Option.some.injEq] at he
      subst he
      exact ⟨w, hq⟩
  unfold ruleText
  split
  · obtain ⟨T, h1, h2, h3⟩ := evalTable_ok (pt := pt) (rule := rule) (by omega) (getEvalValue exp) []
      (by simp) (fun k hkm => by 
        obtain ⟨w, hw⟩ := hkeys k hkm
        obtain ⟨_, _, j, hj, _⟩ := hf w k hw
        exact List.mem_of_getElem? hj)
    rw [h1]
    simp only [Outcome.ok_bind, Outcome.ok.injEq]
    rw [cut_replace T hc]
    congr 1
    apply List.map_congr_left
    intro q hq
    cases q with
    | text t => rfl
    | call w k =>
      obtain ⟨v, hv, hcol⟩ := hf w k hq
      have hs := h3 k (Or.inl (by
        rw [cut_keys hc, List.mem_filterMap]
        exact ⟨_, hq, rfl⟩))
      obtain ⟨v', hv'⟩ := Option.isSome_iff_exists.mp hs
      have := column_unique hn (h2 k v' hv') hcol
      simp [Piece.subst, hv, hv', this]
  · rename_i hne
    have hno : ∀ w k, Piece.call w k ∉ ps := fun w k h => hne ((cut_has hc).mpr ⟨w, k, h⟩)
    rw [Outcome.ok.injEq]
    conv_lhs => rw [← cut_source hc]
    congr 1
    apply List.map_congr_left
    intro q hq
    cases q with
    | text t => rfl
    | call w k => exact absurd hq (hno w k)

/-- C67 in a request: an argument that names no column of the policy definition is an error. -/
theorem C67_rule_unknown {exp : Str} {ps : List Piece} (hc : Cut exp ps) {pt : List Str}
    {rule : Rule} (hl : rule.length = pt.length) {w k : Str} (hw : Piece.call w k ∈ ps)
    (hk : escapeAssertion k ∉ pt) : ruleText exp pt rule = .throw .enforcer := by
  unfold ruleText
  rw [if_pos ((cut_has hc).mpr ⟨w, k, hw⟩), evalTable_throw (by omega) _ _ ⟨k, by
    rw [cut_keys hc, List.mem_filterMap]
    exact ⟨_, hw, rfl⟩, hk⟩]
  rfl

/-- The matcher `eval(p.sub_rule) && r.act == p.act` is cut where expected. -/
theorem cut_call_text {w k b : Str} (hw : IsCall w k) (hb : ∀ a w k c, ¬ Occurs b a w k c) :
    Cut (w ++ b) [.text [], .call w k, .text b] :=
  .call ⟨by simp, hw, by simp⟩ (by intros; simp) (.last hb)

/-- No call without a parenthesis. -/
theorem no_occurs {s : Str} (h : '(' ∉ s) : ∀ a w k b, ¬ Occurs s a w k b := by
  rintro a w k b ⟨rfl, ⟨e, v, x, l, _, _, _, _, rfl, _⟩, _⟩
  simp at h

example : Cut c!"eval(p.sub_rule) && r.act == p.act"
    [.text [], .call c!"eval(p.sub_rule)" c!"p.sub_rule", .text c!" && r.act == p.act"] :=
  cut_call_text (w := c!"eval(p.sub_rule)") (b := c!" && r.act == p.act")
    ⟨'e', 'v', 'a', 'l', by simp, by simp, by simp, by simp, rfl, by decide⟩ (no_occurs (by decide))

/-- Two calls, the second one of a longer identifier: only the first is replaced, and the rule text
is not searched again. -/
example : replaceEval [(c!"x", c!"eval(y)"), (c!"y", c!"1")] c!"eval(x) || myeval(y) || EVAL(z)"
    = c!"eval(y) || myeval(y) || EVAL(z)" := by decide +kernel

/-- Two calls with the same argument are both replaced. -/
example : replaceEval [(c!"x", c!"1 == 1")] c!"eval(x) && (eval(x))"
    = c!"1 == 1 && (1 == 1)" := by decide +kernel

/-- The hypotheses of `C67_rule` on an ordinary rule. -/
example : ruleText c!"eval(p.sub_rule) && r.act == p.act"
    [c!"p_sub_rule", c!"p_obj", c!"p_act"] [c!"r.sub.Age > 18", c!"data1", c!"read"]
    = .ok c!"r.sub.Age > 18 && r.act == p.act" :=
  C67_rule (ps := [.text [], .call c!"eval(p.sub_rule)" c!"p.sub_rule",
      .text c!" && r.act == p.act"])
    (cut_call_text (w := c!"eval(p.sub_rule)") (b := c!" && r.act == p.act")
      ⟨'e', 'v', 'a', 'l', by simp, by simp, by simp, by simp, rfl, by decide⟩
      (no_occurs (by decide)))
    (pt := [c!"p_sub_rule", c!"p_obj", c!"p_act"])
    (rule := [c!"r.sub.Age > 18", c!"data1", c!"read"]) (by decide) rfl
    (fun _ => some c!"r.sub.Age > 18")
    (by
      intro w k h
      simp only [List.mem_cons, reduceCtorEq, Piece.call.injEq, List.not_mem_nil, or_false,
        false_or] at h
      obtain ⟨_, rfl⟩ := h
      exact ⟨_, rfl, 0, rfl, rfl⟩)

/-! ## C81 -/

/-- A letter, digit, dot or blank. -/
def RunChar (c : Char) : Prop := c.isAlphanum = true ∨ c = '.' ∨ c = ' '

/-- Position `i` holds a dot, and no other dot stands before it in the same run of letters, digits,
dots and blanks. -/
def FirstDot (s : Str) (i : Nat) : Prop :=
  s[i]? = some '.' ∧ ∀ j < i, s[j]? = some '.' → ∃ k c, j < k ∧ k < i ∧ s[k]? = some c ∧ ¬ RunChar c

theorem isEscChar_iff (c : Char) : isEscChar c = true ↔ RunChar c := by
  simp [isEscChar, RunChar, or_assoc]

theorem escapeFrom_get (s : Str) : ∀ (seen : Bool) (i : Nat),
    ((FirstDot s i ∧ (seen = false ∨ ∃ k c, k < i ∧ s[k]? = some c ∧ ¬ RunChar c)) →
      (escapeFrom seen s)[i]? = some '_') ∧
    (¬ (FirstDot s i ∧ (seen = false ∨ ∃ k c, k < i ∧ s[k]? = some c ∧ ¬ RunChar c)) →
      (escapeFrom seen s)[i]? = s[i]?) := by
  induction s with
  | nil => intro seen i; simp [escapeFrom, FirstDot]
  | cons c s ih =>
    intro seen i
    -- the rest of the run starts with `seen'`
    have step : ∀ (seen' : Bool) (x : Char),
        (x = if c = '.' ∧ seen = false then '_' else c) →
        (seen' = if isEscChar c then (if c = '.' ∧ seen = false then true else seen) else false) →
        ((FirstDot (c :: s) i ∧
            (seen = false ∨ ∃ k d, k < i ∧ (c :: s)[k]? = some d ∧ ¬ RunChar d)) →
          (x :: escapeFrom seen' s)[i]? = some '_') ∧
        (¬ (FirstDot (c :: s) i ∧
            (seen = false ∨ ∃ k d, k < i ∧ (c :: s)[k]? = some d ∧ ¬ RunChar d)) →
          (x :: escapeFrom seen' s)[i]? = (c :: s)[i]?) := by
      intro seen' x hx hseen
      cases i with
      | zero =>
        simp only [List.getElem?_cons_zero, FirstDot, Nat.not_lt_zero, false_and, exists_false,
          or_false, Option.some.injEq, and_imp, not_and, hx, false_implies, implies_true, and_true]
        constructor
        · intro h1 h2; simp [h1, h2]
        · intro h
          rw [if_neg (fun hh => h hh.1 hh.2)]
      | succ i =>
        have hiff : (FirstDot (c :: s) (i + 1) ∧
            (seen = false ∨ ∃ k d, k < i + 1 ∧ (c :: s)[k]? = some d ∧ ¬ RunChar d)) ↔
            (FirstDot s i ∧ (seen' = false ∨ ∃ k d, k < i ∧ s[k]? = some d ∧ ¬ RunChar d)) := by
          have hfd : FirstDot (c :: s) (i + 1) ↔ FirstDot s i ∧
              (c = '.' → ∃ k d, k < i ∧ s[k]? = some d ∧ ¬ RunChar d) := by
            unfold FirstDot
            rw [List.getElem?_cons_succ]
            constructor
            · rintro ⟨h1, h2⟩
              refine ⟨⟨h1, ?_⟩, ?_⟩
              · intro j hj hd
                obtain ⟨k, d, a1, a2, a3, a4⟩ := h2 (j + 1) (by omega) (by simpa using hd)
                cases k with
                | zero => omega
                | succ k => exact ⟨k, d, by omega, by omega, by simpa using a3, a4⟩
              · intro hc
                obtain ⟨k, d, a1, a2, a3, a4⟩ := h2 0 (by omega) (by simp [hc])
                cases k with
                | zero => omega
                | succ k => exact ⟨k, d, by omega, by simpa using a3, a4⟩
            · rintro ⟨⟨h1, h2⟩, h3⟩
              refine ⟨h1, ?_⟩
              intro j hj hd
              cases j with
              | zero =>
                obtain ⟨k, d, a1, a2, a3⟩ := h3 (by simpa using hd)
                exact ⟨k + 1, d, by omega, by omega, by simpa using a2, a3⟩
              | succ j =>
                obtain ⟨k, d, a1, a2, a3, a4⟩ := h2 j (by omega) (by simpa using hd)
                exact ⟨k + 1, d, by omega, by omega, by simpa using a3, a4⟩
          have hex : (∃ k d, k < i + 1 ∧ (c :: s)[k]? = some d ∧ ¬ RunChar d) ↔
              (¬ RunChar c ∨ ∃ k d, k < i ∧ s[k]? = some d ∧ ¬ RunChar d) := by
            constructor
            · rintro ⟨k, d, a1, a2, a3⟩
              cases k with
              | zero =>
                simp only [List.getElem?_cons_zero, Option.some.injEq] at a2
                subst a2
                exact Or.inl a3
              | succ k => exact Or.inr ⟨k, d, by omega, by simpa using a2, a3⟩
            · rintro (h | ⟨k, d, a1, a2, a3⟩)
              · exact ⟨0, c, by omega, rfl, h⟩
              · exact ⟨k + 1, d, by omega, by simpa using a2, a3⟩
          rw [hfd, hex]
          have hdot : c = '.' → RunChar c := fun h => Or.inr (Or.inl h)
          rw [hseen]
          rw [← isEscChar_iff] at hdot
          simp only [← isEscChar_iff]
          by_cases he : isEscChar c = true
          · by_cases hc : c = '.'
            · cases seen <;> simp [hc] <;> tauto
            · cases seen <;> simp [he, hc]
          · have hc : c ≠ '.' := fun h => he (hdot h)
            simp [he, hc]
        rw [hiff]
        simpa using ih seen' i
    simp only [escapeFrom]
    split
    · rename_i he
      split
      · rename_i hc
        exact step true '_' (by rw [if_pos hc]) (by rw [if_pos he, if_pos hc])
      · rename_i hc
        exact step seen c (by rw [if_neg hc]) (by rw [if_pos he, if_neg hc])
    · rename_i he
      have hc : ¬ (c = '.' ∧ seen = false) := fun h => he ((isEscChar_iff c).mpr (Or.inr (Or.inl h.1)))
      exact step false c (by rw [if_neg hc]) (by rw [if_neg he])

/-- C81: `EscapeAssertion` replaces the first dot of every run of letters, digits, dots and blanks,
and nothing else. -/
theorem C81_escape (s : Str) (i : Nat) :
    (FirstDot s i → (escapeAssertion s)[i]? = some '_') ∧
    (¬ FirstDot s i → (escapeAssertion s)[i]? = s[i]?) := by
  have := escapeFrom_get s false i
  refine ⟨fun h => this.1 ⟨h, Or.inl rfl⟩, fun h => this.2 (fun hh => h hh.1)⟩

/-- C81: an argument `p.name` names the token `p_name`, when the name has no dot. -/
theorem C81_column (name : Str) (h : '.' ∉ name) :
    escapeAssertion (c!"p." ++ name) = c!"p_" ++ name := by
  apply List.ext_getElem?
  intro i
  have hE := C81_escape (c!"p." ++ name) i
  match i with
  | 0 => rw [hE.2 (by simp [FirstDot])]; rfl
  | 1 =>
    rw [hE.1 ⟨rfl, by intro j hj; interval_cases j; simp⟩]
    rfl
  | i + 2 =>
    rw [hE.2 (by
      rintro ⟨h1, _⟩
      have : name[i]? = some '.' := by simpa using h1
      exact h (List.mem_of_getElem? this))]
    rfl

/-- Only the first dot of a run is replaced. -/
example : escapeAssertion c!"p.sub_rule" = c!"p_sub_rule" ∧
    escapeAssertion c!"r.sub.Age in p.sub" = c!"r_sub.Age in p.sub" ∧
    FirstDot c!"p.a-b.c" 1 ∧ FirstDot c!"p.a-b.c" 5 := by
  refine ⟨by decide, by decide, ⟨by decide, ?_⟩, by decide, ?_⟩
  · intro j hj; interval_cases j; simp
  · intro j hj hd
    have : j = 1 := by interval_cases j <;> simp_all
    subst this
    exact ⟨3, '-', by omega, by omega, rfl, by simp [RunChar]⟩

/-! ## C71 -/

section
variable [IterOrder] {lib : ExprLib} {E : Enforcer} {r p e : Assertion} {matcher : Str}
  {vals : List Str}

omit [IterOrder] in
/-- For a rule text that is read as one operand of the conjunction, a satisfied matcher
`eval(k) && c` satisfies `c`. -/
theorem narrow_rule {w k rest c v : Str} {rule : Rule} (hW : WellDefined E.model r p)
    (hw : IsCall w k) (hrest : ∀ a w k b, ¬ Occurs rest a w k b)
    (hc : hasEval c = false) (hl : rule.length = p.tokens.length) (hv : Column p.tokens rule k v)
    {e₁ e₂ : Expr} (h1 : lib.parse (v ++ rest) = some (.op c!"and" [e₁, e₂]))
    (h2 : lib.parse c = some e₂)
    (hand : ∀ a b, (lib.prim c!"and" [a, b]).truthy = (a.truthy && b.truthy))
    (hs : Satisfies lib E (w ++ rest) r p vals rule) : Satisfies lib E c r p vals rule := by
  have ht : ruleText (w ++ rest) p.tokens rule = .ok (v ++ rest) := by
    rw [C67_rule (cut_call_text hw hrest) (tokens_nodup hW) hl (fun _ => some v) (by
      intro w' k' h
      simp only [List.mem_cons, reduceCtorEq, Piece.call.injEq, List.not_mem_nil, or_false,
        false_or] at h
      obtain ⟨_, rfl⟩ := h
      exact ⟨v, rfl, hv⟩)]
    simp [Piece.subst]
  unfold Satisfies verdict at hs ⊢
  rw [ht] at hs
  simp only [Outcome.ok_bind] at hs
  have htc : ruleText c p.tokens rule = .ok c := by simp [ruleText, hc]
  rw [htc]
  simp only [Outcome.ok_bind]
  generalize naming E.model r.tokens p.tokens vals rule = N at hs ⊢
  unfold holds at hs ⊢
  simp only [h1] at hs
  simp only [h2]
  split at hs
  · rename_i hk
    simp only [Naming.Knows, Naming.KnowsAll, and_true] at hk
    rw [if_pos hk.2]
    simp only [denote, denoteAll] at hs
    cases hd1 : denote lib E.heap N e₁ with
    | throw x => simp [hd1] at hs
    | ub u => simp [hd1] at hs
    | ok a =>
      cases hd2 : denote lib E.heap N e₂ with
      | throw x => simp [hd1, hd2] at hs
      | ub u => simp [hd1, hd2] at hs
      | ok b =>
        simp only [hd1, hd2, Outcome.map_ok, Outcome.ok.injEq, hand, Bool.and_eq_true] at hs
        simp [hs.2]
  · simp at hs

/-- C71: with the matcher `eval(k) && c` a request that is allowed has a rule for which `c` holds,
provided the expression library reads each rule text followed by `&& c` as a conjunction with `c`
on the right. Missing are the rule texts for which it does not (`C71_fails`). -/
theorem C71_narrow_partial {w k rest c : Str}
    (hR : Request lib E r p e matcher (w ++ rest) vals)
    (heff : e.value = c!"some(where (p.eft == allow))") (hne : candidates p vals ≠ [])
    (hev : ∀ rule ∈ candidates p vals, Evaluates lib E (w ++ rest) r p vals rule)
    (hw : IsCall w k) (hrest : ∀ a w k b, ¬ Occurs rest a w k b) (hc : hasEval c = false)
    (hone : ∀ rule ∈ candidates p vals, ∃ v e₁ e₂, Column p.tokens rule k v ∧
      lib.parse (v ++ rest) = some (.op c!"and" [e₁, e₂]) ∧ lib.parse c = some e₂)
    (hand : ∀ a b, (lib.prim c!"and" [a, b]).truthy = (a.truthy && b.truthy))
    (h : (E.enforceWithMatcher lib matcher (vals.map ReqVal.str)).1 = .ok true) :
    ∃ rule ∈ candidates p vals, Satisfies lib E c r p vals rule := by
  obtain ⟨b, h1, h2⟩ := DecisionProps.C01_allow_override hR heff hne hev
  rw [h1, Outcome.ok.injEq] at h
  obtain ⟨rule, hr, hs, _⟩ := h2.mp h
  obtain ⟨v, e₁, e₂, hv, hp1, hp2⟩ := hone rule hr
  exact ⟨rule, hr, narrow_rule hR.state.defs hw hrest hc (hev rule hr).length hv hp1 hp2 hand hs⟩
end

/-- A policy definition with a rule text and an action. -/
def pRule (P : Policies) : Assertion :=
  asrt c!"p" c!"sub_rule, act" [c!"p_sub_rule", c!"p_act"] P
/-- The matcher `eval(p.sub_rule) && r.act == p.act`. -/
def mGuard : Str := c!"eval(p.sub_rule) && r.act == p.act"
/-- The part of it after the call. -/
def mRest : Str := c!" && r.act == p.act"
/-- The condition that is to limit every rule. -/
def mAct : Str := c!"r.act == p.act"
def guardModel (P : Policies) : Model :=
  [(c!"m", [(c!"m", asrt c!"m" mGuard [])]), (c!"r", rDef), (c!"p", [(c!"p", pRule P)]),
   (c!"e", eDef)]

/-- A rule text with a disjunction, for the action `write`. -/
def wide : Rule := [c!"1 == 1 || 1 == 1", c!"write"]
/-- A rule text that is one comparison, for the action `write`. -/
def narrow : Rule := [c!"r.sub == 'alice'", c!"write"]

def one : Expr := .op c!"==" [.num 1, .num 1]

/-- The usual precedence: `&&` binds tighter than `||`. Only the texts used here are named. -/
structure UsualLib (lib : ExprLib) : Prop where
  wide : lib.parse c!"1 == 1 || 1 == 1 && r.act == p.act"
    = some (.op c!"or" [one, .op c!"and" [one, eqv c!"r.act" c!"p.act"]])
  narrow : lib.parse c!"r.sub == 'alice' && r.act == p.act"
    = some (.op c!"and" [.op c!"==" [.var c!"r.sub", .str c!"alice"], eqv c!"r.act" c!"p.act"])
  act : lib.parse c!"r.act == p.act" = some (eqv c!"r.act" c!"p.act")
  eqNum : ∀ x, lib.prim c!"==" [.num x, .num x] = Val.ofBool true
  eq : ∀ a b, lib.prim c!"==" [.str a, .str b] = Val.ofBool (decide (a = b))
  and : ∀ a b, (lib.prim c!"and" [a, b]).truthy = (a.truthy && b.truthy)
  or : ∀ a b, (lib.prim c!"or" [a, b]).truthy = (a.truthy || b.truthy)

/-- There is such a library. -/
def usualLib : ExprLib where
  parse s :=
    if s = c!"1 == 1 || 1 == 1 && r.act == p.act" then
      some (.op c!"or" [one, .op c!"and" [one, eqv c!"r.act" c!"p.act"]])
    else if s = c!"r.sub == 'alice' && r.act == p.act" then
      some (.op c!"and" [.op c!"==" [.var c!"r.sub", .str c!"alice"], eqv c!"r.act" c!"p.act"])
    else if s = c!"r.act == p.act" then some (eqv c!"r.act" c!"p.act")
    else none
  prim o vs :=
    if o = c!"==" then
      match vs with
      | [a, b] => Val.ofBool (decide (a = b))
      | _ => .nan
    else if o = c!"and" then Val.ofBool (vs.all Val.truthy)
    else if o = c!"or" then Val.ofBool (vs.any Val.truthy)
    else .nan
  builtin _ _ := .ok (.num 0)

theorem usualLib_usual : UsualLib usualLib where
  wide := rfl
  narrow := rfl
  act := rfl
  eqNum := fun x => by simp [usualLib]
  eq := fun a b => by simp [usualLib]
  and := fun a b => by simp [usualLib]
  or := fun a b => by simp [usualLib]

theorem request_guard (lib : ExprLib) (P : Policies) (vals : List Str) (h : vals.length = 3) :
    Request lib (enforcer (guardModel P)) rA (pRule P) eA [] mGuard vals where
  state :=
    { defs := ⟨rfl, rfl, by decide, by decide, by
        show ∀ t ∈ [c!"p_sub_rule", c!"p_act"], _; decide,
        by decide, by show ([c!"p_sub_rule", c!"p_act"].map polName).Nodup; decide, by
        simp [guardModel, Model.secMap, enforcer, UMap.get], by
        intro k a h
        simp [guardModel, Model.find, enforcer, UMap.get] at h⟩
      roles := good_noG rfl
      eval := evOK_new _ _ _ _ }
  enabled := rfl
  effect := rfl
  matcher := rfl
  nonempty := by decide
  arity := h

theorem call_guard : IsCall c!"eval(p.sub_rule)" c!"p.sub_rule" :=
  ⟨'e', 'v', 'a', 'l', by simp, by simp, by simp, by simp, rfl, by decide⟩

/-- The value of the guarded matcher for the wide rule. -/
theorem verdict_wide {lib : ExprLib} (hL : UsualLib lib) (m : Model) (heap : List RM)
    (a b c : Str) :
    verdict lib m heap mGuard rA.tokens [c!"p_sub_rule", c!"p_act"] [a, b, c] wide = .ok true := by
  have ht : ruleText mGuard [c!"p_sub_rule", c!"p_act"] wide
      = .ok c!"1 == 1 || 1 == 1 && r.act == p.act" := by decide +kernel
  simp only [verdict, ht, Outcome.ok_bind]
  generalize hN : naming m rA.tokens [c!"p_sub_rule", c!"p_act"] [a, b, c] wide = N
  have g1 : N.var (lower c!"r.act") = some c := by rw [← hN]; rfl
  have g2 : N.var (lower c!"p.act") = some c!"write" := by rw [← hN]; rfl
  rw [holds_of_knows hL.wide (by
    simp [one, eqv, Naming.Knows, Naming.KnowsAll, g1, g2])]
  simp [one, eqv, denote, denoteAll, g1, g2, hL.eqNum, hL.or]

/-- The value of the condition for any rule. -/
theorem verdict_act {lib : ExprLib} (hL : UsualLib lib) (m : Model) (heap : List RM)
    (a b c t x : Str) :
    verdict lib m heap mAct rA.tokens [c!"p_sub_rule", c!"p_act"] [a, b, c] [t, x]
      = .ok (decide (c = x)) := by
  have ht : ruleText mAct [c!"p_sub_rule", c!"p_act"] [t, x] = .ok mAct := rfl
  simp only [verdict, ht, Outcome.ok_bind]
  generalize hN : naming m rA.tokens [c!"p_sub_rule", c!"p_act"] [a, b, c] [t, x] = N
  have g1 : N.var (lower c!"r.act") = some c := by rw [← hN]; rfl
  have g2 : N.var (lower c!"p.act") = some x := by rw [← hN]; rfl
  rw [holds_of_knows (text := mAct) hL.act (by simp [eqv, Naming.Knows, Naming.KnowsAll, g1, g2])]
  simp [eqv, denote, denoteAll, g1, g2, hL.eq]

/-- C71 fails for a rule text with a disjunction: with any library of the usual precedence, the rule
`1 == 1 || 1 == 1, write` allows reading to everybody, although `r.act == p.act` is false for it. -/
theorem C71_fails [IterOrder] {lib : ExprLib} (hL : UsualLib lib) :
    ((enforcer (guardModel (.vector [wide]))).enforce lib
      [.str c!"mallory", .str c!"data1", .str c!"read"]).1 = .ok true ∧
    ∀ rule ∈ candidates (pRule (.vector [wide])) [c!"mallory", c!"data1", c!"read"],
      ¬ Satisfies lib (enforcer (guardModel (.vector [wide]))) mAct rA (pRule (.vector [wide]))
        [c!"mallory", c!"data1", c!"read"] rule := by
  have hv := verdict_wide hL (enforcer (guardModel (.vector [wide]))).model
    (enforcer (guardModel (.vector [wide]))).heap c!"mallory" c!"data1" c!"read"
  refine ⟨?_, ?_⟩
  · obtain ⟨b, h1, h2⟩ := DecisionProps.C01_allow_override
      (request_guard lib (.vector [wide]) [c!"mallory", c!"data1", c!"read"] rfl) rfl
      (by show [wide] ≠ []; simp) (by
        intro rule hr
        change rule ∈ [wide] at hr
        rw [List.mem_singleton] at hr
        subst hr
        exact ⟨rfl, by show ruleText mGuard [c!"p_sub_rule", c!"p_act"] wide ≠ _; decide +kernel,
          _, hv⟩)
    have hb : b = true := h2.mpr ⟨wide, by show wide ∈ [wide]; simp, hv, Or.inl (by decide)⟩
    rw [← hb]
    exact h1
  · intro rule hr
    change rule ∈ [wide] at hr
    rw [List.mem_singleton] at hr
    subst hr
    have := verdict_act hL (enforcer (guardModel (.vector [wide]))).model
      (enforcer (guardModel (.vector [wide]))).heap c!"mallory" c!"data1" c!"read"
      c!"1 == 1 || 1 == 1" c!"write"
    intro h
    have h' := this.symm.trans h
    simp at h'

/-- The hypotheses of `C71_narrow_partial` on a rule text that is one comparison: reading is not
allowed, because the condition is false. -/
example [IterOrder] : ((enforcer (guardModel (.vector [narrow]))).enforceWithMatcher usualLib []
    [.str c!"alice", .str c!"data1", .str c!"read"]).1 ≠ .ok true := by
  intro h
  have hv : verdict usualLib (enforcer (guardModel (.vector [narrow]))).model
      (enforcer (guardModel (.vector [narrow]))).heap mGuard rA.tokens [c!"p_sub_rule", c!"p_act"]
      [c!"alice", c!"data1", c!"read"] narrow = .ok false := by
    have ht : ruleText mGuard [c!"p_sub_rule", c!"p_act"] narrow
        = .ok c!"r.sub == 'alice' && r.act == p.act" := by decide +kernel
    simp only [verdict, ht, Outcome.ok_bind]
    generalize hN : naming (enforcer (guardModel (.vector [narrow]))).model rA.tokens
      [c!"p_sub_rule", c!"p_act"] [c!"alice", c!"data1", c!"read"] narrow = N
    have g0 : N.var (lower c!"r.sub") = some c!"alice" := by rw [← hN]; rfl
    have g1 : N.var (lower c!"r.act") = some c!"read" := by rw [← hN]; rfl
    have g2 : N.var (lower c!"p.act") = some c!"write" := by rw [← hN]; rfl
    rw [holds_of_knows usualLib_usual.narrow (by
      simp [eqv, Naming.Knows, Naming.KnowsAll, g0, g1, g2])]
    simp [eqv, denote, denoteAll, g0, g1, g2, usualLib_usual.eq, usualLib_usual.and]
  obtain ⟨rule, hr, hs⟩ := C71_narrow_partial (lib := usualLib) (w := c!"eval(p.sub_rule)")
    (k := c!"p.sub_rule") (rest := mRest) (c := mAct)
    (request_guard usualLib (.vector [narrow]) [c!"alice", c!"data1", c!"read"] rfl) rfl
    (by show [narrow] ≠ []; simp)
    (by
      intro rule hr
      change rule ∈ [narrow] at hr
      rw [List.mem_singleton] at hr
      subst hr
      exact ⟨rfl, by show ruleText mGuard [c!"p_sub_rule", c!"p_act"] narrow ≠ _; decide +kernel,
        _, hv⟩)
    call_guard (no_occurs (by decide)) (by decide)
    (by
      intro rule hr
      change rule ∈ [narrow] at hr
      rw [List.mem_singleton] at hr
      subst hr
      exact ⟨c!"r.sub == 'alice'", _, _, ⟨0, rfl, rfl⟩, usualLib_usual.narrow, usualLib_usual.act⟩)
    usualLib_usual.and h
  change rule ∈ [narrow] at hr
  rw [List.mem_singleton] at hr
  subst hr
  have := verdict_act usualLib_usual (enforcer (guardModel (.vector [narrow]))).model
    (enforcer (guardModel (.vector [narrow]))).heap c!"alice" c!"data1" c!"read"
    c!"r.sub == 'alice'" c!"write"
  have h' := this.symm.trans hs
  simp at h'

end EvalProps
end Casbin
