import Verif.HashLemmas

/-!
# C14: hash storage

`C14_hash_partial` compares two enforcers that differ in nothing but the container of the rules.
-/

namespace Casbin
namespace HashProps

open Enforcer DecisionProps Fixtures

variable [IterOrder]

/-- The enforcer with the rules `P` of type `p` kept in a hash set. -/
def inSet (E : Enforcer) (p : Assertion) (P : List Rule) : Enforcer :=
  { E with model := setRules E.model p { hash := true, items := P } }

/-- The enforcer with the rules `P` of type `p` kept in a vector, which requests go through from the
front to the back. -/
def inVector (E : Enforcer) (p : Assertion) (P : List Rule) : Enforcer :=
  { E with model := setRules E.model p (.vector P) }

/-- C14: with allow-override, a policy definition with the names of the request definition in the
same order, and a matcher that compares values of the same name (in any order), the two containers
give the same answer to every request that is not all empty strings and has no NUL character, namely
whether the request is one of the rules. Missing: those requests, other policy definitions, and
requests with a matcher of their own (`C14_blank_fails`, `C14_nul_fails`, `C14_columns_fails`,
`C14_effect_fails`, `C14_matcher_fails`). -/
theorem C14_hash_partial {lib : ExprLib} (hL : SoundOps lib) {E : Enforcer} {r p e : Assertion}
    {exp n : Str} {ms ns vals : List Str} {P : List Rule}
    (hR : Request lib E r p e [] exp vals) (heff : e.value = exprAllowOverride)
    (hrt : r.tokens = ns.map (c!"r_" ++ ·)) (hpt : p.tokens = ns.map (c!"p_" ++ ·))
    (hft : c!"eft" ∉ ns)
    (hparse : lib.parse exp = some (conjTree n ms)) (hperm : (n :: ms).Perm ns)
    (hev : hasEval exp = false) (hlen : ∀ rule ∈ P, rule.length = ns.length)
    (hne : ∃ v ∈ vals, v ≠ []) (hnul : NoNul vals) :
    ((inSet E p P).enforce lib (vals.map ReqVal.str)).1 = .ok (decide (vals ∈ P)) ∧
      ((inVector E p P).enforce lib (vals.map ReqVal.str)).1 = .ok (decide (vals ∈ P)) := by
  have hv : vals.length = ns.length := by rw [hR.arity, hrt]; simp
  have hnd : (ns.map lower).Nodup := by
    have := hR.state.defs.rNodup
    rw [hrt, reqNames] at this
    have e : (ns.map fun n => lower (c!"r." ++ n)) = (ns.map lower).map (lower c!"r." ++ ·) := by
      simp only [List.map_map, Function.comp_def, lower_append]
    rw [e] at this
    exact this.of_map _
  have hft' : c!"p_eft" ∉ p.tokens := by
    rw [hpt]
    intro h
    obtain ⟨x, hx, he⟩ := List.mem_map.mp h
    have : x = c!"eft" := by simpa using he
    exact hft (this ▸ hx)
  have hblank : decide (vals = p.tokens.map fun _ => []) = false := by
    rw [decide_eq_false_iff_not]
    intro h
    obtain ⟨v, hv, hv'⟩ := hne
    rw [h] at hv
    obtain ⟨_, _, rfl⟩ := List.mem_map.mp hv
    exact hv' rfl
  have hV : ∀ (m : Model) (rule : Rule), rule.length = p.tokens.length →
      verdict lib m E.heap exp r.tokens p.tokens vals rule = .ok (decide (vals = rule)) := by
    intro m rule hrl
    rw [hrt, hpt]
    exact verdict_conj hL m E.heap hparse hev hperm hnd hv (by rw [hrl, hpt]; simp)
  have hany : ∀ l : List Rule, l.any (fun rule => decide (vals = rule)) = decide (vals ∈ l) := by
    intro l
    rw [Bool.eq_iff_iff, List.any_eq_true, decide_eq_true_iff]
    constructor
    · rintro ⟨x, hx, h⟩
      rw [decide_eq_true_iff] at h
      exact h ▸ hx
    · intro h; exact ⟨vals, h, by simp⟩
  have hlen' : ∀ rule ∈ P, rule.length = p.tokens.length := fun rule h => by
    rw [hlen rule h, hpt]; simp
  have run : ∀ P' : Policies, ∀ c : List Rule, candidates { p with policy := P' } vals = c →
      (∀ rule ∈ c, rule ∈ P) → (vals ∈ c ↔ vals ∈ P) →
      (({ E with model := setRules E.model p P' } : Enforcer).enforce lib (vals.map ReqVal.str)).1 =
        .ok (decide (vals ∈ P)) := by
    intro P' c hc hsub hmem
    have key := allow_answer (hR.differs (differs_putRules E p P')) heff hft' hev
      (by rw [hc]; exact fun rule h => hlen' rule (hsub rule h)) (fun rule => decide (vals = rule))
      (hV _)
    refine key.trans ?_
    rw [hc, hany]
    congr 1
    split
    · rename_i h0
      rw [hblank]
      symm
      rw [decide_eq_false_iff_not, ← hmem, h0]
      simp
    · simp only [hmem]
  refine ⟨run _ (if vals ∈ P then [vals] else []) ?_ ?_ ?_, run _ P ?_ (fun _ h => h) Iff.rfl⟩
  · simp [candidates, cString_of_noNul hnul]
  · intro rule h
    split at h
    · rename_i hin; simp only [List.mem_singleton] at h; exact h ▸ hin
    · simp at h
  · split <;> simp_all
  · simp [candidates, Policies.vector]

/-- Non-vacuity of C14: the model of examples/basic_model.conf, which gets hash storage. -/
example : hashPossible (fun _ s => .ok s) (aclModel .hashset) = .ok true ∧
    (pA .hashset).tokens = [c!"sub", c!"obj", c!"act"].map (c!"p_" ++ ·) ∧
    rA.tokens = [c!"sub", c!"obj", c!"act"].map (c!"r_" ++ ·) := by
  decide +kernel

example : miniLib.parse mAcl = some (conjTree c!"sub" [c!"obj", c!"act"]) := rfl

example (P : Policies) (vals : List Str) (h : vals.length = 3) :
    Request miniLib (enforcer (aclModel P)) rA (pA P) eA [] mAcl vals := request_acl P vals h

omit [IterOrder] in
/-- What C14 says of a model and a request. -/
def SameAnswer (lib : ExprLib) (m : Model) (P : List Rule) (matcher : Str) (vals : List Str) : Prop :=
  ∀ (_ : IterOrder) (p : Assertion), hashPossible (fun _ s => .ok s) m = .ok true →
    m.find c!"p" c!"p" = some p → (∀ rule ∈ P, rule.length = p.tokens.length) →
    ((inSet (enforcer m) p P).enforceWithMatcher lib matcher (vals.map ReqVal.str)).1 =
      ((inVector (enforcer m) p P).enforceWithMatcher lib matcher (vals.map ReqVal.str)).1

omit [IterOrder] in
/-- C14 is false for a request of empty strings: granted with a set, denied by the scan. -/
theorem C14_blank_fails : ¬ SameAnswer miniLib (aclModel .hashset) [alice] [] [[], [], []] := by
  intro h
  exact absurd (h insertionOrder (pA .hashset) (by decide +kernel) (by decide +kernel) (by decide))
    (by decide +kernel)

omit [IterOrder] in
/-- C14 is false for a request with a NUL character: the set is searched for the values up to that
character. -/
theorem C14_nul_fails : ¬ SameAnswer miniLib (aclModel .hashset)
    [[c!"al\x00ice", c!"data1", c!"read"]] [] [c!"al\x00ice", c!"data1", c!"read"] := by
  intro h
  exact absurd (h insertionOrder (pA .hashset) (by decide +kernel) (by decide +kernel) (by decide))
    (by decide +kernel)

/-- The basic model with the columns of the policy in another order. -/
def columnsModel : Model :=
  [(c!"m", [(c!"m", asrt c!"m" mAcl [])]), (c!"r", rDef),
   (c!"p", [(c!"p", asrt c!"p" c!"obj, sub, act" [c!"p_obj", c!"p_sub", c!"p_act"] .hashset)]),
   (c!"e", eDef)]

omit [IterOrder] in
/-- C14 is false when the policy columns are in another order: the set never finds the rule. -/
theorem C14_columns_fails : ¬ SameAnswer miniLib columnsModel [[c!"data1", c!"alice", c!"read"]] []
    [c!"alice", c!"data1", c!"read"] := by
  intro h
  exact absurd (h insertionOrder _ (by decide +kernel) rfl (by decide)) (by decide +kernel)

omit [IterOrder] in
/-- C14 is false with an effect column: the set never finds a rule. -/
theorem C14_effect_fails : ¬ SameAnswer miniLib (eftModel exprAllowOverride .hashset)
    [[c!"alice", c!"data1", c!"read", c!"allow"]] [] [c!"alice", c!"data1", c!"read"] := by
  intro h
  exact absurd (h insertionOrder _ (by decide +kernel) rfl (by decide)) (by decide +kernel)

omit [IterOrder] in
/-- C14 is false for a request with a matcher of its own. -/
theorem C14_matcher_fails : ¬ SameAnswer miniLib (aclModel .hashset) [alice] mSub
    [c!"alice", c!"data2", c!"write"] := by
  intro h
  exact absurd (h insertionOrder (pA .hashset) (by decide +kernel) (by decide +kernel) (by decide))
    (by decide +kernel)

end HashProps
end Casbin
