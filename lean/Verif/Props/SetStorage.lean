import Verif.SetStorageText
import Verif.Props.Hash
import Verif.ConfigLemmas

/-!
# C141: which models keep their rules in a set

A comparison is `r.a == p.b`, or the same with other characters in place of the dots.
-/

namespace Casbin
namespace SetStorageProps

open SetStorage HashProps ConfigProps DecisionProps Fixtures

/-- `r.left == p.right`, with two characters in place of the dots. -/
structure Comparison where
  dot1 : Char := '.'
  left : Str
  dot2 : Char := '.'
  right : Str

/-- As written in a matcher. -/
def Comparison.text (q : Comparison) : Str :=
  c!"r" ++ [q.dot1] ++ q.left ++ c!" == p" ++ [q.dot2] ++ q.right

/-- A name: letters, digits and underscores. -/
def Name (n : Str) : Prop := n ≠ [] ∧ ∀ c ∈ n, c.isAlphanum = true ∨ c = '_'

/-- Names, with a dot or a character of a name between them and the letters. -/
def Comparison.Plain (q : Comparison) : Prop :=
  Name q.left ∧ Name q.right ∧ (∀ c ∈ [q.dot1, q.dot2], c.isAlphanum = true ∨ c = '_' ∨ c = '.')

/-- The left side ends with an `r`, a further character and the name, behind the first `r`. -/
def Comparison.Nests (q : Comparison) (n : Str) : Prop :=
  ∃ pre y, q.dot1 :: q.left = pre ++ 'r' :: y :: n

/-- What the test looks for: as many comparisons as request values, each of a request value with the
policy value of the same name. -/
def Chosen (ns : List Str) (qs : List Comparison) : Prop :=
  qs.length = ns.length ∧ ∀ q ∈ qs, q.left ∈ ns ∧ q.left = q.right

instance (ns : List Str) (qs : List Comparison) : Decidable (Chosen ns qs) := by
  unfold Chosen; infer_instance

theorem isWord {c : Char} : wordChar c = true ↔ c.isAlphanum = true ∨ c = '_' := by
  simp [wordChar]

theorem isPart {c : Char} : partChar c = true ↔ c.isAlphanum = true ∨ c = '_' ∨ c = '.' := by
  simp [partChar, wordChar, or_assoc]

/-- The part of a comparison. -/
def part (q : Comparison) : Part := .eq q.dot1 q.dot2 q.left q.right

theorem joined_parts : ∀ qs : List Comparison,
    c!" && ".intercalate (qs.map Comparison.text) = joined (qs.map part) := by
  have one : ∀ q : Comparison, q.text = (part q).text := by
    intro q; simp [Comparison.text, part, Part.text]
  intro qs
  induction qs with
  | nil => rfl
  | cons q qs ih =>
    cases qs with
    | nil => simp [List.intercalate, joined, one]
    | cons q' qs =>
      simp only [List.map_cons, joined] at ih ⊢
      rw [← ih, ← one]
      simp [List.intercalate]

/-- The test, on a matcher made of comparisons. -/
theorem possible {rx : Str → Str → Outcome Str} {m : Model} {r ma : Assertion} {ns : List Str}
    {qs : List Comparison} (hr : m.find c!"r" c!"r" = some r) (hrt : r.tokens = ns.map (c!"r_" ++ ·))
    (hm : m.find c!"m" c!"m" = some ma) (hv : ma.value = c!" && ".intercalate (qs.map Comparison.text))
    (hns : ns ≠ []) (hqs : qs ≠ []) (hn : ∀ n ∈ ns, Name n) (hq : ∀ q ∈ qs, q.Plain)
    (hin : ∀ q ∈ qs, ∀ n ∈ ns, ¬ q.Nests n) :
    hashPossible rx m = .ok (decide (Chosen ns qs) && !m.has c!"g") := by
  have hf : ∀ n ∈ ns, ∀ p ∈ qs.map part, p.Fits n := by
    intro n hn' p hp
    obtain ⟨q, hq', rfl⟩ := List.mem_map.mp hp
    obtain ⟨h1, h2, h3⟩ := hq q hq'
    have word : ∀ {k : Str}, Name k → ∀ x ∈ k, partChar x = true := fun h x hx =>
      wordChar_part (isWord.mpr (h.2 x hx))
    refine ⟨isPart.mpr (h3 _ (by simp)), isPart.mpr (h3 _ (by simp)), word h1, word h2, ?_⟩
    intro pre y he
    exact hin q hq' n hn' ⟨pre, y, he⟩
  have hs := stripMatcher_joined rx ns (qs.map part)
    (fun n h => ⟨(hn n h).1, fun x hx => isWord.mpr ((hn n h).2 x hx)⟩) hf
  obtain ⟨n0, ns', rfl⟩ := List.exists_cons_of_ne_nil hns
  have hfits : ∀ p ∈ left (n0 :: ns') (qs.map part), ∃ n, p.Fits n := by
    rw [left_map]
    intro p hp
    obtain ⟨p0, hp0, rfl⟩ := List.mem_map.mp hp
    refine ⟨n0, ?_⟩
    have : ∀ (l : List Str) (p : Part), p.Fits n0 → (l.foldl (fun p n => p.without n) p).Fits n0 := by
      intro l
      induction l with
      | nil => intro p h; exact h
      | cons k l ih => intro p h; exact ih _ (fits_without h)
    exact this _ _ (hf n0 (by simp) p0 hp0)
  unfold hashPossible
  rw [hr, hm]
  dsimp only
  rw [hv, joined_parts, hrt, hs, Outcome.ok_bind, if_neg (by simp)]
  congr 2
  rw [decide_eq_decide, List.length_map, joined_empty _ _ hfits]
  have hl : (left (n0 :: ns') (qs.map part)).length = qs.length := by rw [left_map]; simp
  rw [hl]
  have hall : (∀ p ∈ left (n0 :: ns') (qs.map part), p.text = []) ↔
      ∀ q ∈ qs, q.left ∈ n0 :: ns' ∧ q.left = q.right := by
    rw [left_map]
    simp only [List.mem_map]
    constructor
    · intro h q hq'
      exact (eq_left _ _ _ _ _).mp (h _ ⟨part q, ⟨q, hq', rfl⟩, rfl⟩)
    · rintro h _ ⟨_, ⟨q, hq', rfl⟩, rfl⟩
      exact (eq_left _ _ _ _ _).mpr (h q hq')
  rw [hall]
  unfold Chosen
  have h0 : left (n0 :: ns') (qs.map part) ≠ [] := by
    intro h
    rw [h] at hl
    exact hqs (List.length_eq_zero_iff.mp hl.symm)
  simp only [h0, false_and, or_false, List.length_cons, Nat.add_sub_cancel]

/-- C141 (partial): added to a model whose matcher is a conjunction of comparisons, a policy definition
gets a set exactly when there are as many comparisons as request values, each of a request value with
the policy value of the same name, and there is no role definition yet. Missing: a comparison that ends
in a pattern for another name (`C141_nested_fails`), and other matchers (`C141_written_fails`); and that
the comparisons are of different values (`C141_fails`, `C141_dots_fails`). -/
theorem C141_set_partial {rx : Str → Str → Outcome Str} {m : Model} {r ma : Assertion} {ns : List Str}
    {qs : List Comparison} (hr : m.find c!"r" c!"r" = some r) (hrt : r.tokens = ns.map (c!"r_" ++ ·))
    (hm : m.find c!"m" c!"m" = some ma) (hv : ma.value = c!" && ".intercalate (qs.map Comparison.text))
    (hns : ns ≠ []) (hqs : qs ≠ []) (hn : ∀ n ∈ ns, Name n) (hq : ∀ q ∈ qs, q.Plain)
    (hin : ∀ q ∈ qs, ∀ n ∈ ns, ¬ q.Nests n) {key value : Str} (hval : value ≠ []) :
    ∃ m' p, Model.addDef rx c!"p" key value m = (.ok true, m') ∧ m'.find c!"p" key = some p ∧
      p.policy = (if Chosen ns qs ∧ m.has c!"g" = false then Policies.hashset else .vector []) := by
  have hfind : ∀ {sec a}, m.find sec sec = some a → UMap.has m sec = true := by
    intro sec a h
    unfold Model.find at h
    unfold UMap.has
    cases hg : UMap.get m sec with
    | none => rw [hg] at h; cases h
    | some x => rfl
  have hpos := possible (rx := rx) (m := m.ensureSec c!"p") (r := r) (ma := ma) (ns := ns) (qs := qs)
    (by rw [Model.find_ensureSec]; exact hr) hrt (by rw [Model.find_ensureSec]; exact hm) hv hns hqs hn
    hq hin
  have hg : (m.ensureSec c!"p").has c!"g" = m.has c!"g" := by rw [has_ensureSec]; simp
  rw [hg] at hpos
  refine ⟨_, newAssertion c!"p" key value (decide (Chosen ns qs) && !m.has c!"g"), ?_,
    Model.find_put_self (m.ensureSec c!"p") _ _ _, ?_⟩
  · simp [Model.addDef, M.bind_run, hval, has_ensureSec, hfind hm, hfind hr, hpos]
  · unfold newAssertion
    cases UMap.has m c!"g" <;> by_cases h : Chosen ns qs <;> simp [h]

/-- The comparison of a name, as it should be written. -/
def same (n : Str) : Comparison := { left := n, right := n }

theorem same_text (n : Str) : (same n).text = cmpText n := by
  simp [same, Comparison.text, cmpText]

theorem name_words {n : Str} (h : Name n) : n ≠ [] ∧ ∀ x ∈ n, wordChar x = true :=
  ⟨h.1, fun x hx => isWord.mpr (h.2 x hx)⟩

/-- The scan grants exactly the requests that are rules. -/
theorem scan [IterOrder] {lib : ExprLib} (hL : Faithful lib) {E : Enforcer} {r p e ma : Assertion}
    {ns cs vals : List Str} {P : List Rule} (hC : Consistent lib E r p) (hen : E.enabled = true)
    (he : E.model.find c!"e" c!"e" = some e) (heff : e.value = exprAllowOverride)
    (hm : E.model.find c!"m" c!"m" = some ma)
    (hv : ma.value = c!" && ".intercalate (cs.map fun n => (same n).text))
    (hrt : r.tokens = ns.map (c!"r_" ++ ·)) (hpt : p.tokens = ns.map (c!"p_" ++ ·)) (hft : c!"eft" ∉ ns)
    (hperm : cs.Perm ns) (hns : ns ≠ []) (hsize : ns.length ≤ 2500) (hn : ∀ n ∈ ns, Name n)
    (hvals : vals.length = ns.length)
    (hlen : ∀ rule ∈ P, rule.length = ns.length) (hne : ∃ v ∈ vals, v ≠ []) (hnul : NoNul vals) :
    ((inSet E p P).enforce lib (vals.map ReqVal.str)).1 = .ok (decide (vals ∈ P)) ∧
      ((inVector E p P).enforce lib (vals.map ReqVal.str)).1 = .ok (decide (vals ∈ P)) := by
  simp only [same_text] at hv
  cases cs with
  | nil => exact absurd hperm.symm.eq_nil hns
  | cons c cs =>
    have hw : ∀ k ∈ c :: cs, k ≠ [] ∧ ∀ x ∈ k, wordChar x = true := fun k hk =>
      name_words (hn k (hperm.mem_iff.mp hk))
    have hparse := parse_conj hL hw (by have := hperm.length_eq; simp at this; omega)
    have hexp : ma.value ≠ [] := by
      rw [hv]
      intro h0
      have := congrArg List.length h0
      cases cs <;> simp [List.intercalate, cmpText] at this
    refine C14_hash_partial (n := c) (ms := cs) (ns := ns) (exp := ma.value) ⟨hL.eq, fun a b => ?_⟩
      ⟨hC, hen, he, by simp [matcherOf, hm], hexp, by rw [hrt, hvals]; simp⟩ heff hrt hpt hft
      (by rw [hv]; exact hparse) hperm (by rw [hv]; exact conj_noEval fun k hk => (hw k hk).2) hlen hne hnul
    rw [hL.and, Val.truthy_ofBool]

/-- C14 for a written matcher (partial): if the matcher is the conjunction of the comparisons of all
request values with the policy values of the same names, in any order, then the test succeeds, and the
set and the scan give the same answers, whether the request is one of the rules. Missing: what is missing
in C14 and C141. -/
theorem C14_text_partial [IterOrder] {lib : ExprLib} (hL : Faithful lib)
    {rx : Str → Str → Outcome Str} {E : Enforcer} {r p e ma : Assertion}
    {ns cs vals : List Str} {P : List Rule} (hC : Consistent lib E r p) (hen : E.enabled = true)
    (he : E.model.find c!"e" c!"e" = some e) (heff : e.value = exprAllowOverride)
    (hm : E.model.find c!"m" c!"m" = some ma)
    (hv : ma.value = c!" && ".intercalate (cs.map fun n => (same n).text))
    (hg : E.model.has c!"g" = false)
    (hrt : r.tokens = ns.map (c!"r_" ++ ·)) (hpt : p.tokens = ns.map (c!"p_" ++ ·)) (hft : c!"eft" ∉ ns)
    (hperm : cs.Perm ns) (hns : ns ≠ []) (hsize : ns.length ≤ 2500) (hn : ∀ n ∈ ns, Name n)
    (hin : ∀ q ∈ ns, ∀ n ∈ ns, ¬ (same q).Nests n) (hvals : vals.length = ns.length)
    (hlen : ∀ rule ∈ P, rule.length = ns.length) (hne : ∃ v ∈ vals, v ≠ []) (hnul : NoNul vals) :
    hashPossible rx E.model = .ok true ∧
    ((inSet E p P).enforce lib (vals.map ReqVal.str)).1 = .ok (decide (vals ∈ P)) ∧
      ((inVector E p P).enforce lib (vals.map ReqVal.str)).1 = .ok (decide (vals ∈ P)) := by
  refine ⟨?_, scan hL hC hen he heff hm hv hrt hpt hft hperm hns hsize hn hvals hlen hne hnul⟩
  have hmem : ∀ q ∈ cs.map same, ∃ k ∈ ns, q = same k := by
    intro q hq
    obtain ⟨k, hk, rfl⟩ := List.mem_map.mp hq
    exact ⟨k, hperm.mem_iff.mp hk, rfl⟩
  rw [possible (rx := rx) (qs := cs.map same) hC.defs.findR hrt hm (by rw [hv, List.map_map]; rfl) hns
    (by intro h; exact hns (by
          have : cs = [] := by simpa using h
          rw [this] at hperm; exact hperm.symm.eq_nil)) hn
    (by rintro q hq
        obtain ⟨k, hk, rfl⟩ := hmem q hq
        exact ⟨hn k hk, hn k hk, by simp [same]⟩)
    (by rintro q hq n hn'
        obtain ⟨k, hk, rfl⟩ := hmem q hq
        exact hin k hk n hn'), hg]
  have : Chosen ns (cs.map same) := by
    refine ⟨by simpa using hperm.length_eq, ?_⟩
    intro q hq
    obtain ⟨k, hk, rfl⟩ := hmem q hq
    exact ⟨hk, rfl⟩
  simp [this]

/-! ## Where the choice is wrong -/

/-- The policy definition with these names. -/
def pSet (ns : List Str) : Assertion :=
  asrt c!"p" (c!", ".intercalate ns) (ns.map (c!"p_" ++ ·)) .hashset

/-- The request definition with these names. -/
def rSet (ns : List Str) : Assertion := asrt c!"r" (c!", ".intercalate ns) (ns.map (c!"r_" ++ ·))

/-- A model with these request values, this matcher and allow-override, and its rules in a set. -/
def setModel (ns : List Str) (matcher : Str) : Model :=
  [(c!"m", [(c!"m", asrt c!"m" matcher [])]), (c!"r", [(c!"r", rSet ns)]), (c!"p", [(c!"p", pSet ns)]),
   (c!"e", eDef)]

/-- What C141 says of such a model: the test succeeds for the matchers that grant a request exactly when
it is a rule. -/
def Right (lib : ExprLib) (ns : List Str) (matcher : Str) : Prop :=
  ∀ (_ : IterOrder) (rx : Str → Str → Outcome Str),
    hashPossible rx (setModel ns matcher) = .ok true ↔
      ∀ (P : List Rule) (vals : List Str), vals.length = ns.length → (∀ rule ∈ P, rule.length = ns.length) →
        (∃ v ∈ vals, v ≠ []) → NoNul vals →
        ((inVector (enforcer (setModel ns matcher)) (pSet ns) P).enforce lib
            (vals.map ReqVal.str)).1 = .ok (decide (vals ∈ P))

/-- C141 is false for a comparison written twice: the rules are kept in a set though only the first
value is compared. -/
theorem C141_fails : ¬ Right (stdLib noRx) [c!"sub", c!"obj"] c!"r.sub == p.sub && r.sub == p.sub" := by
  intro h
  have := (h insertionOrder fun _ s => .ok s).mp (by decide +kernel) [[c!"alice", c!"data1"]]
    [c!"alice", c!"data2"] rfl (by decide) (by decide) (by simp [NoNul])
  exact absurd this (by decide +kernel)

/-- And so C14 is false for it. -/
theorem C14_twice_fails : ¬ SameAnswer (stdLib noRx)
    (setModel [c!"sub", c!"obj"] c!"r.sub == p.sub && r.sub == p.sub") [[c!"alice", c!"data1"]] []
    [c!"alice", c!"data2"] := by
  intro h
  exact absurd (h insertionOrder _ (by decide +kernel) rfl (by decide)) (by decide +kernel)

/-- C141 is false for other separators: no request gets an answer. -/
theorem C141_dots_fails : ¬ Right (stdLib noRx) [c!"sub"] c!"r_sub == p_sub" := by
  intro h
  have := (h insertionOrder fun _ s => .ok s).mp (by decide +kernel) [[c!"alice"]]
    [c!"alice"] rfl (by decide) (by decide) (by simp [NoNul])
  exact absurd this (by decide +kernel)

theorem consistent_set {ns : List Str} (matcher : Str)
    (h : (∀ t ∈ (rSet ns).tokens, 2 ≤ t.length) ∧
      (∀ t ∈ (rSet ns).tokens, Evaluator.validSymbol (reqName t) = true) ∧
      (∀ t ∈ (pSet ns).tokens, Evaluator.validSymbol (polName t) = true) ∧
      ((rSet ns).tokens.map reqName).Nodup ∧ ((pSet ns).tokens.map polName).Nodup) :
    Consistent (stdLib noRx) (enforcer (setModel ns matcher)) (rSet ns) (pSet ns) where
  defs := ⟨rfl, rfl, h.1, h.2.1, h.2.2.1, h.2.2.2.1, h.2.2.2.2, by
    simp [setModel, Model.secMap, enforcer, UMap.get],
    by intro k a h; exact absurd h (by simp [setModel, Model.find, enforcer, UMap.get])⟩
  roles := good_noG rfl
  eval := evOK_new _ _ _ _

/-- C141 is false for a comparison without blanks: it grants exactly the rules, but the test fails. -/
theorem C141_written_fails : ¬ Right (stdLib noRx) [c!"sub"] c!"r.sub==p.sub" := by
  intro h
  have hf := stdLib_faithful noRx
  have := (h insertionOrder fun _ s => .ok s).mpr ?_
  · exact absurd this (by decide +kernel)
  · intro P vals hv hl hne hnul
    let _ := insertionOrder
    exact (C14_hash_partial (lib := stdLib noRx) (exp := c!"r.sub==p.sub") (n := c!"sub") (ms := [])
      (ns := [c!"sub"]) (r := rSet [c!"sub"]) (e := eA) ⟨hf.eq, fun a b => by rw [hf.and, Val.truthy_ofBool]⟩
      ⟨consistent_set _ (by decide +kernel), rfl, rfl, rfl, by decide, by rw [hv]; rfl⟩ rfl rfl rfl
      (by decide) (by rfl) (List.Perm.refl _) (by decide +kernel) hl hne hnul).2

/-- C141 is false for names that end in a pattern for another name: the conjunction of the comparisons
grants exactly the rules, but the test fails. -/
theorem C141_nested_fails : ¬ Right (stdLib noRx) [c!"ro", c!"roro"]
    c!"r.ro == p.ro && r.roro == p.roro" := by
  intro h
  have := (h insertionOrder fun _ s => .ok s).mpr ?_
  · exact absurd this (by decide +kernel)
  · intro P vals hv hl hne hnul
    let _ := insertionOrder
    refine (scan (stdLib_faithful noRx) (cs := [c!"ro", c!"roro"]) (ns := [c!"ro", c!"roro"])
      (r := rSet [c!"ro", c!"roro"]) (e := eA)
      (ma := asrt c!"m" c!"r.ro == p.ro && r.roro == p.roro" [])
      (consistent_set _ (by decide +kernel)) rfl rfl rfl rfl rfl rfl rfl (by decide) (List.Perm.refl _)
      (by decide) (by decide) ?_ hv hl hne hnul).2
    intro n hn
    simp only [List.mem_cons, List.not_mem_nil, or_false] at hn
    rcases hn with rfl | rfl <;> exact ⟨by decide, by decide⟩

/-- Non-vacuity of C141: the matcher of examples/basic_model.conf with its comparisons in another
order. -/
example : [same c!"act", same c!"sub", same c!"obj"].length = 3 ∧
    Chosen [c!"sub", c!"obj", c!"act"] [same c!"act", same c!"sub", same c!"obj"] ∧
    c!" && ".intercalate ([same c!"act", same c!"sub", same c!"obj"].map Comparison.text) =
      c!"r.act == p.act && r.sub == p.sub && r.obj == p.obj" ∧
    (∀ n ∈ [c!"sub", c!"obj", c!"act"], Name n) := by
  refine ⟨rfl, by decide, by decide, ?_⟩
  intro n hn
  simp only [List.mem_cons, List.not_mem_nil, or_false] at hn
  rcases hn with rfl | rfl | rfl <;> exact ⟨by decide, by decide⟩

example : ∀ q ∈ [c!"sub", c!"obj", c!"act"], ∀ n ∈ [c!"sub", c!"obj", c!"act"], ¬ (same q).Nests n := by
  rintro q hq n hn ⟨pre, y, h⟩
  have : 'r' ∈ '.' :: q := by
    have : 'r' ∈ (same q).dot1 :: (same q).left := by rw [h]; simp
    exact this
  revert this
  simp only [List.mem_cons, List.not_mem_nil, or_false] at hq
  rcases hq with rfl | rfl | rfl <;> decide

/-- Non-vacuity of `C14_text_partial`: all of its hypotheses hold for this model and these requests. -/
example [IterOrder] (P : List Rule) (hl : ∀ rule ∈ P, rule.length = 2) (o : Str) (h : '\x00' ∉ o) :
    hashPossible (fun _ s => .ok s)
      (setModel [c!"sub", c!"obj"] c!"r.obj == p.obj && r.sub == p.sub") = .ok true ∧
    ((inSet (enforcer (setModel [c!"sub", c!"obj"] c!"r.obj == p.obj && r.sub == p.sub"))
      (pSet [c!"sub", c!"obj"]) P).enforce (stdLib noRx) ([c!"alice", o].map ReqVal.str)).1 =
        .ok (decide ([c!"alice", o] ∈ P)) := by
  have := C14_text_partial (rx := fun _ s => .ok s) (stdLib_faithful noRx) (P := P)
    (vals := [c!"alice", o])
    (cs := [c!"obj", c!"sub"]) (ns := [c!"sub", c!"obj"]) (r := rSet [c!"sub", c!"obj"]) (e := eA)
    (ma := asrt c!"m" c!"r.obj == p.obj && r.sub == p.sub" [])
    (consistent_set c!"r.obj == p.obj && r.sub == p.sub" (by decide +kernel)) rfl rfl rfl rfl rfl rfl
    rfl rfl (by decide) (List.Perm.swap _ _ _) (by decide) (by decide) ?_ ?_ rfl hl (by simp)
    (by simp [NoNul, h])
  · exact ⟨this.1, this.2.1⟩
  · intro n hn
    simp only [List.mem_cons, List.not_mem_nil, or_false] at hn
    rcases hn with rfl | rfl <;> exact ⟨by decide, by decide⟩
  · rintro q hq n hn ⟨pre, y, h⟩
    have : 'r' ∈ '.' :: q := by
      have : 'r' ∈ (same q).dot1 :: (same q).left := by rw [h]; simp
      exact this
    revert this
    simp only [List.mem_cons, List.not_mem_nil, or_false] at hq
    rcases hq with rfl | rfl <;> decide

end SetStorageProps
end Casbin
