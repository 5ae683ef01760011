import Verif.RegexLemmas
import Verif.Props.Examples

/-!
# Regular expressions: property theorems

C133: `RegexMatch` answers whether the text is one of those its regular expression stands for. C109
with such expressions.
-/

namespace Casbin.RegexProps

open Casbin.Regex

open Classical in
/-- **C133.** For every regular expression of the modelled kinds, in whatever way it is written, and
every text, `RegexMatch` answers whether the whole text is one that the expression stands for. -/
theorem C133_matches {r : Rx} {pat : Str} (h : Written .alts r pat) (rx : RxLib) (s : Str) :
    regexMatch (stdRx rx) s pat = .ok (decide (Lang r s)) := by
  simp only [regexMatch, stdRx, parse_written h, Outcome.ok_bind, Outcome.pure_eq]
  congr 1
  rw [Bool.eq_iff_iff, decide_eq_true_iff, ← run_iff]
  cases r.run s <;> simp

/-- **C133.** A text stands for one regular expression only. -/
theorem C133_unique {r r' : Rx} {pat : Str} (h : Written .alts r pat) (h' : Written .alts r' pat) :
    r = r' := by
  have := (parse_written h).symm.trans (parse_written h')
  exact Rd.ok.inj this

/-- **C133.** Expressions with an opening parenthesis that is never closed, or a closing one that was
never opened, are refused. -/
theorem C133_parentheses {r r' : Rx} {s t : Str} (hs : Written .alts r s) (rx : RxLib) (key : Str) :
    (Written .alts r' t → regexMatch (stdRx rx) key (s ++ '(' :: t) = .throw .regex) ∧
    ∀ u, regexMatch (stdRx rx) key (s ++ ')' :: u) = .throw .regex := by
  constructor
  · intro ht
    simp [regexMatch, stdRx, parse_open hs ht]
  · intro u
    simp [regexMatch, stdRx, parse_closed hs]

/-- **C133.** Expressions with a quantifier that stands at the start of the text, of an alternative or
of a group are refused. -/
theorem C133_quantifiers {r : Rx} {s : Str} (hs : Written .alts r s) (rx : RxLib) (key u : Str) {q : Char}
    (hq : q ∈ c!"*+?") :
    regexMatch (stdRx rx) key (q :: u) = .throw .regex ∧
    regexMatch (stdRx rx) key (s ++ '|' :: q :: u) = .throw .regex ∧
    (q ≠ '?' → regexMatch (stdRx rx) key (s ++ '(' :: q :: u) = .throw .regex) := by
  refine ⟨by simp [regexMatch, stdRx, parse_quant hq], by simp [regexMatch, stdRx, parse_bar_quant hs hq],
    fun h => ?_⟩
  have : q = '*' ∨ q = '+' := by
    simp only [List.mem_cons, List.not_mem_nil, or_false] at hq
    tauto
  simp [regexMatch, stdRx, parse_open_quant hs this]

/-- A text without characters that have a meaning of their own. -/
def Plain (w : Str) : Prop := ∀ c ∈ w,
  c ∉ ['^', '$', '\\', '.', '*', '+', '?', '(', ')', '[', ']', '{', '}', '|'] ∧ c ≠ '\x00'

/-- The expression of a plain text. -/
def wordRx : Str → Rx
  | [] => .eps
  | c :: w => .seq (.one ⟨false, [(c, c)]⟩) (wordRx w)

theorem written_word {w : Str} (h : Plain w) : Written .terms (wordRx w) w := by
  induction w with
  | nil => exact .none
  | cons c w ih =>
    have := h c (by simp)
    exact .more (.bare (.char this.1 this.2)) (ih fun d hd => h d (by simp [hd]))

theorem lang_word (w s : Str) : Lang (wordRx w) s ↔ s = w := by
  induction w generalizing s with
  | nil => simp [wordRx, Lang]
  | cons c w ih =>
    simp only [wordRx, Lang, ih]
    constructor
    · rintro ⟨u, v, rfl, ⟨d, rfl, hd⟩, rfl⟩
      simp only [Chars.In, Bool.false_eq_true, if_false, List.mem_singleton, exists_eq_left] at hd
      rw [show d = c from Char.le_antisymm hd.2 hd.1]
      rfl
    · rintro rfl
      exact ⟨[c], w, rfl, ⟨c, rfl, by simp [Chars.In]⟩, rfl⟩

/-- **C133.** A plain text as expression stands for itself only. -/
theorem C133_plain {w : Str} (h : Plain w) (rx : RxLib) (s : Str) :
    regexMatch (stdRx rx) s w = .ok (decide (s = w)) := by
  classical
  rw [C133_matches (.last (written_word h)) rx s]
  congr 1
  rw [Bool.eq_iff_iff, decide_eq_true_iff, decide_eq_true_iff, lang_word]

/-- The words in parentheses with `|` between them, as in `(GET)|(POST)`. -/
def oneOf : List Str → Str
  | [] => []
  | [w] => '(' :: w ++ [')']
  | w :: ws => '(' :: w ++ ')' :: '|' :: oneOf ws

theorem written_oneOf : ∀ {ws : List Str}, ws ≠ [] → (∀ w ∈ ws, Plain w) →
    ∃ r, Written .alts r (oneOf ws) ∧ ∀ s, Lang r s ↔ s ∈ ws
  | [], h, _ => absurd rfl h
  | [w], _, h => by
    refine ⟨.seq (wordRx w) .eps, ?_, ?_⟩
    · have := Written.more (.bare (.group (.last (written_word (h w (by simp)))))) Written.none
      rw [List.append_nil] at this
      exact .last this
    · intro s
      simp only [Lang, lang_word, List.mem_singleton]
      constructor
      · rintro ⟨u, v, rfl, rfl, rfl⟩; simp
      · rintro rfl; exact ⟨s, [], by simp, rfl, rfl⟩
  | w :: w' :: ws, _, h => by
    obtain ⟨r, h1, h2⟩ := written_oneOf (ws := w' :: ws) (by simp) fun x hx => h x (by simp [hx])
    refine ⟨.alt (.seq (wordRx w) .eps) r, ?_, ?_⟩
    · have := Written.more (.bare (.group (.last (written_word (h w (by simp)))))) Written.none
      rw [List.append_nil] at this
      have := Written.alt this h1
      simpa [oneOf] using this
    · intro s
      simp only [Lang, lang_word, h2, List.mem_cons]
      constructor
      · rintro (⟨u, v, rfl, rfl, rfl⟩ | h)
        · simp
        · exact .inr h
      · rintro (rfl | h)
        · exact .inl ⟨s, [], by simp, rfl, rfl⟩
        · exact .inr h

/-- **C133.** `(GET)|(POST)` and the like stand for their words. -/
theorem C133_oneOf {ws : List Str} (hne : ws ≠ []) (h : ∀ w ∈ ws, Plain w) (rx : RxLib) (s : Str) :
    regexMatch (stdRx rx) s (oneOf ws) = .ok (decide (s ∈ ws)) := by
  classical
  obtain ⟨r, h1, h2⟩ := written_oneOf hne h
  rw [C133_matches h1 rx s]
  congr 1
  rw [Bool.eq_iff_iff, decide_eq_true_iff, decide_eq_true_iff, h2]

/-- Non-vacuity: the calls of the project's tests, and `(GET)|(POST)`. -/
example (rx : RxLib) :
    oneOf [c!"GET", c!"POST"] = c!"(GET)|(POST)" ∧ Plain c!"GET" ∧ Plain c!"POST" ∧
    regexMatch (stdRx rx) c!"/topic/edit/123" c!"/topic/edit/[0-9]+" = .ok true ∧
    regexMatch (stdRx rx) c!"/topic/edit/abc" c!"/topic/edit/[0-9]+" = .ok false ∧
    regexMatch (stdRx rx) c!"/topic/edit/" c!"/topic/edit/[0-9]+" = .ok false ∧
    regexMatch (stdRx rx) c!"abab" c!"(a*?b|c\\d)*" = .ok true ∧
    regexMatch (stdRx rx) c!"c7" c!"(?:a*?b|c\\d)?" = .ok true ∧
    regexMatch (stdRx rx) c!"ca" c!"(?:a*?b|c\\d)?" = .ok false ∧
    regexMatch (stdRx rx) c!"x" c!"(a" = .throw .regex ∧
    regexMatch (stdRx rx) c!"x" c!"[z-a]" = .throw .regex := by
  refine ⟨rfl, ?_, ?_, rfl, rfl, rfl, rfl, rfl, rfl, rfl, rfl⟩ <;> (unfold Plain; decide)

/-- Non-vacuity: a written expression. -/
example : Written .alts (.seq (.star (.one ⟨true, [('a', 'z')]⟩)) .eps) c!"[^a-z]*" := by
  have hb : ∀ c : Char, c ∉ ['^', '\\', '[', ']', '-'] → c ≠ '\x00' → c.toNat < 128 → InBrackets c :=
    fun c h1 h2 h3 => ⟨h1, h2, h3⟩
  have h1 : Written .term (.star (.one ⟨true, [('a', 'z')]⟩))
      ('[' :: '^' :: ['a', '-', 'z'] ++ [']'] ++ '*' :: []) :=
    .star (.noClass (by simp) (.range (hb _ (by decide) (by decide) (by decide))
      (hb _ (by decide) (by decide) (by decide)) (by decide) .nil)) (by simp)
  exact .last (.more h1 .none)

end Casbin.RegexProps

namespace Casbin.ModelProps

open Exprtk Enforcer DecisionProps Fixtures EndToEnd Regex

variable [IterOrder] {lib : ExprLib} {E : Enforcer} {p e : Assertion}

open Classical in
/-- C109 with regular expressions of the modelled kinds: a request is granted exactly when a stored
rule of the subject has a path pattern for the object and a regular expression that stands for the
action. Missing: empty policies and other texts in the place of the expression. -/
theorem C109_regex_partial {rx : RxLib} (hL : Faithful lib) (hb : StdFunctions lib (stdRx rx))
    (hS : Setup lib E rA p e mKey) (hv : e.value = c!"some(where (p.eft == allow))")
    (ht : p.tokens = pTok) (hvec : p.policy.hash = false) (hne : p.policy.items ≠ [])
    (hr : ∀ rule ∈ p.policy.items, ∃ s o t, rule = [s, o, t] ∧ ∃ r, Written .alts r t)
    (sub obj act : Str) :
    (E.enforce lib [.str sub, .str obj, .str act]).1 =
      .ok (decide (∃ pat t r, [sub, pat, t] ∈ p.policy.items ∧ KeyCovers pat obj ∧
        Written .alts r t ∧ Lang r act)) := by
  have := C109_keymatch_partial hL hb hS hv ht hvec hne
    (R := fun t => ∃ r, Written .alts r t ∧ Lang r act) (act := act) (by
      intro rule hrule
      obtain ⟨s, o, t, rfl, r, hw⟩ := hr rule hrule
      refine ⟨s, o, t, rfl, if r.run act then some [] else none, ?_, ?_⟩
      · simp [stdRx, parse_written hw]
      · have : (if r.run act = true then some ([] : List Str) else none) ≠ none ↔ r.run act = true := by
          by_cases h : r.run act = true <;> simp [h]
        rw [this, run_iff]
        constructor
        · intro h; exact ⟨r, hw, h⟩
        · rintro ⟨r', hw', h⟩
          rw [RegexProps.C133_unique hw hw']
          exact h) sub obj
  refine this.trans ?_
  congr 1
  rw [decide_eq_decide]
  constructor
  · rintro ⟨pat, t, h1, h2, r, h3, h4⟩; exact ⟨pat, t, r, h1, h2, h3, h4⟩
  · rintro ⟨pat, t, r, h1, h2, h3, h4⟩; exact ⟨pat, t, h1, h2, r, h3, h4⟩

/-- Non-vacuity: the rules of examples/keymatch_policy.csv. -/
example : (let _ := insertionOrder
    let E := (buildRoleLinks (enforcer (plainModel mKey
      [[c!"alice", c!"/alice_data/*", c!"GET"], [c!"alice", c!"/alice_data/resource1", c!"POST"],
       [c!"bob", c!"/alice_data/resource2", c!"GET"], [c!"bob", c!"/bob_data/*", c!"POST"],
       [c!"cathy", c!"/cathy_data", c!"(GET)|(POST)"]]))).2
    let ask a b c := (E.enforce (stdLib (stdRx noRx)) [.str a, .str b, .str c]).1
    (ask c!"cathy" c!"/cathy_data" c!"GET", ask c!"cathy" c!"/cathy_data" c!"POST",
      ask c!"cathy" c!"/cathy_data" c!"DELETE", ask c!"bob" c!"/bob_data/1" c!"POST",
      ask c!"bob" c!"/bob_data/1" c!"GET"))
    = (.ok true, .ok true, .ok false, .ok true, .ok false) := by
  decide +kernel

end Casbin.ModelProps
