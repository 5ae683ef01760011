import Verif.Getters
import Verif.Props.Config
import Verif.AdapterLemmas

/-!
# C95: the typed getters of a configuration
-/

namespace Casbin
namespace ConfigProps

open AdapterProps

/-- The decimal text of an integer. -/
def decimal (n : Int) : Str := (toString n).toList

/-- A list of texts as written in a configuration. -/
def commaList : List Str → Str
  | [] => []
  | [v] => v
  | v :: w :: vs => v ++ c!"," ++ commaList (w :: vs)

theorem takeWhile_digits {l : Str} (h : ∀ c ∈ l, c.isDigit = true) :
    l.takeWhile Char.isDigit = l := by
  induction l with
  | nil => rfl
  | cons c l ih => simp [h c (by simp), ih fun d hd => h d (by simp [hd])]

theorem digits_value (n : Nat) :
    Nat.ofDigitChars 10 ((Nat.toDigits 10 n).takeWhile Char.isDigit) 0 = n := by
  rw [takeWhile_digits fun c hc => Nat.isDigit_of_mem_toDigits (by decide) (by decide) hc,
    Nat.ofDigitChars_ten_toDigits]

theorem digit_not_blank {c : Char} (h : c.isDigit = true) : isBlank c = false := by
  by_contra hb
  rw [Bool.not_eq_false] at hb
  simp only [isBlank, Bool.or_eq_true, decide_eq_true_eq] at hb
  rcases hb with ((((rfl | rfl) | rfl) | rfl) | rfl) | rfl <;>
    simp [Char.isDigit] at h

theorem atoi_eq (n : Int) : atoi (decimal n) =
    if -2147483648 ≤ n ∧ n ≤ 2147483647 then .ok n else .ub .overflow := by
  cases n with
  | ofNat n =>
    have e : decimal (Int.ofNat n) = Nat.toDigits 10 n := by
      unfold decimal
      exact Nat.toList_repr
    unfold atoi
    rw [e]
    cases hd : Nat.toDigits 10 n with
    | nil => exact absurd hd Nat.toDigits_ne_nil
    | cons c cs =>
      have hc : c.isDigit = true := Nat.isDigit_of_mem_toDigits (b := 10) (n := n) (by decide) (by decide)
        (by rw [hd]; simp)
      have hval := digits_value n
      rw [hd] at hval
      have hdrop : (c :: cs).dropWhile isBlank = c :: cs := by
        simp [List.dropWhile, digit_not_blank hc]
      simp only [hdrop]
      split
      · next heq => cases heq; simp [Char.isDigit] at hc
      · next heq => cases heq; simp [Char.isDigit] at hc
      · rw [hval]; rfl
  | negSucc n =>
    have e : decimal (Int.negSucc n) = '-' :: Nat.toDigits 10 (n + 1) := by
      unfold decimal
      have : toString (Int.negSucc n) = "-" ++ (n + 1).repr := rfl
      rw [this, String.toList_append, Nat.toList_repr]
      rfl
    unfold atoi
    rw [e]
    have hdrop : ('-' :: Nat.toDigits 10 (n + 1)).dropWhile isBlank = '-' :: Nat.toDigits 10 (n + 1) := by
      simp [List.dropWhile, isBlank]
    simp only [hdrop, digits_value]
    have : (-((n + 1 : Nat) : Int)) = Int.negSucc n := rfl
    rw [this]

theorem split_commaList (vs : List Str) (hne : vs ≠ []) (h : ∀ v ∈ vs, ',' ∉ v)
    (hl : vs.length ≤ splitLARGE) : split (commaList vs) c!"," = vs := by
  have e : ∀ vs, commaList vs = between ',' vs := by
    intro vs
    induction vs with
    | nil => rfl
    | cons v vs ih =>
      cases vs with
      | nil => rfl
      | cons w vs => simp only [commaList, between, ih, List.append_assoc]; rfl
  rw [e]
  unfold split
  refine splitLoop_between ',' vs _ hne h ?_
  simp only [if_true]
  unfold splitLARGE at hl ⊢
  omega

/-- C95: an option set to a text is read as that text; set to `true` it is read as true and set to
anything else as false; set to the decimal text of an integer that fits it is read as that integer;
and set to values separated by commas, none of which contains one, as those values. Missing from the
property: keys that begin with `::` (`C55_fails`), a list of a single empty text (`C95_fails`), and
integers that do not fit (`C95_overflow_fails`). -/
theorem C95_getters_partial (s : ConfigSt) (h : s.locked = false) {key : Str} (hk : key ≠ [])
    (hp : ¬ c!"::" <+: key) :
    (∀ v, Config.get key (ConfigSt.set key v s).2.data = v) ∧
    (∀ v, Config.getBool key (ConfigSt.set key v s).2.data = true ↔ v = c!"true") ∧
    (∀ n : Int, -2147483648 ≤ n → n ≤ 2147483647 →
      Config.getInt key (ConfigSt.set key (decimal n) s).2.data = .ok n) ∧
    (∀ vs : List Str, vs ≠ [[]] → (∀ v ∈ vs, ',' ∉ v) → vs.length ≤ splitLARGE →
      Config.getStrings key (ConfigSt.set key (commaList vs) s).2.data = vs) := by
  have hget : ∀ v, Config.get key (ConfigSt.set key v s).2.data = v :=
    fun v => (C55_roundTrip_partial s h hk hp v).2.2
  refine ⟨hget, ?_, ?_, ?_⟩
  · intro v; simp [Config.getBool, hget]
  · intro n h1 h2
    rw [Config.getInt, hget, atoi_eq n, if_pos ⟨h1, h2⟩]
  · intro vs h1 h2 h3
    simp only [Config.getStrings, hget]
    match vs, h1, h2, h3 with
    | [], _, _, _ => rfl
    | [v], h1, h2, h3 =>
      rw [if_neg (by simp only [commaList]; intro e; exact h1 (by rw [e]))]
      exact split_commaList _ (by simp) h2 h3
    | v :: w :: vs, _, h2, h3 =>
      rw [if_neg (by simp [commaList])]
      exact split_commaList _ (by simp) h2 h3

/-- Non-vacuity of C95. -/
example : Config.getInt c!"a::n" (ConfigSt.set c!"a::n" c!"-42" { locked := false, data := [] }).2.data =
      .ok (-42) ∧
    Config.getStrings c!"a::l" (ConfigSt.set c!"a::l" c!"x,,y" { locked := false, data := [] }).2.data =
      [c!"x", [], c!"y"] := by
  obtain ⟨_, _, h3, _⟩ := C95_getters_partial { locked := false, data := [] } rfl (key := c!"a::n")
    (by decide) (by decide)
  obtain ⟨_, _, _, h4⟩ := C95_getters_partial { locked := false, data := [] } rfl (key := c!"a::l")
    (by decide) (by decide)
  have e1 : decimal (-42) = c!"-42" := by decide +kernel
  have e2 : commaList [c!"x", [], c!"y"] = c!"x,,y" := by decide +kernel
  have h3 := h3 (-42) (by decide) (by decide)
  have h4 := h4 [c!"x", [], c!"y"] (by decide) (by decide) (by decide +kernel)
  rw [e1] at h3
  rw [e2] at h4
  exact ⟨h3, h4⟩

/-- C95 fails for a list of a single empty text: it is read as the empty list. -/
theorem C95_fails : ∃ (s : ConfigSt) (key : Str), s.locked = false ∧ key ≠ [] ∧ ¬ c!"::" <+: key ∧
    Config.getStrings key (ConfigSt.set key (commaList [[]]) s).2.data ≠ [[]] :=
  ⟨{ locked := false, data := [] }, c!"a", rfl, by decide, by decide, by decide +kernel⟩

/-- C95 fails for integers that do not fit: reading the option is undefined, for every one of them. -/
theorem C95_overflow_fails (s : ConfigSt) (h : s.locked = false) {key : Str} (hk : key ≠ [])
    (hp : ¬ c!"::" <+: key) (n : Int) (hn : n < -2147483648 ∨ 2147483647 < n) :
    Config.getInt key (ConfigSt.set key (decimal n) s).2.data = .ub .overflow := by
  rw [Config.getInt, (C55_roundTrip_partial s h hk hp _).2.2, atoi_eq, if_neg (by omega)]

example : Config.getInt c!"n" (ConfigSt.set c!"n" c!"2147483648" { locked := false, data := [] }).2.data =
    .ub .overflow := by
  have h := C95_overflow_fails { locked := false, data := [] } rfl (key := c!"n") (by decide) (by decide)
    2147483648 (by decide)
  have e : decimal 2147483648 = c!"2147483648" := by decide +kernel
  rwa [e] at h

end ConfigProps
end Casbin
