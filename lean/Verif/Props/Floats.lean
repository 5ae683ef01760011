import Verif.FloatLemmas

/-!
# C134: numbers with a fraction in a configuration
-/

namespace Casbin
namespace ConfigProps

/-- A number as it is written: a sign, digits before and after the point, an exponent. -/
structure Numeral where
  neg : Bool
  whole : List (Fin 10)
  frac : List (Fin 10)
  exp : Option ℤ

namespace Numeral

def digits (ds : List (Fin 10)) : Str := ds.map fun (d : Fin 10) => Nat.digitChar d.val

/-- The digits before the point. -/
def wholeValue : List (Fin 10) → ℚ
  | [] => 0
  | d :: ds => d * 10 ^ ds.length + wholeValue ds

/-- The digits after the point. -/
def fracValue : List (Fin 10) → ℚ
  | [] => 0
  | d :: ds => (d + fracValue ds) / 10

/-- The number that is written. -/
def value (n : Numeral) : ℚ :=
  (if n.neg then -1 else 1) * (wholeValue n.whole + fracValue n.frac) * 10 ^ (n.exp.getD 0)

/-- How it is written. -/
def text (n : Numeral) : Str :=
  (if n.neg then c!"-" else []) ++ digits n.whole ++
    (if n.frac = [] then [] else '.' :: digits n.frac) ++
    (match n.exp with
     | none => []
     | some e => 'e' :: decimal e)

end Numeral

open Numeral

/-- The text `t` writes the number `v`: after blanks, and before anything that does not go on with the
number. -/
def Writes (t : Str) (v : ℚ) : Prop :=
  ∃ (blanks : Str) (n : Numeral) (rest : Str), (∀ c ∈ blanks, Space c) ∧
    (n.whole ≠ [] ∨ n.frac ≠ []) ∧
    (∀ c, rest.head? = some c → c.isDigit = false ∧ c ∉ c!".eExX") ∧
    t = blanks ++ n.text ++ rest ∧ v = n.value

theorem digits_isDigit (ds : List (Fin 10)) : ∀ c ∈ digits ds, c.isDigit = true := by
  intro c hc
  obtain ⟨d, _, rfl⟩ := List.mem_map.mp hc
  have h : ∀ d : Fin 10, (Nat.digitChar d.val).isDigit = true := by decide
  exact h d

theorem digitsNum_digits_aux (ds : List (Fin 10)) (k : Nat) :
    ((Nat.ofDigitChars 10 (digits ds) k : Nat) : ℚ) = k * 10 ^ ds.length + wholeValue ds := by
  induction ds generalizing k with
  | nil => simp [digits, wholeValue, Nat.ofDigitChars]
  | cons d ds ih =>
    have hd : (Nat.digitChar d).toNat - '0'.toNat = d := by revert d; decide
    have e : Nat.ofDigitChars 10 (digits (d :: ds)) k = Nat.ofDigitChars 10 (digits ds) (10 * k + d) := by
      simp only [digits, List.map_cons, Nat.ofDigitChars_cons, hd]
    rw [e, ih]
    simp only [wholeValue, List.length_cons]
    push_cast
    ring

theorem digitsNum_digits (ds : List (Fin 10)) : ((digitsNum (digits ds) : Nat) : ℚ) = wholeValue ds := by
  rw [digitsNum, digitsNum_digits_aux]; simp

theorem wholeValue_append (a b : List (Fin 10)) :
    wholeValue (a ++ b) = (wholeValue a + fracValue b) * 10 ^ b.length := by
  have hb : ∀ b, wholeValue b = fracValue b * 10 ^ b.length := by
    intro b
    induction b with
    | nil => simp [wholeValue, fracValue]
    | cons d b ih => simp only [wholeValue, fracValue, ih, List.length_cons]; ring
  induction a with
  | nil => simp [wholeValue, hb b]
  | cons d a ih => simp only [List.cons_append, wholeValue, ih, List.length_append]; ring

theorem takeWhile_app {a rest : Str} (ha : ∀ c ∈ a, c.isDigit = true)
    (hr : ∀ c, rest.head? = some c → c.isDigit = false) :
    (a ++ rest).takeWhile Char.isDigit = a ∧ (a ++ rest).dropWhile Char.isDigit = rest := by
  induction a with
  | nil =>
    cases rest with
    | nil => simp
    | cons c r => simp [hr c rfl]
  | cons c a ih =>
    have := ih fun d hd => ha d (by simp [hd])
    simp [ha c (by simp), this.1, this.2]

theorem exponent_read (e : ℤ) (rest : Str) (hr : ∀ c, rest.head? = some c → c.isDigit = false) :
    exponentOf ('e' :: (decimal e ++ rest)) = e := by
  cases e with
  | ofNat n =>
    have e : decimal (Int.ofNat n) = Nat.toDigits 10 n := by
      unfold decimal
      exact Nat.toList_repr
    have hd : ∀ c ∈ Nat.toDigits 10 n, c.isDigit = true :=
      fun c hc => Nat.isDigit_of_mem_toDigits (by decide) (by decide) hc
    have ht := takeWhile_app hd hr
    have hv : digitsNum (Nat.toDigits 10 n) = n := by rw [digitsNum, Nat.ofDigitChars_ten_toDigits]
    rw [e]
    unfold exponentOf
    simp only [true_or, if_true]
    split
    · next heq =>
      cases hd' : Nat.toDigits 10 n with
      | nil => exact absurd hd' Nat.toDigits_ne_nil
      | cons c cs => rw [hd'] at heq hd; cases heq; exact absurd (hd '-' (by simp)) (by decide)
    · next heq =>
      cases hd' : Nat.toDigits 10 n with
      | nil => exact absurd hd' Nat.toDigits_ne_nil
      | cons c cs => rw [hd'] at heq hd; cases heq; exact absurd (hd '+' (by simp)) (by decide)
    · rw [ht.1, hv]; rfl
  | negSucc n =>
    have e : decimal (Int.negSucc n) = '-' :: Nat.toDigits 10 (n + 1) := by
      unfold decimal
      have : toString (Int.negSucc n) = "-" ++ (n + 1).repr := rfl
      rw [this, String.toList_append, Nat.toList_repr]
      rfl
    have ht := takeWhile_app (a := Nat.toDigits 10 (n + 1)) (rest := rest)
      (fun c hc => Nat.isDigit_of_mem_toDigits (by decide) (by decide) hc) hr
    have hv : digitsNum (Nat.toDigits 10 (n + 1)) = n + 1 := by
      rw [digitsNum, Nat.ofDigitChars_ten_toDigits]
    rw [e]
    simp only [exponentOf, true_or, if_true, List.cons_append]
    rw [ht.1, hv]; rfl

/-- The text of an exponent. -/
def expText : Option ℤ → Str
  | none => []
  | some e => 'e' :: decimal e

theorem exponent_text (x : Option ℤ) (rest : Str)
    (hr : ∀ c, rest.head? = some c → c.isDigit = false ∧ c ∉ c!".eExX") :
    exponentOf (expText x ++ rest) = x.getD 0 ∧
      ∀ c, (expText x ++ rest).head? = some c → c.isDigit = false ∧ c ∉ c!".xX" := by
  cases x with
  | none =>
    simp only [expText, List.nil_append, Option.getD_none]
    refine ⟨?_, fun c hc => ⟨(hr c hc).1, fun hm => (hr c hc).2 (by revert hm; simp; tauto)⟩⟩
    cases rest with
    | nil => rfl
    | cons c r =>
      have := (hr c rfl).2
      have h1 : ¬ (c = 'e' ∨ c = 'E') := by
        rintro (rfl | rfl) <;> exact this (by decide)
      simp [exponentOf, h1]
  | some e =>
    refine ⟨exponent_read e rest fun c hc => (hr c hc).1, ?_⟩
    intro c hc
    simp only [expText, List.cons_append, List.head?_cons, Option.some.injEq] at hc
    subst hc
    decide

theorem fractionOf_none {s : Str} (h : s.head? ≠ some '.') : fractionOf s = ([], s) := by
  cases s with
  | nil => rfl
  | cons c s =>
    unfold fractionOf
    split
    · next heq => cases heq; exact absurd rfl h
    · rfl

theorem numberAt_unsigned {s u : Str} (hd : s.dropWhile isBlank = u) (h : u.head? ≠ some '-')
    (h' : u.head? ≠ some '+') : numberAt s = unsignedNum u := by
  unfold numberAt
  rw [hd]
  split
  · exact absurd rfl h
  · exact absurd rfl h'
  · rfl

theorem numberAt_minus {s u : Str} (hd : s.dropWhile isBlank = '-' :: u) :
    numberAt s = (unsignedNum u).map (- ·) := by
  unfold numberAt
  rw [hd]
  rfl

theorem unsigned_read (a b : List (Fin 10)) (x : Option ℤ) (rest : Str) (hne : a ≠ [] ∨ b ≠ [])
    (hr : ∀ c, rest.head? = some c → c.isDigit = false ∧ c ∉ c!".eExX") :
    unsignedNum (digits a ++ ((if b = [] then [] else '.' :: digits b) ++ (expText x ++ rest))) =
      some ((wholeValue a + fracValue b) * 10 ^ (x.getD 0)) := by
  obtain ⟨hx1, hx2⟩ := exponent_text x rest hr
  set tail := expText x ++ rest with htail
  set t := (if b = [] then [] else '.' :: digits b) ++ tail with ht
  have hthead : ∀ c, t.head? = some c → c.isDigit = false ∧ c ≠ 'x' ∧ c ≠ 'X' := by
    intro c hc
    by_cases hb : b = []
    · rw [ht, if_pos hb, List.nil_append] at hc
      obtain ⟨h1, h2⟩ := hx2 c hc
      exact ⟨h1, by rintro rfl; exact h2 (by decide), by rintro rfl; exact h2 (by decide)⟩
    · rw [ht, if_neg hb] at hc
      simp only [List.cons_append, List.head?_cons, Option.some.injEq] at hc
      subst hc; decide
  obtain ⟨h1, h2⟩ := takeWhile_app (digits_isDigit a) (fun c hc => (hthead c hc).1)
  have hf : fractionOf t = (digits b, tail) := by
    by_cases hb : b = []
    · rw [ht, if_pos hb, List.nil_append, hb]
      exact fractionOf_none fun h => (hx2 '.' h).2 (by decide)
    · rw [ht, if_neg hb]
      obtain ⟨h3, h4⟩ := takeWhile_app (digits_isDigit b) (fun c hc => (hx2 c hc).1)
      simp only [List.cons_append, fractionOf, h3, h4]
  unfold unsignedNum
  simp only [h1, h2, hf]
  have hd : ∀ l : List (Fin 10), digits l = [] ↔ l = [] := by intro l; simp [digits]
  rw [if_neg (by rw [hd, hd]; tauto), if_neg (by
    rintro ⟨_, hm⟩
    simp only [List.mem_cons, List.not_mem_nil, or_false] at hm
    rcases hm with hm | hm
    · exact (hthead _ hm).2.1 rfl
    · exact (hthead _ hm).2.2 rfl)]
  have happ : digits a ++ digits b = digits (a ++ b) := by simp [digits]
  have hlen : (digits b).length = b.length := by simp [digits]
  rw [happ, digitsNum_digits, wholeValue_append, hx1, hlen, zpow_sub₀ (by norm_num), zpow_natCast]
  have : (10 : ℚ) ^ b.length ≠ 0 := by positivity
  field_simp

/-- A written number is read as the number. -/
theorem number_read {t : Str} {v : ℚ} (h : Writes t v) : numberAt t = some v := by
  obtain ⟨blanks, n, rest, hb, hne, hr, rfl, rfl⟩ := h
  have hu := unsigned_read n.whole n.frac n.exp rest hne hr
  set u := digits n.whole ++ ((if n.frac = [] then [] else '.' :: digits n.frac) ++ (expText n.exp ++ rest))
    with hud
  have htext : blanks ++ n.text ++ rest = blanks ++ ((if n.neg then c!"-" else []) ++ u) := by
    have : n.text = (if n.neg then c!"-" else []) ++ digits n.whole ++
      (if n.frac = [] then [] else '.' :: digits n.frac) ++ expText n.exp := by
      unfold text expText; rfl
    rw [this, hud]
    simp only [List.append_assoc]
  have hdrop : ∀ w : Str, (∀ c, w.head? = some c → isBlank c = false) →
      (blanks ++ w).dropWhile isBlank = w := by
    intro w hw
    rw [List.dropWhile_append_of_pos fun c h => space_iff.mp (hb c h)]
    cases w with
    | nil => rfl
    | cons c w => simp [hw c rfl]
  rw [htext]
  cases hn : n.neg with
  | true =>
    simp only [if_true, List.cons_append, List.nil_append]
    rw [numberAt_minus (u := u) (hdrop _ (by intro c hc; simp at hc; subst hc; decide)), hu]
    simp only [Option.map_some, value, hn, if_true, Option.some.injEq]
    ring
  | false =>
    have hhead : ∀ c, u.head? = some c → c.isDigit = true ∨ c = '.' := by
      intro c hc
      rw [hud] at hc
      cases hw : n.whole with
      | cons d ds =>
        left
        refine digits_isDigit n.whole c ?_
        rw [hw] at hc ⊢
        simp only [digits, List.map_cons, List.cons_append, List.head?_cons, Option.some.injEq] at hc
        simp [digits, hc]
      | nil =>
        right
        have hf : n.frac ≠ [] := by rcases hne with h | h; exact absurd hw h; exact h
        rw [hw, if_neg hf] at hc
        simpa [digits] using hc.symm
    simp only [Bool.false_eq_true, if_false, List.nil_append]
    rw [numberAt_unsigned (u := u) (hdrop u (by
      intro c hc
      rcases hhead c hc with h | rfl
      · exact digit_not_blank h
      · decide))
      (fun h => by rcases hhead '-' h with h | h <;> exact absurd h (by decide))
      (fun h => by rcases hhead '+' h with h | h <;> exact absurd h (by decide)), hu]
    simp [value, hn]

/-- What the getter makes of a number. -/
theorem getFloat_of {d : Config} {key : Str} {v : ℚ} (h : Writes (Config.get key d) v) :
    Config.getFloat key d = (do let q ← double.convert v; (single.convert q).map some) := by
  unfold Config.getFloat atof
  rw [number_read h]
  show (do match ← Outcome.map some (double.convert v) with
    | none => pure none
    | some q => (single.convert q).map some) = _
  cases hq : double.convert v <;> rfl

theorem convert_ok {f : Format} {q : ℚ} (h : |f.round q| < 2 ^ f.top) : f.convert q = .ok (f.round q) := by
  rw [Format.convert, if_pos h]

theorem getFloat_ok {d : Config} {key : Str} {v : ℚ} (h : Writes (Config.get key d) v)
    (h1 : |double.round v| < 2 ^ double.top)
    (h2 : |single.round (double.round v)| < 2 ^ single.top) :
    Config.getFloat key d = .ok (some (single.round (double.round v))) := by
  rw [getFloat_of h, convert_ok h1]
  show (single.convert (double.round v)).map some = _
  rw [convert_ok h2]
  rfl

theorem single_double {q : ℚ} (h : single.Digits q) : double.Digits q := by
  obtain ⟨m, e, hm, he, rfl⟩ := h
  refine ⟨m, e, lt_of_lt_of_le hm ?_, ?_, rfl⟩
  · decide
  · simp only [single, double] at he ⊢; omega

/-- The largest number of type `float`. -/
def maxFloat : ℚ := (2 ^ 24 - 1) * 2 ^ 104

theorem maxFloat_digits : single.Digits maxFloat ∧ single.Digits (-maxFloat) := by
  refine ⟨⟨2 ^ 24 - 1, 104, by decide, by decide, ?_⟩, ⟨-(2 ^ 24 - 1), 104, by decide, by decide, ?_⟩⟩ <;>
    norm_num [maxFloat]

theorem double_pos : 0 < double.prec := by decide
theorem single_pos : 0 < single.prec := by decide

theorem round_within {f : Format} (hp : 0 < f.prec) (hd : single.Digits maxFloat → f.Digits maxFloat)
    (hd' : single.Digits (-maxFloat) → f.Digits (-maxFloat)) {v : ℚ} (hv : |v| ≤ maxFloat) :
    |f.round v| ≤ maxFloat := by
  rw [abs_le] at hv ⊢
  have h1 := round_mono f hp hv.1
  have h2 := round_mono f hp hv.2
  rw [round_exact f hp (hd' maxFloat_digits.2)] at h1
  rw [round_exact f hp (hd maxFloat_digits.1)] at h2
  exact ⟨h1, h2⟩

theorem max_lt_single : maxFloat < 2 ^ single.top := by
  show maxFloat < (2 : ℚ) ^ (128 : ℤ)
  norm_num [maxFloat]

theorem max_lt_double : maxFloat < 2 ^ double.top := by
  refine lt_trans max_lt_single ?_
  exact zpow_lt_zpow_right₀ (by norm_num) (by decide)

theorem getFloat_within {d : Config} {key : Str} {v : ℚ} (h : Writes (Config.get key d) v)
    (hv : |v| ≤ maxFloat) :
    |single.round (double.round v)| ≤ maxFloat ∧
      Config.getFloat key d = .ok (some (single.round (double.round v))) := by
  have h1 := round_within double_pos single_double single_double hv
  have h2 := round_within single_pos id id h1
  exact ⟨h2, getFloat_ok h (lt_of_le_of_lt h1 max_lt_double) (lt_of_le_of_lt h2 max_lt_single)⟩

/-- C134: an option that is written as a number of type `float` is read as that number. -/
theorem C134_exact {d : Config} {key : Str} {v : ℚ} (h : Writes (Config.get key d) v)
    (hv : single.Has v) : Config.getFloat key d = .ok (some v) := by
  have e1 := round_exact double double_pos (single_double hv.1)
  have e2 := round_exact single single_pos hv.1
  have hlt : |v| < 2 ^ double.top :=
    lt_trans hv.2 (zpow_lt_zpow_right₀ (by norm_num) (by decide))
  have := getFloat_ok h (by rw [e1]; exact hlt) (by rw [e1, e2]; exact hv.2)
  rwa [e1, e2] at this

/-- C134 in numbers: a `float` is `m * 2 ^ e` with less than 25 bits in `m` and `-149 ≤ e`, below
`2 ^ 128`. An option written as such a number is read as it, and nothing else is read. -/
theorem C134_values {d : Config} {key : Str} :
    (∀ m e : ℤ, |m| < 2 ^ 24 → -149 ≤ e → |(m : ℚ) * 2 ^ e| < 2 ^ 128 →
      Writes (Config.get key d) (m * 2 ^ e) → Config.getFloat key d = .ok (some (m * 2 ^ e))) ∧
    (∀ r, Config.getFloat key d = .ok (some r) →
      ∃ m e : ℤ, |m| < 2 ^ 24 ∧ -149 ≤ e ∧ r = m * 2 ^ e ∧ |r| < 2 ^ 128) := by
  have e128 : (2 : ℚ) ^ (128 : ℤ) = 2 ^ 128 := by norm_num
  constructor
  · intro m e hm he hlt h
    exact C134_exact h ⟨⟨m, e, hm, he, rfl⟩, by rw [show single.top = 128 from rfl, e128]; exact hlt⟩
  · intro r hr
    unfold Config.getFloat at hr
    cases ha : atof (Config.get key d) with
    | ok o =>
      rw [ha] at hr
      cases o with
      | none => cases hr
      | some q =>
        change (single.convert q).map some = _ at hr
        unfold Format.convert at hr
        split at hr
        · rename_i hlt
          simp only [Outcome.map_ok, Outcome.ok.injEq, Option.some.injEq] at hr
          subst hr
          obtain ⟨m, e, h1, h2, h3⟩ := round_digits single single_pos q
          refine ⟨m, e, h1, h2, h3, ?_⟩
          rw [show single.top = 128 from rfl, e128] at hlt
          exact hlt
        · cases hr
    | throw x => rw [ha] at hr; cases hr
    | ub x => rw [ha] at hr; cases hr

/-- C134: an option that is written as a number not above the largest `float` is read as a `float`;
no other `float` lies between the two; the one is nearest to the other if the number has no more digits
than a `double`. Missing from the property: it need not be nearest otherwise (`C134_fails`). -/
theorem C134_nearest_partial {d : Config} {key : Str} {v : ℚ} (h : Writes (Config.get key d) v)
    (hv : |v| ≤ maxFloat) :
    ∃ r, Config.getFloat key d = .ok (some r) ∧ single.Has r ∧
      (∀ z, single.Digits z → z ≤ v → z ≤ r) ∧ (∀ z, single.Digits z → v ≤ z → r ≤ z) ∧
      (double.Digits v → single.Nearest v r) := by
  obtain ⟨h2, he⟩ := getFloat_within h hv
  refine ⟨_, he, ⟨round_digits _ single_pos _, lt_of_le_of_lt h2 max_lt_single⟩, ?_, ?_, ?_⟩
  · intro z hz hzv
    have := round_mono single single_pos (round_mono double double_pos hzv)
    rwa [round_exact double double_pos (single_double hz), round_exact single single_pos hz] at this
  · intro z hz hzv
    have := round_mono single single_pos (round_mono double double_pos hzv)
    rwa [round_exact double double_pos (single_double hz), round_exact single single_pos hz] at this
  · intro hd
    rw [round_exact double double_pos hd]
    exact round_nearest single single_pos v

/-- C134: reading keeps the order of the numbers. -/
theorem C134_monotone {d d' : Config} {key key' : Str} {v w r s : ℚ}
    (h : Writes (Config.get key d) v) (h' : Writes (Config.get key' d') w) (hle : v ≤ w)
    (hr : Config.getFloat key d = .ok (some r)) (hs : Config.getFloat key' d' = .ok (some s)) : r ≤ s := by
  have key : ∀ {d : Config} {key : Str} {v r : ℚ}, Writes (Config.get key d) v →
      Config.getFloat key d = .ok (some r) → r = single.round (double.round v) := by
    intro d key v r h hr
    rw [getFloat_of h] at hr
    unfold Format.convert at hr
    split at hr
    · change (if |single.round (double.round v)| < 2 ^ single.top then _ else _ : Outcome ℚ).map some = _ at hr
      split at hr
      · simp only [Outcome.map_ok, Outcome.ok.injEq, Option.some.injEq] at hr
        exact hr.symm
      · cases hr
    · cases hr
  rw [key h hr, key h' hs]
  exact round_mono single single_pos (round_mono double double_pos hle)

example (r s : ℚ)
    (hr : Config.getFloat c!"a" (ConfigSt.set c!"a" c!"0.1" { locked := false, data := [] }).2.data = .ok (some r))
    (hs : Config.getFloat c!"a" (ConfigSt.set c!"a" c!"0.3" { locked := false, data := [] }).2.data = .ok (some s)) :
    r ≤ s :=
  C134_monotone (v := 1 / 10) (w := 3 / 10)
    ⟨[], ⟨false, [0], [1], none⟩, [], by simp, by decide, by simp, by decide +kernel, by decide +kernel⟩
    ⟨[], ⟨false, [0], [3], none⟩, [], by simp, by decide, by simp, by decide +kernel, by decide +kernel⟩
    (by norm_num) hr hs

/-- C134: reading a number of 2 ^ 128 or more is undefined. -/
theorem C134_overflow {d : Config} {key : Str} {v : ℚ} (h : Writes (Config.get key d) v)
    (hv : 2 ^ 128 ≤ |v|) : Config.getFloat key d = .ub .overflow := by
  rw [getFloat_of h]
  unfold Format.convert
  split
  · change (if |single.round (double.round v)| < 2 ^ single.top then _ else _ : Outcome ℚ).map some = _
    have hd : single.Digits (2 ^ 128) := ⟨1, 128, by decide, by decide, by norm_num⟩
    have hd' : single.Digits (-2 ^ 128) := ⟨-1, 128, by decide, by decide, by norm_num⟩
    rw [if_neg]
    · rfl
    · rw [not_lt]
      show (2 : ℚ) ^ (128 : ℤ) ≤ _
      have e : (2 : ℚ) ^ (128 : ℤ) = 2 ^ 128 := by norm_num
      rw [e]
      rcases le_abs.mp hv with h1 | h1
      · have := round_mono single single_pos (round_mono double double_pos h1)
        rw [round_exact double double_pos (single_double hd), round_exact single single_pos hd] at this
        exact le_trans this (le_abs_self _)
      · have := round_mono single single_pos (round_mono double double_pos (le_neg_of_le_neg h1))
        rw [round_exact double double_pos (single_double hd'), round_exact single single_pos hd'] at this
        exact le_trans (le_neg_of_le_neg this) (neg_le_abs _)
  · rfl

/-- C134: a text that does not begin like a number, and an option that is not there, are read as 0. -/
theorem C134_none {d : Config} {key blanks rest : Str} (hb : ∀ c ∈ blanks, Space c)
    (h : Config.get key d = blanks ++ rest)
    (hr : ∀ c, rest.head? = some c → ¬ Space c ∧ c.isDigit = false ∧ c ∉ c!"+-.iInN") :
    Config.getFloat key d = .ok (some 0) := by
  have hdrop : (blanks ++ rest).dropWhile isBlank = rest := by
    rw [List.dropWhile_append_of_pos fun c h => space_iff.mp (hb c h)]
    cases rest with
    | nil => rfl
    | cons c w => simp [not_space_iff.mp (hr c rfl).1]
  have hnum : numberAt (Config.get key d) = some 0 := by
    rw [h, numberAt_unsigned hdrop (fun h => (hr _ h).2.2 (by decide)) (fun h => (hr _ h).2.2 (by decide))]
    obtain ⟨h1, h2⟩ := takeWhile_app (a := []) (rest := rest) (by simp) (fun c hc => (hr c hc).2.1)
    rw [List.nil_append] at h1 h2
    unfold unsignedNum
    simp only [h1, h2, fractionOf_none fun h => (hr _ h).2.2 (by decide)]
    rw [if_pos (by simp), if_neg]
    simp only [List.mem_cons, List.not_mem_nil, or_false]
    rintro (h | h | h | h) <;> exact (hr _ h).2.2 (by decide)
  have hz : ∀ f : Format, 0 < f.prec → f.round 0 = 0 := fun f hp =>
    round_exact f hp ⟨0, f.emin, by simp, le_refl _, by simp⟩
  have hc : ∀ f : Format, 0 < f.prec → f.convert 0 = .ok 0 := fun f hp => by
    rw [convert_ok (by rw [hz f hp, abs_zero]; exact two_zpow_pos _), hz f hp]
  unfold Config.getFloat atof
  rw [hnum]
  show (do match ← Outcome.map some (double.convert 0) with
    | none => pure none
    | some q => (single.convert q).map some) = _
  rw [hc double double_pos]
  show (single.convert 0).map some = _
  rw [hc single single_pos]
  rfl

/-- The text 1.0000000596046447753906251, just above the middle of two numbers of type `float`. -/
def aboveMiddle : Numeral :=
  ⟨false, [1], [0,0,0,0,0,0,0,5,9,6,0,4,6,4,4,7,7,5,3,9,0,6,2,5,1], none⟩

/-- C134 fails for nearest numbers: the text is first rounded to `double`, then to `float`, and a number
just above the middle of two is read as the lower one. -/
theorem C134_fails : ∃ (d : Config) (key : Str) (v r : ℚ), Writes (Config.get key d) v ∧
    |v| ≤ maxFloat ∧ Config.getFloat key d = .ok (some r) ∧ ¬ single.Nearest v r := by
  refine ⟨(ConfigSt.set c!"a" aboveMiddle.text { locked := false, data := [] }).2.data, c!"a",
    aboveMiddle.value, 1, ?_, by decide +kernel, by decide +kernel, ?_⟩
  · rw [(C55_roundTrip_partial { locked := false, data := [] } rfl (key := c!"a") (by decide) (by decide)
      aboveMiddle.text).2.2]
    exact ⟨[], aboveMiddle, [], by simp, by decide, by simp, by simp, rfl⟩
  · rintro ⟨_, h⟩
    have := h (1 + 1 / 2 ^ 23) ⟨2 ^ 23 + 1, -23, by decide, by decide, by norm_num⟩
    revert this
    decide +kernel

/-- Non-vacuity: options with numbers, and with other texts. -/
example : ∃ d : Config,
    Config.getFloat c!"a" d = .ok (some (-5 / 4)) ∧ Config.getFloat c!"b" d = .ok (some 300) ∧
    Config.getFloat c!"c" d = .ub .overflow ∧ Config.getFloat c!"d" d = .ok (some 0) ∧
    Config.getFloat c!"e" d = .ok (some 0) := by
  let s0 : ConfigSt := { locked := false, data := [] }
  refine ⟨(ConfigSt.set c!"d" c!"yes" (ConfigSt.set c!"c" c!"1e39" (ConfigSt.set c!"b" c!"3e2 m"
    (ConfigSt.set c!"a" c!" -1.25" s0).2).2).2).2.data, ?_, ?_, ?_, ?_, ?_⟩
  · refine C134_exact (v := -5 / 4) ⟨c!" ", ⟨true, [1], [2, 5], none⟩, [], by decide, by decide, by simp,
      by decide +kernel, by decide +kernel⟩ ⟨⟨-5, -2, by decide, by decide, by norm_num⟩, by decide +kernel⟩
  · refine C134_exact (v := 300) ⟨[], ⟨false, [3], [], some 2⟩, c!" m", by simp, by decide, ?_,
      by decide +kernel, by decide +kernel⟩ ⟨⟨300, 0, by decide, by decide, by norm_num⟩, by decide +kernel⟩
    intro c hc; cases hc; decide
  · exact C134_overflow (v := 10 ^ 39) ⟨[], ⟨false, [1], [], some 39⟩, [], by simp, by decide, by simp,
      by decide +kernel, by decide +kernel⟩ (by decide +kernel)
  · refine C134_none (blanks := []) (rest := c!"yes") (by simp) (by decide +kernel) ?_
    intro c hc; cases hc; decide
  · exact C134_none (blanks := []) (rest := []) (by simp) (by decide +kernel) (by simp)

example : ∃ r, Config.getFloat c!"a" (ConfigSt.set c!"a" c!"0.1" { locked := false, data := [] }).2.data =
    .ok (some r) ∧ single.Has r := by
  obtain ⟨r, h, hr, _⟩ := C134_nearest_partial (v := 1 / 10) (key := c!"a")
    (d := (ConfigSt.set c!"a" c!"0.1" { locked := false, data := [] }).2.data)
    ⟨[], ⟨false, [0], [1], none⟩, [], by simp, by decide, by simp, by decide +kernel, by decide +kernel⟩
    (by decide +kernel)
  exact ⟨r, h, hr⟩

end ConfigProps
end Casbin
