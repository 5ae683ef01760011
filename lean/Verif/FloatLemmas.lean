import Verif.Floats
import Verif.Props.Getters
import Mathlib.Tactic.Linarith
import Mathlib.Tactic.Ring
import Mathlib.Tactic.FieldSimp
import Mathlib.Tactic.NormNum

/-!
# Floating point numbers: specification and lemmas
-/

namespace Casbin

/-- The rational has at most `prec` binary digits and is a multiple of `2 ^ emin`: it is a number of
the format, with no limit to the exponent. -/
def Format.Digits (f : Format) (q : ℚ) : Prop :=
  ∃ (m : ℤ) (e : ℤ), |m| < 2 ^ f.prec ∧ f.emin ≤ e ∧ q = m * 2 ^ e

/-- A number of the format. -/
def Format.Has (f : Format) (q : ℚ) : Prop := f.Digits q ∧ |q| < 2 ^ f.top

/-- `y` is a nearest number of the format to `q`. -/
def Format.Nearest (f : Format) (q y : ℚ) : Prop := f.Digits y ∧ ∀ z, f.Digits z → |y - q| ≤ |z - q|

theorem nearestEven_le (x : ℚ) : |(nearestEven x : ℚ) - x| ≤ 1 / 2 := by
  have h1 := Int.floor_le x
  have h2 := Int.lt_floor_add_one x
  unfold nearestEven
  rw [abs_le]
  split
  · constructor <;> linarith
  · split
    · push_cast; constructor <;> linarith
    · split
      · constructor <;> linarith
      · push_cast; constructor <;> linarith

/-- No integer is nearer. -/
theorem nearestEven_nearest (x : ℚ) (n : ℤ) : |(nearestEven x : ℚ) - x| ≤ |(n : ℚ) - x| := by
  by_cases h : nearestEven x = n
  · rw [h]
  · have h1 := nearestEven_le x
    have h2 : 1 ≤ |((nearestEven x - n : ℤ) : ℚ)| := by
      rw [← Int.cast_abs]
      exact_mod_cast Int.one_le_abs (sub_ne_zero.mpr h)
    push_cast at h2
    have h3 : |(nearestEven x : ℚ) - n| ≤ |(nearestEven x : ℚ) - x| + |(n : ℚ) - x| := by
      rw [abs_sub_comm (n : ℚ) x]
      exact abs_sub_le _ _ _
    linarith

theorem two_zpow_pos (e : ℤ) : (0 : ℚ) < 2 ^ e := zpow_pos (by norm_num) e

theorem round_sub (f : Format) (q : ℚ) :
    |f.round q - q| = |(nearestEven (q / 2 ^ f.unit q) : ℚ) - q / 2 ^ f.unit q| * 2 ^ f.unit q := by
  have h := two_zpow_pos (f.unit q)
  rw [← abs_of_pos h, ← abs_mul, sub_mul, abs_of_pos h, div_mul_cancel₀ _ (ne_of_gt h)]
  rfl

/-- No multiple of the unit is nearer. -/
theorem round_multiple (f : Format) (q : ℚ) (n : ℤ) :
    |f.round q - q| ≤ |n * 2 ^ f.unit q - q| := by
  have h := two_zpow_pos (f.unit q)
  rw [round_sub]
  have e : |(n : ℚ) * 2 ^ f.unit q - q| = |(n : ℚ) - q / 2 ^ f.unit q| * 2 ^ f.unit q := by
    rw [← abs_of_pos h, ← abs_mul, sub_mul, abs_of_pos h, div_mul_cancel₀ _ (ne_of_gt h)]
  rw [e]
  exact mul_le_mul_of_nonneg_right (nearestEven_nearest _ n) h.le

theorem abs_lt_unit (f : Format) (q : ℚ) : |q| < 2 ^ f.prec * 2 ^ f.unit q := by
  have h1 : |q| < 2 ^ (Int.log 2 |q| + 1) := by exact_mod_cast Int.lt_zpow_succ_log_self (by decide) |q|
  refine lt_of_lt_of_le h1 ?_
  rw [← zpow_natCast, ← zpow_add₀ (by norm_num)]
  apply zpow_le_zpow_right₀ (by norm_num)
  have := le_max_left (Int.log 2 |q| - (f.prec - 1 : ℤ)) f.emin
  unfold Format.unit
  omega

/-- What is rounded to is in the format. -/
theorem round_digits (f : Format) (hp : 0 < f.prec) (q : ℚ) : f.Digits (f.round q) := by
  have hu := two_zpow_pos (f.unit q)
  have hemin : f.emin ≤ f.unit q := le_max_right _ _
  set x := q / 2 ^ f.unit q with hx
  set m := nearestEven x with hm
  have h1 : |x| < 2 ^ f.prec := by
    rw [hx, abs_div, abs_of_pos hu, div_lt_iff₀ hu]
    exact abs_lt_unit f q
  have h2 : |m| ≤ 2 ^ f.prec := by
    have ha := nearestEven_nearest x (2 ^ f.prec)
    have hb := nearestEven_nearest x (-2 ^ f.prec)
    rw [← hm] at ha hb
    push_cast at ha hb
    rw [abs_lt] at h1
    rw [abs_le]
    constructor
    · by_contra hlt
      rw [not_le] at hlt
      have hq : (m : ℚ) < -2 ^ f.prec := by exact_mod_cast hlt
      rw [abs_of_neg (by linarith), abs_of_neg (by linarith)] at hb
      linarith
    · by_contra hlt
      rw [not_le] at hlt
      have hq : (2 : ℚ) ^ f.prec < m := by exact_mod_cast hlt
      rw [abs_of_pos (by linarith), abs_of_pos (by linarith)] at ha
      linarith
  rcases lt_or_eq_of_le h2 with h3 | h3
  · exact ⟨m, f.unit q, h3, hemin, rfl⟩
  · obtain ⟨k, hk⟩ : ∃ k, f.prec = k + 1 := ⟨f.prec - 1, by omega⟩
    have hr : f.round q = m * 2 ^ f.unit q := rfl
    have hpow : (2 : ℤ) ^ k < 2 ^ f.prec := by rw [hk, pow_succ]; have := pow_pos (a := (2 : ℤ)) (by decide) k; omega
    rcases abs_eq (by positivity) |>.mp h3 with h4 | h4
    · refine ⟨2 ^ k, f.unit q + 1, ?_, by omega, ?_⟩
      · rwa [abs_of_pos (by positivity)]
      · rw [hr, h4, hk, zpow_add_one₀ (by norm_num), pow_succ]; push_cast; ring
    · refine ⟨-2 ^ k, f.unit q + 1, ?_, by omega, ?_⟩
      · rwa [abs_neg, abs_of_pos (by positivity)]
      · rw [hr, h4, hk, zpow_add_one₀ (by norm_num), pow_succ]; push_cast; ring

/-- Nothing in the format is nearer. -/
theorem round_nearest (f : Format) (hp : 0 < f.prec) (q : ℚ) : f.Nearest q (f.round q) := by
  refine ⟨round_digits f hp q, ?_⟩
  rintro z ⟨m, e, hm, he, rfl⟩
  by_cases hle : f.unit q ≤ e
  · obtain ⟨k, hk⟩ : ∃ k : ℕ, e = f.unit q + k := ⟨(e - f.unit q).toNat, by omega⟩
    have := round_multiple f q (m * 2 ^ k)
    rw [hk, zpow_add₀ (by norm_num), zpow_natCast]
    push_cast at this
    rwa [mul_assoc, mul_comm ((2 : ℚ) ^ k)] at this
  · rw [not_le] at hle
    -- the unit is that of the leading bit of `q`
    have hu : f.unit q = Int.log 2 |q| - (f.prec - 1) := by
      unfold Format.unit at hle ⊢
      rcases le_total (Int.log 2 |q| - (f.prec - 1 : ℤ)) f.emin with h | h
      · rw [max_eq_right h] at hle; omega
      · exact max_eq_left h
    by_cases hq0 : q = 0
    · subst hq0
      have := round_multiple f 0 0
      simp only [Int.cast_zero, zero_mul, sub_zero, abs_zero] at this
      have h0 : f.round 0 = 0 := abs_nonpos_iff.mp this
      rw [h0, sub_self, abs_zero]; exact abs_nonneg _
    have hpos : 0 < |q| := abs_pos.mpr hq0
    -- the number `2 ^ (prec - 1)` units, with the sign of `q`, lies between
    have hlow : (2 : ℚ) ^ (f.prec - 1) * 2 ^ f.unit q ≤ |q| := by
      have : (2 : ℚ) ^ Int.log 2 |q| ≤ |q| := by exact_mod_cast Int.zpow_log_le_self (by decide) hpos
      refine le_trans (le_of_eq ?_) this
      rw [← zpow_natCast, ← zpow_add₀ (by norm_num)]
      congr 1
      omega
    have hz : |(m : ℚ) * 2 ^ e| ≤ 2 ^ (f.prec - 1) * 2 ^ f.unit q := by
      rw [abs_mul, abs_of_pos (two_zpow_pos e)]
      have h1 : |(m : ℚ)| ≤ 2 ^ f.prec := by
        rw [← Int.cast_abs]; exact_mod_cast hm.le
      refine le_trans (mul_le_mul_of_nonneg_right h1 (two_zpow_pos e).le) ?_
      rw [← zpow_natCast, ← zpow_natCast, ← zpow_add₀ (by norm_num), ← zpow_add₀ (by norm_num)]
      apply zpow_le_zpow_right₀ (by norm_num)
      omega
    rcases lt_or_gt_of_ne hq0 with hneg | hpos'
    · have := round_multiple f q (-2 ^ (f.prec - 1))
      push_cast at this
      refine le_trans this ?_
      rw [abs_of_neg hneg] at hlow
      rw [abs_le] at hz
      rw [abs_of_nonneg (by linarith), abs_of_nonneg (by linarith)]
      linarith
    · have := round_multiple f q (2 ^ (f.prec - 1))
      push_cast at this
      refine le_trans this ?_
      rw [abs_of_pos hpos'] at hlow
      rw [abs_le] at hz
      rw [abs_of_nonpos (by linarith), abs_of_nonpos (by linarith)]
      linarith

/-- Numbers of the format are kept. -/
theorem round_exact (f : Format) (hp : 0 < f.prec) {q : ℚ} (h : f.Digits q) : f.round q = q := by
  have := (round_nearest f hp q).2 q h
  rw [sub_self, abs_zero] at this
  exact sub_eq_zero.mp (abs_nonpos_iff.mp this)

/-- Rounding keeps the order. -/
theorem round_mono (f : Format) (hp : 0 < f.prec) {q r : ℚ} (h : q ≤ r) : f.round q ≤ f.round r := by
  by_contra hlt
  rw [not_le] at hlt
  have h1 := (round_nearest f hp q).2 _ (round_digits f hp r)
  have h2 := (round_nearest f hp r).2 _ (round_digits f hp q)
  have a1 : f.round r + f.round q ≤ 2 * q := by
    by_contra hc
    rw [not_le] at hc
    have : |f.round r - q| < |f.round q - q| := by
      rw [abs_lt]
      rw [abs_of_pos (show 0 < f.round q - q by linarith)]
      constructor <;> linarith
    linarith
  have a2 : 2 * r ≤ f.round r + f.round q := by
    by_contra hc
    rw [not_le] at hc
    have : |f.round q - r| < |f.round r - r| := by
      rw [abs_lt]
      rw [abs_of_neg (show f.round r - r < 0 by linarith)]
      constructor <;> linarith
    linarith
  have : q = r := by linarith
  rw [this] at hlt
  exact lt_irrefl _ hlt

end Casbin
