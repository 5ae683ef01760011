import Verif.Builtins
import Mathlib.Tactic.IntervalCases
import Mathlib.Tactic.Ring
import Mathlib.Data.Nat.Bitwise

/-!
# Texts of addresses and numbers, and the lemmas behind `Verif.Props.Builtins`
-/

namespace Casbin

/-! ## Specification -/

/-- The number a text of decimal digits stands for. -/
def decValue (s : Str) : Nat := s.foldl (fun n c => n * 10 + (c.toNat - '0'.toNat)) 0

/-- `s` is a non-empty text of decimal digits that stands for `n`. -/
def IsDecimal (s : Str) (n : Nat) : Prop :=
  s ≠ [] ∧ (∀ c ∈ s, '0' ≤ c ∧ c ≤ '9') ∧ decValue s = n

/-- `s` is the dotted text of the IPv4 address `a.b.c.d`. -/
def IsV4 (s : Str) (a b c d : Nat) : Prop :=
  ∃ s₁ s₂ s₃ s₄, s = s₁ ++ '.' :: s₂ ++ '.' :: s₃ ++ '.' :: s₄ ∧
    IsDecimal s₁ a ∧ IsDecimal s₂ b ∧ IsDecimal s₃ c ∧ IsDecimal s₄ d ∧
    a < 256 ∧ b < 256 ∧ c < 256 ∧ d < 256

/-- The 32 bit number of an IPv4 address. -/
def v4Value (a b c d : Nat) : Nat := a * 2 ^ 24 + b * 2 ^ 16 + c * 2 ^ 8 + d

/-! ## One character in a text -/

theorem findSub_single {x : Char} {a b : Str} (h : x ∉ a) :
    findSub [x] (a ++ x :: b) = some a.length := by
  induction a with
  | nil => simp [findSub, List.isPrefixOf]
  | cons c a ih =>
    simp only [List.mem_cons, not_or] at h
    simp only [List.cons_append, findSub]
    rw [if_neg (by simp [List.isPrefixOf, h.1]), ih h.2]
    simp

theorem findSub_single_none {x : Char} {s : Str} : findSub [x] s = none ↔ x ∉ s := by
  induction s with
  | nil => simp [findSub]
  | cons c s ih =>
    simp only [findSub, List.isPrefixOf, Bool.and_true, beq_iff_eq, List.mem_cons, not_or]
    split
    · simp_all
    · simp [ih]; intro _; assumption

theorem findSub_single_some {x : Char} {s : Str} {i : Nat} (h : findSub [x] s = some i) :
    s = s.take i ++ x :: s.drop (i + 1) ∧ x ∉ s.take i ∧ i < s.length := by
  induction s generalizing i with
  | nil => simp [findSub] at h
  | cons c s ih =>
    simp only [findSub, List.isPrefixOf, Bool.and_true, beq_iff_eq] at h
    split at h
    · rename_i hx
      simp only [Option.some.injEq] at h
      subst h
      simp [hx]
    · rename_i hx
      obtain ⟨j, hj, rfl⟩ := Option.map_eq_some_iff.mp h
      obtain ⟨h₁, h₂, h₃⟩ := ih hj
      refine ⟨?_, ?_, by simpa using h₃⟩
      · simp only [List.take_succ_cons, List.drop_succ_cons, List.cons_append]
        exact congrArg (c :: ·) h₁
      · simp only [List.take_succ_cons, List.mem_cons, not_or]
        exact ⟨hx, h₂⟩

/-! ## `KeyMatch` and `KeyGet` -/

theorem keyMatch_iff (k pat : Str) :
    keyMatch k pat = true ↔
      ('*' ∉ pat ∧ k = pat) ∨ ∃ pre post, pat = pre ++ '*' :: post ∧ '*' ∉ pre ∧ pre <+: k := by
  unfold keyMatch
  cases h : findSub c!"*" pat with
  | none =>
    have hn := findSub_single_none.mp h
    simp only [decide_eq_true_eq]
    constructor
    · exact fun he => .inl ⟨hn, he⟩
    · rintro (⟨_, he⟩ | ⟨pre, post, rfl, _, _⟩)
      · exact he
      · exact absurd (by simp) hn
  | some pos =>
    obtain ⟨he, hp, hl⟩ := findSub_single_some h
    have hmem : '*' ∈ pat := by rw [he]; simp
    have key : (∃ pre post, pat = pre ++ '*' :: post ∧ '*' ∉ pre ∧ pre <+: k) ↔
        pat.take pos <+: k := by
      constructor
      · rintro ⟨pre, post, rfl, hpre, hk⟩
        have := findSub_single (b := post) hpre
        rw [show c!"*" = ['*'] from rfl, this] at h
        simp only [Option.some.injEq] at h
        subst h
        simpa using hk
      · exact fun hk => ⟨_, _, he, hp, hk⟩
    rw [key]
    simp only [hmem, not_true_eq_false, false_and, false_or]
    have hlt : (pat.take pos).length = pos := by simp; omega
    split
    · rename_i hlen
      rw [decide_eq_true_iff, List.prefix_iff_eq_take, hlt]
      exact ⟨fun h => h.symm, fun h => h.symm⟩
    · rename_i hlen
      rw [decide_eq_true_iff]
      constructor
      · rintro h; rw [h]; exact List.prefix_refl _
      · intro h
        exact (h.eq_of_length (by have := h.length_le; omega)).symm

theorem keyGet_spec (k pat : Str) :
    (∀ pre post rest, pat = pre ++ '*' :: post → '*' ∉ pre → k = pre ++ rest → keyGet k pat = rest) ∧
    ((¬ ∃ pre post, pat = pre ++ '*' :: post ∧ '*' ∉ pre ∧ pre <+: k) → keyGet k pat = []) := by
  unfold keyGet
  constructor
  · rintro pre post rest rfl hpre rfl
    have := findSub_single (b := post) hpre
    rw [show c!"*" = ['*'] from rfl, this]
    simp only [List.length_append]
    split
    · simp
    · rename_i h
      have : rest.length = 0 := by omega
      exact (List.length_eq_zero_iff.mp this).symm
  · intro hno
    cases h : findSub c!"*" pat with
    | none => rfl
    | some pos =>
      obtain ⟨he, hp, hl⟩ := findSub_single_some h
      simp only
      split
      · rw [if_neg]
        intro hk
        exact hno ⟨_, _, he, hp, by rw [← hk]; exact List.take_prefix _ _⟩
      · rfl

/-! ## Decimal numbers -/

theorem decFold_ge (s : Str) (n : Nat) :
    n ≤ s.foldl (fun n c => n * 10 + (c.toNat - '0'.toNat)) n := by
  induction s generalizing n with
  | nil => simp
  | cons c s ih =>
    simp only [List.foldl_cons]
    exact le_trans (by omega) (ih _)

theorem isDec_iff (c : Char) : isDec c = true ↔ '0' ≤ c ∧ c ≤ '9' := by simp [isDec]

/-- `dtoi` reads the digits at the start. -/
theorem dtoiFrom_digits (s rest : Str) (n i : Nat) (hs : ∀ c ∈ s, '0' ≤ c ∧ c ≤ '9')
    (hr : ∀ c ∈ rest.head?, isDec c = false)
    (hb : s.foldl (fun n c => n * 10 + (c.toNat - '0'.toNat)) n < big) :
    dtoiFrom n i (s ++ rest) =
      (s.foldl (fun n c => n * 10 + (c.toNat - '0'.toNat)) n, i + s.length) := by
  induction s generalizing n i with
  | nil =>
    cases rest with
    | nil => simp [dtoiFrom]
    | cons c r => simp [dtoiFrom, hr c (by simp)]
  | cons c s ih =>
    simp only [List.foldl_cons] at hb ⊢
    have hc := (isDec_iff c).mpr (hs c (by simp))
    have hge := decFold_ge s (n * 10 + (c.toNat - '0'.toNat))
    have h48 : (48 : Nat) = '0'.toNat := rfl
    simp only [List.cons_append, dtoiFrom, hc, if_true]
    rw [h48, if_neg (by omega), ih _ _ (fun c h => hs c (by simp [h])) hb]
    simp only [List.length_cons, Prod.mk.injEq, true_and]
    omega

theorem dtoi_decimal {s : Str} {n : Nat} (h : IsDecimal s n) (hn : n < big) {rest : Str}
    (hr : ∀ c ∈ rest.head?, isDec c = false) : dtoi (s ++ rest) = (n, s.length) := by
  obtain ⟨_, hd, hv⟩ := h
  have := dtoiFrom_digits s rest 0 0 hd hr (by rw [← hv] at hn; exact hn)
  simp only [dtoi, this, Nat.zero_add]
  rw [← hv]; rfl

/-- What `dtoi` returns when it does not overflow. -/
theorem dtoiFrom_inv {s : Str} {n i m k : Nat} (h : dtoiFrom n i s = (m, k)) (hm : m < big) :
    i ≤ k ∧ k - i ≤ s.length ∧ (∀ c ∈ s.take (k - i), '0' ≤ c ∧ c ≤ '9') ∧
      (s.take (k - i)).foldl (fun n c => n * 10 + (c.toNat - '0'.toNat)) n = m := by
  induction s generalizing n i with
  | nil =>
    simp only [dtoiFrom, Prod.mk.injEq] at h
    obtain ⟨rfl, rfl⟩ := h
    simp
  | cons c s ih =>
    simp only [dtoiFrom] at h
    split at h
    · rename_i hc
      split at h
      · simp only [Prod.mk.injEq] at h; omega
      · obtain ⟨h₁, h₂, h₃, h₄⟩ := ih h
        have e : k - i = (k - (i + 1)) + 1 := by omega
        refine ⟨by omega, by simp only [List.length_cons]; omega, ?_, ?_⟩
        · rw [e, List.take_succ_cons]
          intro d hd
          rcases List.mem_cons.mp hd with rfl | hd
          · exact (isDec_iff _).mp hc
          · exact h₃ d hd
        · rw [e, List.take_succ_cons, List.foldl_cons]
          exact h₄
    · simp only [Prod.mk.injEq] at h
      obtain ⟨rfl, rfl⟩ := h
      simp

theorem dtoi_inv {s : Str} {m k : Nat} (h : dtoi s = (m, k)) (hm : m < big) (hk : k ≠ 0) :
    k ≤ s.length ∧ IsDecimal (s.take k) m := by
  obtain ⟨_, h₂, h₃, h₄⟩ := dtoiFrom_inv h hm
  simp only [Nat.sub_zero] at h₂ h₃ h₄
  refine ⟨h₂, ?_, h₃, h₄⟩
  intro he
  have := congrArg List.length he
  simp only [List.length_take, List.length_nil] at this
  omega

/-! ## IPv4 addresses -/

theorem octet_decimal {s : Str} {n : Nat} (h : IsDecimal s n) (hn : n < 256) {rest : Str}
    (hr : ∀ c ∈ rest.head?, isDec c = false) : octet (s ++ rest) = some (n, rest) := by
  have hb : n < big := by unfold big; omega
  have := dtoi_decimal h hb hr
  have hl : s.length ≠ 0 := by simp [h.1]
  simp only [octet, this]
  rw [if_neg (by omega)]
  simp

theorem octet_inv {s : Str} {n : Nat} {rest : Str} (h : octet s = some (n, rest)) :
    ∃ t, s = t ++ rest ∧ IsDecimal t n ∧ n < 256 := by
  simp only [octet] at h
  split at h
  · simp at h
  · rename_i hn
    simp only [not_or, Nat.not_le] at hn
    simp only [Option.some.injEq, Prod.mk.injEq] at h
    obtain ⟨h₁, rfl⟩ := h
    obtain ⟨_, hd⟩ := dtoi_inv (s := s) rfl hn.1 hn.2.1
    change IsDecimal (s.take (dtoi s).2) (dtoi s).1 at hd
    rw [h₁] at hd
    exact ⟨_, (List.take_append_drop _ _).symm, hd, by omega⟩

theorem moreOctets_succ_inv {n : Nat} {s : Str} {as : List Nat} {rest : Str}
    (h : moreOctets (n + 1) s = some (as, rest)) :
    ∃ t a s' as', s = '.' :: (t ++ s') ∧ IsDecimal t a ∧ a < 256 ∧ as = a :: as' ∧
      moreOctets n s' = some (as', rest) := by
  cases s with
  | nil => simp [moreOctets] at h
  | cons c s =>
    by_cases hc : c = '.'
    · subst hc
      simp only [moreOctets, Option.bind_eq_bind, Option.pure_def, Option.bind_eq_some_iff,
        Option.some.injEq, Prod.mk.injEq] at h
      obtain ⟨⟨a, s'⟩, h₁, ⟨as', r⟩, h₂, h₃, h₄⟩ := h
      obtain ⟨t, rfl, h₅, h₆⟩ := octet_inv h₁
      subst h₄
      exact ⟨t, a, s', as', rfl, h₅, h₆, h₃.symm, h₂⟩
    · exfalso
      simp [moreOctets, hc] at h

theorem parseIPv4_iff (s : Str) (ip : List Nat) :
    parseIPv4 s = some ip ↔ ∃ a b c d, IsV4 s a b c d ∧ ip = v4Prefix ++ [a, b, c, d] := by
  constructor
  · intro h
    simp only [parseIPv4, Option.bind_eq_bind, Option.pure_def, Option.bind_eq_some_iff] at h
    obtain ⟨⟨a, s'⟩, h₁, ⟨as, r⟩, h₂, h₃⟩ := h
    split at h₃
    · rename_i hr
      simp only at hr h₂
      subst hr
      simp only [Option.some.injEq] at h₃
      obtain ⟨t, rfl, ht, ha⟩ := octet_inv h₁
      obtain ⟨t₂, b, s₂, as₂, rfl, ht₂, hb, rfl, h₂'⟩ := moreOctets_succ_inv h₂
      obtain ⟨t₃, c, s₃, as₃, rfl, ht₃, hc, rfl, h₂''⟩ := moreOctets_succ_inv h₂'
      obtain ⟨t₄, d, s₄, as₄, rfl, ht₄, hd, rfl, h₂'''⟩ := moreOctets_succ_inv h₂''
      simp only [moreOctets, Option.some.injEq, Prod.mk.injEq] at h₂'''
      obtain ⟨rfl, rfl⟩ := h₂'''
      exact ⟨a, b, c, d, ⟨t, t₂, t₃, t₄, by simp, ht, ht₂, ht₃, ht₄, ha, hb, hc, hd⟩, h₃.symm⟩
    · simp at h₃
  · rintro ⟨a, b, c, d, ⟨t₁, t₂, t₃, t₄, rfl, h₁, h₂, h₃, h₄, ha, hb, hc, hd⟩, rfl⟩
    have hdot : isDec '.' = false := rfl
    simp only [parseIPv4, List.append_assoc, List.cons_append]
    rw [octet_decimal h₁ ha (by simp [hdot])]
    simp only [Option.bind_eq_bind, Option.bind_some, moreOctets]
    rw [octet_decimal h₂ hb (by simp [hdot])]
    simp only [Option.bind_some]
    rw [octet_decimal h₃ hc (by simp [hdot])]
    simp only [Option.bind_some]
    rw [show t₄ = t₄ ++ [] by simp, octet_decimal h₄ hd (by simp)]
    simp

theorem isV4_chars {s : Str} {a b c d : Nat} (h : IsV4 s a b c d) :
    ∀ x ∈ s, x = '.' ∨ ('0' ≤ x ∧ x ≤ '9') := by
  obtain ⟨t₁, t₂, t₃, t₄, rfl, h₁, h₂, h₃, h₄, _⟩ := h
  intro x hx
  simp only [List.mem_append, List.mem_cons] at hx
  have := h₁.2.1 x; have := h₂.2.1 x; have := h₃.2.1 x; have := h₄.2.1 x
  tauto

theorem isV4_lt {s : Str} {a b c d : Nat} (h : IsV4 s a b c d) :
    a < 256 ∧ b < 256 ∧ c < 256 ∧ d < 256 := by
  obtain ⟨_, _, _, _, _, _, _, _, _, h⟩ := h
  exact h

theorem find?_append_none {α : Type} {p : α → Bool} {s t : List α} (h : ∀ x ∈ s, p x = false) :
    (s ++ t).find? p = t.find? p := by
  rw [List.find?_append, List.find?_eq_none.mpr (by simpa using h)]
  simp

theorem digit_ne {x y : Char} (h : '0' ≤ x ∧ x ≤ '9') (hy : ¬ ('0' ≤ y ∧ y ≤ '9')) : x ≠ y := by
  rintro rfl; exact hy h

theorem parseIP_v4 {s : Str} {a b c d : Nat} (h : IsV4 s a b c d) :
    parseIP s = some (v4Prefix ++ [a, b, c, d]) := by
  have hp := (parseIPv4_iff s _).mpr ⟨a, b, c, d, h, rfl⟩
  obtain ⟨t₁, t₂, t₃, t₄, rfl, h₁, _⟩ := h
  unfold parseIP
  rw [List.append_assoc, List.append_assoc, find?_append_none]
  · simp only [List.cons_append, List.find?_cons, decide_true, Bool.true_or]
    simpa using hp
  · intro x hx
    have := h₁.2.1 x hx
    simp [digit_ne this (y := '.') (by decide), digit_ne this (y := ':') (by decide)]

theorem to4_v4 (a b c d : Nat) : to4 (v4Prefix ++ [a, b, c, d]) = .ok ([a, b, c, d], true) := by
  simp [to4, v4Prefix]

/-! ## Masks -/

/-- The number with all ones in the low 16 bits but the last `t`. -/
theorem highMask (t : Nat) (ht : t ≤ 16) : 0xFFFF - (2 ^ t - 1) = (2 ^ (16 - t) - 1) <<< t := by
  rw [Nat.shiftLeft_eq, Nat.sub_mul, ← Nat.pow_add, Nat.sub_add_cancel ht]
  have : 2 ^ t ≤ 2 ^ 16 := Nat.pow_le_pow_right (by omega) ht
  have := Nat.two_pow_pos t
  omega

/-- Two numbers of 16 bits agree under a mask exactly when they agree above it. -/
theorem and_highMask {a b t : Nat} (ha : a < 2 ^ 16) (hb : b < 2 ^ 16) (ht : t ≤ 16) :
    a &&& ((2 ^ (16 - t) - 1) <<< t) = b &&& ((2 ^ (16 - t) - 1) <<< t) ↔
      a / 2 ^ t = b / 2 ^ t := by
  have key : ∀ x : Nat, x < 2 ^ 16 → x &&& ((2 ^ (16 - t) - 1) <<< t) = (x / 2 ^ t) <<< t := by
    intro x hx
    apply Nat.eq_of_testBit_eq
    intro i
    rw [Nat.testBit_and, Nat.testBit_shiftLeft, Nat.testBit_shiftLeft, Nat.testBit_two_pow_sub_one,
      Nat.testBit_div_two_pow]
    by_cases hi : t ≤ i
    · rw [Nat.sub_add_cancel hi]
      by_cases h16 : i < 16
      · have : i - t < 16 - t := by omega
        simp [hi, this]
      · have : x.testBit i = false := Nat.testBit_lt_two_pow
          (lt_of_lt_of_le hx (Nat.pow_le_pow_right (by omega) (by omega)))
        simp [this]
    · simp [hi]
  rw [key a ha, key b hb, Nat.shiftLeft_eq, Nat.shiftLeft_eq]
  exact ⟨fun h => Nat.eq_of_mul_eq_mul_right (Nat.two_pow_pos t) h, fun h => by rw [h]⟩

theorem maskByte_eq {n : Nat} (h0 : n ≠ 0) (hn : n < 8) : maskByte n = (2 ^ (16 - (8 - n)) - 1) <<< (8 - n) := by
  interval_cases n <;> first | contradiction | decide

theorem and_255 (a : Nat) : a &&& 255 = a % 256 := Nat.and_two_pow_sub_one_eq_mod a 8

/-- Two bytes agree under a mask exactly when they agree in its ones. -/
theorem maskByte_8 {a b n : Nat} (ha : a < 256) (hb : b < 256) :
    a &&& maskByte n = b &&& maskByte n ↔ a / 2 ^ (8 - n) = b / 2 ^ (8 - n) := by
  by_cases hn : n ≥ 8
  · have : 8 - n = 0 := by omega
    simp only [maskByte, hn, if_true, this, Nat.pow_zero, Nat.div_one]
    rw [show (0xff : Nat) = 255 from rfl, and_255, and_255, Nat.mod_eq_of_lt ha, Nat.mod_eq_of_lt hb]
  · by_cases h0 : n = 0
    · subst h0
      simp [maskByte, Nat.div_eq_of_lt ha, Nat.div_eq_of_lt hb]
    · rw [maskByte_eq h0 (by omega), and_highMask (by omega) (by omega) (by omega)]

theorem and_self_right (a m : Nat) : (a &&& m) &&& m = a &&& m := by
  rw [Nat.and_assoc, Nat.and_self]

/-- Equal leading digits of two numbers: `d` and `e` lead, `x` and `y` follow in `k` bits. -/
theorem lead_eq {d e x y w k n : Nat} (hx : x < 2 ^ k) (hy : y < 2 ^ k) (hn : n ≤ w + k) :
    (d * 2 ^ k + x) / 2 ^ (w + k - n) = (e * 2 ^ k + y) / 2 ^ (w + k - n) ↔
      d / 2 ^ (w - n) = e / 2 ^ (w - n) ∧ x / 2 ^ (k - (n - w)) = y / 2 ^ (k - (n - w)) := by
  by_cases hw : n ≤ w
  · have e1 : w + k - n = k + (w - n) := by omega
    have e2 : n - w = 0 := by omega
    rw [e1, Nat.pow_add, ← Nat.div_div_eq_div_mul, ← Nat.div_div_eq_div_mul, e2, Nat.sub_zero,
      Nat.div_eq_of_lt hx, Nat.div_eq_of_lt hy, Nat.add_comm, Nat.add_mul_div_right _ _ (Nat.two_pow_pos k),
      Nat.add_comm (e * _), Nat.add_mul_div_right _ _ (Nat.two_pow_pos k),
      Nat.div_eq_of_lt hx, Nat.div_eq_of_lt hy]
    simp
  · have e1 : w + k - n = k - (n - w) := by omega
    have e2 : w - n = 0 := by omega
    rw [e1, e2]
    obtain ⟨t, ht⟩ : ∃ t, t = k - (n - w) := ⟨_, rfl⟩
    rw [← ht]
    have hk : k = (k - t) + t := by omega
    have hlt : ∀ z, z < 2 ^ k → z / 2 ^ t < 2 ^ (k - t) := by
      intro z hz
      rw [Nat.div_lt_iff_lt_mul (Nat.two_pow_pos t), ← Nat.pow_add, ← hk]
      exact hz
    have hdiv : ∀ u z, (u * 2 ^ k + z) / 2 ^ t = u * 2 ^ (k - t) + z / 2 ^ t := by
      intro u z
      have : u * 2 ^ k = u * 2 ^ (k - t) * 2 ^ t := by rw [Nat.mul_assoc, ← Nat.pow_add, ← hk]
      rw [this, Nat.add_comm, Nat.add_mul_div_right _ _ (Nat.two_pow_pos t), Nat.add_comm]
    rw [hdiv, hdiv]
    simp only [Nat.pow_zero, Nat.div_one]
    have hx' := hlt x hx
    have hy' := hlt y hy
    generalize x / 2 ^ t = p at *
    generalize y / 2 ^ t = q at *
    generalize 2 ^ (k - t) = B at *
    constructor
    · intro h
      have h1 : (d * B + p) / B = (e * B + q) / B := by rw [h]
      have h2 : (d * B + p) % B = (e * B + q) % B := by rw [h]
      have hB : 0 < B := by omega
      rw [Nat.add_comm, Nat.add_mul_div_right _ _ hB, Nat.add_comm (e * B), Nat.add_mul_div_right _ _ hB,
        Nat.div_eq_of_lt hx', Nat.div_eq_of_lt hy'] at h1
      rw [Nat.mul_comm, Nat.mul_add_mod, Nat.mul_comm, Nat.mul_add_mod, Nat.mod_eq_of_lt hx',
        Nat.mod_eq_of_lt hy'] at h2
      omega
    · rintro ⟨rfl, rfl⟩; rfl

/-- The number with the given digits. -/
def digits (w : Nat) : List Nat → Nat
  | [] => 0
  | d :: ds => d * 2 ^ (w * ds.length) + digits w ds

theorem digits_lt {w : Nat} {ds : List Nat} (h : ∀ d ∈ ds, d < 2 ^ w) : digits w ds < 2 ^ (w * ds.length) := by
  induction ds with
  | nil => simp [digits]
  | cons d ds ih =>
    simp only [digits, List.length_cons]
    have h1 := h d (by simp)
    have h2 := ih (fun x hx => h x (by simp [hx]))
    calc d * 2 ^ (w * ds.length) + digits w ds < d * 2 ^ (w * ds.length) + 2 ^ (w * ds.length) := by omega
      _ = (d + 1) * 2 ^ (w * ds.length) := by ring
      _ ≤ 2 ^ w * 2 ^ (w * ds.length) := Nat.mul_le_mul_right _ h1
      _ = 2 ^ (w * (ds.length + 1)) := by rw [← Nat.pow_add]; congr 1; ring

/-- The comparison loop on bytes: the first `n` bits agree. -/
theorem sameMasked_bytes (es as : List Nat) (n : Nat) (hl : es.length = as.length)
    (he : ∀ x ∈ es, x < 2 ^ 8) (ha : ∀ x ∈ as, x < 2 ^ 8) (hn : n ≤ 8 * as.length) :
    sameMasked (List.zipWith (· &&& ·) es (cidrMask es.length n)) as (cidrMask es.length n) =
      .ok (decide (digits 8 as / 2 ^ (8 * as.length - n) = digits 8 es / 2 ^ (8 * as.length - n))) := by
  induction es generalizing as n with
  | nil =>
    cases as with
    | nil => simp [cidrMask, sameMasked]
    | cons => simp at hl
  | cons e es ih =>
    cases as with
    | nil => simp at hl
    | cons a as =>
      simp only [List.length_cons, Nat.add_right_cancel_iff] at hl hn ⊢
      have ha' := fun x hx => ha x (List.mem_cons_of_mem _ hx)
      have he' := fun x hx => he x (List.mem_cons_of_mem _ hx)
      have ih := ih as (n - 8) hl he' ha' (by omega)
      have hd := digits_lt ha'
      have hd' := digits_lt he'
      rw [hl] at hd'
      have e1 : 8 * (as.length + 1) = 8 + 8 * as.length := by ring
      have hlead := lead_eq (d := a) (e := e) (w := 8) (n := n) hd hd' (by omega)
      have hk : decide (digits 8 (a :: as) / 2 ^ (8 * (as.length + 1) - n) =
          digits 8 (e :: es) / 2 ^ (8 * (as.length + 1) - n)) = decide (a / 2 ^ (8 - n) = e / 2 ^ (8 - n) ∧
          digits 8 as / 2 ^ (8 * as.length - (n - 8)) = digits 8 es / 2 ^ (8 * as.length - (n - 8))) := by
        rw [decide_eq_decide, ← hlead, e1, digits, digits, hl]
      rw [hk]
      simp only [cidrMask, List.zipWith_cons_cons, sameMasked, and_self_right, ih]
      have hm := maskByte_8 (n := n) (he e (by simp)) (ha a (by simp))
      simp only [ne_eq, hm]
      by_cases hc : e / 2 ^ (8 - n) = a / 2 ^ (8 - n)
      · simp [hc]
      · simp [hc]; exact fun h => absurd h.symm hc

theorem length_cidrMask (l n : Nat) : (cidrMask l n).length = l := by
  induction l generalizing n with
  | zero => rfl
  | succ l ih => simp [cidrMask, ih]

theorem digits_v4 (a b c d : Nat) : digits 8 [a, b, c, d] = v4Value a b c d := by
  simp [digits, v4Value]; ring

/-- What a pattern with an IPv4 address is. -/
theorem parseCIDR_v4 {net ms : Str} {e f g h n : Nat} (hnet : IsV4 net e f g h) (hms : IsDecimal ms n)
    (hn : n ≤ 32) : parseCIDR (net ++ '/' :: ms) =
      .ok (List.zipWith (· &&& ·) [e, f, g, h] (cidrMask 4 n), cidrMask 4 n) := by
  have hslash : '/' ∉ net := by
    intro hm
    have := isV4_chars hnet _ hm
    revert this; decide
  have hp := (parseIPv4_iff net _).mpr ⟨e, f, g, h, hnet, rfl⟩
  have hd := dtoi_decimal hms (by unfold big; omega) (rest := []) (by simp)
  rw [List.append_nil] at hd
  have hml : ms.length ≠ 0 := by simp [hms.1]
  unfold parseCIDR
  rw [show c!"/" = ['/'] from rfl, findSub_single hslash]
  simp only [List.take_left']
  rw [show (net ++ '/' :: ms).drop (net.length + 1) = ms by simp, hp]
  simp only [Option.isSome_some, if_true, hd]
  rw [if_neg (by unfold big; omega)]
  simp [ipMask, length_cidrMask, v4Prefix]

theorem ipMatch_v4 {ip net ms : Str} {a b c d e f g h n : Nat} (hip : IsV4 ip a b c d)
    (hnet : IsV4 net e f g h) (hms : IsDecimal ms n) (hn : n ≤ 32) :
    ipMatch ip (net ++ '/' :: ms) =
      .ok (decide (v4Value a b c d / 2 ^ (32 - n) = v4Value e f g h / 2 ^ (32 - n))) := by
  unfold ipMatch
  rw [parseIP_v4 hip]
  simp only [parseCIDR_v4 hnet hms hn, Outcome.ok_bind]
  have hlen : (List.zipWith (· &&& ·) [e, f, g, h] (cidrMask 4 n)).length = 4 := by
    simp [length_cidrMask]
  have h1 : to4 (List.zipWith (· &&& ·) [e, f, g, h] (cidrMask 4 n)) =
      .ok (List.zipWith (· &&& ·) [e, f, g, h] (cidrMask 4 n), true) := by
    unfold to4; rw [if_pos hlen]
  have h2 : netAndMask (List.zipWith (· &&& ·) [e, f, g, h] (cidrMask 4 n)) (cidrMask 4 n) =
      .ok (List.zipWith (· &&& ·) [e, f, g, h] (cidrMask 4 n), cidrMask 4 n) := by
    simp [netAndMask, h1, length_cidrMask]
  simp only [netContains, h2, Outcome.ok_bind, to4_v4]
  rw [if_neg (by rw [hlen]; simp)]
  obtain ⟨ha, hb, hc, hd⟩ := isV4_lt hip
  obtain ⟨he, hf, hg, hh⟩ := isV4_lt hnet
  have := sameMasked_bytes [e, f, g, h] [a, b, c, d] n rfl (by simp; omega) (by simp; omega) (by simp; omega)
  rw [digits_v4, digits_v4] at this
  exact this

end Casbin
