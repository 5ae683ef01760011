import Verif.IPv6Dotted
import Verif.Props.Builtins

/-!
# IPv6 addresses that end in an IPv4 address: property theorems

C122: `IPMatch` on texts such as `::ffff:1.2.3.4`.
-/

namespace Casbin.DottedProps

open Casbin.BuiltinProps


theorem quad_example : IsV4 c!"1.2.3.4" 1 2 3 4 := by
  refine ⟨c!"1", c!"2", c!"3", c!"4", rfl, ?_, ?_, ?_, ?_, by decide⟩ <;>
    exact ⟨by decide, by decide, by decide⟩

theorem dotted_example : IsDotted c!"::1.2.3.4" [0, 0, 0, 0, 0, 0] 1 2 3 4 :=
  .inr ⟨[], [], [], [], c!"1.2.3.4", rfl, .nil, .nil, quad_example, by decide, rfl⟩

theorem dotted_mapped : IsDotted c!"::ffff:1.2.3.4" [0, 0, 0, 0, 0, 0xffff] 1 2 3 4 :=
  .inr ⟨[], [], [c!"ffff"], [0xffff], c!"1.2.3.4", rfl, .nil, .cons hex_ffff .nil, quad_example,
    by decide, rfl⟩

/-- The address `::102:304` in groups, the same as `::1.2.3.4`. -/
theorem groups_example (c : Char) (d : Nat) (h : IsHexDigit c d) :
    IsV6 (c!"::102:30" ++ [c]) [0, 0, 0, 0, 0, 0, 0x102, 0x300 + d] := by
  have h0 : IsHexDigit '0' 0 := .inl rfl
  have h1 : IsHexDigit '1' 1 := .inl rfl
  have h2 : IsHexDigit '2' 2 := .inl rfl
  have h3 : IsHexDigit '3' 3 := .inl rfl
  exact .inr ⟨[], [], [c!"102", ['3', '0', c]], [0x102, 0x300 + d], rfl, .nil,
    .cons ⟨by decide, by decide, ((HexValue.nil.snoc h1).snoc h0).snoc h2⟩
      (.cons (group_of_length (by simp) (by simp) (by simpa using ((HexValue.nil.snoc h3).snoc h0).snoc h)) .nil),
    by simp, rfl⟩

/-- **C122** (part). For an address and a block of IPv6 addresses, each in groups or with an IPv4
address at its end, `IPMatch` answers whether the first `n` bits agree, if the notations are the same
or the mask does not end within the second or the last number of the IPv4 address. What is missing
are those masks, see `C122_exact` and `C122_fails`, and the blocks within `::ffff:0:0/96`, see
`C122_mapped`. -/
theorem C122_dotted_partial {x y : Bool} {ip net ms : Str} {as es : List Nat} {n : Nat}
    (hip : IsText x ip as) (hnet : IsText y net es) (hms : IsDecimal ms n) (hn : n ≤ 128)
    (hm : ¬ Mapped es n) (hxy : x = y ∨ ¬ (104 < n ∧ n < 112) ∧ ¬ (120 < n ∧ n < 128)) :
    ipMatch ip (net ++ '/' :: ms) =
      .ok (decide (v6Value as / 2 ^ (128 - n) = v6Value es / 2 ^ (128 - n))) := by
  rw [ipMatch_text hip hnet hms hn hm]
  congr 1
  rw [decide_eq_decide]
  refine ⟨fun h => h.1, fun h => ⟨h, fun hne => ?_⟩⟩
  rcases hxy with rfl | ⟨h1, h2⟩
  · exact absurd rfl hne
  · exact ⟨fun a b => absurd ⟨a, b⟩ h1, fun a b => absurd ⟨a, b⟩ h2⟩

example : IsText true c!"::1.2.3.4" [0, 0, 0, 0, 0, 0, 0x102, 0x304] ∧
    IsText false c!"::102:304" [0, 0, 0, 0, 0, 0, 0x102, 0x304] ∧ IsDecimal c!"120" 120 ∧
    ¬ Mapped [0, 0, 0, 0, 0, 0, 0x102, 0x304] 120 ∧
    ipMatch c!"::1.2.3.4" c!"::102:300/120" = .ok true ∧
    ipMatch c!"::1.2.3.4" c!"::102:200/120" = .ok false ∧
    ipMatch c!"::102:304" c!"::1.2.3.4/128" = .ok true ∧
    ipMatch c!"::1.2.3.4" c!"::1.2.3.0/124" = .ok true :=
  ⟨⟨_, 1, 2, 3, 4, dotted_example, rfl⟩, groups_example '4' 4 (.inl rfl),
    ⟨by decide, by decide, by decide⟩, by simp [Mapped], by decide +kernel, by decide +kernel,
    by decide +kernel, by decide +kernel⟩

/-- **C122**, exactly. If the notations differ and the mask ends within the second (last) number of
the IPv4 address, the address is in the block just when the first `n` bits agree and the first (third)
number is 0. -/
theorem C122_exact {x y : Bool} {ip net ms : Str} {as es : List Nat} {n : Nat}
    (hip : IsText x ip as) (hnet : IsText y net es) (hms : IsDecimal ms n) (hn : n ≤ 128)
    (hm : ¬ Mapped es n) :
    ipMatch ip (net ++ '/' :: ms) = .ok true ↔
      v6Value as / 2 ^ (128 - n) = v6Value es / 2 ^ (128 - n) ∧
        (x ≠ y → (104 < n → n < 112 → v6Value es / 2 ^ 24 % 256 = 0) ∧
          (120 < n → n < 128 → v6Value es / 2 ^ 8 % 256 = 0)) := by
  rw [ipMatch_text hip hnet hms hn hm, Outcome.ok.injEq, decide_eq_true_iff]
  rfl

example : ipMatch c!"::1.2.3.4" c!"::102:300/124" = .ok false ∧
    ipMatch c!"::1.2.0.4" c!"::102:0/124" = .ok true := by
  constructor <;> decide +kernel

/-- **C122.** A block `::ffff:e.f.g.h/n` of at least 96 bits has exactly the IPv4 addresses of
`e.f.g.h/(n - 96)`; no other block of IPv6 addresses has an IPv4 address if it is not within
`::ffff:0:0/96`; and an IPv6 address, in either notation, is in no block of IPv4 addresses. -/
theorem C122_mapped :
    (∀ {ip net ms ms' quad : Str} {a b c d e f g h n : Nat}, IsV4 ip a b c d →
      IsDotted net [0, 0, 0, 0, 0, 0xffff] e f g h → IsV4 quad e f g h → IsDecimal ms n → 96 ≤ n →
      n ≤ 128 → IsDecimal ms' (n - 96) →
      ipMatch ip (net ++ '/' :: ms) = ipMatch ip (quad ++ '/' :: ms') ∧
      ipMatch ip (net ++ '/' :: ms) =
        .ok (decide (v4Value a b c d / 2 ^ (128 - n) = v4Value e f g h / 2 ^ (128 - n)))) ∧
    (∀ {y : Bool} {ip net ms : Str} {a b c d : Nat} {es : List Nat} {n : Nat}, IsV4 ip a b c d →
      IsText y net es → IsDecimal ms n → n ≤ 128 → ¬ Mapped es n →
      ipMatch ip (net ++ '/' :: ms) = .ok false) ∧
    (∀ {x : Bool} {ip net ms : Str} {as : List Nat} {e f g h n : Nat}, IsText x ip as →
      IsV4 net e f g h → IsDecimal ms n → n ≤ 32 → ipMatch ip (net ++ '/' :: ms) = .ok false) := by
  refine ⟨fun hip hnet hq hms h96 hn hms' => ?_, fun hip hnet hms hn hm => ipMatch_v4_text hip hnet hms hn hm,
    fun hip hnet hms hn => ipMatch_text_v4 hip hnet hms hn⟩
  have h1 := ipMatch_v4_mapped hip hnet hms h96 hn
  refine ⟨?_, h1⟩
  rename_i n
  rw [h1, ipMatch_v4 hip hq hms' (by omega)]
  rw [show 32 - (n - 96) = 128 - n by omega]

example : IsV4 c!"192.168.2.123" 192 168 2 123 ∧
    IsDotted c!"::ffff:1.2.3.4" [0, 0, 0, 0, 0, 0xffff] 1 2 3 4 ∧ IsV4 c!"1.2.3.4" 1 2 3 4 ∧
    ipMatch c!"1.2.3.7" c!"::ffff:1.2.3.4/126" = .ok true ∧
    ipMatch c!"1.2.3.8" c!"::ffff:1.2.3.4/126" = .ok false ∧
    ipMatch c!"1.2.3.4" c!"::1.2.3.4/96" = .ok false ∧
    ipMatch c!"::1.2.3.4" c!"1.2.3.4/0" = .ok false :=
  ⟨v4_example, dotted_mapped, quad_example, by decide +kernel, by decide +kernel, by decide +kernel,
    by decide +kernel⟩

/-- **C122 fails** for two notations and a mask within the last number: `::1.2.3.4` is `::102:304`, an
address of `::102:300/124`, but is not found in it. It fails also for the blocks within
`::ffff:0:0/96`: no IPv6 address in either notation is in one, itself included. -/
theorem C122_fails :
    (IsText true c!"::1.2.3.4" [0, 0, 0, 0, 0, 0, 0x102, 0x304] ∧
      IsText false c!"::102:304" [0, 0, 0, 0, 0, 0, 0x102, 0x304] ∧
      IsText false c!"::102:300" [0, 0, 0, 0, 0, 0, 0x102, 0x300] ∧
      ipMatch c!"::102:304" c!"::102:300/124" = .ok true ∧
      ipMatch c!"::1.2.3.4" c!"::102:300/124" = .ok false) ∧
    (∀ {x y : Bool} {ip net ms : Str} {as es : List Nat} {n : Nat}, IsText x ip as → IsText y net es →
      IsDecimal ms n → n ≤ 128 → Mapped es n → ipMatch ip (net ++ '/' :: ms) = .ok false) ∧
    IsText true c!"::ffff:1.2.3.4" [0, 0, 0, 0, 0, 0xffff, 0x102, 0x304] ∧
    ipMatch c!"::ffff:1.2.3.4" c!"::ffff:1.2.3.4/128" = .ok false :=
  ⟨⟨⟨_, 1, 2, 3, 4, dotted_example, rfl⟩, groups_example '4' 4 (.inl rfl), groups_example '0' 0 (.inl rfl),
    by decide +kernel, by decide +kernel⟩,
    fun hip hnet hms hn hm => ipMatch_text_mapped hip hnet hms hn hm,
    ⟨_, 1, 2, 3, 4, dotted_mapped, rfl⟩, by decide +kernel⟩

/-- **C74**, exactly, for the blocks within `::ffff:0:0/96` in groups: an IPv4 address is found just
when the first bits agree and, for a mask that ends within the second (last) number, the first (third)
number is 0. -/
theorem C74_exact {ip net ms : Str} {a b c d g k n : Nat} (hip : IsV4 ip a b c d)
    (hnet : IsV6 net [0, 0, 0, 0, 0, 0xffff, g, k]) (hms : IsDecimal ms n) (h96 : 96 ≤ n)
    (hn : n ≤ 128) :
    ipMatch ip (net ++ '/' :: ms) = .ok (decide
      (v4Value a b c d / 2 ^ (128 - n) = (g * 2 ^ 16 + k) / 2 ^ (128 - n) ∧
        (104 < n → n < 112 → a = 0) ∧ (120 < n → n < 128 → c = 0))) :=
  ipMatch_v4_groups hip hnet hms h96 hn

example : IsV4 c!"1.2.3.4" 1 2 3 4 ∧ IsV6 c!"::ffff:1:2" [0, 0, 0, 0, 0, 0xffff, 1, 2] ∧
    ipMatch c!"0.1.0.2" c!"::ffff:1:2/128" = .ok true ∧
    ipMatch c!"0.1.0.3" c!"::ffff:1:2/127" = .ok true ∧
    ipMatch c!"0.1.1.3" c!"::ffff:1:102/127" = .ok false :=
  ⟨quad_example, mapped_example, by decide +kernel, by decide +kernel, by decide +kernel⟩

end Casbin.DottedProps
