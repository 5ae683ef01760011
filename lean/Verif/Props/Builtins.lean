import Verif.IPv6Lemmas

/-!
# Properties of the matching functions without regular expressions

C60 and C61 (`KeyMatch`, `KeyGet`), C62 and C63 (`IPMatch` on IPv4), C73–C75 (`IPMatch` on IPv6,
mixed families and errors).
-/

namespace Casbin.BuiltinProps

/-- **C60.** `KeyMatch(k, pat)` holds exactly when `pat` has no `*` and is `k`, or the part of
`pat` before its first `*` starts `k`. -/
theorem C60_keyMatch (k pat : Str) :
    keyMatch k pat = true ↔
      ('*' ∉ pat ∧ k = pat) ∨ ∃ pre post, pat = pre ++ '*' :: post ∧ '*' ∉ pre ∧ pre <+: k :=
  keyMatch_iff k pat

example : keyMatch c!"/foo/bar" c!"/foo/*" = true ∧ keyMatch c!"/foo" c!"/foo/*" = false ∧
    keyMatch c!"/foo/bar" c!"/foo*baz*" = true ∧ keyMatch c!"/foo" c!"/foo" = true := by decide

/-- **C61.** With `pat = pre*…`, the `*` being the first one, `KeyGet(k, pat)` is what `k` has
after `pre`; and it is empty when `pat` has no `*` or `k` does not start with `pre`. -/
theorem C61_keyGet (k pat : Str) :
    (∀ pre post rest, pat = pre ++ '*' :: post → '*' ∉ pre → k = pre ++ rest →
      keyGet k pat = rest) ∧
    ((¬ ∃ pre post, pat = pre ++ '*' :: post ∧ '*' ∉ pre ∧ pre <+: k) → keyGet k pat = []) :=
  keyGet_spec k pat

example : keyGet c!"/foo/bar/baz" c!"/foo/*" = c!"bar/baz" ∧ keyGet c!"/foo" c!"/foo" = [] ∧
    '*' ∉ c!"/foo/" := by decide

/-- **C62.** For every text of an IPv4 address and every text of a block of IPv4 addresses with a
mask of at most 32 bits, `IPMatch` answers whether the first `n` bits agree. -/
theorem C62_ipMatch {ip net ms : Str} {a b c d e f g h n : Nat} (hip : IsV4 ip a b c d)
    (hnet : IsV4 net e f g h) (hms : IsDecimal ms n) (hn : n ≤ 32) :
    ipMatch ip (net ++ '/' :: ms) =
      .ok (decide (v4Value a b c d / 2 ^ (32 - n) = v4Value e f g h / 2 ^ (32 - n))) :=
  ipMatch_v4 hip hnet hms hn

theorem v4_example : IsV4 c!"192.168.2.123" 192 168 2 123 := by
  refine ⟨c!"192", c!"168", c!"2", c!"123", rfl, ?_, ?_, ?_, ?_, by decide⟩ <;>
    exact ⟨by decide, by decide, by decide⟩

example : IsV4 c!"192.168.2.123" 192 168 2 123 ∧ IsDecimal c!"26" 26 ∧
    v4Value 192 168 2 123 / 2 ^ (32 - 26) = v4Value 192 168 2 64 / 2 ^ (32 - 26) ∧
    v4Value 192 168 2 123 / 2 ^ (32 - 26) ≠ v4Value 192 168 2 0 / 2 ^ (32 - 26) ∧
    ipMatch c!"192.168.2.123" c!"192.168.2.64/26" = .ok true ∧
    ipMatch c!"192.168.2.123" c!"192.168.2.0/26" = .ok false :=
  ⟨v4_example, ⟨by decide, by decide, by decide⟩, by decide, by decide, by decide +kernel,
    by decide +kernel⟩

/-- **C63** (part). A pattern that is an address with `/32` is matched by exactly that address.
What is missing is the plain address as a pattern, see `C63_fails`. -/
theorem C63_partial {ip net : Str} {a b c d e f g h : Nat} (hip : IsV4 ip a b c d)
    (hnet : IsV4 net e f g h) :
    ipMatch ip (net ++ c!"/32") =
      .ok (decide (a = e ∧ b = f ∧ c = g ∧ d = h)) := by
  have := ipMatch_v4 (ms := c!"32") (n := 32) hip hnet ⟨by decide, by decide, by decide⟩ (by decide)
  rw [show net ++ c!"/32" = net ++ '/' :: c!"32" from rfl, this]
  obtain ⟨_, _, _, _⟩ := isV4_lt hip
  obtain ⟨_, _, _, _⟩ := isV4_lt hnet
  refine congrArg _ (decide_eq_decide.mpr ?_)
  simp only [v4Value]
  omega

example : IsV4 c!"192.168.2.123" 192 168 2 123 ∧
    ipMatch c!"192.168.2.123" c!"192.168.2.123/32" = .ok true ∧
    ipMatch c!"192.168.2.123" c!"192.168.2.122/32" = .ok false :=
  ⟨v4_example, by decide +kernel, by decide +kernel⟩

/-- **C63 fails**: no address is accepted as a pattern. With a pattern that has no `/`, and so for
every plain address, `IPMatch` throws whatever the address, even with the same text twice. -/
theorem C63_fails {ip : Str} {a b c d : Nat} (hip : IsV4 ip a b c d) {pat : Str} (h : '/' ∉ pat) :
    ipMatch ip pat = .throw .ipParser := by
  unfold ipMatch
  rw [parseIP_v4 hip]
  simp only [parseCIDR, findSub_single_none.mpr h]
  rfl

example : '/' ∉ c!"192.168.2.123" ∧ IsV4 c!"192.168.2.123" 192 168 2 123 ∧
    ipMatch c!"192.168.2.123" c!"192.168.2.123" = .throw .ipParser :=
  ⟨by decide, v4_example, by decide +kernel⟩

/-! ## IPv6 -/

/-- A group of an example. -/
theorem group_one (c : Char) (d : Nat) (h : IsHexDigit c d) : IsGroup [c] d :=
  group_of_length (by simp) (by simp) (by simpa using HexValue.snoc HexValue.nil h)

theorem v6_example : IsV6 c!"1::f" [1, 0, 0, 0, 0, 0, 0, 15] :=
  .inr ⟨[c!"1"], [1], [c!"f"], [15], rfl, .cons (group_one '1' 1 (.inl rfl)) .nil,
    .cons (group_one 'f' 15 (.inl rfl)) .nil, by decide, rfl⟩

theorem hex_ffff : IsGroup c!"ffff" 0xffff := by
  refine ⟨by decide, by decide, ?_⟩
  have h : IsHexDigit 'f' 15 := .inl rfl
  exact (((HexValue.nil.snoc h).snoc h).snoc h).snoc h

theorem mapped_example : IsV6 c!"::ffff:1:2" [0, 0, 0, 0, 0, 0xffff, 1, 2] :=
  .inr ⟨[], [], [c!"ffff", c!"1", c!"2"], [0xffff, 1, 2], rfl, .nil,
    .cons hex_ffff (.cons (group_one '1' 1 (.inl rfl)) (.cons (group_one '2' 2 (.inl rfl)) .nil)),
    by decide, rfl⟩

/-- **C73** (part). For every text of an IPv6 address and every text of a block of IPv6 addresses
with a mask of at most 128 bits, `IPMatch` answers whether the first `n` bits agree. What is missing
are the blocks within `::ffff:0:0/96`, see `C73_fails`, and texts that end in an IPv4 address. -/
theorem C73_ipMatch_partial {ip net ms : Str} {as es : List Nat} {n : Nat} (hip : IsV6 ip as)
    (hnet : IsV6 net es) (hms : IsDecimal ms n) (hn : n ≤ 128) (hm : ¬ Mapped es n) :
    ipMatch ip (net ++ '/' :: ms) =
      .ok (decide (v6Value as / 2 ^ (128 - n) = v6Value es / 2 ^ (128 - n))) :=
  ipMatch_v6 hip hnet hms hn hm

example : IsV6 c!"1::f" [1, 0, 0, 0, 0, 0, 0, 15] ∧ IsDecimal c!"125" 125 ∧
    ¬ Mapped [1, 0, 0, 0, 0, 0, 0, 15] 125 ∧
    ipMatch c!"1::f" c!"1::8/125" = .ok true ∧ ipMatch c!"1::f" c!"1::7/125" = .ok false :=
  ⟨v6_example, ⟨by decide, by decide, by decide⟩, by simp [Mapped], by decide +kernel,
    by decide +kernel⟩

/-- **C73 fails** for the blocks within `::ffff:0:0/96`: no IPv6 address is in any of them, the
address of the block itself included. -/
theorem C73_fails :
    (∀ {ip net ms : Str} {as es : List Nat} {n : Nat}, IsV6 ip as → IsV6 net es → IsDecimal ms n →
      n ≤ 128 → Mapped es n → ipMatch ip (net ++ '/' :: ms) = .ok false) ∧
    IsV6 c!"::ffff:1:2" [0, 0, 0, 0, 0, 0xffff, 1, 2] ∧ Mapped [0, 0, 0, 0, 0, 0xffff, 1, 2] 128 ∧
    ipMatch c!"::ffff:1:2" c!"::ffff:1:2/128" = .ok false :=
  ⟨fun hip hnet hms hn hm => ipMatch_v6_mapped hip hnet hms hn hm, mapped_example,
    ⟨by decide, rfl⟩, by decide +kernel⟩

/-- **C74** (part). An IPv4 address is in no block of IPv6 addresses outside `::ffff:0:0/96`, and
an IPv6 address is in no block of IPv4 addresses. What is missing are the IPv4 addresses in a block
within `::ffff:0:0/96`, see `C74_fails`. -/
theorem C74_families_partial :
    (∀ {ip net ms : Str} {a b c d : Nat} {es : List Nat} {n : Nat}, IsV4 ip a b c d → IsV6 net es →
      IsDecimal ms n → n ≤ 128 → ¬ Mapped es n → ipMatch ip (net ++ '/' :: ms) = .ok false) ∧
    (∀ {ip net ms : Str} {as : List Nat} {e f g h n : Nat}, IsV6 ip as → IsV4 net e f g h →
      IsDecimal ms n → n ≤ 32 → ipMatch ip (net ++ '/' :: ms) = .ok false) :=
  ⟨fun hip hnet hms hn hm => ipMatch_v4_v6 hip hnet hms hn hm,
    fun hip hnet hms hn => ipMatch_v6_v4 hip hnet hms hn⟩

example : IsV4 c!"192.168.2.123" 192 168 2 123 ∧ IsV6 c!"1::f" [1, 0, 0, 0, 0, 0, 0, 15] ∧
    ipMatch c!"192.168.2.123" c!"1::f/0" = .ok false ∧
    ipMatch c!"1::f" c!"192.168.2.123/0" = .ok false :=
  ⟨v4_example, v6_example, by decide +kernel, by decide +kernel⟩

/-- **C74 fails** for the blocks within `::ffff:0:0/96`: `::ffff:102:300/124` is the block
`1.2.3.0/28`, which has the address `1.2.3.4`, but the address is not found in it; the same block
written with an IPv4 address at its end has it. -/
theorem C74_fails :
    ipMatch c!"1.2.3.4" c!"1.2.3.0/28" = .ok true ∧
    ipMatch c!"1.2.3.4" c!"::ffff:1.2.3.0/124" = .ok true ∧
    ipMatch c!"1.2.3.4" c!"::ffff:102:300/124" = .ok false := by
  refine ⟨?_, ?_, ?_⟩ <;> decide +kernel

/-- **C75.** `IPMatch` answers or throws one of its two exceptions, for all texts: there is no
undefined behaviour. -/
theorem C75_ipMatch_total (ip pat : Str) :
    (∃ b, ipMatch ip pat = .ok b) ∨ ipMatch ip pat = .throw .illegalArgument ∨
      ipMatch ip pat = .throw .ipParser :=
  ipMatch_total ip pat

/-- **C75.** A text without a dot and a colon is no address. -/
theorem C75_noAddress (ip pat : Str) (h : ∀ c ∈ ip, c ≠ '.' ∧ c ≠ ':') :
    ipMatch ip pat = .throw .illegalArgument := by
  have : ip.find? (fun c => c = '.' || c = ':') = none := by
    rw [List.find?_eq_none]
    intro c hc
    simp [h c hc]
  simp [ipMatch, parseIP, this]

/-- **C75.** A mask that is no number, or too large, is an error. -/
theorem C75_badMask {ip net ms : Str} {a b c d e f g h : Nat} (hip : IsV4 ip a b c d)
    (hnet : IsV4 net e f g h) (hms : ∀ n, IsDecimal ms n → 32 < n) :
    ipMatch ip (net ++ '/' :: ms) = .throw .ipParser := by
  unfold ipMatch
  rw [parseIP_v4 hip]
  have hslash : '/' ∉ net := by
    intro hm
    have := isV4_chars hnet _ hm
    exact absurd this (by decide)
  have hp := (parseIPv4_iff net _).mpr ⟨e, f, g, h, hnet, rfl⟩
  have : parseCIDR (net ++ '/' :: ms) = .throw .ipParser := by
    unfold parseCIDR
    rw [show c!"/" = ['/'] from rfl, findSub_single hslash]
    simp only [List.take_left']
    rw [show (net ++ '/' :: ms).drop (net.length + 1) = ms by simp, hp]
    simp only [Option.isSome_some, if_true]
    rw [if_pos]
    by_contra hcon
    simp only [not_or, Nat.not_le, Nat.not_lt] at hcon
    obtain ⟨h1, h2, h3, h4⟩ := hcon
    obtain ⟨_, hd⟩ := dtoi_inv (s := ms) rfl h1 h2
    have h3' : (dtoi ms).2 = ms.length := by simpa using h3
    change IsDecimal (ms.take (dtoi ms).2) (dtoi ms).1 at hd
    rw [h3', List.take_length] at hd
    have := hms _ hd
    omega
  rw [this]; rfl

example : ipMatch c!"1.2.3.4" c!"1.2.3.0/33" = .throw .ipParser ∧
    ipMatch c!"1.2.3.4" c!"1.2.3.0/x" = .throw .ipParser ∧
    ipMatch c!"alice" c!"1.2.3.0/24" = .throw .illegalArgument := by
  refine ⟨?_, ?_, ?_⟩ <;> decide +kernel

end Casbin.BuiltinProps
