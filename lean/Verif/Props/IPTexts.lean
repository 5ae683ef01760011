import Verif.IPTexts
import Verif.Props.IPv6Dotted

/-!
# Which texts `IPMatch` accepts: property theorems

C123: `IPMatch` answers for the texts of addresses and blocks, and throws for all others.
-/

namespace Casbin.IPTextProps

open Casbin.BuiltinProps Casbin.DottedProps

/-- **C123.** `IPMatch` answers exactly when its first text is an address and its second one a block,
each in any of the notations. -/
theorem C123_answers (s t : Str) : (∃ b, ipMatch s t = .ok b) ↔ IsAddr s ∧ IsBlock t := by
  constructor
  · rintro ⟨b, h⟩
    by_cases hs : IsAddr s
    · refine ⟨hs, ?_⟩
      by_contra ht
      rw [ipMatch_bad hs ht] at h
      simp at h
    · rw [ipMatch_noAddr t hs] at h
      simp at h
  · rintro ⟨hs, ht⟩
    exact ipMatch_ok hs ht

/-- **C123.** A text that is no address is the one exception, a text that is no block the other. -/
theorem C123_throws (s t : Str) :
    (ipMatch s t = .throw .illegalArgument ↔ ¬ IsAddr s) ∧
    (ipMatch s t = .throw .ipParser ↔ IsAddr s ∧ ¬ IsBlock t) := by
  by_cases hs : IsAddr s
  · by_cases ht : IsBlock t
    · obtain ⟨b, h⟩ := ipMatch_ok hs ht
      simp [h, hs, ht]
    · simp [ipMatch_bad hs ht, hs, ht]
  · simp [ipMatch_noAddr t hs, hs]

/-- **C123.** A text stands for one address only: no text is both an IPv4 and an IPv6 address, and the
numbers of an address are determined by its text. -/
theorem C123_unique {s : Str} :
    (∀ {a b c d : Nat} {x : Bool} {gs : List Nat}, IsV4 s a b c d → ¬ IsText x s gs) ∧
    (∀ {x y : Bool} {gs hs : List Nat}, IsText x s gs → IsText y s hs → gs = hs) ∧
    (∀ {a b c d e f g h : Nat}, IsV4 s a b c d → IsV4 s e f g h → a = e ∧ b = f ∧ c = g ∧ d = h) := by
  refine ⟨fun h4 h6 => ?_, fun h1 h2 => ?_, fun h1 h2 => ?_⟩
  · have h := parseIPv4_text h6
    rw [(parseIPv4_iff s _).mpr ⟨_, _, _, _, h4, rfl⟩] at h
    simp at h
  · have e := (parseIPv6_text h1).symm.trans (parseIPv6_text h2)
    have hb := Option.some.inj e
    have l1 := isText_length h1
    have l2 := isText_length h2
    rename_i x y gs hs
    have b1 := isText_lt h1
    have b2 := isText_lt h2
    obtain ⟨a1, a2, a3, a4, a5, a6, a7, a8, rfl⟩ := list8 l1
    obtain ⟨e1, e2, e3, e4, e5, e6, e7, e8, rfl⟩ := list8 l2
    simp only [bytesOf, pair, enc, List.take_succ_cons, List.take_zero, List.drop_succ_cons, List.drop_zero,
      List.flatMap_cons, List.flatMap_nil, List.cons_append, List.nil_append, List.append_nil,
      List.cons.injEq, and_true] at hb
    obtain ⟨-, r1, -, r2, -, r3, -, r4, -, r5, -, r6, q7, r7, q8, r8⟩ := hb
    have k : ∀ {p q : Nat}, p / 256 = q / 256 →
        (if x = true then p % 256 else p) = (if y = true then q % 256 else q) → p = q := by
      intro p q h1 h2
      cases x <;> cases y <;> simp at h2 <;> omega
    rw [r1, r2, r3, r4, r5, r6, k q7 r7, k q8 r8]
  · have e := ((parseIPv4_iff s _).mpr ⟨_, _, _, _, h1, rfl⟩).symm.trans
      ((parseIPv4_iff s _).mpr ⟨_, _, _, _, h2, rfl⟩)
    simpa [v4Prefix] using e

/-- Non-vacuity: texts of both kinds, and texts that only look like addresses. -/
example : IsAddr c!"1::f" ∧ IsAddr c!"::ffff:1.2.3.4" ∧ IsBlock c!"::1.2.3.4/124" ∧
    ¬ IsAddr c!"1::2::3" ∧ ¬ IsAddr c!"1:2:3:4:5:6:7::8" ∧ ¬ IsAddr c!"::1.2.3" ∧
    ¬ IsAddr c!"10000::" ∧ ¬ IsBlock c!"1.2.3.4" ∧ ¬ IsBlock c!"1.2.3.4/33" ∧ ¬ IsBlock c!"::1/129" ∧
    IsAddr c!"00001::" := by
  have hA : ∀ s, IsAddr s ↔ ipMatch s c!"::/0" ≠ .throw .illegalArgument := fun s =>
    ⟨fun h h' => ((C123_throws s _).1.mp h') h, fun h => by
      by_contra hn; exact h ((C123_throws s _).1.mpr hn)⟩
  have hB : ∀ t, IsBlock t ↔ ipMatch c!"::" t ≠ .throw .ipParser := fun t =>
    ⟨fun h h' => ((C123_throws _ t).2.mp h').2 h, fun h => by
      by_contra hn
      refine h ((C123_throws _ t).2.mpr ⟨(hA _).mpr ?_, hn⟩)
      decide +kernel⟩
  simp only [hA, hB]
  decide +kernel

end Casbin.IPTextProps
