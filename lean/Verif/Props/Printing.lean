import Verif.Printing
import Verif.Props.IPTexts
import Verif.RoleManagerLemmas
import Verif.Props.Getters

/-!
# C131, C132: the texts of addresses, masks and roles
-/

namespace Casbin
namespace PrintProps

open Casbin.BuiltinProps Casbin.DottedProps

/-! ## C131 -/

theorem decText_digits (n : Nat) : decText n = Nat.toDigits 10 n := Nat.toList_repr

theorem decText_decimal (n : Nat) : IsDecimal (decText n) n := by
  rw [decText_digits]
  refine ⟨Nat.toDigits_ne_nil, ?_, ?_⟩
  · intro c hc
    have := Nat.isDigit_of_mem_toDigits (b := 10) (n := n) (by decide) (by decide) hc
    simp only [Char.isDigit, Bool.and_eq_true, decide_eq_true_eq] at this
    exact this
  · have h1 := Nat.ofDigitChars_ten_toDigits (n := n)
    rw [Nat.ofDigitChars_eq_foldl] at h1
    unfold decValue
    simp only [Nat.mul_comm _ 10]
    exact h1

/-- The text has no needless zeros. -/
def Plain (s : Str) : Prop := s.head? = some '0' → s = ['0']

theorem decText_plain (n : Nat) : Plain (decText n) := by
  rw [decText_digits]
  induction n using Nat.strongRecOn with
  | ind n ih =>
    by_cases h : n < 10
    · rw [Nat.toDigits_of_lt_base h]
      intro h0
      simp only [List.head?_cons, Option.some.injEq] at h0
      rw [h0]
    · rw [Nat.toDigits_of_base_le (by decide) (by omega)]
      intro h0
      exfalso
      have hn : Nat.toDigits 10 (n / 10) ≠ [] := Nat.toDigits_ne_nil
      rw [List.head?_append_of_ne_nil _ hn] at h0
      have := ih (n / 10) (by omega) h0
      have h1 := Nat.ofDigitChars_ten_toDigits (n := n / 10)
      rw [this] at h1
      have : n / 10 = 0 := by rw [← h1]; rfl
      omega

/-- The dotted text of an IPv4 address without needless zeros. -/
def IsPlainV4 (s : Str) (a b c d : Nat) : Prop :=
  ∃ s₁ s₂ s₃ s₄, s = s₁ ++ '.' :: s₂ ++ '.' :: s₃ ++ '.' :: s₄ ∧
    (IsDecimal s₁ a ∧ Plain s₁) ∧ (IsDecimal s₂ b ∧ Plain s₂) ∧ (IsDecimal s₃ c ∧ Plain s₃) ∧
    (IsDecimal s₄ d ∧ Plain s₄) ∧ a < 256 ∧ b < 256 ∧ c < 256 ∧ d < 256

theorem IsPlainV4.isV4 {s : Str} {a b c d : Nat} (h : IsPlainV4 s a b c d) : IsV4 s a b c d := by
  obtain ⟨s₁, s₂, s₃, s₄, rfl, h1, h2, h3, h4, hl⟩ := h
  exact ⟨s₁, s₂, s₃, s₄, rfl, h1.1, h2.1, h3.1, h4.1, hl⟩

/-- The text of four numbers. -/
def dottedText (a b c d : Nat) : Str :=
  decText a ++ c!"." ++ decText b ++ c!"." ++ decText c ++ c!"." ++ decText d

theorem dottedText_plain {a b c d : Nat} (ha : a < 256) (hb : b < 256) (hc : c < 256) (hd : d < 256) :
    IsPlainV4 (dottedText a b c d) a b c d :=
  ⟨decText a, decText b, decText c, decText d, by simp [dottedText],
    ⟨decText_decimal a, decText_plain a⟩, ⟨decText_decimal b, decText_plain b⟩,
    ⟨decText_decimal c, decText_plain c⟩, ⟨decText_decimal d, decText_plain d⟩, ha, hb, hc, hd⟩

/-- C131: the text that `IP::toString` writes for an IPv4 address is a text of that address without
needless zeros, and is read as the same address. -/
theorem C131_address {s : Str} {a b c d : Nat} (h : IsV4 s a b c d) :
    ∃ ip t, parseIP s = some ip ∧ ipToString ip = .ok t ∧ IsPlainV4 t a b c d ∧
      parseIP t = some ip := by
  obtain ⟨ha, hb, hc, hd⟩ := isV4_lt h
  have ht := dottedText_plain ha hb hc hd
  exact ⟨_, dottedText a b c d, parseIP_v4 h, rfl, ht, parseIP_v4 ht.isV4⟩

/-- C131: two texts of IPv4 addresses are written back as the same text exactly when they are texts of
the same address. -/
theorem C131_same {s t : Str} {a b c d e f g h : Nat} (hs : IsV4 s a b c d) (ht : IsV4 t e f g h) :
    (parseIP s).map ipToString = (parseIP t).map ipToString ↔ a = e ∧ b = f ∧ c = g ∧ d = h := by
  obtain ⟨ip, u, h1, h2, h3, _⟩ := C131_address hs
  obtain ⟨ip', u', h1', h2', h3', _⟩ := C131_address ht
  rw [h1, h1']
  simp only [Option.map_some, h2, h2', Option.some.injEq, Outcome.ok.injEq]
  constructor
  · rintro rfl
    exact IPTextProps.C123_unique.2.2 h3.isV4 h3'.isV4
  · rintro ⟨rfl, rfl, rfl, rfl⟩
    have e1 := (parseIP_v4 hs).symm.trans h1
    have e2 := (parseIP_v4 ht).symm.trans h1'
    rw [← Option.some.inj e1] at h2
    rw [← Option.some.inj e2, h2] at h2'
    exact Outcome.ok.inj h2'

theorem and_maskByte : ∀ k < 9, ∀ e < 256, e &&& maskByte k = e / 2 ^ (8 - k) * 2 ^ (8 - k) := by
  decide +kernel

theorem maskByte_of_le {n : Nat} (h : 8 ≤ n) : maskByte n = maskByte 8 := by
  simp [maskByte, h]

theorem and_maskByte' (n e : Nat) (he : e < 256) :
    e &&& maskByte n = e / 2 ^ (8 - n) * 2 ^ (8 - n) := by
  by_cases h : n < 9
  · exact and_maskByte n h e he
  · rw [maskByte_of_le (by omega), and_maskByte 8 (by decide) e he]
    have : 8 - n = 0 := by omega
    rw [this]

/-- C131: the text of the network of an IPv4 block is that of the address with the bits behind the
first `n` cleared. -/
theorem C131_network {net ms : Str} {e f g h n : Nat} (hnet : IsV4 net e f g h)
    (hms : IsDecimal ms n) (hn : n ≤ 32) :
    ∃ nb m t a b c d, parseCIDR (net ++ '/' :: ms) = .ok (nb, m) ∧ netToString nb = .ok t ∧
      IsPlainV4 t a b c d ∧
      v4Value a b c d = v4Value e f g h / 2 ^ (32 - n) * 2 ^ (32 - n) := by
  obtain ⟨he, hf, hg, hh⟩ := isV4_lt hnet
  have hle : ∀ x y : Nat, x / y * y ≤ x := fun x y => Nat.div_mul_le_self x y
  refine ⟨_, _, dottedText (e / 2 ^ (8 - n) * 2 ^ (8 - n)) (f / 2 ^ (8 - (n - 8)) * 2 ^ (8 - (n - 8)))
    (g / 2 ^ (8 - (n - 8 - 8)) * 2 ^ (8 - (n - 8 - 8)))
    (h / 2 ^ (8 - (n - 8 - 8 - 8)) * 2 ^ (8 - (n - 8 - 8 - 8))), _, _, _, _,
    parseCIDR_v4 hnet hms hn, ?_, dottedText_plain
      ((hle _ _).trans_lt he) ((hle _ _).trans_lt hf) ((hle _ _).trans_lt hg) ((hle _ _).trans_lt hh), ?_⟩
  · simp only [cidrMask, List.zipWith_cons_cons, and_maskByte' _ _ he, and_maskByte' _ _ hf,
      and_maskByte' _ _ hg, and_maskByte' _ _ hh]
    rfl
  · unfold v4Value
    interval_cases n <;> simp <;> omega

/-- C131: the text of the mask of an IPv4 block whose number of bits is a multiple of eight is the
dotted text of the mask. Missing: the other blocks (`C131_mask_fails`). -/
theorem C131_mask_partial {net ms : Str} {e f g h n : Nat} (hnet : IsV4 net e f g h)
    (hms : IsDecimal ms n) (hn : n ≤ 32) (h8 : 8 ∣ n) :
    ∃ nb m t a b c d, parseCIDR (net ++ '/' :: ms) = .ok (nb, m) ∧ maskToString m = .ok t ∧
      IsPlainV4 t a b c d ∧ v4Value a b c d = 2 ^ 32 - 2 ^ (32 - n) := by
  have key : ∃ a b c d, cidrMask 4 n = [a, b, c, d] ∧ a < 256 ∧ b < 256 ∧ c < 256 ∧ d < 256 ∧
      v4Value a b c d = 2 ^ 32 - 2 ^ (32 - n) := by
    obtain ⟨k, rfl⟩ := h8
    have hk : k < 5 := by omega
    interval_cases k
    · exact ⟨0, 0, 0, 0, by decide +kernel⟩
    · exact ⟨255, 0, 0, 0, by decide +kernel⟩
    · exact ⟨255, 255, 0, 0, by decide +kernel⟩
    · exact ⟨255, 255, 255, 0, by decide +kernel⟩
    · exact ⟨255, 255, 255, 255, by decide +kernel⟩
  obtain ⟨a, b, c, d, hm, ha, hb, hc, hd, hv⟩ := key
  exact ⟨_, _, dottedText a b c d, a, b, c, d, parseCIDR_v4 hnet hms hn, by rw [hm]; rfl,
    dottedText_plain ha hb hc hd, hv⟩

def noAddress : Outcome Str → Bool
  | .ok t => (parseIPv4 t).isNone
  | _ => false

/-- C131 is false for the masks of all other blocks: the text is of no address. -/
theorem C131_mask_fails {net ms : Str} {e f g h n : Nat} (hnet : IsV4 net e f g h)
    (hms : IsDecimal ms n) (hn : n ≤ 32) (h8 : ¬ 8 ∣ n) :
    ∃ nb m t, parseCIDR (net ++ '/' :: ms) = .ok (nb, m) ∧ maskToString m = .ok t ∧
      ¬ ∃ a b c d, IsV4 t a b c d := by
  have key : ∀ n < 33, ¬ 8 ∣ n → ∃ t, maskToString (cidrMask 4 n) = .ok t ∧ parseIPv4 t = none := by
    intro n hn
    have : ∀ n < 33, 8 ∣ n ∨ noAddress (maskToString (cidrMask 4 n)) = true := by decide +kernel
    intro h8
    have := (this n hn).resolve_left h8
    unfold noAddress at this
    split at this
    · next t ht => exact ⟨t, ht, by simpa using this⟩
    · cases this
  obtain ⟨t, h1, h2⟩ := key n (by omega) h8
  refine ⟨_, _, t, parseCIDR_v4 hnet hms hn, h1, ?_⟩
  rintro ⟨a, b, c, d, h3⟩
  rw [(parseIPv4_iff t _).mpr ⟨a, b, c, d, h3, rfl⟩] at h2
  cases h2

/-- The text of the mask of a block of 25 bits. -/
theorem C131_mask_witness_fails : maskToString (cidrMask 4 25) = .ok c!"255.255.255.65408" := by
  decide +kernel

/-- C131 is false for IPv6 addresses: the text shows four of the sixteen elements, and is that of
another address. -/
theorem C131_v6_fails : ∃ ip, parseIP c!"2001:db8::1" = some ip ∧ ipToString ip = .ok c!"0.0.0.1" ∧
    parseIP c!"0.0.0.1" ≠ some ip := by
  refine ⟨_, rfl, ?_, ?_⟩ <;> decide +kernel

/-- C131: `IP::Equal` of two IPv4 addresses, as read from texts or in the short form of a network, says
whether they are the same address. -/
theorem C131_equal {s t : Str} {a b c d e f g h : Nat} (hs : IsV4 s a b c d) (ht : IsV4 t e f g h) :
    ∃ ip x, parseIP s = some ip ∧ parseIP t = some x ∧
      (ipEqual ip x = true ↔ v4Value a b c d = v4Value e f g h) ∧
      (ipEqual ip [e, f, g, h] = true ↔ v4Value a b c d = v4Value e f g h) ∧
      (ipEqual [a, b, c, d] x = true ↔ v4Value a b c d = v4Value e f g h) := by
  obtain ⟨ha, hb, hc, hd⟩ := isV4_lt hs
  obtain ⟨he, hf, hg, hh⟩ := isV4_lt ht
  have hv : v4Value a b c d = v4Value e f g h ↔ a = e ∧ b = f ∧ c = g ∧ d = h := by
    unfold v4Value; omega
  refine ⟨_, _, parseIP_v4 hs, parseIP_v4 ht, ?_, ?_, ?_⟩ <;> rw [hv] <;>
    simp [ipEqual, v4Prefix]

/-- C131: `IP::Equal` of an IPv4 address in the short form and an address of sixteen elements says
whether the long one is the IPv4 address: ten zeros, twice 255, the four elements. -/
theorem C131_equal_short (a b c d : Nat) {x : List Nat} (hx : x.length = 16) :
    (ipEqual [a, b, c, d] x = true ↔ x = List.replicate 10 0 ++ [255, 255, a, b, c, d]) ∧
    (ipEqual x [a, b, c, d] = true ↔ x = List.replicate 10 0 ++ [255, 255, a, b, c, d]) := by
  have key : x = List.replicate 10 0 ++ [255, 255, a, b, c, d] ↔
      x.take 12 = v4Prefix ∧ x.drop 12 = [a, b, c, d] := by
    constructor
    · rintro rfl
      exact ⟨rfl, rfl⟩
    · rintro ⟨h1, h2⟩
      have := List.take_append_drop 12 x
      rw [h1, h2] at this
      exact this.symm
  rw [key]
  constructor
  · rw [@eq_comm _ (x.drop 12)]
    simp [ipEqual, hx]
  · simp [ipEqual, hx]

/-- Non-vacuity of C131 for the short form: an IPv6 address that ends like the IPv4 address. -/
example : ∃ x, parseIP c!"2001:db8::1.2.3.4" = some x ∧ x.length = 16 ∧ x.drop 12 = [1, 2, 3, 4] ∧
    ipEqual [1, 2, 3, 4] x = false ∧ ipEqual x [1, 2, 3, 4] = false := by
  refine ⟨_, rfl, ?_⟩
  decide +kernel

/-- C131 is false for `IP::Equal` between notations: one address, as IPv4 and as IPv6 text, or as two
IPv6 texts, is not equal to itself. -/
theorem C131_equal_fails :
    (∃ ip x, parseIP c!"1.2.3.4" = some ip ∧ parseIP c!"::ffff:1.2.3.4" = some x ∧
      ipEqual ip x = false) ∧
    (∃ ip x, parseIP c!"::1.2.3.4" = some ip ∧ parseIP c!"::102:304" = some x ∧
      ipEqual ip x = false) := by
  refine ⟨⟨_, _, rfl, rfl, ?_⟩, ⟨_, _, rfl, rfl, ?_⟩⟩ <;> decide +kernel

/-- C131: between two texts of IPv6 addresses in the same notation `IP::Equal` is equality. -/
theorem C131_equal_v6 {x : Bool} {s t : Str} {gs hs : List Nat} (h1 : IsText x s gs)
    (h2 : IsText x t hs) :
    ∃ ip ip', parseIP s = some ip ∧ parseIP t = some ip' ∧ (ipEqual ip ip' = true ↔ gs = hs) := by
  refine ⟨_, _, parseIP_text h1, parseIP_text h2, ?_⟩
  have l1 := isText_length h1
  have l2 := isText_length h2
  obtain ⟨a1, a2, a3, a4, a5, a6, a7, a8, rfl⟩ := list8 l1
  obtain ⟨e1, e2, e3, e4, e5, e6, e7, e8, rfl⟩ := list8 l2
  constructor
  · intro hb
    simp only [ipEqual, bytesOf, pair, enc, List.take_succ_cons, List.take_zero, List.drop_succ_cons,
      List.drop_zero, List.flatMap_cons, List.flatMap_nil, List.cons_append, List.nil_append,
      List.append_nil, List.length_cons, List.length_nil, if_true, decide_eq_true_eq,
      List.cons.injEq, and_true] at hb
    obtain ⟨-, r1, -, r2, -, r3, -, r4, -, r5, -, r6, q7, r7, q8, r8⟩ := hb
    have k : ∀ {p q : Nat}, p / 256 = q / 256 →
        (if x = true then p % 256 else p) = (if x = true then q % 256 else q) → p = q := by
      intro p q h1 h2
      cases x <;> simp at h2 <;> omega
    rw [r1, r2, r3, r4, r5, r6, k q7 r7, k q8 r8]
  · intro e
    rw [e]
    simp [ipEqual]

/-- Non-vacuity of C131: needless zeros disappear; the network and the mask of a block. -/
example : ∃ ip, parseIP c!"010.0.000.7" = some ip ∧ ipToString ip = .ok c!"10.0.0.7" := by
  refine ⟨_, rfl, ?_⟩; decide +kernel

example : ∃ nb m, parseCIDR c!"10.1.2.3/20" = .ok (nb, m) ∧ netToString nb = .ok c!"10.1.0.0" ∧
    maskToString m = .ok c!"255.255.65520.0" := by
  refine ⟨_, _, rfl, ?_, ?_⟩ <;> decide +kernel

/-! ## C132 -/

/-- Texts with a comma and a blank between them. -/
def listed : List Str → Str
  | [] => []
  | [t] => t
  | t :: u :: ts => t ++ c!", " ++ listed (u :: ts)

theorem foldl_listed (f : α → Str) (t : Str) (xs : List α) :
    xs.foldl (fun acc x => acc ++ (c!", " ++ f x)) t = listed (t :: xs.map f) := by
  induction xs generalizing t with
  | nil => rfl
  | cons x xs ih =>
    have h2 : ∀ (a b : Str) (l : List Str), listed ((a ++ b) :: l) = a ++ listed (b :: l) := by
      intro a b l
      cases l <;> simp [listed]
    rw [List.foldl_cons, ih, ← List.append_assoc, h2, List.map_cons, listed]

/-- C132: the text of a role: nothing without roles of its own, else its name and theirs, in
parentheses when there are several. -/
theorem C132_role (name : Str) (roles : List Str) :
    RM.roleText name roles = match roles with
      | [] => []
      | [r] => name ++ c!" < " ++ r
      | r :: s :: rs => name ++ c!" < (" ++ listed (r :: s :: rs) ++ c!")" := by
  match roles with
  | [] => rfl
  | [r] => simp [RM.roleText, RM.roleNames]
  | r :: s :: rs =>
    have := foldl_listed (fun x : Str => x) r (s :: rs)
    rw [List.map_id'] at this
    simp only [RM.roleText, RM.roleNames, List.length_cons, this]
    simp

variable [IterOrder]

/-- C132: what `PrintRoles` writes lists the texts of all roles, each once, in the order of the
container. -/
theorem C132_print {rm : RM} (h : rm.roles ≠ []) :
    ∃ l : List (Str × List Str), l.Perm rm.roles ∧
      rm.printRoles = .ok (listed (l.map fun x => RM.roleText x.1 x.2)) := by
  have hp := IterOrder.iter_perm rm.roles
  refine ⟨_, hp, ?_⟩
  unfold RM.printRoles
  cases hi : IterOrder.iter rm.roles with
  | nil => rw [hi] at hp; exact absurd hp.symm.eq_nil h
  | cons x xs =>
    simp only
    rw [foldl_listed (fun y : Str × List Str => RM.roleText y.1 y.2), List.map_cons]

omit [IterOrder] in
theorem listed_infix {t : Str} {l : List Str} (h : t ∈ l) : t <:+: listed l := by
  induction l with
  | nil => cases h
  | cons u l ih =>
    match l, ih, h with
    | [], _, h =>
      rw [List.mem_singleton] at h
      subst h
      exact List.infix_refl _
    | v :: l, ih, h =>
      rw [listed]
      rcases List.mem_cons.mp h with rfl | h
      · exact ⟨[], c!", " ++ listed (v :: l), by simp⟩
      · obtain ⟨a, b, hab⟩ := ih h
        exact ⟨u ++ c!", " ++ a, b, by rw [← hab]; simp⟩

/-- C132: for every role the text that `PrintRoles` writes has its name and its own roles. -/
theorem C132_shows {rm : RM} {name : Str} {roles : List Str} (h : rm.roles.get name = some roles) :
    ∃ text, rm.printRoles = .ok text ∧ RM.roleText name roles <:+: text := by
  have hm : (name, roles) ∈ rm.roles := UMap.mem_of_get h
  obtain ⟨l, hl, hp⟩ := C132_print (rm := rm) (by intro e; rw [e] at hm; cases hm)
  exact ⟨_, hp, listed_infix (List.mem_map.mpr ⟨(name, roles), hl.mem_iff.mpr hm, rfl⟩)⟩

omit [IterOrder] in
theorem fold_keys (f : UMap Str (List Str) → Str → Prop) [∀ m k, Decidable (f m k)] (name : Str)
    (ks : List Str) (m : UMap Str (List Str)) :
    (ks.foldl (fun m k => if f m k then RM.addRole m name k else m) m).keys = m.keys := by
  induction ks generalizing m with
  | nil => rfl
  | cons k ks ih =>
    rw [List.foldl_cons, ih]
    split
    · exact RM.keys_addRole m name k
    · rfl

theorem createRole_keys (rm : RM) (n : Str) : (rm.createRole n).roles.keys =
    (if rm.roles.has n then rm.roles else rm.roles.set n []).keys := by
  unfold RM.createRole
  cases rm.pattern with
  | none => rfl
  | some g => exact fold_keys (fun _ k => g n k = true ∧ n ≠ k) n _ _

theorem keys_made (rm : RM) (n : Str) : n ∈ (rm.createRole n).roles.keys := by
  rw [createRole_keys]
  split
  · next h => exact (UMap.has_iff _ _).mp h
  · exact (UMap.mem_keys_set _ _ _ _).mpr (.inl rfl)

theorem keys_kept (rm : RM) (n : Str) {x : Str} (h : x ∈ rm.roles.keys) :
    x ∈ (rm.createRole n).roles.keys := by
  rw [createRole_keys]
  split
  · exact h
  · exact (UMap.mem_keys_set _ _ _ _).mpr (.inr h)

/-- C132: after a link has been added, in no domain or in one, with or without a matching function,
the text has the role and with it the name of the linked one. -/
theorem C132_linked (rm : RM) (a b : Str) {d : List Str} {n1 n2 : Str}
    (h1 : RM.qualify d a = .ok n1) (h2 : RM.qualify d b = .ok n2) :
    ∃ roles text, ((RM.addLink a b d) rm).2.printRoles = .ok text ∧ n2 ∈ roles ∧
      RM.roleText n1 roles <:+: text := by
  rw [RM.addLink_run rm a b n1 n2 d h1 h2]
  have hk : n1 ∈ ((rm.createRole n1).createRole n2).roles.keys :=
    keys_kept _ n2 (keys_made rm n1)
  have hd : n2 ∈ RM.direct (RM.addQ rm n1 n2).roles n1 :=
    (RM.direct_addRole _ n1 n2 n1 n2 hk).mpr (.inr ⟨rfl, rfl⟩)
  unfold RM.direct at hd
  split at hd
  · next l hl =>
    obtain ⟨text, h3, h4⟩ := C132_shows hl
    exact ⟨l, text, h3, hd, h4⟩
  · cases hd

omit [IterOrder] in
/-- C132 is false without roles, as in a new role manager or after `Clear`: the code dereferences the
end of the container. -/
theorem C132_fails [IterOrder] (n : Nat) (rm : RM) : (RM.new n).printRoles = .ub .iterator ∧
    rm.clear.printRoles = .ub .iterator := by
  have : IterOrder.iter ([] : UMap Str (List Str)) = [] := (IterOrder.iter_perm _).eq_nil
  constructor
  · unfold RM.printRoles RM.new; rw [this]
  · unfold RM.printRoles RM.clear; rw [this]

/-- Non-vacuity of C132. -/
example : @RM.printRoles insertionOrder
    { roles := [(c!"alice", [c!"admin", c!"staff"]), (c!"admin", []), (c!"staff", [c!"all"]), (c!"all", [])],
      maxLevel := 10, pattern := none }
    = .ok c!"alice < (admin, staff), , staff < all, " := by
  decide +kernel

end PrintProps
end Casbin
