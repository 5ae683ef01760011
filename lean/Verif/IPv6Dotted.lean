import Verif.IPv6Lemmas

/-!
# IPv6 addresses that end in an IPv4 address: texts, values and the lemmas behind C122
-/

namespace Casbin

/-! ## Specification -/

/-- `s` is a text of the IPv6 address of groups `hs` and the IPv4 address `a.b.c.d` in its last 32
bits: all six groups, or an ellipsis for some groups of zeros. -/
def IsDotted (s : Str) (hs : List Nat) (a b c d : Nat) : Prop :=
  (∃ ts q, s = colonJoin (ts ++ [q]) ∧ List.Forall₂ IsGroup ts hs ∧ IsV4 q a b c d ∧ hs.length = 6) ∨
  (∃ ls us rs vs q, s = colonJoin ls ++ ':' :: ':' :: colonJoin (rs ++ [q]) ∧
    List.Forall₂ IsGroup ls us ∧ List.Forall₂ IsGroup rs vs ∧ IsV4 q a b c d ∧
    us.length + vs.length < 6 ∧ hs = us ++ List.replicate (6 - (us.length + vs.length)) 0 ++ vs)

/-- `s` is a text of the IPv6 address of groups `gs`, in the one or the other notation. -/
def IsText (dotted : Bool) (s : Str) (gs : List Nat) : Prop :=
  if dotted then ∃ hs a b c d, IsDotted s hs a b c d ∧ gs = hs ++ [a * 256 + b, c * 256 + d]
  else IsV6 s gs

/-! ## Reading -/

/-- The digits of a number below 1000 read as hexadecimal ones. -/
def asHex (n : Nat) : Nat := n / 100 * 256 + n / 10 % 10 * 16 + n % 10

theorem hexVal_dec {c : Char} (h : '0' ≤ c ∧ c ≤ '9') : hexVal c = some (c.toNat - 48) := by
  simp [hexVal, h]

theorem dec_lt {c : Char} (h : '0' ≤ c ∧ c ≤ '9') : c.toNat - 48 < 10 := by
  have h1 : c.toNat ≤ '9'.toNat := h.2
  have : '9'.toNat = 57 := rfl
  omega

theorem xtoiFrom_dec (t rest : Str) (n i : Nat) (ht : ∀ c ∈ t, '0' ≤ c ∧ c ≤ '9')
    (hn : t.foldl (fun n c => n * 10 + (c.toNat - '0'.toNat)) n < 256) :
    xtoiFrom (asHex n) i (t ++ '.' :: rest) =
      (asHex (t.foldl (fun n c => n * 10 + (c.toNat - '0'.toNat)) n), i + t.length) := by
  induction t generalizing n i with
  | nil => simp [xtoiFrom, show hexVal '.' = none from rfl]
  | cons c t ih =>
    have hc := ht c (by simp)
    have hd := dec_lt hc
    have hge := decFold_ge t (n * 10 + (c.toNat - '0'.toNat))
    have h0 : '0'.toNat = 48 := rfl
    simp only [List.foldl_cons] at hn
    have hs : asHex n * 16 + (c.toNat - 48) = asHex (n * 10 + (c.toNat - '0'.toNat)) := by
      unfold asHex
      omega
    have hb : ¬ asHex n * 16 + (c.toNat - 48) ≥ big := by
      unfold asHex big
      omega
    simp only [List.cons_append, xtoiFrom, hexVal_dec hc, hb, if_false]
    rw [hs, ih _ (i + 1) (fun c hc => ht c (by simp [hc])) hn]
    simp only [List.foldl_cons, List.length_cons]
    rw [Nat.add_assoc, Nat.add_comm 1]

theorem v6Loop_v4 {q : Str} {a b c d : Nat} (h : IsV4 q a b c d) (fuel : Nat) (acc : List Nat)
    (ell : Option Nat) (h1 : ell = none → acc.length = 12) (h2 : acc.length ≤ 12) :
    v6Loop (fuel + 1) acc ell q = some (acc ++ [a, b, c, d], ell, []) := by
  have hp := (parseIPv4_iff q _).mpr ⟨a, b, c, d, h, rfl⟩
  obtain ⟨t₁, t₂, t₃, t₄, hq, ⟨hne, hdec, hv⟩, _, _, _, ha, _⟩ := h
  have hx : xtoi q = (asHex a, t₁.length) := by
    have := xtoiFrom_dec t₁ (t₂ ++ '.' :: t₃ ++ '.' :: t₄) 0 0 hdec (by unfold decValue at hv; omega)
    rw [xtoi, hq]
    simp only [List.append_assoc, List.cons_append] at this ⊢
    rw [show (asHex 0) = 0 from rfl] at this
    rw [this, Nat.zero_add]
    unfold decValue at hv
    rw [hv]
  have hl : t₁.length ≠ 0 := by simp [hne]
  have hdot : q[t₁.length]? = some '.' := by
    rw [hq]
    simp
  conv => lhs; unfold v6Loop
  simp only [hx]
  rw [if_neg (by unfold asHex big; omega), if_pos hdot, if_neg (by rintro ⟨h, h'⟩; exact h' (h1 h)),
    if_neg (by omega), hp]
  simp [v4Prefix]

theorem v6Loop_dotted {ts : List Str} {gs : List Nat} (h : List.Forall₂ IsGroup ts gs) {q : Str}
    {a b c d : Nat} (hq : IsV4 q a b c d) (fuel : Nat) (hf : ts.length < fuel) (acc : List Nat)
    (ell : Option Nat) (h1 : ell = none → acc.length + 2 * ts.length = 12)
    (h2 : acc.length + 2 * ts.length ≤ 12) :
    v6Loop fuel acc ell (colonJoin (ts ++ [q])) = some (acc ++ enc gs ++ [a, b, c, d], ell, []) := by
  induction h generalizing fuel acc with
  | nil =>
    obtain ⟨fuel, rfl⟩ : ∃ f, fuel = f + 1 := ⟨fuel - 1, by simp at hf; omega⟩
    simp only [List.nil_append, colonJoin, List.length_nil] at h1 h2 ⊢
    rw [v6Loop_v4 hq fuel acc ell (by simpa using h1) (by simpa using h2)]
    simp [enc]
  | @cons t g ts gs ht hs ih =>
    obtain ⟨fuel, rfl⟩ : ∃ f, fuel = f + 1 := ⟨fuel - 1, by simp at hf; omega⟩
    have hc : ∃ x s, colonJoin (ts ++ [q]) = x :: s ∧ x ≠ ':' := by
      cases hs with
      | nil =>
        obtain ⟨t₁, _, _, _, rfl, ⟨hne, hdec, _⟩, _⟩ := hq
        obtain ⟨x, s, rfl⟩ := List.exists_cons_of_ne_nil hne
        exact ⟨x, _, rfl, digit_ne (hdec x (by simp)) (by decide)⟩
      | @cons t' g' ts gs ht' hs =>
        obtain ⟨x, s, rfl⟩ := List.exists_cons_of_ne_nil ht'.1
        have hx := hexValue_chars ht'.2.2 x (by simp)
        have : x ≠ ':' := by rintro rfl; revert hx; decide
        cases ts with
        | nil => exact ⟨x, _, rfl, this⟩
        | cons t'' ts => exact ⟨x, _, rfl, this⟩
    obtain ⟨x, s, hxs, hx⟩ := hc
    have hj : colonJoin (t :: ts ++ [q]) = t ++ ':' :: colonJoin (ts ++ [q]) := by
      cases ts <;> rfl
    simp only [List.length_cons] at h1 h2 hf
    rw [hj, v6Loop_group ht (by simp), hxs]
    split
    · simp_all
    · simp_all
    · rename_i heq
      simp only [List.cons.injEq] at heq
      rw [← heq.2.1, ← heq.2.2, ← hxs, ih fuel (by omega) _ (by intro h; have := h1 h; simp; omega)
        (by simp; omega)]
      simp [enc]
    · rename_i h1 h2 h3
      exact (h3 _ _ rfl).elim

theorem dotJoin_ne {rs : List Str} {vs : List Nat} (h : List.Forall₂ IsGroup rs vs) {q : Str} {a b c d : Nat}
    (hq : IsV4 q a b c d) : colonJoin (rs ++ [q]) ≠ [] := by
  have hqne : q ≠ [] := by
    rintro rfl
    obtain ⟨t₁, _, _, _, h, ⟨hne, _⟩, _⟩ := hq
    simp at h
  cases h with
  | nil => exact hqne
  | @cons t g ts gs ht hs =>
    cases ts <;> simp [colonJoin]

theorem v6Finish_dotted (us vs : List Nat) (a b c d : Nat) (h : us.length + vs.length < 6) :
    v6Finish (enc us ++ enc vs ++ [a, b, c, d], some (enc us).length, []) =
      some (enc (us ++ List.replicate (6 - (us.length + vs.length)) 0 ++ vs) ++ [a, b, c, d]) := by
  have h1 := length_enc us
  have h2 := length_enc vs
  unfold v6Finish
  simp only [List.length_append, List.length_cons, List.length_nil]
  rw [if_neg (by simp), if_pos (by omega), List.append_assoc (enc us), List.take_left' rfl,
    List.drop_left' rfl, enc_append, enc_append, enc_zeros]
  simp only [List.append_assoc]
  congr 4
  omega

theorem parseIPv6_dotted {s : Str} {hs : List Nat} {a b c d : Nat} (h : IsDotted s hs a b c d) :
    parseIPv6 s = some (enc hs ++ [a, b, c, d]) := by
  rcases h with ⟨ts, q, rfl, hts, hq, hl⟩ | ⟨ls, us, rs, vs, q, rfl, hls, hrs, hq, hl, rfl⟩
  · have hlen := hts.length_eq
    have := v6Loop_dotted hts hq 8 (by omega) [] none (by simp; omega) (by simp; omega)
    unfold parseIPv6
    split
    · rename_i heq
      cases hts with
      | nil => simp at hl
      | @cons t g ts gs ht hs =>
        obtain ⟨x, s, rfl⟩ := List.exists_cons_of_ne_nil ht.1
        have hx := hexValue_chars ht.2.2 x (by simp)
        cases ts <;>
        · simp only [List.cons_append, List.nil_append, colonJoin, List.cons.injEq] at heq
          rw [heq.1] at hx
          exact absurd hx (by decide)
    · rw [this]
      simp [v6Finish, length_enc, hl]
  · have hll := hls.length_eq
    have hrl := hrs.length_eq
    have hfin := v6Finish_dotted us vs a b c d hl
    have hne := dotJoin_ne hrs hq
    by_cases hlne : ls = []
    · subst hlne
      cases hls
      simp only [colonJoin, List.nil_append, parseIPv6]
      rw [if_neg hne, v6Loop_dotted hrs hq 8 (by simp at hl; omega) [] (some 0) (by simp)
        (by simp at hl ⊢; omega)]
      simpa [enc] using hfin
    · obtain ⟨c, s, hcs, hc⟩ := colonJoin_head hls hlne
      have hcol : c ≠ ':' := by rintro rfl; revert hc; decide
      have := v6Loop_ell hls hlne 8 (by omega) [] (colonJoin (rs ++ [q]))
      unfold parseIPv6
      split
      · rename_i heq; rw [hcs] at heq; simp_all
      · rw [this, if_neg hne, v6Loop_dotted hrs hq _ (by omega) _ _ (by simp)
          (by simp [length_enc]; omega)]
        simpa using hfin

/-! ## Both notations -/

theorem isDotted_length {s : Str} {hs : List Nat} {a b c d : Nat} (h : IsDotted s hs a b c d) :
    hs.length = 6 := by
  rcases h with ⟨_, _, _, _, _, hl⟩ | ⟨_, us, _, vs, _, _, _, _, _, hl, rfl⟩
  · exact hl
  · simp; omega

theorem isDotted_v4 {s : Str} {hs : List Nat} {a b c d : Nat} (h : IsDotted s hs a b c d) :
    a < 256 ∧ b < 256 ∧ c < 256 ∧ d < 256 := by
  rcases h with ⟨_, _, _, _, hq, _⟩ | ⟨_, _, _, _, _, _, _, _, hq, _⟩ <;> exact isV4_lt hq

theorem isDotted_lt {s : Str} {hs : List Nat} {a b c d : Nat} (h : IsDotted s hs a b c d) :
    ∀ g ∈ hs, g < 2 ^ 16 := by
  rcases h with ⟨_, _, _, h, _⟩ | ⟨_, us, _, vs, _, _, h, h', _, _, rfl⟩
  · exact forall₂_group_lt h
  · intro g hg
    simp only [List.mem_append, List.mem_replicate] at hg
    rcases hg with (hg | hg) | hg
    · exact forall₂_group_lt h g hg
    · omega
    · exact forall₂_group_lt h' g hg

theorem isText_length {x : Bool} {s : Str} {gs : List Nat} (h : IsText x s gs) : gs.length = 8 := by
  cases x with
  | false => exact isV6_length h
  | true =>
    obtain ⟨hs, a, b, c, d, h, rfl⟩ := h
    simp [isDotted_length h]

theorem isText_lt {x : Bool} {s : Str} {gs : List Nat} (h : IsText x s gs) : ∀ g ∈ gs, g < 2 ^ 16 := by
  cases x with
  | false => exact isV6_lt h
  | true =>
    obtain ⟨hs, a, b, c, d, h, rfl⟩ := h
    obtain ⟨_, _, _, _⟩ := isDotted_v4 h
    intro g hg
    simp only [List.mem_append, List.mem_cons, List.not_mem_nil, or_false] at hg
    rcases hg with hg | rfl | rfl
    · exact isDotted_lt h g hg
    · omega
    · omega

/-- The two bytes of a group in the part that may be dotted. -/
def pair (dotted : Bool) (g : Nat) : List Nat := [g / 256, if dotted then g % 256 else g]

/-- The bytes read from a text. -/
def bytesOf (dotted : Bool) (gs : List Nat) : List Nat :=
  enc (gs.take 6) ++ (gs.drop 6).flatMap (pair dotted)

theorem bytesOf_false (gs : List Nat) : bytesOf false gs = enc gs := by
  have : (gs.drop 6).flatMap (pair false) = enc (gs.drop 6) := rfl
  rw [bytesOf, this, ← enc_append, List.take_append_drop]

theorem parseIPv6_text {x : Bool} {s : Str} {gs : List Nat} (h : IsText x s gs) :
    parseIPv6 s = some (bytesOf x gs) := by
  cases x with
  | false => rw [bytesOf_false]; exact parseIPv6_v6 h
  | true =>
    obtain ⟨hs, a, b, c, d, h, rfl⟩ := h
    obtain ⟨_, _, _, _⟩ := isDotted_v4 h
    have hl := isDotted_length h
    rw [parseIPv6_dotted h, bytesOf, List.take_left' hl, List.drop_left' hl]
    simp only [List.flatMap_cons, List.flatMap_nil, pair, List.append_nil, if_true, List.cons_append,
      List.nil_append, Option.some.injEq, List.append_cancel_left_eq, List.cons.injEq, and_true]
    omega

/-- A colon comes before every dot, and there are only hexadecimal digits, colons and dots. -/
theorem isText_shape {x : Bool} {s : Str} {gs : List Nat} (h : IsText x s gs) :
    (∃ t r, s = t ++ ':' :: r ∧ ∀ c ∈ t, (hexVal c).isSome) ∧
      ∀ c ∈ s, c = '.' ∨ c = ':' ∨ (hexVal c).isSome := by
  have hg : ∀ {t : Str} {g : Nat}, IsGroup t g → ∀ c ∈ t, (hexVal c).isSome := fun h =>
    hexValue_chars h.2.2
  have hj : ∀ {ts : List Str} {hs : List Nat}, List.Forall₂ IsGroup ts hs → ∀ r : Str,
      ∃ t r', colonJoin ts ++ ':' :: r = t ++ ':' :: r' ∧ ∀ c ∈ t, (hexVal c).isSome := by
    intro ts hs h r
    cases h with
    | nil => exact ⟨[], r, rfl, by simp⟩
    | @cons t g ts gs ht hs =>
      cases ts with
      | nil => exact ⟨t, r, rfl, hg ht⟩
      | cons t' ts => exact ⟨t, colonJoin (t' :: ts) ++ ':' :: r, by simp [colonJoin], hg ht⟩
  have hv4 : ∀ {q : Str} {a b c d : Nat}, IsV4 q a b c d →
      ∀ x ∈ q, x = '.' ∨ x = ':' ∨ (hexVal x).isSome := by
    intro q a b c d hq x hx
    rcases isV4_chars hq x hx with h | h
    · exact .inl h
    · exact .inr (.inr (by rw [hexVal_dec h]; rfl))
  have hc : ∀ {ts : List Str} {hs : List Nat} {q : Str} {a b c d : Nat}, List.Forall₂ IsGroup ts hs →
      IsV4 q a b c d → ∀ x ∈ colonJoin (ts ++ [q]), x = '.' ∨ x = ':' ∨ (hexVal x).isSome := by
    intro ts hs q a b c d h hq
    induction h with
    | nil => exact hv4 hq
    | @cons t g ts gs ht hs ih =>
      have hjj : colonJoin (t :: ts ++ [q]) = t ++ ':' :: colonJoin (ts ++ [q]) := by cases ts <;> rfl
      rw [hjj]
      intro x hx
      simp only [List.mem_append, List.mem_cons] at hx
      rcases hx with hx | hx | hx
      · exact .inr (.inr (hg ht x hx))
      · exact .inr (.inl hx)
      · exact ih x (by simpa using hx)
  cases x with
  | false =>
    obtain ⟨h1, h2⟩ := isV6_chars h
    refine ⟨?_, fun c hc => .inr (h1 c hc)⟩
    rcases h with ⟨ts, rfl, hts, hl⟩ | ⟨ls, us, rs, vs, rfl, hls, _⟩
    · cases hts with
      | nil => simp at hl
      | @cons t g ts gs ht hs =>
        cases hs with
        | nil => simp at hl
        | @cons t' g' ts gs ht' hs => exact ⟨t, _, rfl, hg ht⟩
    · exact hj hls _
  | true =>
    obtain ⟨hs, a, b, c, d, h, rfl⟩ := h
    rcases h with ⟨ts, q, rfl, hts, hq, hl⟩ | ⟨ls, us, rs, vs, q, rfl, hls, hrs, hq, _⟩
    · refine ⟨?_, hc hts hq⟩
      cases hts with
      | nil => simp at hl
      | @cons t g ts gs ht hs => exact ⟨t, colonJoin (ts ++ [q]), by cases ts <;> rfl, hg ht⟩
    · refine ⟨hj hls _, ?_⟩
      intro x hx
      simp only [List.mem_append, List.mem_cons] at hx
      rcases hx with hx | hx | hx | hx
      · exact .inr (colonJoin_chars hls x hx)
      · exact .inr (.inl hx)
      · exact .inr (.inl hx)
      · exact hc hrs hq x hx

theorem parseIP_text {x : Bool} {s : Str} {gs : List Nat} (h : IsText x s gs) :
    parseIP s = some (bytesOf x gs) := by
  have hp := parseIPv6_text h
  obtain ⟨⟨t, r, rfl, ht⟩, _⟩ := isText_shape h
  unfold parseIP
  rw [find?_append_none]
  · simpa using hp
  · intro c hc
    have := ht c hc
    have h1 : c ≠ '.' := by rintro rfl; revert this; decide
    have h2 : c ≠ ':' := by rintro rfl; revert this; decide
    simp [h1, h2]

theorem parseIPv4_text {x : Bool} {s : Str} {gs : List Nat} (h : IsText x s gs) : parseIPv4 s = none := by
  cases hp : parseIPv4 s with
  | none => rfl
  | some ip =>
    obtain ⟨a, b, c, d, h4, _⟩ := (parseIPv4_iff s ip).mp hp
    obtain ⟨⟨t, r, rfl, ht⟩, _⟩ := isText_shape h
    have := isV4_chars h4 ':' (by simp)
    exact absurd this (by decide)

theorem length_bytesOf {x : Bool} {gs : List Nat} (h : gs.length = 8) : (bytesOf x gs).length = 16 := by
  obtain ⟨a, b, c, d, e, f, g, k, rfl⟩ := list8 h
  rfl

theorem parseCIDR_text {x : Bool} {net ms : Str} {es : List Nat} {n : Nat} (hnet : IsText x net es)
    (hms : IsDecimal ms n) (hn : n ≤ 128) : parseCIDR (net ++ '/' :: ms) =
      .ok (List.zipWith (· &&& ·) (bytesOf x es) (cidrMask 16 n), cidrMask 16 n) := by
  have hslash : '/' ∉ net := by
    intro hm
    have := (isText_shape hnet).2 _ hm
    exact absurd this (by decide)
  have hd := dtoi_decimal hms (by unfold big; omega) (rest := []) (by simp)
  rw [List.append_nil] at hd
  have hml : ms.length ≠ 0 := by simp [hms.1]
  unfold parseCIDR
  rw [show c!"/" = ['/'] from rfl, findSub_single hslash]
  simp only [List.take_left']
  rw [show (net ++ '/' :: ms).drop (net.length + 1) = ms by simp, parseIPv4_text hnet, parseIPv6_text hnet]
  simp only [Option.isSome_none, hd]
  rw [if_neg (by simp), if_neg (by simp)]
  simp only
  rw [if_neg (by unfold big; omega)]
  simp [ipMask, length_cidrMask, length_bytesOf (isText_length hnet)]

/-! ## Comparing -/

theorem maskMixed {g k n : Nat} (hg : g < 2 ^ 16) (hk : k < 2 ^ 16) :
    ((g / 256) &&& maskByte n = (k / 256) &&& maskByte n ∧
      g % 256 &&& maskByte (n - 8) = k &&& maskByte (n - 8)) ↔
      g / 2 ^ (16 - n) = k / 2 ^ (16 - n) ∧ (8 < n → n < 16 → g / 256 = 0) := by
  have hpl := maskGroup (g := g) (n := n) hg hk
  by_cases h8 : 8 < n
  · by_cases h16 : n < 16
    · have e : 16 - n = 8 - (n - 8) := by omega
      rw [maskByte_8 (by omega) (by omega), maskByte_eq (by omega) (by omega),
        and_highMask (by omega) hk (by omega), show 8 - n = 0 by omega, e]
      have ht : 8 - (n - 8) < 8 := by omega
      generalize 8 - (n - 8) = t at ht
      simp only [Nat.pow_zero, Nat.div_one, h8, h16, true_imp_iff]
      have h2 : (256 : Nat) = 2 ^ (8 - t) * 2 ^ t := by
        rw [← Nat.pow_add, show 8 - t + t = 8 by omega]
      constructor
      · rintro ⟨h1, h3⟩
        have hz : g / 256 = 0 := by
          by_contra hne
          have h4 : g % 256 / 2 ^ t < 2 ^ (8 - t) := by
            rw [Nat.div_lt_iff_lt_mul (Nat.two_pow_pos t), ← h2]
            omega
          have h5 : 2 ^ (8 - t) ≤ k / 2 ^ t := by
            rw [Nat.le_div_iff_mul_le (Nat.two_pow_pos t), ← h2]
            omega
          omega
        have : g % 256 = g := by omega
        rw [this] at h3
        exact ⟨h3, hz⟩
      · rintro ⟨h1, hz⟩
        have hgm : g % 256 = g := by omega
        refine ⟨?_, by rw [hgm]; exact h1⟩
        rw [h2, Nat.mul_comm, ← Nat.div_div_eq_div_mul, ← Nat.div_div_eq_div_mul, h1]
    · rw [← hpl]
      have e2 : n - 8 ≥ 8 := by omega
      have hm : maskByte (n - 8) = 255 := maskByte_full e2
      rw [hm, and_255, and_255, and_255]
      simp [h16]
  · rw [← hpl]
    have e : n - 8 = 0 := by omega
    simp [e, maskByte, h8]

theorem maskDotted {g k n : Nat} (hg : g < 2 ^ 16) (hk : k < 2 ^ 16) :
    ((g / 256) &&& maskByte n = (k / 256) &&& maskByte n ∧
      g % 256 &&& maskByte (n - 8) = k % 256 &&& maskByte (n - 8)) ↔
      g / 2 ^ (16 - n) = k / 2 ^ (16 - n) := by
  rw [maskByte_8 (by omega) (by omega), maskByte_8 (by omega) (by omega)]
  by_cases h16 : n ≤ 16
  · have := lead_eq (d := g / 256) (e := k / 256) (x := g % 256) (y := k % 256) (w := 8) (k := 8) (n := n)
      (by omega) (by omega) (by omega)
    rw [← this]
    have e1 : g / 256 * 2 ^ 8 + g % 256 = g := Nat.div_add_mod' g 256
    have e2 : k / 256 * 2 ^ 8 + k % 256 = k := Nat.div_add_mod' k 256
    rw [e1, e2]
  · rw [show 8 - n = 0 by omega, show 8 - (n - 8) = 0 by omega, show 16 - n = 0 by omega]
    simp only [Nat.pow_zero, Nat.div_one]
    have e1 := Nat.div_add_mod g 256
    have e2 := Nat.div_add_mod k 256
    constructor
    · rintro ⟨h1, h2⟩
      rw [← e1, ← e2, h1, h2]
    · rintro rfl
      exact ⟨rfl, rfl⟩

/-- The two bytes of a group agree under the mask exactly when the group agrees in the ones, and, if
the notations differ and the mask ends in the second byte, the first byte is zero. -/
theorem maskPair {x y : Bool} {g k n : Nat} (hg : g < 2 ^ 16) (hk : k < 2 ^ 16) :
    ((g / 256) &&& maskByte n = (k / 256) &&& maskByte n ∧
      (if x then g % 256 else g) &&& maskByte (n - 8) = (if y then k % 256 else k) &&& maskByte (n - 8)) ↔
      g / 2 ^ (16 - n) = k / 2 ^ (16 - n) ∧ (x ≠ y → 8 < n → n < 16 → g / 256 = 0) := by
  cases x <;> cases y <;> simp only [Bool.false_eq_true, if_true, if_false]
  · simp [maskGroup hg hk]
  · have h := maskMixed (n := n) hk hg
    simp only [ne_eq, not_false_eq_true, true_imp_iff, reduceCtorEq]
    rw [eq_comm (a := g / 256 &&& maskByte n), eq_comm (a := g &&& maskByte (n - 8)), h,
      eq_comm (a := k / 2 ^ (16 - n))]
    refine and_congr_right fun h1 => ?_
    refine forall_congr' fun h8 => forall_congr' fun h16 => ?_
    have e : (256 : Nat) = 2 ^ (16 - n) * 2 ^ (n - 8) := by
      rw [← Nat.pow_add, show 16 - n + (n - 8) = 8 by omega]
    rw [e, ← Nat.div_div_eq_div_mul, ← Nat.div_div_eq_div_mul, h1]
  · simp [maskMixed hg hk]
  · simp [maskDotted hg hk]

/-- The comparison loop on pairs of bytes. -/
def AgreePairs : Nat → List ((Nat × Nat) × Nat × Nat) → Prop
  | _, [] => True
  | n, ((a, b), (c, d)) :: ps =>
    (a &&& maskByte n = c &&& maskByte n ∧ b &&& maskByte (n - 8) = d &&& maskByte (n - 8)) ∧
      AgreePairs (n - 16) ps

instance AgreePairs.dec (n : Nat) (ps : List ((Nat × Nat) × Nat × Nat)) : Decidable (AgreePairs n ps) := by
  induction ps generalizing n with
  | nil => exact instDecidableTrue
  | cons p ps ih =>
    unfold AgreePairs
    exact @instDecidableAnd _ _ _ (ih (n - 16))

theorem sameMasked_pairs (ps : List ((Nat × Nat) × Nat × Nat)) (n : Nat) :
    sameMasked (List.zipWith (· &&& ·) (ps.flatMap fun p => [p.1.1, p.1.2]) (cidrMask (2 * ps.length) n))
        (ps.flatMap fun p => [p.2.1, p.2.2]) (cidrMask (2 * ps.length) n) =
      .ok (decide (AgreePairs n ps)) := by
  induction ps generalizing n with
  | nil => rw [decide_eq_true (show AgreePairs n [] from trivial)]; rfl
  | cons p ps ih =>
    obtain ⟨⟨a, b⟩, c, d⟩ := p
    have e : n - 8 - 8 = n - 16 := by omega
    rw [show 2 * (((a, b), c, d) :: ps).length = 2 * ps.length + 1 + 1 by simp; ring]
    simp only [List.flatMap_cons, List.cons_append, List.nil_append, cidrMask, List.zipWith_cons_cons,
      sameMasked, and_self_right, e, ih, AgreePairs, ne_eq, ite_not]
    by_cases h1 : a &&& maskByte n = c &&& maskByte n
    · by_cases h2 : b &&& maskByte (n - 8) = d &&& maskByte (n - 8)
      · simp [h1, h2]
      · simp [h1, h2]
    · simp [h1]

/-- Agreement of the first `n` bits, group by group. -/
theorem digits_agree {a e : Nat} {as es : List Nat} {n : Nat} (hl : es.length = as.length)
    (he : ∀ x ∈ es, x < 2 ^ 16) (ha : ∀ x ∈ as, x < 2 ^ 16) (hn : n ≤ 16 * (as.length + 1)) :
    digits 16 (a :: as) / 2 ^ (16 * (as.length + 1) - n) =
        digits 16 (e :: es) / 2 ^ (16 * (as.length + 1) - n) ↔
      a / 2 ^ (16 - n) = e / 2 ^ (16 - n) ∧
        digits 16 as / 2 ^ (16 * as.length - (n - 16)) =
          digits 16 es / 2 ^ (16 * as.length - (n - 16)) := by
  have hd := digits_lt ha
  have hd' := digits_lt he
  rw [hl] at hd'
  have hlead := lead_eq (d := a) (e := e) (w := 16) (n := n) hd hd' (by omega)
  rw [← hlead, show 16 * (as.length + 1) = 16 + 16 * as.length by ring, digits, digits, hl]

/-- The answer for two texts: the first `n` bits agree and, if the notations differ, the mask does not
end in the second or last byte of the IPv4 address unless the byte before is zero. -/
def Agrees (x y : Bool) (n : Nat) (as es : List Nat) : Prop :=
  v6Value as / 2 ^ (128 - n) = v6Value es / 2 ^ (128 - n) ∧
    (x ≠ y → (104 < n → n < 112 → v6Value es / 2 ^ 24 % 256 = 0) ∧
      (120 < n → n < 128 → v6Value es / 2 ^ 8 % 256 = 0))

instance (x y : Bool) (n : Nat) (as es : List Nat) : Decidable (Agrees x y n as es) := by
  unfold Agrees; infer_instance

theorem v6Value_agree {as es : List Nat} {n : Nat} (hal : as.length = 8)
    (hel : es.length = 8) (ha : ∀ x ∈ as, x < 2 ^ 16) (he : ∀ x ∈ es, x < 2 ^ 16) (hn : n ≤ 128) :
    v6Value as / 2 ^ (128 - n) = v6Value es / 2 ^ (128 - n) ↔
      ∀ i a e, as[i]? = some a → es[i]? = some e →
        e / 2 ^ (16 - (n - 16 * i)) = a / 2 ^ (16 - (n - 16 * i)) := by
  have key : ∀ (as es : List Nat) (n : Nat), as.length = es.length → (∀ x ∈ as, x < 2 ^ 16) →
      (∀ x ∈ es, x < 2 ^ 16) → n ≤ 16 * as.length →
      (digits 16 as / 2 ^ (16 * as.length - n) = digits 16 es / 2 ^ (16 * as.length - n) ↔
        ∀ i a e, as[i]? = some a → es[i]? = some e →
          e / 2 ^ (16 - (n - 16 * i)) = a / 2 ^ (16 - (n - 16 * i))) := by
    intro as
    induction as with
    | nil =>
      intro es n hl _ _ _
      cases es with
      | nil => simp
      | cons => simp at hl
    | cons a as ih =>
      intro es n hl ha he hn
      cases es with
      | nil => simp at hl
      | cons e es =>
        have hl' : es.length = as.length := by simpa using hl.symm
        have ha' := fun x hx => ha x (List.mem_cons_of_mem _ hx)
        have he' := fun x hx => he x (List.mem_cons_of_mem _ hx)
        have h := digits_agree (a := a) (e := e) (n := n) hl' he' ha' (by simpa using hn)
        rw [List.length_cons, h, ih es (n - 16) hl'.symm ha' he' (by simp at hn; omega)]
        constructor
        · rintro ⟨h0, h1⟩ i
          cases i with
          | zero => intro a' e' h2 h3; simp at h2 h3; subst h2 h3; simpa using h0.symm
          | succ i =>
            intro a' e' h2 h3
            have := h1 i a' e' (by simpa using h2) (by simpa using h3)
            rwa [show n - 16 - 16 * i = n - 16 * (i + 1) by omega] at this
        · intro hh
          refine ⟨by simpa using (hh 0 a e rfl rfl).symm, ?_⟩
          intro i a' e' h2 h3
          have := hh (i + 1) a' e' (by simpa using h2) (by simpa using h3)
          rwa [show n - 16 * (i + 1) = n - 16 - 16 * i by omega] at this
  have := key as es n (by omega) ha he (by omega)
  rwa [hal, digits_v6, digits_v6] at this

theorem forall_lt_8 {P : Nat → Nat → Nat → Prop} {a1 a2 a3 a4 a5 a6 a7 a8 e1 e2 e3 e4 e5 e6 e7 e8 : Nat} :
    (∀ i a e, [a1, a2, a3, a4, a5, a6, a7, a8][i]? = some a → [e1, e2, e3, e4, e5, e6, e7, e8][i]? = some e →
      P i a e) ↔ P 0 a1 e1 ∧ P 1 a2 e2 ∧ P 2 a3 e3 ∧ P 3 a4 e4 ∧ P 4 a5 e5 ∧ P 5 a6 e6 ∧ P 6 a7 e7 ∧
        P 7 a8 e8 := by
  constructor
  · intro h
    exact ⟨h 0 _ _ rfl rfl, h 1 _ _ rfl rfl, h 2 _ _ rfl rfl, h 3 _ _ rfl rfl, h 4 _ _ rfl rfl,
      h 5 _ _ rfl rfl, h 6 _ _ rfl rfl, h 7 _ _ rfl rfl⟩
  · rintro ⟨h0, h1, h2, h3, h4, h5, h6, h7⟩ i a e ha he
    match i, ha, he with
    | 0, ha, he => simp at ha he; subst ha he; exact h0
    | 1, ha, he => simp at ha he; subst ha he; exact h1
    | 2, ha, he => simp at ha he; subst ha he; exact h2
    | 3, ha, he => simp at ha he; subst ha he; exact h3
    | 4, ha, he => simp at ha he; subst ha he; exact h4
    | 5, ha, he => simp at ha he; subst ha he; exact h5
    | 6, ha, he => simp at ha he; subst ha he; exact h6
    | 7, ha, he => simp at ha he; subst ha he; exact h7
    | i + 8, ha, he => simp at ha

theorem byte12 (A e7 e8 : Nat) (h7 : e7 < 65536) (h8 : e8 < 65536) :
    ((A * 65536 + e7) * 65536 + e8) / 16777216 % 256 = e7 / 256 := by omega

theorem byte14 (A e8 : Nat) (h8 : e8 < 65536) : (A * 65536 + e8) / 256 % 256 = e8 / 256 := by omega

theorem sameMasked_text {x y : Bool} {as es : List Nat} {n : Nat} (hal : as.length = 8)
    (hel : es.length = 8) (ha : ∀ x ∈ as, x < 2 ^ 16) (he : ∀ x ∈ es, x < 2 ^ 16) (hn : n ≤ 128) :
    sameMasked (List.zipWith (· &&& ·) (bytesOf y es) (cidrMask 16 n)) (bytesOf x as) (cidrMask 16 n) =
      .ok (decide (Agrees x y n as es)) := by
  have hv := v6Value_agree hal hel ha he hn
  obtain ⟨a1, a2, a3, a4, a5, a6, a7, a8, rfl⟩ := list8 hal
  obtain ⟨e1, e2, e3, e4, e5, e6, e7, e8, rfl⟩ := list8 hel
  have h := sameMasked_pairs [((e1 / 256, e1), (a1 / 256, a1)), ((e2 / 256, e2), (a2 / 256, a2)),
    ((e3 / 256, e3), (a3 / 256, a3)), ((e4 / 256, e4), (a4 / 256, a4)), ((e5 / 256, e5), (a5 / 256, a5)),
    ((e6 / 256, e6), (a6 / 256, a6)),
    ((e7 / 256, if y then e7 % 256 else e7), (a7 / 256, if x then a7 % 256 else a7)),
    ((e8 / 256, if y then e8 % 256 else e8), (a8 / 256, if x then a8 % 256 else a8))] n
  refine Eq.trans h ?_
  congr 1
  rw [decide_eq_decide]
  simp only [List.mem_cons, List.not_mem_nil, or_false, forall_eq_or_imp, forall_eq] at ha he
  obtain ⟨ha1, ha2, ha3, ha4, ha5, ha6, ha7, ha8⟩ := ha
  obtain ⟨he1, he2, he3, he4, he5, he6, he7, he8⟩ := he
  simp only [AgreePairs]
  rw [maskGroup he1 ha1, maskGroup he2 ha2, maskGroup he3 ha3, maskGroup he4 ha4, maskGroup he5 ha5,
    maskGroup he6 ha6, maskPair he7 ha7, maskPair he8 ha8]
  unfold Agrees
  rw [hv, forall_lt_8]
  have h7 : v6Value [e1, e2, e3, e4, e5, e6, e7, e8] / 2 ^ 24 % 256 = e7 / 256 := by
    simp only [v6Value, List.foldl_cons, List.foldl_nil]
    exact byte12 _ _ _ he7 he8
  have h8 : v6Value [e1, e2, e3, e4, e5, e6, e7, e8] / 2 ^ 8 % 256 = e8 / 256 := by
    simp only [v6Value, List.foldl_cons, List.foldl_nil]
    exact byte14 _ _ he8
  rw [h7, h8]
  have k1 : (8 < n - 16 - 16 - 16 - 16 - 16 - 16 → n - 16 - 16 - 16 - 16 - 16 - 16 < 16 → e7 / 256 = 0) ↔
      (104 < n → n < 112 → e7 / 256 = 0) := by omega
  have k2 : (8 < n - 16 - 16 - 16 - 16 - 16 - 16 - 16 → n - 16 - 16 - 16 - 16 - 16 - 16 - 16 < 16 →
      e8 / 256 = 0) ↔ (120 < n → n < 128 → e8 / 256 = 0) := by omega
  rw [k1, k2]
  simp only [Nat.sub_sub, Nat.mul_zero, Nat.sub_zero]
  norm_num
  by_cases hxy : x = y
  · simp [hxy, eq_comm]
  · have hyx : ¬ y = x := fun h => hxy h.symm
    simp only [hxy, hyx, not_false_eq_true, true_imp_iff]
    constructor
    · rintro ⟨p1, p2, p3, p4, p5, p6, ⟨p7, q7⟩, p8, q8⟩
      exact ⟨⟨p1, p2, p3, p4, p5, p6, p7, p8⟩, q7, q8⟩
    · rintro ⟨⟨p1, p2, p3, p4, p5, p6, p7, p8⟩, q7, q8⟩
      exact ⟨p1, p2, p3, p4, p5, p6, ⟨p7, q7⟩, p8, q8⟩

/-! ## The families -/

theorem to4_text {x : Bool} {as : List Nat} (hl : as.length = 8) :
    to4 (bytesOf x as) = .ok (bytesOf x as, false) := by
  obtain ⟨a, b, c, d, e, f, g, k, rfl⟩ := list8 hl
  simp only [to4, length_bytesOf hl]
  rw [if_neg (by omega), if_neg (by omega), if_neg]
  rintro ⟨_, _, h1, h2⟩
  simp only [bytesOf, List.take_succ_cons, List.take_zero, enc, List.flatMap_cons, List.cons_append,
    List.nil_append, List.getElem?_cons_succ, List.getElem?_cons_zero, Option.some.injEq] at h1 h2
  omega

/-- Masking looks at the groups before the IPv4 address as in the other notation. -/
theorem masked_take {x : Bool} {es : List Nat} (hl : es.length = 8) (n i : Nat) (hi : i < 12) :
    (List.zipWith (· &&& ·) (bytesOf x es) (cidrMask 16 n))[i]? =
      (List.zipWith (· &&& ·) (enc es) (cidrMask 16 n))[i]? := by
  obtain ⟨a, b, c, d, e, f, g, k, rfl⟩ := list8 hl
  rw [cidrMask16]
  interval_cases i <;> rfl

theorem to4_masked_text {x : Bool} {es : List Nat} {n : Nat} (hl : es.length = 8)
    (he : ∀ x ∈ es, x < 2 ^ 16) (hm : ¬ Mapped es n) :
    to4 (List.zipWith (· &&& ·) (bytesOf x es) (cidrMask 16 n)) =
      .ok (List.zipWith (· &&& ·) (bytesOf x es) (cidrMask 16 n), false) := by
  have h := to4_masked hl he hm
  have hlen : (List.zipWith (· &&& ·) (bytesOf x es) (cidrMask 16 n)).length = 16 := by
    simp [length_bytesOf hl, length_cidrMask]
  have hlen' : (List.zipWith (· &&& ·) (enc es) (cidrMask 16 n)).length = 16 := by
    simp [length_enc, length_cidrMask, hl]
  have ht : (List.zipWith (· &&& ·) (bytesOf x es) (cidrMask 16 n)).take 10 =
      (List.zipWith (· &&& ·) (enc es) (cidrMask 16 n)).take 10 := by
    apply List.ext_getElem?
    intro i
    by_cases hi : i < 10
    · rw [List.getElem?_take_of_lt hi, List.getElem?_take_of_lt hi]
      exact masked_take hl n i (by omega)
    · rw [List.getElem?_take_eq_none (by omega), List.getElem?_take_eq_none (by omega)]
  unfold to4 at h ⊢
  rw [if_neg (by omega), if_neg (by omega)] at h ⊢
  rw [hlen', ] at h
  rw [hlen, ht, masked_take hl n 10 (by omega), masked_take hl n 11 (by omega)]
  split at h
  · simp at h
  · rename_i hc
    rw [if_neg hc]

theorem netAndMask_text {x : Bool} {es : List Nat} {n : Nat} (hl : es.length = 8)
    (he : ∀ x ∈ es, x < 2 ^ 16) (hm : ¬ Mapped es n) :
    netAndMask (List.zipWith (· &&& ·) (bytesOf x es) (cidrMask 16 n)) (cidrMask 16 n) =
      .ok (List.zipWith (· &&& ·) (bytesOf x es) (cidrMask 16 n), cidrMask 16 n) := by
  unfold netAndMask
  rw [to4_masked_text hl he hm]
  simp [length_bytesOf hl, length_cidrMask]

theorem ipMatch_text {x y : Bool} {ip net ms : Str} {as es : List Nat} {n : Nat} (hip : IsText x ip as)
    (hnet : IsText y net es) (hms : IsDecimal ms n) (hn : n ≤ 128) (hm : ¬ Mapped es n) :
    ipMatch ip (net ++ '/' :: ms) = .ok (decide (Agrees x y n as es)) := by
  have hal := isText_length hip
  have hel := isText_length hnet
  unfold ipMatch
  rw [parseIP_text hip]
  simp only [parseCIDR_text hnet hms hn, Outcome.ok_bind, netContains,
    netAndMask_text hel (isText_lt hnet) hm, to4_text hal]
  rw [if_neg (by simp [length_bytesOf, length_cidrMask, hal, hel])]
  exact sameMasked_text hal hel (isText_lt hip) (isText_lt hnet) hn

theorem ipMatch_v4_text {y : Bool} {ip net ms : Str} {a b c d : Nat} {es : List Nat} {n : Nat}
    (hip : IsV4 ip a b c d) (hnet : IsText y net es) (hms : IsDecimal ms n) (hn : n ≤ 128)
    (hm : ¬ Mapped es n) : ipMatch ip (net ++ '/' :: ms) = .ok false := by
  have hel := isText_length hnet
  unfold ipMatch
  rw [parseIP_v4 hip]
  simp only [parseCIDR_text hnet hms hn, Outcome.ok_bind, netContains,
    netAndMask_text hel (isText_lt hnet) hm, to4_v4]
  rw [if_pos (by simp [length_bytesOf, length_cidrMask, hel])]

theorem netAndMask_mapped_text {x : Bool} {g k n : Nat} (hn : 96 ≤ n) :
    netAndMask (List.zipWith (· &&& ·) (bytesOf x [0, 0, 0, 0, 0, 0xffff, g, k]) (cidrMask 16 n))
        (cidrMask 16 n) =
      .ok (List.zipWith (· &&& ·) (pair x g ++ pair x k) (cidrMask 4 (n - 96)), cidrMask 4 (n - 96)) := by
  have h4 : to4 (List.zipWith (· &&& ·) (bytesOf x [0, 0, 0, 0, 0, 0xffff, g, k]) (cidrMask 16 n)) =
      .ok (List.zipWith (· &&& ·) (pair x g ++ pair x k) (cidrMask 4 (n - 96)), true) := by
    rw [cidrMask16]
    rw [maskByte_full (n := n) (by omega), maskByte_full (n := n - 80) (by omega),
      maskByte_full (n := n - 88) (by omega)]
    simp [bytesOf, enc, cidrMask, to4, pair]
  unfold netAndMask
  rw [h4]
  simp [length_cidrMask, pair]
  rw [cidrMask16]
  simp [cidrMask]

theorem mapped_eq {es : List Nat} {n : Nat} (hel : es.length = 8) (hm : Mapped es n) :
    ∃ g k, es = [0, 0, 0, 0, 0, 0xffff, g, k] := by
  obtain ⟨a, b, c, d, e, f, g, k, rfl⟩ := list8 hel
  obtain ⟨_, hm2⟩ := hm
  simp only [List.take_succ_cons, List.take_zero, List.cons.injEq, and_true] at hm2
  obtain ⟨rfl, rfl, rfl, rfl, rfl, rfl⟩ := hm2
  exact ⟨g, k, rfl⟩

theorem ipMatch_text_mapped {x y : Bool} {ip net ms : Str} {as es : List Nat} {n : Nat}
    (hip : IsText x ip as) (hnet : IsText y net es) (hms : IsDecimal ms n) (hn : n ≤ 128)
    (hm : Mapped es n) : ipMatch ip (net ++ '/' :: ms) = .ok false := by
  have hal := isText_length hip
  obtain ⟨g, k, rfl⟩ := mapped_eq (isText_length hnet) hm
  unfold ipMatch
  rw [parseIP_text hip]
  simp only [parseCIDR_text hnet hms hn, Outcome.ok_bind, netContains, netAndMask_mapped_text hm.1,
    to4_text hal]
  rw [if_pos (by simp [length_bytesOf, length_cidrMask, hal, pair])]

theorem high_byte (e f : Nat) (hf : f < 256) : (e * 256 + f) / 256 = e := by omega

theorem low_byte (e f : Nat) (hf : f < 256) : (e * 256 + f) % 256 = f := by omega

theorem two_bytes {a b : Nat} (ha : a < 256) (hb : b < 256) : a * 256 + b < 2 ^ 16 := by omega

theorem four_bytes (a b c d : Nat) :
    (a * 256 + b) * 2 ^ 16 + (c * 256 + d) = v4Value a b c d := by
  simp only [v4Value]; ring

theorem and_shuffle {a b c d : Prop} : ((a ∧ b) ∧ c ∧ d) ↔ ((a ∧ c) ∧ b ∧ d) :=
  ⟨fun h => ⟨⟨h.1.1, h.2.1⟩, h.1.2, h.2.2⟩, fun h => ⟨⟨h.1.1, h.2.1⟩, h.1.2, h.2.2⟩⟩

theorem imp_bounds {a b c d p : Prop} (h1 : a ↔ c) (h2 : b ↔ d) : (a → b → p) ↔ (c → d → p) := by
  rw [h1, h2]

theorem ipMatch_v4_mapped {ip net ms : Str} {a b c d e f g h : Nat} {n : Nat} (hip : IsV4 ip a b c d)
    (hnet : IsDotted net [0, 0, 0, 0, 0, 0xffff] e f g h) (hms : IsDecimal ms n) (h96 : 96 ≤ n)
    (hn : n ≤ 128) : ipMatch ip (net ++ '/' :: ms) =
      .ok (decide (v4Value a b c d / 2 ^ (128 - n) = v4Value e f g h / 2 ^ (128 - n))) := by
  have ht : IsText true net [0, 0, 0, 0, 0, 0xffff, e * 256 + f, g * 256 + h] := ⟨_, e, f, g, h, hnet, rfl⟩
  obtain ⟨he, hf, hg, hh⟩ := isDotted_v4 hnet
  obtain ⟨ha, hb, hc, hd⟩ := isV4_lt hip
  unfold ipMatch
  rw [parseIP_v4 hip]
  simp only [parseCIDR_text ht hms hn, Outcome.ok_bind, netContains, netAndMask_mapped_text h96, to4_v4]
  have e1 := high_byte e f (by omega)
  have e2 := low_byte e f (by omega)
  have e3 := high_byte g h (by omega)
  have e4 := low_byte g h (by omega)
  simp only [pair, if_true, e1, e2, e3, e4, List.cons_append, List.nil_append]
  rw [if_neg (by simp [length_cidrMask])]
  have := sameMasked_bytes [e, f, g, h] [a, b, c, d] (n - 96) rfl (by simp; omega) (by simp; omega)
    (by simp; omega)
  rw [digits_v4, digits_v4] at this
  rw [show 128 - n = 32 - (n - 96) by omega]
  exact this

theorem ipMatch_v4_groups {ip net ms : Str} {a b c d g k : Nat} {n : Nat} (hip : IsV4 ip a b c d)
    (hnet : IsV6 net [0, 0, 0, 0, 0, 0xffff, g, k]) (hms : IsDecimal ms n) (h96 : 96 ≤ n)
    (hn : n ≤ 128) : ipMatch ip (net ++ '/' :: ms) =
      .ok (decide (v4Value a b c d / 2 ^ (128 - n) = (g * 2 ^ 16 + k) / 2 ^ (128 - n) ∧
        (104 < n → n < 112 → a = 0) ∧ (120 < n → n < 128 → c = 0))) := by
  have ht : IsText false net [0, 0, 0, 0, 0, 0xffff, g, k] := hnet
  obtain ⟨ha, hb, hc, hd⟩ := isV4_lt hip
  have hg : g < 2 ^ 16 := isText_lt ht g (by simp)
  have hk : k < 2 ^ 16 := isText_lt ht k (by simp)
  unfold ipMatch
  rw [parseIP_v4 hip]
  simp only [parseCIDR_text ht hms hn, Outcome.ok_bind, netContains, netAndMask_mapped_text h96, to4_v4]
  rw [if_neg (by simp [length_cidrMask, pair])]
  clear ht hnet hms hip
  have h := sameMasked_pairs [((g / 256, g), (a, b)), ((k / 256, k), (c, d))] (n - 96)
  refine Eq.trans h ?_
  congr 1
  rw [decide_eq_decide]
  have e1 := high_byte a b hb
  have e2 := low_byte a b hb
  have e3 := high_byte c d hd
  have e4 := low_byte c d hd
  have m1 := maskPair (x := true) (y := false) (n := n - 96) (two_bytes ha hb) hg
  have m2 := maskPair (x := true) (y := false) (n := n - 96 - 16) (two_bytes hc hd) hk
  simp only [e1, e2, e3, e4, Bool.false_eq_true, if_true, if_false, ne_eq, not_false_eq_true,
    true_imp_iff, reduceCtorEq] at m1 m2
  have d1 := digits_agree (a := a * 256 + b) (e := g) (as := [c * 256 + d]) (es := [k]) (n := n - 96) rfl
    (by simpa using hk) (by simpa using two_bytes hc hd) (by simp; omega)
  simp only [digits, List.length_singleton, List.length_nil, Nat.mul_zero, Nat.mul_one, pow_zero,
    Nat.add_zero] at d1
  rw [four_bytes, show 16 * (1 + 1) - (n - 96) = 128 - n by omega] at d1
  simp only [AgreePairs, and_true]
  rw [eq_comm, eq_comm (a := g &&& _), m1, eq_comm (a := k / 256 &&& _), eq_comm (a := k &&& _), m2, d1]
  have k1 : (8 < n - 96 → n - 96 < 16 → a = 0) ↔ (104 < n → n < 112 → a = 0) :=
    imp_bounds (by omega) (by omega)
  have k2 : (8 < n - 96 - 16 → n - 96 - 16 < 16 → c = 0) ↔ (120 < n → n < 128 → c = 0) :=
    imp_bounds (by omega) (by omega)
  rw [k1, k2]
  exact and_shuffle

theorem ipMatch_text_v4 {x : Bool} {ip net ms : Str} {as : List Nat} {e f g h n : Nat}
    (hip : IsText x ip as) (hnet : IsV4 net e f g h) (hms : IsDecimal ms n) (hn : n ≤ 32) :
    ipMatch ip (net ++ '/' :: ms) = .ok false := by
  have hal := isText_length hip
  unfold ipMatch
  rw [parseIP_text hip]
  have h2 : netAndMask (List.zipWith (· &&& ·) [e, f, g, h] (cidrMask 4 n)) (cidrMask 4 n) =
      .ok (List.zipWith (· &&& ·) [e, f, g, h] (cidrMask 4 n), cidrMask 4 n) := by
    simp [netAndMask, to4, length_cidrMask]
  simp only [parseCIDR_v4 hnet hms hn, Outcome.ok_bind, netContains, h2, to4_text hal]
  rw [if_pos (by simp [length_bytesOf, length_cidrMask, hal])]

end Casbin
