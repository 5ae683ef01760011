import Verif.BuiltinsLemmas

/-!
# IPv6 addresses: texts, values and the lemmas behind the IPv6 theorems of `Verif.Props.Builtins`
-/

namespace Casbin

/-! ## Specification -/

/-- `c` is the hexadecimal digit of value `d`. -/
def IsHexDigit (c : Char) (d : Nat) : Prop :=
  (c!"0123456789abcdef")[d]? = some c ∨ (c!"0123456789ABCDEF")[d]? = some c

/-- The number a text of hexadecimal digits stands for. -/
inductive HexValue : Str → Nat → Prop
  | nil : HexValue [] 0
  | snoc {s : Str} {n : Nat} {c : Char} {d : Nat} :
      HexValue s n → IsHexDigit c d → HexValue (s ++ [c]) (16 * n + d)

/-- `t` is a group of an IPv6 address: hexadecimal digits of a number below 2^16. Leading zeros are
admitted in any number, as they are in `IsV4`. -/
def IsGroup (t : Str) (g : Nat) : Prop := t ≠ [] ∧ g < 65536 ∧ HexValue t g

/-- The texts, separated by colons. -/
def colonJoin : List Str → Str
  | [] => []
  | [t] => t
  | t :: t' :: ts => t ++ ':' :: colonJoin (t' :: ts)

/-- `s` is a text of the IPv6 address of groups `gs`: all eight groups, or an ellipsis for some
groups of zeros. (A text that ends in an IPv4 address is not considered.) -/
def IsV6 (s : Str) (gs : List Nat) : Prop :=
  (∃ ts, s = colonJoin ts ∧ List.Forall₂ IsGroup ts gs ∧ gs.length = 8) ∨
  (∃ ls us rs vs, s = colonJoin ls ++ ':' :: ':' :: colonJoin rs ∧ List.Forall₂ IsGroup ls us ∧
    List.Forall₂ IsGroup rs vs ∧ us.length + vs.length < 8 ∧
    gs = us ++ List.replicate (8 - (us.length + vs.length)) 0 ++ vs)

/-- The 128 bit number of an IPv6 address. -/
def v6Value (gs : List Nat) : Nat := gs.foldl (fun n g => n * 65536 + g) 0

/-! ## Hexadecimal numbers -/

theorem hexVal_of_digit {c : Char} {d : Nat} (h : IsHexDigit c d) : hexVal c = some d ∧ d < 16 := by
  have hd : d < 16 := by
    rcases h with h | h <;>
    · obtain ⟨h, _⟩ := List.getElem?_eq_some_iff.mp h
      exact h
  refine ⟨?_, hd⟩
  interval_cases d <;>
    (rcases h with h | h <;>
      (simp only [List.getElem?_cons_zero, List.getElem?_cons_succ,
        Option.some.injEq] at h; subst h; decide))

theorem hexValue_lt {t : Str} {g : Nat} (h : HexValue t g) : g < 16 ^ t.length := by
  induction h with
  | nil => simp
  | snoc h hd ih =>
    have := (hexVal_of_digit hd).2
    simp only [List.length_append, List.length_cons, List.length_nil, Nat.zero_add, Nat.pow_add,
      Nat.pow_one]
    omega

theorem hexValue_chars {t : Str} {g : Nat} (h : HexValue t g) : ∀ c ∈ t, (hexVal c).isSome := by
  induction h with
  | nil => simp
  | snoc h hd ih =>
    intro c hc
    rcases List.mem_append.mp hc with hc | hc
    · exact ih c hc
    · simp only [List.mem_singleton] at hc
      subst hc
      simp [(hexVal_of_digit hd).1]

theorem group_lt {t : Str} {g : Nat} (h : IsGroup t g) : g < 65536 := h.2.1

/-- One to four hexadecimal digits are a group. -/
theorem group_of_length {t : Str} {g : Nat} (h0 : t ≠ []) (hl : t.length ≤ 4) (h : HexValue t g) :
    IsGroup t g :=
  ⟨h0, lt_of_lt_of_le (hexValue_lt h) (show 16 ^ t.length ≤ 16 ^ 4 from Nat.pow_le_pow_right (by omega) hl),
    h⟩

theorem xtoiFrom_hex {t : Str} {g : Nat} (h : HexValue t g) (hg : g < big) (rest : Str) :
    xtoiFrom 0 0 (t ++ rest) = xtoiFrom g t.length rest := by
  induction h generalizing rest with
  | nil => simp
  | @snoc s n c d h hd ih =>
    rw [List.append_assoc, ih (by omega), List.singleton_append, xtoiFrom, (hexVal_of_digit hd).1]
    simp only
    rw [Nat.mul_comm n 16, if_neg (by omega)]
    simp

theorem xtoi_group {t : Str} {g : Nat} (h : IsGroup t g) {rest : Str}
    (hr : ∀ c ∈ rest.head?, hexVal c = none) : xtoi (t ++ rest) = (g, t.length) := by
  have := group_lt h
  rw [xtoi, xtoiFrom_hex h.2.2 (by unfold big; omega)]
  cases rest with
  | nil => rfl
  | cons c r => simp [xtoiFrom, hr c (by simp)]

/-! ## Reading an address -/

/-- The bytes of groups, as the loop stores them. -/
def enc (gs : List Nat) : List Nat := gs.flatMap fun g => [g / 256, g]

theorem length_enc (gs : List Nat) : (enc gs).length = 2 * gs.length := by
  induction gs with
  | nil => rfl
  | cons g gs ih => simp only [enc, List.flatMap_cons, List.length_append, List.length_cons,
      List.length_nil] at ih ⊢; omega

theorem enc_append (gs hs : List Nat) : enc (gs ++ hs) = enc gs ++ enc hs := by simp [enc]

theorem enc_zeros (n : Nat) : enc (List.replicate n 0) = List.replicate (2 * n) 0 := by
  induction n with
  | zero => rfl
  | succ n ih =>
    rw [List.replicate_succ, show enc (0 :: List.replicate n 0) = 0 :: 0 :: enc (List.replicate n 0) from rfl,
      ih, show 2 * (n + 1) = 2 * n + 1 + 1 by ring, List.replicate_succ, List.replicate_succ]

theorem colonJoin_head {ts : List Str} {gs : List Nat} (h : List.Forall₂ IsGroup ts gs) (hne : ts ≠ []) :
    ∃ c s, colonJoin ts = c :: s ∧ (hexVal c).isSome := by
  cases h with
  | nil => exact absurd rfl hne
  | @cons t g ts gs ht hs =>
    obtain ⟨c, s, rfl⟩ := List.exists_cons_of_ne_nil ht.1
    have hc := hexValue_chars ht.2.2 c (by simp)
    cases ts with
    | nil => exact ⟨c, s, rfl, hc⟩
    | cons t' ts => exact ⟨c, _, rfl, hc⟩

theorem v6Loop_group {t : Str} {g : Nat} (h : IsGroup t g) {rest : Str}
    (hr : ∀ c ∈ rest.head?, c = ':') (fuel : Nat) (acc : List Nat) (ell : Option Nat) :
    v6Loop (fuel + 1) acc ell (t ++ rest) =
      match (generalizing := false) rest with
      | [] => some (acc ++ [g / 256, g], ell, [])
      | ':' :: ':' :: s =>
        if ell.isSome then none
        else if s = [] then some (acc ++ [g / 256, g], some (acc ++ [g / 256, g]).length, [])
        else v6Loop fuel (acc ++ [g / 256, g]) (some (acc ++ [g / 256, g]).length) s
      | ':' :: c :: s => v6Loop fuel (acc ++ [g / 256, g]) ell (c :: s)
      | _ => none := by
  have hx := xtoi_group h (rest := rest) (fun c hc => by rw [hr c hc]; rfl)
  have hlt := group_lt h
  have hl : t.length ≠ 0 := by simp [h.1]
  conv => lhs; unfold v6Loop
  simp only [hx]
  rw [if_neg (by unfold big; omega), if_neg, List.drop_left' rfl]
  · rfl
  · rw [List.getElem?_append_right (le_refl _), Nat.sub_self]
    cases rest with
    | nil => simp
    | cons c r =>
      have := hr c (by simp)
      subst this
      simp

theorem v6Loop_end {ts : List Str} {gs : List Nat} (h : List.Forall₂ IsGroup ts gs) (hne : ts ≠ [])
    (fuel : Nat) (hf : ts.length ≤ fuel) (acc : List Nat) (ell : Option Nat) :
    v6Loop fuel acc ell (colonJoin ts) = some (acc ++ enc gs, ell, []) := by
  induction h generalizing fuel acc with
  | nil => exact absurd rfl hne
  | @cons t g ts gs ht hs ih =>
    obtain ⟨fuel, rfl⟩ : ∃ f, fuel = f + 1 := ⟨fuel - 1, by simp at hf; omega⟩
    cases hs with
    | nil =>
      have := v6Loop_group ht (rest := []) (by simp) fuel acc ell
      rw [List.append_nil] at this
      rw [colonJoin, this]
      rfl
    | @cons t' g' ts gs ht' hs =>
      have hts := List.Forall₂.cons ht' hs
      obtain ⟨c, s, hcs, hc⟩ := colonJoin_head hts (by simp)
      have hcol : c ≠ ':' := by rintro rfl; revert hc; decide
      rw [colonJoin, v6Loop_group ht (by simp), hcs]
      split
      · simp_all
      · simp_all
      · rename_i heq
        simp only [List.cons.injEq] at heq
        rw [← heq.2.1, ← heq.2.2, ← hcs, ih (by simp) fuel (by simp at hf ⊢; omega)]
        simp [enc]
      · rename_i h1 h2 h3
        exact (h3 _ _ rfl).elim

theorem v6Loop_ell {ts : List Str} {gs : List Nat} (h : List.Forall₂ IsGroup ts gs) (hne : ts ≠ [])
    (fuel : Nat) (hf : ts.length ≤ fuel) (acc : List Nat) (rest : Str) :
    v6Loop fuel acc none (colonJoin ts ++ ':' :: ':' :: rest) =
      if rest = [] then some (acc ++ enc gs, some (acc ++ enc gs).length, [])
      else v6Loop (fuel - ts.length) (acc ++ enc gs) (some (acc ++ enc gs).length) rest := by
  induction h generalizing fuel acc with
  | nil => exact absurd rfl hne
  | @cons t g ts gs ht hs ih =>
    obtain ⟨fuel, rfl⟩ : ∃ f, fuel = f + 1 := ⟨fuel - 1, by simp at hf; omega⟩
    cases hs with
    | nil =>
      rw [colonJoin, v6Loop_group ht (by simp)]
      simp [enc]
    | @cons t' g' ts gs ht' hs =>
      have hts := List.Forall₂.cons ht' hs
      obtain ⟨c, s, hcs, hc⟩ := colonJoin_head hts (by simp)
      have hcol : c ≠ ':' := by rintro rfl; revert hc; decide
      have ih := ih (by simp) fuel (by simp at hf ⊢; omega) (acc ++ [g / 256, g])
      rw [colonJoin, List.append_assoc, List.cons_append, v6Loop_group ht (by simp)]
      rw [hcs, List.cons_append] at ih ⊢
      split
      · simp_all
      · simp_all
      · rename_i heq
        simp only [List.cons.injEq] at heq
        rw [← heq.2.1, ← heq.2.2, ih]
        simp only [List.length_cons, enc, List.flatMap_cons, List.append_assoc]
        rw [Nat.add_sub_add_right]
      · rename_i h1 h2 h3
        exact (h3 _ _ rfl).elim

theorem colonJoin_ne {ts : List Str} {gs : List Nat} (h : List.Forall₂ IsGroup ts gs) (hne : ts ≠ []) :
    colonJoin ts ≠ [] := by
  obtain ⟨c, s, hcs, _⟩ := colonJoin_head h hne
  simp [hcs]

theorem v6Finish_ell (us vs : List Nat) (h : us.length + vs.length < 8) :
    v6Finish (enc us ++ enc vs, some (enc us).length, []) =
      some (enc (us ++ List.replicate (8 - (us.length + vs.length)) 0 ++ vs)) := by
  have h1 := length_enc us
  have h2 := length_enc vs
  unfold v6Finish
  simp only [List.length_append]
  rw [if_neg (by simp), if_pos (by omega), List.take_left' rfl, List.drop_left' rfl, enc_append, enc_append,
    enc_zeros]
  congr 4
  omega

theorem parseIPv6_v6 {s : Str} {gs : List Nat} (h : IsV6 s gs) : parseIPv6 s = some (enc gs) := by
  rcases h with ⟨ts, rfl, hts, hl⟩ | ⟨ls, us, rs, vs, rfl, hls, hrs, hl, rfl⟩
  · have hlen := hts.length_eq
    have hne : ts ≠ [] := by rintro rfl; simp at hlen; omega
    obtain ⟨c, s, hcs, hc⟩ := colonJoin_head hts hne
    have hcol : c ≠ ':' := by rintro rfl; revert hc; decide
    have := v6Loop_end hts hne 8 (by omega) [] none
    unfold parseIPv6
    split
    · rename_i heq; rw [hcs] at heq; simp_all
    · rw [this]
      simp [v6Finish, length_enc, hl]
  · have hll := hls.length_eq
    have hrl := hrs.length_eq
    have hfin := v6Finish_ell us vs hl
    by_cases hlne : ls = []
    · subst hlne
      cases hls
      simp only [colonJoin, List.nil_append, parseIPv6]
      by_cases hrne : rs = []
      · subst hrne
        cases hrs
        rfl
      · rw [if_neg (colonJoin_ne hrs hrne), v6Loop_end hrs hrne 8 (by simp at hl; omega)]
        exact hfin
    · obtain ⟨c, s, hcs, hc⟩ := colonJoin_head hls hlne
      have hcol : c ≠ ':' := by rintro rfl; revert hc; decide
      have := v6Loop_ell hls hlne 8 (by omega) [] (colonJoin rs)
      unfold parseIPv6
      split
      · rename_i heq; rw [hcs] at heq; simp_all
      · rw [this]
        by_cases hrne : rs = []
        · subst hrne
          cases hrs
          simp only [colonJoin, if_true, List.nil_append, Option.bind_eq_bind, Option.bind_some]
          simpa [enc] using hfin
        · rw [if_neg (colonJoin_ne hrs hrne), v6Loop_end hrs hrne _ (by omega)]
          exact hfin

theorem isV6_length {s : Str} {gs : List Nat} (h : IsV6 s gs) : gs.length = 8 := by
  rcases h with ⟨_, _, _, hl⟩ | ⟨_, us, _, vs, _, _, _, hl, rfl⟩
  · exact hl
  · simp; omega

theorem forall₂_group_lt {ts : List Str} {gs : List Nat} (h : List.Forall₂ IsGroup ts gs) :
    ∀ g ∈ gs, g < 2 ^ 16 := by
  induction h with
  | nil => simp
  | cons ht _ ih =>
    intro g hg
    rcases List.mem_cons.mp hg with rfl | hg
    · exact group_lt ht
    · exact ih g hg

theorem isV6_lt {s : Str} {gs : List Nat} (h : IsV6 s gs) : ∀ g ∈ gs, g < 2 ^ 16 := by
  rcases h with ⟨_, _, h, _⟩ | ⟨_, us, _, vs, _, h, h', _, rfl⟩
  · exact forall₂_group_lt h
  · intro g hg
    simp only [List.mem_append, List.mem_replicate] at hg
    rcases hg with (hg | hg) | hg
    · exact forall₂_group_lt h g hg
    · omega
    · exact forall₂_group_lt h' g hg

/-! ## The first colon or dot -/

theorem colonJoin_chars {ts : List Str} {gs : List Nat} (h : List.Forall₂ IsGroup ts gs) :
    ∀ c ∈ colonJoin ts, c = ':' ∨ (hexVal c).isSome := by
  induction h with
  | nil => simp [colonJoin]
  | @cons t g ts gs ht hs ih =>
    have hc := hexValue_chars ht.2.2
    cases ts with
    | nil => intro c h; exact .inr (hc c h)
    | cons t' ts =>
      intro c h
      simp only [colonJoin, List.mem_append, List.mem_cons] at h
      rcases h with h | h | h
      · exact .inr (hc c h)
      · exact .inl h
      · exact ih c h

theorem isV6_chars {s : Str} {gs : List Nat} (h : IsV6 s gs) :
    (∀ c ∈ s, c = ':' ∨ (hexVal c).isSome) ∧ ':' ∈ s := by
  rcases h with ⟨ts, rfl, h, hl⟩ | ⟨_, us, _, vs, rfl, h, h', _, rfl⟩
  · refine ⟨colonJoin_chars h, ?_⟩
    cases h with
    | nil => simp at hl
    | cons _ hs =>
      cases hs with
      | nil => simp at hl
      | cons _ _ => simp [colonJoin]
  · refine ⟨?_, by simp⟩
    intro c hc
    simp only [List.mem_append, List.mem_cons] at hc
    rcases hc with hc | hc | hc | hc
    · exact colonJoin_chars h c hc
    · exact .inl hc
    · exact .inl hc
    · exact colonJoin_chars h' c hc

theorem find?_colon {s : Str} (h : ∀ c ∈ s, c = ':' ∨ (hexVal c).isSome) (hm : ':' ∈ s) :
    s.find? (fun c => c = '.' || c = ':') = some ':' := by
  cases hf : s.find? (fun c => c = '.' || c = ':') with
  | none =>
    have := List.find?_eq_none.mp hf ':' hm
    simp at this
  | some c =>
    have h1 := List.find?_some hf
    have h2 := List.mem_of_find?_eq_some hf
    simp only [Bool.or_eq_true, decide_eq_true_eq] at h1
    rcases h1 with rfl | rfl
    · have := h _ h2
      revert this; decide
    · rfl

theorem parseIP_v6 {s : Str} {gs : List Nat} (h : IsV6 s gs) : parseIP s = some (enc gs) := by
  obtain ⟨h1, h2⟩ := isV6_chars h
  unfold parseIP
  rw [find?_colon h1 h2]
  exact parseIPv6_v6 h

theorem parseIPv4_v6 {s : Str} {gs : List Nat} (h : IsV6 s gs) : parseIPv4 s = none := by
  cases hp : parseIPv4 s with
  | none => rfl
  | some ip =>
    obtain ⟨a, b, c, d, h4, _⟩ := (parseIPv4_iff s ip).mp hp
    have := isV4_chars h4 _ (isV6_chars h).2
    exact absurd this (by decide)

/-! ## Masks on groups -/

/-- Two groups agree under the masks of their two bytes exactly when they agree in the ones. -/
theorem maskGroup {g k n : Nat} (hg : g < 2 ^ 16) (hk : k < 2 ^ 16) :
    ((g / 256) &&& maskByte n = (k / 256) &&& maskByte n ∧ g &&& maskByte (n - 8) = k &&& maskByte (n - 8)) ↔
      g / 2 ^ (16 - n) = k / 2 ^ (16 - n) := by
  rw [maskByte_8 (by omega) (by omega)]
  by_cases h8 : n ≤ 8
  · have e : n - 8 = 0 := by omega
    have e2 : 16 - n = 8 + (8 - n) := by omega
    rw [e, e2, Nat.pow_add, ← Nat.div_div_eq_div_mul, ← Nat.div_div_eq_div_mul]
    simp [maskByte]
  · have e : 8 - n = 0 := by omega
    rw [e]
    simp only [Nat.pow_zero, Nat.div_one]
    by_cases h16 : 16 ≤ n
    · have e : 16 - n = 0 := by omega
      have e2 : n - 8 ≥ 8 := by omega
      rw [e]
      simp only [maskByte, e2, if_true, Nat.pow_zero, Nat.div_one]
      rw [show (0xff : Nat) = 255 from rfl, and_255, and_255]
      omega
    · rw [maskByte_eq (by omega) (by omega), and_highMask hg hk (by omega)]
      have e : 8 - (n - 8) = 16 - n := by omega
      rw [e]
      constructor
      · exact fun h => h.2
      · intro h
        refine ⟨?_, h⟩
        have e : 256 = 2 ^ (16 - n) * 2 ^ (n - 8) := by
          rw [← Nat.pow_add, show 16 - n + (n - 8) = 8 by omega]
        rw [e, ← Nat.div_div_eq_div_mul, ← Nat.div_div_eq_div_mul, h]

theorem enc_cons (g : Nat) (gs : List Nat) : enc (g :: gs) = g / 256 :: g :: enc gs := rfl

/-- The comparison loop on the bytes of groups: the first `n` bits agree. -/
theorem sameMasked_groups (es as : List Nat) (n : Nat) (hl : es.length = as.length)
    (he : ∀ x ∈ es, x < 2 ^ 16) (ha : ∀ x ∈ as, x < 2 ^ 16) (hn : n ≤ 16 * as.length) :
    sameMasked (List.zipWith (· &&& ·) (enc es) (cidrMask (2 * es.length) n)) (enc as)
        (cidrMask (2 * es.length) n) =
      .ok (decide (digits 16 as / 2 ^ (16 * as.length - n) = digits 16 es / 2 ^ (16 * as.length - n))) := by
  induction es generalizing as n with
  | nil =>
    cases as with
    | nil => simp [cidrMask, sameMasked, enc]
    | cons => simp at hl
  | cons e es ih =>
    cases as with
    | nil => simp at hl
    | cons a as =>
      simp only [List.length_cons, Nat.add_right_cancel_iff] at hl hn ⊢
      have ha' := fun x hx => ha x (List.mem_cons_of_mem _ hx)
      have he' := fun x hx => he x (List.mem_cons_of_mem _ hx)
      have ih := ih as (n - 16) hl he' ha' (by omega)
      have hd := digits_lt ha'
      have hd' := digits_lt he'
      rw [hl] at hd'
      have e1 : 16 * (as.length + 1) = 16 + 16 * as.length := by ring
      have hlead := lead_eq (d := a) (e := e) (w := 16) (n := n) hd hd' (by omega)
      have hk : decide (digits 16 (a :: as) / 2 ^ (16 * (as.length + 1) - n) =
          digits 16 (e :: es) / 2 ^ (16 * (as.length + 1) - n)) = decide (a / 2 ^ (16 - n) = e / 2 ^ (16 - n) ∧
          digits 16 as / 2 ^ (16 * as.length - (n - 16)) = digits 16 es / 2 ^ (16 * as.length - (n - 16))) := by
        rw [decide_eq_decide, ← hlead, e1, digits, digits, hl]
      rw [hk, show 2 * (es.length + 1) = 2 * es.length + 1 + 1 by ring]
      have e2 : n - 8 - 8 = n - 16 := by omega
      simp only [enc_cons, cidrMask, List.zipWith_cons_cons, sameMasked, and_self_right, e2, ih]
      have hm := maskGroup (n := n) (he e (by simp)) (ha a (by simp))
      by_cases hc : e / 2 ^ (16 - n) = a / 2 ^ (16 - n)
      · obtain ⟨h1, h2⟩ := hm.mpr hc
        simp [hc, h1, h2]
      · have hc' : ¬ a / 2 ^ (16 - n) = e / 2 ^ (16 - n) := fun h => hc h.symm
        simp only [hc', false_and, decide_false]
        by_cases h1 : (e / 256) &&& maskByte n = (a / 256) &&& maskByte n
        · have h2 : e &&& maskByte (n - 8) ≠ a &&& maskByte (n - 8) := fun h2 => hc (hm.mp ⟨h1, h2⟩)
          simp [h1, h2]
        · simp [h1]

theorem digits_foldl (gs : List Nat) (n : Nat) :
    gs.foldl (fun n g => n * 65536 + g) n = n * 2 ^ (16 * gs.length) + digits 16 gs := by
  induction gs generalizing n with
  | nil => simp [digits]
  | cons g gs ih =>
    simp only [List.foldl_cons, ih, digits, List.length_cons]
    rw [show 16 * (gs.length + 1) = 16 * gs.length + 16 by ring, Nat.pow_add]
    ring

theorem digits_v6 (gs : List Nat) : digits 16 gs = v6Value gs := by
  rw [v6Value, digits_foldl]; simp

/-- A block that lies in `::ffff:0:0/96`, the IPv6 form of the IPv4 addresses. -/
def Mapped (gs : List Nat) (n : Nat) : Prop :=
  96 ≤ n ∧ gs.take 6 = [0, 0, 0, 0, 0, 0xffff]

/-- What `parseCIDR` returns for a block of IPv6 addresses. -/
theorem parseCIDR_v6 {net ms : Str} {es : List Nat} {n : Nat} (hnet : IsV6 net es) (hms : IsDecimal ms n)
    (hn : n ≤ 128) : parseCIDR (net ++ '/' :: ms) =
      .ok (List.zipWith (· &&& ·) (enc es) (cidrMask 16 n), cidrMask 16 n) := by
  have hslash : '/' ∉ net := by
    intro hm
    have := (isV6_chars hnet).1 _ hm
    exact absurd this (by decide)
  have hd := dtoi_decimal hms (by unfold big; omega) (rest := []) (by simp)
  rw [List.append_nil] at hd
  have hml : ms.length ≠ 0 := by simp [hms.1]
  unfold parseCIDR
  rw [show c!"/" = ['/'] from rfl, findSub_single hslash]
  simp only [List.take_left']
  rw [show (net ++ '/' :: ms).drop (net.length + 1) = ms by simp, parseIPv4_v6 hnet, parseIPv6_v6 hnet]
  simp only [Option.isSome_none, hd]
  rw [if_neg (by simp), if_neg (by simp)]
  simp only
  rw [if_neg (by unfold big; omega)]
  have hl := isV6_length hnet
  simp [ipMask, length_cidrMask, length_enc, hl]

theorem list8 {gs : List Nat} (h : gs.length = 8) :
    ∃ a b c d e f g k, gs = [a, b, c, d, e, f, g, k] := by
  rcases gs with _ | ⟨a, _ | ⟨b, _ | ⟨c, _ | ⟨d, _ | ⟨e, _ | ⟨f, _ | ⟨g, _ | ⟨k, _ | ⟨l, gs⟩⟩⟩⟩⟩⟩⟩⟩⟩ <;>
    simp at h
  exact ⟨a, b, c, d, e, f, g, k, rfl⟩

/-- An address read as IPv6 is never taken for an IPv4 address. -/
theorem to4_enc {as : List Nat} (hl : as.length = 8) : to4 (enc as) = .ok (enc as, false) := by
  obtain ⟨a, b, c, d, e, f, g, k, rfl⟩ := list8 hl
  simp only [to4, length_enc, List.length_cons, List.length_nil]
  rw [if_neg (by omega), if_neg (by omega), if_neg]
  rintro ⟨_, _, h1, h2⟩
  simp only [enc, List.flatMap_cons, List.cons_append, List.nil_append, List.getElem?_cons_succ,
    List.getElem?_cons_zero, Option.some.injEq] at h1 h2
  omega

theorem masked_ne_255 (x : Nat) {n : Nat} (hn : n < 8) : x &&& maskByte n ≠ 255 := by
  by_cases h0 : n = 0
  · subst h0; simp [maskByte]
  · rw [maskByte_eq h0 hn]
    intro h
    have := congrArg (Nat.testBit · 0) h
    simp only [Nat.testBit_and, Nat.testBit_shiftLeft] at this
    have h' : decide (0 ≥ 8 - n) = false := by simp; omega
    rw [h'] at this
    simp at this

/-- The bytes of a masked block that starts with twelve full bytes. -/
theorem cidrMask16 (n : Nat) : cidrMask 16 n = [maskByte n, maskByte (n - 8), maskByte (n - 8 - 8),
    maskByte (n - 8 - 8 - 8), maskByte (n - 8 - 8 - 8 - 8), maskByte (n - 8 - 8 - 8 - 8 - 8),
    maskByte (n - 8 - 8 - 8 - 8 - 8 - 8), maskByte (n - 8 - 8 - 8 - 8 - 8 - 8 - 8),
    maskByte (n - 8 - 8 - 8 - 8 - 8 - 8 - 8 - 8), maskByte (n - 8 - 8 - 8 - 8 - 8 - 8 - 8 - 8 - 8),
    maskByte (n - 80), maskByte (n - 88), maskByte (n - 96), maskByte (n - 96 - 8),
    maskByte (n - 96 - 8 - 8), maskByte (n - 96 - 8 - 8 - 8)] := by
  simp only [cidrMask, Nat.sub_sub]

theorem maskByte_full {n : Nat} (h : 8 ≤ n) : maskByte n = 255 := by simp [maskByte, h]

theorem and_255_zero {a : Nat} (h : a &&& 255 = 0) : a % 256 = 0 := by rwa [and_255] at h

/-- A masked block is taken for IPv4 addresses exactly when it is mapped. -/
theorem to4_masked {es : List Nat} {n : Nat} (hl : es.length = 8) (he : ∀ x ∈ es, x < 2 ^ 16)
    (hm : ¬ Mapped es n) :
    to4 (List.zipWith (· &&& ·) (enc es) (cidrMask 16 n)) =
      .ok (List.zipWith (· &&& ·) (enc es) (cidrMask 16 n), false) := by
  obtain ⟨a, b, c, d, e, f, g, k, rfl⟩ := list8 hl
  have hlen : (List.zipWith (· &&& ·) (enc [a, b, c, d, e, f, g, k]) (cidrMask 16 n)).length = 16 := by
    simp [length_enc, length_cidrMask]
  unfold to4
  rw [if_neg (by omega), if_neg (by omega), if_neg]
  rintro ⟨_, h0, h1, h2⟩
  rw [cidrMask16] at h0 h1 h2
  simp only [enc, List.flatMap_cons, List.flatMap_nil, List.cons_append, List.nil_append,
    List.zipWith_cons_cons, List.take_succ_cons, List.take_zero,
    List.getElem?_cons_succ, List.getElem?_cons_zero, Option.some.injEq, List.all_cons,
    List.all_nil, Bool.and_true, Bool.and_eq_true, decide_eq_true_eq] at h0 h1 h2
  by_cases hn : n < 96
  · exact masked_ne_255 f (by omega) h2
  · refine hm ⟨by omega, ?_⟩
    simp only [List.mem_cons, List.not_mem_nil, or_false, forall_eq_or_imp, forall_eq] at he
    obtain ⟨ha, hb, hc, hd, he, hf, _⟩ := he
    rw [maskByte_full (by omega), maskByte_full (by omega), maskByte_full (by omega),
      maskByte_full (by omega), maskByte_full (by omega), maskByte_full (by omega),
      maskByte_full (by omega), maskByte_full (by omega), maskByte_full (by omega),
      maskByte_full (by omega)] at h0
    rw [maskByte_full (by omega)] at h1 h2
    simp only [and_255] at h0 h1 h2
    simp only [List.take_succ_cons, List.take_zero]
    obtain ⟨_, _, _, _, _, _, _, _, _, _⟩ := h0
    have e1 : a = 0 := by omega
    have e2 : b = 0 := by omega
    have e3 : c = 0 := by omega
    have e4 : d = 0 := by omega
    have e5 : e = 0 := by omega
    have e6 : f = 65535 := by omega
    subst e1 e2 e3 e4 e5 e6
    rfl

theorem netAndMask_v6 {es : List Nat} {n : Nat} (hl : es.length = 8) (he : ∀ x ∈ es, x < 2 ^ 16)
    (hm : ¬ Mapped es n) :
    netAndMask (List.zipWith (· &&& ·) (enc es) (cidrMask 16 n)) (cidrMask 16 n) =
      .ok (List.zipWith (· &&& ·) (enc es) (cidrMask 16 n), cidrMask 16 n) := by
  unfold netAndMask
  rw [to4_masked hl he hm]
  simp [length_enc, length_cidrMask, hl]

theorem ipMatch_v6 {ip net ms : Str} {as es : List Nat} {n : Nat} (hip : IsV6 ip as) (hnet : IsV6 net es)
    (hms : IsDecimal ms n) (hn : n ≤ 128) (hm : ¬ Mapped es n) :
    ipMatch ip (net ++ '/' :: ms) =
      .ok (decide (v6Value as / 2 ^ (128 - n) = v6Value es / 2 ^ (128 - n))) := by
  have hal := isV6_length hip
  have hel := isV6_length hnet
  unfold ipMatch
  rw [parseIP_v6 hip]
  simp only [parseCIDR_v6 hnet hms hn, Outcome.ok_bind, netContains,
    netAndMask_v6 hel (isV6_lt hnet) hm, to4_enc hal]
  rw [if_neg (by simp [length_enc, length_cidrMask, hal, hel])]
  have := sameMasked_groups es as n (by omega) (isV6_lt hnet) (isV6_lt hip) (by omega)
  rw [hel, hal, digits_v6, digits_v6] at this
  exact this

theorem ipMatch_v4_v6 {ip net ms : Str} {a b c d : Nat} {es : List Nat} {n : Nat} (hip : IsV4 ip a b c d)
    (hnet : IsV6 net es) (hms : IsDecimal ms n) (hn : n ≤ 128) (hm : ¬ Mapped es n) :
    ipMatch ip (net ++ '/' :: ms) = .ok false := by
  have hel := isV6_length hnet
  unfold ipMatch
  rw [parseIP_v4 hip]
  simp only [parseCIDR_v6 hnet hms hn, Outcome.ok_bind, netContains,
    netAndMask_v6 hel (isV6_lt hnet) hm, to4_v4]
  rw [if_pos (by simp [length_enc, length_cidrMask, hel])]

/-- The block of a mapped pattern is a block of IPv4 addresses. -/
theorem to4_mapped {g k n : Nat} (hn : 96 ≤ n) :
    to4 (List.zipWith (· &&& ·) (enc [0, 0, 0, 0, 0, 0xffff, g, k]) (cidrMask 16 n)) =
      .ok (List.zipWith (· &&& ·) [g / 256, g, k / 256, k] (cidrMask 4 (n - 96)), true) := by
  rw [cidrMask16]
  rw [maskByte_full (n := n) (by omega), maskByte_full (n := n - 80) (by omega),
    maskByte_full (n := n - 88) (by omega)]
  simp [enc, cidrMask, to4]

theorem netAndMask_mapped {g k n : Nat} (hn : 96 ≤ n) :
    netAndMask (List.zipWith (· &&& ·) (enc [0, 0, 0, 0, 0, 0xffff, g, k]) (cidrMask 16 n)) (cidrMask 16 n) =
      .ok (List.zipWith (· &&& ·) [g / 256, g, k / 256, k] (cidrMask 4 (n - 96)), cidrMask 4 (n - 96)) := by
  unfold netAndMask
  rw [to4_mapped hn]
  simp [length_cidrMask]
  rw [cidrMask16]
  simp [cidrMask]

theorem ipMatch_v6_mapped {ip net ms : Str} {as es : List Nat} {n : Nat} (hip : IsV6 ip as)
    (hnet : IsV6 net es) (hms : IsDecimal ms n) (hn : n ≤ 128) (hm : Mapped es n) :
    ipMatch ip (net ++ '/' :: ms) = .ok false := by
  have hal := isV6_length hip
  have hel := isV6_length hnet
  obtain ⟨a, b, c, d, e, f, g, k, rfl⟩ := list8 hel
  obtain ⟨hm1, hm2⟩ := hm
  simp only [List.take_succ_cons, List.take_zero, List.cons.injEq, and_true] at hm2
  obtain ⟨rfl, rfl, rfl, rfl, rfl, rfl⟩ := hm2
  unfold ipMatch
  rw [parseIP_v6 hip]
  simp only [parseCIDR_v6 hnet hms hn, Outcome.ok_bind, netContains, netAndMask_mapped hm1, to4_enc hal]
  rw [if_pos (by simp [length_enc, length_cidrMask, hal])]

theorem ipMatch_v6_v4 {ip net ms : Str} {as : List Nat} {e f g h n : Nat} (hip : IsV6 ip as)
    (hnet : IsV4 net e f g h) (hms : IsDecimal ms n) (hn : n ≤ 32) :
    ipMatch ip (net ++ '/' :: ms) = .ok false := by
  have hal := isV6_length hip
  unfold ipMatch
  rw [parseIP_v6 hip]
  have h2 : netAndMask (List.zipWith (· &&& ·) [e, f, g, h] (cidrMask 4 n)) (cidrMask 4 n) =
      .ok (List.zipWith (· &&& ·) [e, f, g, h] (cidrMask 4 n), cidrMask 4 n) := by
    simp [netAndMask, to4, length_cidrMask]
  simp only [parseCIDR_v4 hnet hms hn, Outcome.ok_bind, netContains, h2, to4_enc hal]
  rw [if_pos (by simp [length_enc, length_cidrMask, hal])]

/-! ## No undefined behaviour -/

theorem length_parseIPv4 {s : Str} {ip : List Nat} (h : parseIPv4 s = some ip) :
    ∃ l, l.length = 4 ∧ ip = v4Prefix ++ l := by
  obtain ⟨a, b, c, d, _, rfl⟩ := (parseIPv4_iff s ip).mp h
  exact ⟨_, rfl, rfl⟩

theorem v6Loop_length {fuel : Nat} {acc : List Nat} {ell : Option Nat} {s : Str}
    {r : List Nat × Option Nat × Str} (h : v6Loop fuel acc ell s = some r)
    (ha : acc.length + 2 * fuel ≤ 16) (he : ∀ e ∈ ell, e ≤ acc.length) :
    r.1.length ≤ 16 ∧ ∀ e ∈ r.2.1, e ≤ r.1.length := by
  induction fuel generalizing acc ell s with
  | zero =>
    simp only [v6Loop, Option.some.injEq] at h
    subst h
    exact ⟨by simpa using ha, he⟩
  | succ fuel ih =>
    have he' : ∀ e ∈ ell, e ≤ (acc ++ [(xtoi s).1 / 256, (xtoi s).1]).length := by
      intro e h
      have := he e h
      simp; omega
    have ha' : (acc ++ [(xtoi s).1 / 256, (xtoi s).1]).length + 2 * fuel ≤ 16 := by simp; omega
    have ha'' : (acc ++ [(xtoi s).1 / 256, (xtoi s).1]).length ≤ 16 := by omega
    rw [v6Loop] at h
    dsimp only at h
    split at h
    · simp at h
    · split at h
      · split at h
        · simp at h
        · split at h
          · simp at h
          · rename_i _ hl
            simp only [Option.bind_eq_bind, Option.pure_def, Option.bind_eq_some_iff, Option.some.injEq] at h
            obtain ⟨b, hb, rfl⟩ := h
            obtain ⟨l, hl4, rfl⟩ := length_parseIPv4 hb
            constructor
            · simp [v4Prefix, hl4]; omega
            · intro e h
              have := he e h
              simp; omega
      · generalize acc ++ [(xtoi s).1 / 256, (xtoi s).1] = acc' at *
        split at h
        · simp only [Option.some.injEq] at h
          subst h
          exact ⟨ha'', he'⟩
        · split at h
          · simp at h
          · split at h
            · simp only [Option.some.injEq] at h
              subst h
              exact ⟨ha'', by simp⟩
            · exact ih h ha' (by simp)
        · exact ih h ha' he'
        · simp at h

theorem v6Finish_length {r : List Nat × Option Nat × Str} {ip : List Nat} (h : v6Finish r = some ip)
    (h1 : r.1.length ≤ 16) : ip.length = 16 := by
  unfold v6Finish at h
  split at h
  · simp at h
  · split at h
    · split at h
      · simp at h
      · simp only [Option.some.injEq] at h
        subst h
        simp
        omega
    · split at h
      · simp at h
      · simp only [Option.some.injEq] at h
        subst h
        omega

theorem length_parseIPv6 {s : Str} {ip : List Nat} (h : parseIPv6 s = some ip) : ip.length = 16 := by
  unfold parseIPv6 at h
  split at h
  · split at h
    · simp only [Option.some.injEq] at h
      subst h; rfl
    · simp only [Option.bind_eq_bind, Option.bind_eq_some_iff] at h
      obtain ⟨r, hr, hf⟩ := h
      exact v6Finish_length hf (v6Loop_length hr (by simp) (by simp)).1
  · simp only [Option.bind_eq_bind, Option.bind_eq_some_iff] at h
    obtain ⟨r, hr, hf⟩ := h
    exact v6Finish_length hf (v6Loop_length hr (by simp) (by simp)).1

theorem length_parseIP {s : Str} {ip : List Nat} (h : parseIP s = some ip) : ip.length = 16 := by
  unfold parseIP at h
  split at h
  · obtain ⟨l, hl, rfl⟩ := length_parseIPv4 h
    simp [v4Prefix, hl]
  · exact length_parseIPv6 h
  · simp at h

theorem parseCIDR_cases (s : Str) : parseCIDR s = .throw .ipParser ∨
    ∃ net m, parseCIDR s = .ok (net, m) ∧ net.length = m.length ∧ (m.length = 4 ∨ m.length = 16) := by
  unfold parseCIDR
  split
  · exact .inl rfl
  · rename_i pos _
    dsimp only
    cases h4 : parseIPv4 (s.take pos) with
    | some ip =>
      obtain ⟨l, hl, rfl⟩ := length_parseIPv4 h4
      simp only [Option.isSome_some, if_true]
      split
      · exact .inl rfl
      · right
        simp [ipMask, length_cidrMask, v4Prefix, hl]
    | none =>
      cases h6 : parseIPv6 (s.take pos) with
      | none => simp
      | some ip =>
        have hl := length_parseIPv6 h6
        simp only [Option.isSome_none, Bool.false_eq_true, if_false]
        split
        · exact .inl rfl
        · right
          simp [ipMask, length_cidrMask, hl]

theorem to4_cases {ip : List Nat} (h : ip.length = 4 ∨ ip.length = 16) :
    ∃ x, to4 ip = .ok x ∧ (x.1.length = 4 ∨ x.1.length = 16 ∧ x.1.length = ip.length) := by
  unfold to4
  rcases h with h | h
  · rw [if_pos h]
    exact ⟨_, rfl, .inl h⟩
  · rw [if_neg (by omega), if_neg (by omega)]
    split
    · exact ⟨_, rfl, .inl (by simp; omega)⟩
    · exact ⟨_, rfl, .inr ⟨h, rfl⟩⟩

theorem sameMasked_ok (as bs ms : List Nat) (h : as.length ≤ ms.length) : ∃ b, sameMasked as bs ms = .ok b := by
  induction as generalizing bs ms with
  | nil => exact ⟨true, by simp [sameMasked]⟩
  | cons a as ih =>
    cases ms with
    | nil => simp at h
    | cons m ms =>
      cases bs with
      | nil => exact ⟨true, by simp [sameMasked]⟩
      | cons b bs =>
        simp only [sameMasked]
        split
        · exact ⟨false, rfl⟩
        · exact ih bs ms (by simpa using h)

theorem netContains_ok {net m ip : List Nat} (h1 : net.length = m.length) (h2 : m.length = 4 ∨ m.length = 16)
    (h3 : ip.length = 16) : ∃ b, netContains net m ip = .ok b := by
  obtain ⟨x, hx, hx'⟩ := to4_cases (ip := net) (by omega)
  obtain ⟨y, hy, _⟩ := to4_cases (ip := ip) (.inr h3)
  have hnm : ∃ p, netAndMask net m = .ok p ∧ p.1.length ≤ p.2.length := by
    unfold netAndMask
    rw [hx]
    simp only [Outcome.ok_bind]
    split
    · rename_i h
      exfalso
      obtain ⟨h, h'⟩ := h
      have : to4 net = .ok (net, true) := by unfold to4; rw [if_pos (by omega)]
      rw [this] at hx
      simp only [Outcome.ok.injEq] at hx
      subst hx
      simp at h
    · split
      · exact ⟨_, rfl, by simp; omega⟩
      · exact ⟨_, rfl, by simp only; omega⟩
  obtain ⟨p, hp, hp'⟩ := hnm
  unfold netContains
  rw [hp, hy]
  simp only [Outcome.ok_bind]
  split
  · exact ⟨_, rfl⟩
  · exact sameMasked_ok _ _ _ hp'

theorem ipMatch_total (ip pat : Str) :
    (∃ b, ipMatch ip pat = .ok b) ∨ ipMatch ip pat = .throw .illegalArgument ∨
      ipMatch ip pat = .throw .ipParser := by
  unfold ipMatch
  cases h : parseIP ip with
  | none => exact .inr (.inl rfl)
  | some a =>
    rcases parseCIDR_cases pat with hp | ⟨net, m, hp, h1, h2⟩
    · right; right
      rw [hp]; rfl
    · left
      rw [hp]
      simp only [Outcome.ok_bind]
      exact netContains_ok h1 h2 (length_parseIP h)

end Casbin
