import Verif.IPv6Dotted

/-!
# Which texts are addresses: the converse of the reading lemmas, for `Verif.Props.IPTexts`
-/

namespace Casbin

theorem digit_of_hexVal {c : Char} {d : Nat} (h : hexVal c = some d) : IsHexDigit c d := by
  have key : ∀ n : Nat, ∀ c : Char, c.toNat = n → c = Char.ofNat n := by
    rintro n c rfl; exact (Char.ofNat_toNat c).symm
  unfold hexVal at h
  split at h
  · rename_i hc
    have h1 : 48 ≤ c.toNat := hc.1
    have h2 : c.toNat ≤ 57 := hc.2
    obtain ⟨n, hn⟩ : ∃ n, c.toNat = n := ⟨_, rfl⟩
    have := key n c hn
    rw [hn] at h1 h2 h
    interval_cases n <;> (simp at h; subst h; subst this; exact .inl rfl)
  · split at h
    · rename_i hc
      have h1 : 97 ≤ c.toNat := hc.1
      have h2 : c.toNat ≤ 102 := hc.2
      obtain ⟨n, hn⟩ : ∃ n, c.toNat = n := ⟨_, rfl⟩
      have := key n c hn
      rw [hn] at h1 h2 h
      interval_cases n <;> (simp at h; subst h; subst this; exact .inl rfl)
    · split at h
      · rename_i hc
        have h1 : 65 ≤ c.toNat := hc.1
        have h2 : c.toNat ≤ 70 := hc.2
        obtain ⟨n, hn⟩ : ∃ n, c.toNat = n := ⟨_, rfl⟩
        have := key n c hn
        rw [hn] at h1 h2 h
        interval_cases n <;> (simp at h; subst h; subst this; exact .inr rfl)
      · simp at h

/-- What `xtoi` reads: a number up to the first character that is no digit, or, if the number is too
large, a part of it. -/
theorem xtoi_inv (s : Str) : ∃ t rest, s = t ++ rest ∧ (xtoi s).2 = t.length ∧
    ((HexValue t (xtoi s).1 ∧ ∀ c ∈ rest.head?, hexVal c = none) ∨
      ∃ c r, rest = c :: r ∧ (hexVal c).isSome) := by
  have key : ∀ (s u : Str) (n : Nat), HexValue u n → ∃ t rest, s = t ++ rest ∧
      (xtoiFrom n u.length s).2 = u.length + t.length ∧
      ((HexValue (u ++ t) (xtoiFrom n u.length s).1 ∧ ∀ c ∈ rest.head?, hexVal c = none) ∨
        ∃ c r, rest = c :: r ∧ (hexVal c).isSome) := by
    intro s
    induction s with
    | nil => intro u n h; exact ⟨[], [], rfl, rfl, .inl ⟨by simpa [xtoiFrom] using h, by simp⟩⟩
    | cons c s ih =>
      intro u n h
      cases hc : hexVal c with
      | none => exact ⟨[], c :: s, rfl, by simp [xtoiFrom, hc], .inl ⟨by simpa [xtoiFrom, hc] using h, by simpa using hc⟩⟩
      | some d =>
        by_cases hb : n * 16 + d ≥ big
        · exact ⟨[], c :: s, rfl, by simp [xtoiFrom, hc, hb], .inr ⟨c, s, rfl, by simp [hc]⟩⟩
        · obtain ⟨t, rest, h1, h2, h3⟩ := ih (u ++ [c]) (16 * n + d) (h.snoc (digit_of_hexVal hc))
          have e : xtoiFrom n u.length (c :: s) = xtoiFrom (16 * n + d) (u ++ [c]).length s := by
            rw [xtoiFrom, hc]
            simp only [hb, if_false]
            rw [Nat.mul_comm n 16, List.length_append]; rfl
          refine ⟨c :: t, rest, by rw [h1]; rfl, ?_, ?_⟩
          · rw [e, h2]; simp; omega
          · rw [e]
            simpa using h3
  simpa [xtoi] using key s [] 0 .nil

/-- A sequence of groups, with or without an IPv4 address at its end. -/
inductive Seq : Str → Bool → List Nat → Prop
  | groups {rs : List Str} {vs : List Nat} : List.Forall₂ IsGroup rs vs → rs ≠ [] → Seq (colonJoin rs) false vs
  | dotted {rs : List Str} {vs : List Nat} {q : Str} {a b c d : Nat} : List.Forall₂ IsGroup rs vs →
      IsV4 q a b c d → Seq (colonJoin (rs ++ [q])) true vs

/-- The number of bytes. -/
def seqLen (x : Bool) (vs : List Nat) : Nat := 2 * vs.length + if x then 4 else 0

theorem Seq.cons {t : Str} {g : Nat} (ht : IsGroup t g) {r : Str} {x : Bool} {vs : List Nat}
    (h : Seq r x vs) : Seq (t ++ ':' :: r) x (g :: vs) := by
  cases h with
  | @groups rs vs h hne =>
    cases rs with
    | nil => exact absurd rfl hne
    | cons r rs => exact Seq.groups (rs := t :: r :: rs) (.cons ht h) (by simp)
  | @dotted rs vs q a b c d h hq =>
    have e : t ++ ':' :: colonJoin (rs ++ [q]) = colonJoin ((t :: rs) ++ [q]) := by
      cases rs <;> rfl
    rw [e]
    exact Seq.dotted (.cons ht h) hq

theorem colonJoin_cons {t : Str} {ls : List Str} (h : ls ≠ []) :
    colonJoin (t :: ls) = t ++ ':' :: colonJoin ls := by
  cases ls with
  | nil => exact absurd rfl h
  | cons => rfl

/-- One round of the loop of `parseIPv6`, for a text that is read to its end. -/
theorem v6Loop_inv {fuel : Nat} {acc : List Nat} {ell : Option Nat} {s : Str}
    {r : List Nat × Option Nat × Str} (h : v6Loop (fuel + 1) acc ell s = some r) :
    (∃ a b c d, IsV4 s a b c d ∧ r.1.length = acc.length + 4 ∧ r.2.1 = ell ∧ r.2.2 = []) ∨
    ∃ t g rest, IsGroup t g ∧ s = t ++ rest ∧
      ((rest = [] ∧ r = (acc ++ [g / 256, g], ell, [])) ∨
       (∃ s', rest = ':' :: ':' :: s' ∧ ell = none ∧
        (s' = [] ∧ r = (acc ++ [g / 256, g], some (acc.length + 2), []) ∨
          s' ≠ [] ∧ v6Loop fuel (acc ++ [g / 256, g]) (some (acc.length + 2)) s' = some r)) ∨
       (∃ s', rest = ':' :: s' ∧ s' ≠ [] ∧ v6Loop fuel (acc ++ [g / 256, g]) ell s' = some r)) := by
  obtain ⟨t, rest, hs, hlen, hx⟩ := xtoi_inv s
  unfold v6Loop at h
  simp only at h
  split at h
  · simp at h
  · rename_i hbad
    push Not at hbad
    obtain ⟨hb1, hb2, hb3⟩ := hbad
    have hne : t ≠ [] := by rintro rfl; simp at hlen; omega
    have hdrop : s.drop (xtoi s).2 = rest := by rw [hlen, hs]; simp
    split at h
    · split at h
      · simp at h
      · split at h
        · simp at h
        · left
          simp only [Option.bind_eq_bind, Option.pure_def, Option.bind_eq_some_iff, Option.some.injEq] at h
          obtain ⟨ip, hip, rfl⟩ := h
          obtain ⟨a, b, c, d, h4, rfl⟩ := (parseIPv4_iff s ip).mp hip
          exact ⟨a, b, c, d, h4, by simp [v4Prefix], rfl, rfl⟩
    · right
      rw [hdrop] at h
      have hgood : HexValue t (xtoi s).1 := by
        rcases hx with ⟨hx, _⟩ | ⟨c, r', rfl, hc⟩
        · exact hx
        · exfalso
          have hcol : c ≠ ':' := by rintro rfl; revert hc; decide
          split at h
          · simp_all
          · simp_all
          · simp_all
          · simp at h
      refine ⟨t, (xtoi s).1, rest, ⟨hne, by omega, hgood⟩, hs, ?_⟩
      split at h
      · simp only [Option.some.injEq] at h
        exact .inl ⟨rfl, h.symm⟩
      · rename_i s'
        right; left
        split at h
        · simp at h
        · rename_i he
          refine ⟨s', rfl, by simpa using he, ?_⟩
          split at h
          · rename_i h0
            simp only [Option.some.injEq] at h
            exact .inl ⟨h0, by rw [← h]; simp⟩
          · rename_i h0
            exact .inr ⟨h0, by simpa using h⟩
      · rename_i c s' _
        exact .inr (.inr ⟨c :: s', rfl, by simp, h⟩)
      · simp at h

theorem v6Loop_seq {fuel : Nat} {acc : List Nat} {e : Nat} {s : Str}
    {r : List Nat × Option Nat × Str} (h : v6Loop fuel acc (some e) s = some r) (hs : s ≠ [])
    (hr : r.2.2 = []) :
    ∃ x vs, Seq s x vs ∧ r.1.length = acc.length + seqLen x vs ∧ r.2.1 = some e := by
  induction fuel generalizing acc s with
  | zero =>
    simp only [v6Loop, Option.some.injEq] at h
    subst h
    exact absurd hr hs
  | succ fuel ih =>
    rcases v6Loop_inv h with ⟨a, b, c, d, h4, hl, he, _⟩ | ⟨t, g, rest, ht, rfl, hc⟩
    · exact ⟨true, [], Seq.dotted (rs := []) .nil h4, by simpa [seqLen] using hl, he⟩
    · rcases hc with ⟨rfl, rfl⟩ | ⟨s', _, he, _⟩ | ⟨s', rfl, hne, h'⟩
      · refine ⟨false, [g], ?_, by simp [seqLen], rfl⟩
        rw [List.append_nil]
        exact Seq.groups (rs := [t]) (.cons ht .nil) (by simp)
      · simp at he
      · obtain ⟨x, vs, h1, h2, h3⟩ := ih h' hne
        exact ⟨x, g :: vs, h1.cons ht, by rw [h2]; simp [seqLen]; omega, h3⟩

theorem v6Loop_open {fuel : Nat} {acc : List Nat} {s : Str}
    {r : List Nat × Option Nat × Str} (h : v6Loop fuel acc none s = some r) (hs : s ≠ [])
    (hr : r.2.2 = []) :
    (∃ x vs, Seq s x vs ∧ r.1.length = acc.length + seqLen x vs ∧ r.2.1 = none) ∨
    ∃ ls us r', s = colonJoin ls ++ ':' :: ':' :: r' ∧ List.Forall₂ IsGroup ls us ∧ ls ≠ [] ∧
      r.2.1 ≠ none ∧
      (r' = [] ∧ r.1.length = acc.length + 2 * us.length ∨
        ∃ x vs, Seq r' x vs ∧ r.1.length = acc.length + 2 * us.length + seqLen x vs) := by
  induction fuel generalizing acc s with
  | zero =>
    simp only [v6Loop, Option.some.injEq] at h
    subst h
    exact absurd hr hs
  | succ fuel ih =>
    rcases v6Loop_inv h with ⟨a, b, c, d, h4, hl, he, _⟩ | ⟨t, g, rest, ht, rfl, hc⟩
    · exact .inl ⟨true, [], Seq.dotted (rs := []) .nil h4, by simpa [seqLen] using hl, he⟩
    · rcases hc with ⟨rfl, rfl⟩ | ⟨s', rfl, _, hc⟩ | ⟨s', rfl, hne, h'⟩
      · refine .inl ⟨false, [g], ?_, by simp [seqLen], rfl⟩
        rw [List.append_nil]
        exact Seq.groups (rs := [t]) (.cons ht .nil) (by simp)
      · right
        refine ⟨[t], [g], s', rfl, .cons ht .nil, by simp, ?_⟩
        rcases hc with ⟨rfl, rfl⟩ | ⟨hne, h'⟩
        · exact ⟨by simp, .inl ⟨rfl, by simp⟩⟩
        · obtain ⟨x, vs, h1, h2, h3⟩ := v6Loop_seq h' hne hr
          exact ⟨by simp [h3], .inr ⟨x, vs, h1, by rw [h2]; simp⟩⟩
      · rcases ih h' hne with ⟨x, vs, h1, h2, h3⟩ | ⟨ls, us, r', rfl, h1, h2, h3, h4⟩
        · exact .inl ⟨x, g :: vs, h1.cons ht, by rw [h2]; simp [seqLen]; omega, h3⟩
        · right
          refine ⟨t :: ls, g :: us, r', by rw [colonJoin_cons h2]; simp, .cons ht h1, by simp, h3, ?_⟩
          rcases h4 with ⟨rfl, h4⟩ | ⟨x, vs, h4, h5⟩
          · exact .inl ⟨rfl, by rw [h4]; simp; omega⟩
          · exact .inr ⟨x, vs, h4, by rw [h5]; simp; omega⟩

theorem v6Finish_inv {r : List Nat × Option Nat × Str} {ip : List Nat} (h : v6Finish r = some ip) :
    r.2.2 = [] ∧ (r.2.1 = none ∧ 16 ≤ r.1.length ∨ r.2.1 ≠ none ∧ r.1.length < 16) := by
  unfold v6Finish at h
  split at h
  · simp at h
  · rename_i h0
    refine ⟨by simpa using h0, ?_⟩
    split at h
    · split at h
      · simp at h
      · rename_i h1 _ _ h2
        exact .inr ⟨by simp [h2], h1⟩
    · split at h
      · simp at h
      · rename_i h1 h2
        exact .inl ⟨by simpa using h2, by omega⟩

/-- An ellipsis with groups before and a sequence after it. -/
theorem isText_ell {ls : List Str} {us : List Nat} (hls : List.Forall₂ IsGroup ls us) {r : Str}
    {x : Bool} {vs : List Nat} (h : Seq r x vs) (hl : 2 * us.length + seqLen x vs < 16) :
    ∃ gs, IsText x (colonJoin ls ++ ':' :: ':' :: r) gs := by
  cases h with
  | groups h hne =>
    refine ⟨_, .inr ⟨ls, us, _, vs, rfl, hls, h, ?_, rfl⟩⟩
    simp [seqLen] at hl; omega
  | dotted h hq =>
    refine ⟨_, _, _, _, _, _, .inr ⟨ls, us, _, vs, _, rfl, hls, h, hq, ?_, rfl⟩, rfl⟩
    simp [seqLen] at hl; omega

theorem isText_ell_end {ls : List Str} {us : List Nat} (hls : List.Forall₂ IsGroup ls us)
    (hl : 2 * us.length < 16) : ∃ gs, IsText false (colonJoin ls ++ [':', ':']) gs :=
  ⟨_, .inr ⟨ls, us, [], [], rfl, hls, .nil, by simp; omega, rfl⟩⟩

/-- Every text that `parseIPv6` accepts is one of an IPv6 address. -/
theorem isText_of_parseIPv6 {s : Str} {ip : List Nat} (h : parseIPv6 s = some ip) :
    ∃ x gs, IsText x s gs := by
  unfold parseIPv6 at h
  split at h
  · rename_i s'
    split at h
    · rename_i h0
      subst h0
      obtain ⟨gs, hg⟩ := isText_ell_end (ls := []) .nil (by simp)
      exact ⟨false, gs, hg⟩
    · rename_i h0
      simp only [Option.bind_eq_bind, Option.bind_eq_some_iff] at h
      obtain ⟨r, h1, h2⟩ := h
      obtain ⟨h3, h4⟩ := v6Finish_inv h2
      obtain ⟨x, vs, h5, h6, h7⟩ := v6Loop_seq h1 h0 h3
      rcases h4 with ⟨h4, _⟩ | ⟨_, h4⟩
      · simp [h7] at h4
      · obtain ⟨gs, hg⟩ := isText_ell (ls := []) .nil h5 (by simp at h6 ⊢; omega)
        exact ⟨x, gs, hg⟩
  · simp only [Option.bind_eq_bind, Option.bind_eq_some_iff] at h
    obtain ⟨r, h1, h2⟩ := h
    obtain ⟨h3, h4⟩ := v6Finish_inv h2
    have hs : s ≠ [] := by rintro rfl; simp [v6Loop, xtoi, xtoiFrom] at h1
    have hlen := (v6Loop_length h1 (by simp) (by simp)).1
    rcases v6Loop_open h1 hs h3 with ⟨x, vs, h5, h6, h7⟩ | ⟨ls, us, r', rfl, h5, h6, h7, h8⟩
    · rcases h4 with ⟨_, h4⟩ | ⟨h4, _⟩
      · cases h5 with
        | groups h hne =>
          exact ⟨false, vs, .inl ⟨_, rfl, h, by simp [seqLen] at h6; omega⟩⟩
        | dotted h hq =>
          exact ⟨true, _, _, _, _, _, _, .inl ⟨_, _, rfl, h, hq, by simp [seqLen] at h6; omega⟩, rfl⟩
      · exact absurd h7 h4
    · rcases h4 with ⟨h4, _⟩ | ⟨_, h4⟩
      · exact absurd h4 h7
      · rcases h8 with ⟨rfl, h8⟩ | ⟨x, vs, h8, h9⟩
        · obtain ⟨gs, hg⟩ := isText_ell_end h5 (by simp at h8; omega)
          exact ⟨false, gs, hg⟩
        · obtain ⟨gs, hg⟩ := isText_ell h5 h8 (by simp at h9; omega)
          exact ⟨x, gs, hg⟩

theorem parseIPv6_iff (s : Str) (ip : List Nat) :
    parseIPv6 s = some ip ↔ ∃ x gs, IsText x s gs ∧ ip = bytesOf x gs := by
  constructor
  · intro h
    obtain ⟨x, gs, hg⟩ := isText_of_parseIPv6 h
    refine ⟨x, gs, hg, ?_⟩
    rw [parseIPv6_text hg] at h
    exact (Option.some.inj h).symm
  · rintro ⟨x, gs, hg, rfl⟩
    exact parseIPv6_text hg

/-! ## Addresses and blocks -/

/-- `s` is the text of an address. -/
def IsAddr (s : Str) : Prop := (∃ a b c d, IsV4 s a b c d) ∨ ∃ x gs, IsText x s gs

/-- `s` is the text of a block of addresses: an address, a slash and the number of fixed bits. -/
def IsBlock (s : Str) : Prop :=
  ∃ net ms n, s = net ++ '/' :: ms ∧ IsDecimal ms n ∧
    ((∃ a b c d, IsV4 net a b c d) ∧ n ≤ 32 ∨ (∃ x gs, IsText x net gs) ∧ n ≤ 128)

theorem parseIP_isSome (s : Str) : (∃ ip, parseIP s = some ip) ↔ IsAddr s := by
  constructor
  · rintro ⟨ip, h⟩
    unfold parseIP at h
    split at h
    · obtain ⟨a, b, c, d, h4, _⟩ := (parseIPv4_iff s ip).mp h
      exact .inl ⟨a, b, c, d, h4⟩
    · obtain ⟨x, gs, h6, _⟩ := (parseIPv6_iff s ip).mp h
      exact .inr ⟨x, gs, h6⟩
    · simp at h
  · rintro (⟨a, b, c, d, h⟩ | ⟨x, gs, h⟩)
    · exact ⟨_, parseIP_v4 h⟩
    · exact ⟨_, parseIP_text h⟩

theorem parseCIDR_bad {s : Str} (h : ¬ IsBlock s) : parseCIDR s = .throw .ipParser := by
  unfold parseCIDR
  cases hf : findSub c!"/" s with
  | none => rfl
  | some pos =>
    simp only
    obtain ⟨hs, hn, _⟩ := findSub_single_some (x := '/') hf
    split
    · rfl
    · rename_i ip hip
      by_cases hbad : (dtoi (s.drop (pos + 1))).1 ≥ big ∨ (dtoi (s.drop (pos + 1))).2 = 0 ∨
          (dtoi (s.drop (pos + 1))).2 ≠ (s.drop (pos + 1)).length ∨
          (dtoi (s.drop (pos + 1))).1 > 8 * (if (parseIPv4 (s.take pos)).isSome then 4 else 16)
      · rw [if_pos hbad]
      · exfalso
        simp only [not_or, Nat.not_le, Nat.not_lt, Decidable.not_not] at hbad
        obtain ⟨h1, h2, h3, h4⟩ := hbad
        obtain ⟨_, hd⟩ := dtoi_inv (s := s.drop (pos + 1)) rfl h1 h2
        change IsDecimal ((s.drop (pos + 1)).take (dtoi (s.drop (pos + 1))).2) _ at hd
        rw [h3, List.take_length] at hd
        refine h ⟨s.take pos, s.drop (pos + 1), _, hs, hd, ?_⟩
        split at hip
        · rename_i h5
          obtain ⟨ip', hip'⟩ := Option.isSome_iff_exists.mp h5
          obtain ⟨a, b, c, d, h6, _⟩ := (parseIPv4_iff _ _).mp hip'
          rw [if_pos h5] at h4
          exact .inl ⟨⟨a, b, c, d, h6⟩, h4⟩
        · rename_i h5
          obtain ⟨x, gs, h6, _⟩ := (parseIPv6_iff _ _).mp hip
          rw [if_neg h5] at h4
          exact .inr ⟨⟨x, gs, h6⟩, h4⟩

/-- The address `s` is in the block `t`, as IPv4 and IPv6 addresses of the same family. -/
theorem ipMatch_ok {s t : Str} (hs : IsAddr s) (ht : IsBlock t) : ∃ b, ipMatch s t = .ok b := by
  obtain ⟨net, ms, n, rfl, hms, hnet⟩ := ht
  rcases hs with ⟨a, b, c, d, hs⟩ | ⟨x, as, hs⟩
  · rcases hnet with ⟨⟨e, f, g, h, hnet⟩, hn⟩ | ⟨⟨y, es, hnet⟩, hn⟩
    · exact ⟨_, ipMatch_v4 hs hnet hms hn⟩
    · by_cases hm : Mapped es n
      · obtain ⟨g, k, rfl⟩ := mapped_eq (isText_length hnet) hm
        cases y with
        | false => exact ⟨_, ipMatch_v4_groups hs hnet hms hm.1 hn⟩
        | true =>
          obtain ⟨hs', e, f, g', h, hd, he⟩ := hnet
          have hl := isDotted_length hd
          have hh : hs' = [0, 0, 0, 0, 0, 0xffff] := by
            have := congrArg (List.take 6) he
            simp [← hl] at this
            simpa [hl] using this.symm
          subst hh
          exact ⟨_, ipMatch_v4_mapped hs hd hms hm.1 hn⟩
      · exact ⟨_, ipMatch_v4_text hs hnet hms hn hm⟩
  · rcases hnet with ⟨⟨e, f, g, h, hnet⟩, hn⟩ | ⟨⟨y, es, hnet⟩, hn⟩
    · exact ⟨_, ipMatch_text_v4 hs hnet hms hn⟩
    · by_cases hm : Mapped es n
      · exact ⟨_, ipMatch_text_mapped hs hnet hms hn hm⟩
      · exact ⟨_, ipMatch_text hs hnet hms hn hm⟩

theorem ipMatch_bad {s t : Str} (hs : IsAddr s) (ht : ¬ IsBlock t) : ipMatch s t = .throw .ipParser := by
  obtain ⟨ip, hip⟩ := (parseIP_isSome s).mpr hs
  unfold ipMatch
  rw [hip]
  simp only [parseCIDR_bad ht]
  rfl

theorem ipMatch_noAddr {s : Str} (t : Str) (hs : ¬ IsAddr s) : ipMatch s t = .throw .illegalArgument := by
  have : parseIP s = none := by
    cases h : parseIP s with
    | none => rfl
    | some ip => exact absurd ((parseIP_isSome s).mp ⟨ip, h⟩) hs
  unfold ipMatch
  rw [this]

end Casbin
