import Verif.Regex

/-!
# Regular expressions: specification and lemmas
-/

namespace Casbin.Regex

/-! ## Specification: what a regular expression means -/

/-- The character is in the set. -/
def Chars.In (k : Chars) (c : Char) : Prop :=
  if k.neg then ∀ r ∈ k.ranges, ¬ (r.1 ≤ c ∧ c ≤ r.2) else ∃ r ∈ k.ranges, r.1 ≤ c ∧ c ≤ r.2

/-- A text of any number of parts that are in `L`. -/
inductive Many (L : Str → Prop) : Str → Prop
  | nil : Many L []
  | more {u v : Str} : L u → Many L v → Many L (u ++ v)

/-- The texts that a regular expression stands for. -/
def Lang : Rx → Str → Prop
  | .eps, s => s = []
  | .one k, s => ∃ c, s = [c] ∧ k.In c
  | .seq a b, s => ∃ u v, s = u ++ v ∧ Lang a u ∧ Lang b v
  | .alt a b, s => Lang a s ∨ Lang b s
  | .star a, s => Many (Lang a) s
  | .plus a, s => ∃ u v, s = u ++ v ∧ Lang a u ∧ Many (Lang a) v
  | .opt a, s => s = [] ∨ Lang a s

/-! ## Specification: how a regular expression is written -/

/-- A character for itself in brackets: not one of `^ \ [ ] -`. -/
def InBrackets (c : Char) : Prop := c ∉ ['^', '\\', '[', ']', '-'] ∧ c ≠ '\x00' ∧ c.toNat < 128

/-- The text between the brackets of a class: characters and ranges. -/
inductive Class : List (Char × Char) → Str → Prop
  | nil : Class [] []
  | char {c : Char} {rs : List (Char × Char)} {t : Str} :
      InBrackets c → Class rs t → Class ((c, c) :: rs) (c :: t)
  | range {c d : Char} {rs : List (Char × Char)} {t : Str} :
      InBrackets c → InBrackets d → c ≤ d → Class rs t → Class ((c, d) :: rs) (c :: '-' :: d :: t)

/-- The parts of a regular expression: alternatives, sequences, quantified atoms, atoms. -/
inductive Kind
  | alts
  | terms
  | term
  | atom

/-- `Written k r t`: the text `t` is the expression `r`, as a part of this kind. -/
inductive Written : Kind → Rx → Str → Prop
  | char {c : Char} : c ∉ ['^', '$', '\\', '.', '*', '+', '?', '(', ')', '[', ']', '{', '}', '|'] →
      c ≠ '\x00' → Written .atom (.one ⟨false, [(c, c)]⟩) [c]
  | escape {c : Char} :
      c ∈ ['^', '$', '\\', '.', '*', '+', '?', '(', ')', '[', ']', '{', '}', '|'] →
      Written .atom (.one ⟨false, [(c, c)]⟩) ['\\', c]
  | dot : Written .atom (.one ⟨true, [('\n', '\n'), ('\r', '\r')]⟩) ['.']
  | digit : Written .atom (.one ⟨false, [('0', '9')]⟩) ['\\', 'd']
  | noDigit : Written .atom (.one ⟨true, [('0', '9')]⟩) ['\\', 'D']
  | word : Written .atom (.one ⟨false, [('a', 'z'), ('A', 'Z'), ('0', '9'), ('_', '_')]⟩) ['\\', 'w']
  | noWord : Written .atom (.one ⟨true, [('a', 'z'), ('A', 'Z'), ('0', '9'), ('_', '_')]⟩) ['\\', 'W']
  | class {rs : List (Char × Char)} {t : Str} : rs ≠ [] → Class rs t →
      Written .atom (.one ⟨false, rs⟩) ('[' :: t ++ [']'])
  | noClass {rs : List (Char × Char)} {t : Str} : rs ≠ [] → Class rs t →
      Written .atom (.one ⟨true, rs⟩) ('[' :: '^' :: t ++ [']'])
  | group {a : Rx} {t : Str} : Written .alts a t → Written .atom a ('(' :: t ++ [')'])
  | quiet {a : Rx} {t : Str} : Written .alts a t → Written .atom a ('(' :: '?' :: ':' :: t ++ [')'])
  | bare {a : Rx} {t : Str} : Written .atom a t → Written .term a t
  | star {a : Rx} {t l : Str} : Written .atom a t → l ∈ [[], ['?']] →
      Written .term (.star a) (t ++ '*' :: l)
  | plus {a : Rx} {t l : Str} : Written .atom a t → l ∈ [[], ['?']] →
      Written .term (.plus a) (t ++ '+' :: l)
  | opt {a : Rx} {t l : Str} : Written .atom a t → l ∈ [[], ['?']] →
      Written .term (.opt a) (t ++ '?' :: l)
  | none : Written .terms .eps []
  | more {a b : Rx} {s t : Str} : Written .term a s → Written .terms b t →
      Written .terms (.seq a b) (s ++ t)
  | last {a : Rx} {t : Str} : Written .terms a t → Written .alts a t
  | alt {a b : Rx} {s t : Str} : Written .terms a s → Written .alts b t →
      Written .alts (.alt a b) (s ++ '|' :: t)

/-! ## The matcher -/

theorem has_iff (k : Chars) (c : Char) : k.has c = true ↔ k.In c := by
  unfold Chars.has Chars.In
  cases k.neg with
  | false => simp
  | true => simp

theorem many_append {L : Str → Prop} {u v : Str} (h : Many L u) (hv : Many L v) : Many L (u ++ v) := by
  induction h with
  | nil => exact hv
  | more h1 _ ih => rw [List.append_assoc]; exact .more h1 ih

/-- Rounds that take nothing may be left out. -/
theorem many_progress {L : Str → Prop} {s : Str} (h : Many L s) :
    s = [] ∨ ∃ u v, s = u ++ v ∧ u ≠ [] ∧ L u ∧ Many L v := by
  induction h with
  | nil => exact .inl rfl
  | @more u v h1 h2 ih =>
    by_cases hu : u = []
    · subst hu; exact ih
    · exact .inr ⟨u, v, rfl, hu, h1, h2⟩

theorem mem_rounds {L : Str → Prop} {f : Str → List Str}
    (hf : ∀ s t, t ∈ f s ↔ ∃ u, s = u ++ t ∧ L u) :
    ∀ (n : Nat) (s t : Str), s.length ≤ n → (t ∈ rounds f n s ↔ ∃ u, s = u ++ t ∧ Many L u) := by
  intro n
  induction n with
  | zero =>
    intro s t hs
    have : s = [] := List.length_eq_zero_iff.mp (by omega)
    subst this
    simp only [rounds, List.mem_singleton]
    constructor
    · rintro rfl; exact ⟨[], rfl, .nil⟩
    · rintro ⟨u, hu, _⟩
      have := List.append_eq_nil_iff.mp hu.symm
      exact this.2
  | succ n ih =>
    intro s t hs
    simp only [rounds, List.mem_append, List.mem_flatMap, List.mem_filter, List.mem_singleton,
      decide_eq_true_eq, hf]
    constructor
    · rintro (⟨w, ⟨⟨u, rfl, hu⟩, hl⟩, hw⟩ | rfl)
      · rw [ih w t (by simp only [List.length_append] at hs hl; omega)] at hw
        obtain ⟨v, rfl, hv⟩ := hw
        exact ⟨u ++ v, by simp, .more hu hv⟩
      · exact ⟨[], rfl, .nil⟩
    · rintro ⟨u, rfl, hu⟩
      rcases many_progress hu with rfl | ⟨v, w, rfl, hne, hv, hw⟩
      · exact .inr rfl
      · have hpos : 0 < v.length := List.length_pos_iff.mpr hne
        refine .inl ⟨w ++ t, ⟨⟨v, by simp, hv⟩, by simp only [List.length_append]; omega⟩, ?_⟩
        rw [ih _ _ (by simp only [List.length_append] at hs ⊢; omega)]
        exact ⟨w, rfl, hw⟩

theorem mem_ends (r : Rx) : ∀ s t, t ∈ r.ends s ↔ ∃ u, s = u ++ t ∧ Lang r u := by
  induction r with
  | eps => intro s t; simp [Rx.ends, Lang, eq_comm]
  | one k =>
    intro s t
    cases s with
    | nil =>
      simp only [Rx.ends, List.not_mem_nil, false_iff]
      rintro ⟨u, hu, c, rfl, _⟩
      simp at hu
    | cons c s =>
      simp only [Rx.ends, Lang]
      constructor
      · intro h
        split at h
        · rename_i hc
          simp only [List.mem_singleton] at h
          subst h
          exact ⟨[c], rfl, c, rfl, (has_iff k c).mp hc⟩
        · simp at h
      · rintro ⟨u, hu, d, rfl, hd⟩
        simp only [List.cons_append, List.nil_append, List.cons.injEq] at hu
        obtain ⟨rfl, rfl⟩ := hu
        simp [(has_iff k c).mpr hd]
  | seq a b iha ihb =>
    intro s t
    simp only [Rx.ends, Lang, List.mem_flatMap, iha, ihb]
    constructor
    · rintro ⟨w, ⟨u, rfl, hu⟩, v, rfl, hv⟩
      exact ⟨u ++ v, by simp, u, v, rfl, hu, hv⟩
    · rintro ⟨_, rfl, u, v, rfl, hu, hv⟩
      exact ⟨v ++ t, ⟨u, by simp, hu⟩, v, rfl, hv⟩
  | alt a b iha ihb =>
    intro s t
    simp only [Rx.ends, Lang, List.mem_append, iha, ihb]
    constructor
    · rintro (⟨u, h1, h2⟩ | ⟨u, h1, h2⟩)
      · exact ⟨u, h1, .inl h2⟩
      · exact ⟨u, h1, .inr h2⟩
    · rintro ⟨u, h1, h2 | h2⟩
      · exact .inl ⟨u, h1, h2⟩
      · exact .inr ⟨u, h1, h2⟩
  | star a iha =>
    intro s t
    simp only [Rx.ends, Lang]
    exact mem_rounds iha _ _ _ (Nat.le_refl _)
  | plus a iha =>
    intro s t
    simp only [Rx.ends, Lang, List.mem_flatMap]
    constructor
    · rintro ⟨w, hw, ht⟩
      obtain ⟨u, rfl, hu⟩ := (iha _ _).mp hw
      obtain ⟨v, rfl, hv⟩ := (mem_rounds iha _ _ _ (Nat.le_refl _)).mp ht
      exact ⟨u ++ v, by simp, u, v, rfl, hu, hv⟩
    · rintro ⟨_, rfl, u, v, rfl, hu, hv⟩
      exact ⟨v ++ t, (iha _ _).mpr ⟨u, by simp, hu⟩,
        (mem_rounds iha _ _ _ (Nat.le_refl _)).mpr ⟨v, rfl, hv⟩⟩
  | opt a iha =>
    intro s t
    simp only [Rx.ends, Lang, List.mem_append, List.mem_singleton, iha]
    constructor
    · rintro (⟨u, h1, h2⟩ | rfl)
      · exact ⟨u, h1, .inr h2⟩
      · exact ⟨[], rfl, .inl rfl⟩
    · rintro ⟨u, rfl, rfl | h2⟩
      · exact .inr rfl
      · exact .inl ⟨u, rfl, h2⟩

theorem run_iff (r : Rx) (s : Str) : r.run s = true ↔ Lang r s := by
  simp only [Rx.run, List.any_eq_true, List.isEmpty_iff, mem_ends]
  constructor
  · rintro ⟨_, ⟨u, rfl, hu⟩, rfl⟩; simpa using hu
  · intro h; exact ⟨[], ⟨s, by simp, h⟩, rfl⟩

/-! ## Reading what is written -/

@[simp] theorem Rd.ok_bind {α β : Type} (a : α) (f : α → Rd β) : (Rd.ok a >>= f) = f a := rfl
@[simp] theorem Rd.bad_bind {α β : Type} (f : α → Rd β) : ((Rd.bad : Rd α) >>= f) = .bad := rfl
@[simp] theorem Rd.unknown_bind {α β : Type} (f : α → Rd β) :
    ((Rd.unknown : Rd α) >>= f) = .unknown := rfl
@[simp] theorem Rd.pure_eq {α : Type} (a : α) : (pure a : Rd α) = .ok a := rfl

theorem Rd.bind_ok_inv {α β : Type} {x : Rd α} {f : α → Rd β} {b : β} (h : (x >>= f) = .ok b) :
    ∃ a, x = .ok a ∧ f a = .ok b := by
  cases x with
  | ok a => exact ⟨a, rfl, h⟩
  | bad => simp at h
  | unknown => simp at h

theorem classPlain_iff (c : Char) : classPlain c = true ↔ InBrackets c := by
  simp [classPlain, InBrackets, and_assoc]

theorem plain_iff (c : Char) : plain c = true ↔
    c ∉ ['^', '$', '\\', '.', '*', '+', '?', '(', ')', '[', ']', '{', '}', '|'] ∧ c ≠ '\x00' := by
  simp [plain, syntaxChars]

theorem inBrackets_ne {c : Char} (h : InBrackets c) : c ≠ ']' ∧ c ≠ '-' ∧ c ≠ '^' := by
  have := h.1
  simp only [List.mem_cons, List.not_mem_nil, or_false, not_or] at this
  exact ⟨this.2.2.2.1, this.2.2.2.2, this.1⟩

theorem class_head {rs : List (Char × Char)} {t : Str} (h : Class rs t) :
    t = [] ∧ rs = [] ∨ ∃ c t', t = c :: t' ∧ InBrackets c ∧ rs ≠ [] := by
  cases h with
  | nil => exact .inl ⟨rfl, rfl⟩
  | char h _ => exact .inr ⟨_, _, rfl, h, by simp⟩
  | range h _ _ _ => exact .inr ⟨_, _, rfl, h, by simp⟩

theorem classItems_char {c : Char} {s : Str} (h : InBrackets c) (hs : s.head? ≠ some '-') :
    classItems (c :: s) = (do
      let (rs, s) ← classItems s
      pure ((c, c) :: rs, s)) := by
  obtain ⟨h1, h2, _⟩ := inBrackets_ne h
  rw [classItems]
  · rw [if_pos ((classPlain_iff c).mpr h)]
  · exact h1
  · rintro d s' rfl; exact hs rfl

theorem classItems_written {rs : List (Char × Char)} {t : Str} (h : Class rs t) (rest : Str) :
    classItems (t ++ ']' :: rest) = .ok (rs, rest) := by
  induction h with
  | nil => simp [classItems]
  | @char c rs t hc ht ih =>
    rw [List.cons_append, classItems_char hc, ih]
    · rfl
    · rcases class_head ht with ⟨rfl, _⟩ | ⟨d, t', rfl, hd, _⟩
      · simp
      · simp [(inBrackets_ne hd).2.1]
  | @range c d rs t hc hd hle ht ih =>
    rw [List.cons_append, List.cons_append, List.cons_append, classItems, ih]
    · simp [(classPlain_iff c).mpr hc, (classPlain_iff d).mpr hd, hle]
    · exact (inBrackets_ne hc).1

theorem classOf_written {rs : List (Char × Char)} {t : Str} (h : Class rs t) (hne : rs ≠ [])
    (rest : Str) : classOf (t ++ ']' :: rest) = .ok (⟨false, rs⟩, rest) ∧
      classOf ('^' :: t ++ ']' :: rest) = .ok (⟨true, rs⟩, rest) := by
  rcases class_head h with ⟨_, h'⟩ | ⟨c, t', rfl, hc, _⟩
  · exact absurd h' hne
  · obtain ⟨h1, h2, h3⟩ := inBrackets_ne hc
    have hi := classItems_written h rest
    simp only [List.cons_append] at hi ⊢
    constructor
    · have : classSign (c :: (t' ++ ']' :: rest)) = (false, c :: (t' ++ ']' :: rest)) := by
        rw [classSign]
        rintro s heq
        rw [List.cons.injEq] at heq
        exact h3 heq.1
      simp [classOf, this, h1, hi]
    · simp [classOf, classSign, h1, hi]

/-- What may follow a part. -/
def Stops : Kind → Str → Prop
  | .alts, s => s = [] ∨ ∃ u, s = ')' :: u
  | .terms, s => s = [] ∨ ∃ u, s = ')' :: u ∨ s = '|' :: u
  | _, s => quantNext s = false

theorem stops_term {k : Kind} {s : Str} (h : Stops k s) : quantNext s = false := by
  cases k with
  | alts => rcases h with rfl | ⟨u, rfl⟩ <;> simp [quantNext]
  | terms => rcases h with rfl | ⟨u, rfl | rfl⟩ <;> simp [quantNext]
  | term => exact h
  | atom => exact h

/-- An atom begins with a character that is no quantifier, no `|` and no `)`. -/
theorem atom_head {k : Kind} {r : Rx} {t : Str} (h : Written k r t) :
    ((k = .atom ∨ k = .term) → ∃ c u, t = c :: u ∧ c ∉ ['*', '+', '?', '{', '|', ')']) ∧
    (k = .terms → t = [] ∨ ∃ c u, t = c :: u ∧ c ∉ ['*', '+', '?', '{', '|', ')']) ∧
    (k = .alts → t.head? ≠ some '?') := by
  induction h with
  | char h1 h2 =>
    refine ⟨fun _ => ⟨_, _, rfl, ?_⟩, by simp, by simp⟩
    simp only [List.mem_cons, List.not_mem_nil, or_false, not_or] at h1 ⊢
    tauto
  | bare _ ih => exact ⟨fun _ => ih.1 (.inl rfl), by simp, by simp⟩
  | star _ _ ih | plus _ _ ih | opt _ _ ih =>
    obtain ⟨c, u, rfl, h⟩ := ih.1 (.inl rfl)
    exact ⟨fun _ => ⟨c, _, rfl, h⟩, by simp, by simp⟩
  | none => simp
  | more _ _ ih1 _ =>
    obtain ⟨c, u, rfl, h⟩ := ih1.1 (.inr rfl)
    exact ⟨by simp, fun _ => .inr ⟨c, _, rfl, h⟩, by simp⟩
  | last _ ih =>
    refine ⟨by simp, by simp, fun _ => ?_⟩
    rcases ih.2.1 rfl with rfl | ⟨c, u, rfl, h⟩
    · simp
    · simp only [List.head?_cons, ne_eq, Option.some.injEq]
      rintro rfl
      simp at h
  | alt _ _ ih _ =>
    refine ⟨by simp, by simp, fun _ => ?_⟩
    rcases ih.2.1 rfl with rfl | ⟨c, u, rfl, h⟩
    · simp
    · simp only [List.cons_append, List.head?_cons, ne_eq, Option.some.injEq]
      rintro rfl
      simp at h
  | _ => exact ⟨fun _ => ⟨_, _, rfl, by decide⟩, by simp, by simp⟩

theorem quantified_bare {a : Rx} {s : Str} (h : quantNext s = false) : quantified a s = .ok (a, s) := by
  have hs : quantSign a s = (a, s) := by
    cases s with
    | nil => rfl
    | cons c s =>
      simp only [quantNext, List.mem_cons, List.not_mem_nil, or_false, decide_eq_false_iff_not,
        not_or] at h
      rw [quantSign] <;> simp_all
  simp [quantified, hs, h]

theorem quantSign_sign {a : Rx} {s l : Str} (h : quantNext s = false) (hl : l ∈ [[], ['?']]) :
    quantSign a ('*' :: l ++ s) = (.star a, s) ∧
    quantSign a ('+' :: l ++ s) = (.plus a, s) ∧
    quantSign a ('?' :: l ++ s) = (.opt a, s) := by
  simp only [List.mem_cons, List.not_mem_nil, or_false] at hl
  rcases hl with rfl | rfl
  · cases s with
    | nil => exact ⟨rfl, rfl, rfl⟩
    | cons c s =>
      have hc : c ≠ '?' := by
        rintro rfl; revert h; simp [quantNext]
      refine ⟨?_, ?_, ?_⟩
      all_goals
        simp only [List.cons_append, List.nil_append]
        (rw [quantSign]; simp_all)
  · exact ⟨rfl, rfl, rfl⟩

theorem quantified_sign {a : Rx} {s l : Str} (h : quantNext s = false) (hl : l ∈ [[], ['?']]) :
    quantified a ('*' :: l ++ s) = .ok (.star a, s) ∧
    quantified a ('+' :: l ++ s) = .ok (.plus a, s) ∧
    quantified a ('?' :: l ++ s) = .ok (.opt a, s) := by
  obtain ⟨h1, h2, h3⟩ := quantSign_sign (a := a) h hl
  refine ⟨?_, ?_, ?_⟩ <;> (simp only [quantified, h1, h2, h3, h]; simp)

/-- Reading an atom, whatever its quantifier. -/
def ReadsAtom (n : Nat) (a : Rx) (t : Str) : Prop :=
  ∀ rest, read n .term (t ++ rest) = quantified a rest

/-- What the reader makes of a text of the kind, given enough depth. -/
def Reads (k : Kind) (a : Rx) (t : Str) : Prop :=
  match k with
  | .atom => ∀ n, 3 * t.length + 1 ≤ n → ReadsAtom n a t
  | .term => ∀ n, 3 * t.length + 1 ≤ n → ∀ rest, Stops .term rest →
      read n .term (t ++ rest) = .ok (a, rest)
  | .terms => ∀ n, 3 * t.length + 2 ≤ n → ∀ rest, Stops .terms rest →
      read n .terms (t ++ rest) = .ok (a, rest)
  | .alts => ∀ n, 3 * t.length + 3 ≤ n → ∀ rest, Stops .alts rest →
      read n .alts (t ++ rest) = .ok (a, rest)

theorem reads_written {k : Kind} {a : Rx} {t : Str} (h : Written k a t) : Reads k a t := by
  induction h with
  | @char c h1 h2 =>
    intro n hn rest
    obtain ⟨m, rfl⟩ : ∃ m, n = m + 1 := ⟨n - 1, by omega⟩
    have hp := (plain_iff c).mpr ⟨h1, h2⟩
    simp only [List.mem_cons, List.not_mem_nil, or_false, not_or] at h1
    rw [List.cons_append, List.nil_append, read]
    · simp [hp, single]
    all_goals simp_all
  | @escape c h1 =>
    intro n hn rest
    obtain ⟨m, rfl⟩ : ∃ m, n = m + 1 := ⟨n - 1, by omega⟩
    have : escaped c = .ok (single c) := by
      unfold escaped; rw [if_pos (show c ∈ syntaxChars from h1)]
    simp [read, this, single]
  | digit | noDigit | word | noWord | dot =>
    intro n hn rest
    obtain ⟨m, rfl⟩ : ∃ m, n = m + 1 := ⟨n - 1, by simp at hn; omega⟩
    simp [read, escaped, syntaxChars, digits, wordChars]
  | «class» hne hc =>
    intro n hn rest
    obtain ⟨m, rfl⟩ : ∃ m, n = m + 1 := ⟨n - 1, by omega⟩
    simp [read, (classOf_written hc hne rest).1]
  | noClass hne hc =>
    intro n hn rest
    obtain ⟨m, rfl⟩ : ∃ m, n = m + 1 := ⟨n - 1, by omega⟩
    have := (classOf_written hc hne rest).2
    simp only [List.cons_append] at this
    simp [read, this]
  | @group a t h ih =>
    intro n hn rest
    simp only [List.length_append, List.length_cons, List.length_nil] at hn
    obtain ⟨m, rfl⟩ : ∃ m, n = m + 1 := ⟨n - 1, by omega⟩
    have := ih m (by omega) (')' :: rest) (.inr ⟨_, rfl⟩)
    have hq := (atom_head h).2.2 rfl
    simp only [List.cons_append, List.append_assoc, List.nil_append, read]
    have hm : groupStart (t ++ ')' :: rest) = .ok (t ++ ')' :: rest) := by
      cases t with
      | nil => simp [groupStart]
      | cons c t =>
        simp only [List.head?_cons, ne_eq, Option.some.injEq] at hq
        simp only [List.cons_append]
        rw [groupStart] <;> simp_all
    rw [hm, Rd.ok_bind, this]
    rfl
  | @quiet a t h ih =>
    intro n hn rest
    simp only [List.length_append, List.length_cons, List.length_nil] at hn
    obtain ⟨m, rfl⟩ : ∃ m, n = m + 1 := ⟨n - 1, by omega⟩
    have := ih m (by omega) (')' :: rest) (.inr ⟨_, rfl⟩)
    simp only [List.cons_append, List.append_assoc, List.nil_append, read, groupStart, Rd.ok_bind, this,
      groupEnd]
  | bare _ ih =>
    intro n hn rest hr
    rw [ih n hn rest, quantified_bare hr]
  | @star a t l _ hl ih =>
    intro n hn rest hr
    simp only [List.length_append] at hn
    rw [List.append_assoc, ih n (by omega)]
    exact (quantified_sign hr hl).1
  | @plus a t l _ hl ih =>
    intro n hn rest hr
    simp only [List.length_append] at hn
    rw [List.append_assoc, ih n (by omega)]
    exact (quantified_sign hr hl).2.1
  | @opt a t l _ hl ih =>
    intro n hn rest hr
    simp only [List.length_append] at hn
    rw [List.append_assoc, ih n (by omega)]
    exact (quantified_sign hr hl).2.2
  | none =>
    intro n hn rest hr
    obtain ⟨m, rfl⟩ : ∃ m, n = m + 1 := ⟨n - 1, by omega⟩
    rcases hr with rfl | ⟨u, rfl | rfl⟩ <;> simp [read]
  | @more a b s t h1 h2 ih1 ih2 =>
    intro n hn rest hr
    obtain ⟨m, rfl⟩ : ∃ m, n = m + 1 := ⟨n - 1, by omega⟩
    obtain ⟨c, u, rfl, hc⟩ := (atom_head h1).1 (.inr rfl)
    simp only [List.length_append, List.length_cons] at hn
    have hst : Stops .term (t ++ rest) := by
      rcases (atom_head h2).2.1 rfl with rfl | ⟨d, v, rfl, hd⟩
      · exact stops_term hr
      · simp only [List.mem_cons, List.not_mem_nil, or_false, not_or] at hd
        simp [Stops, quantNext, hd]
    have e1 := ih1 m (by simp only [List.length_cons]; omega) _ hst
    have e2 := ih2 m (by omega) rest hr
    simp only [List.mem_cons, List.not_mem_nil, or_false, not_or] at hc
    rw [List.append_assoc]
    simp only [List.cons_append] at e1 ⊢
    rw [read]
    simp only [hc, or_self, if_false, e1, Rd.ok_bind, e2, Rd.pure_eq]
  | @last a t _ ih =>
    intro n hn rest hr
    obtain ⟨m, rfl⟩ : ∃ m, n = m + 1 := ⟨n - 1, by omega⟩
    have hst : Stops .terms rest := by
      rcases hr with rfl | ⟨u, rfl⟩
      · exact .inl rfl
      · exact .inr ⟨u, .inl rfl⟩
    rw [read, ih m (by omega) rest hst, Rd.ok_bind]
    rcases hr with rfl | ⟨u, rfl⟩ <;> simp
  | @alt a b s t _ _ ih1 ih2 =>
    intro n hn rest hr
    simp only [List.length_append, List.length_cons] at hn
    obtain ⟨m, rfl⟩ : ∃ m, n = m + 1 := ⟨n - 1, by omega⟩
    rw [List.append_assoc, List.cons_append, read, ih1 m (by omega) _ (.inr ⟨_, .inr rfl⟩)]
    simp only [Rd.ok_bind, ih2 m (by omega) rest hr, Rd.pure_eq]

theorem parse_written {a : Rx} {t : Str} (h : Written .alts a t) : parse t = .ok a := by
  have := reads_written h (3 * t.length + 3) (Nat.le_refl _) [] (.inl rfl)
  rw [List.append_nil] at this
  simp [parse, this]

/-! ## Only what is written is read -/

theorem classItems_inv : ∀ (s : Str) {rs : List (Char × Char)} {rest : Str},
    classItems s = .ok (rs, rest) → ∃ t, s = t ++ ']' :: rest ∧ Class rs t := by
  intro s
  induction s using classItems.induct with
  | case1 s =>
    intro rs rest h
    simp only [classItems, Rd.ok.injEq, Prod.mk.injEq] at h
    obtain ⟨rfl, rfl⟩ := h
    exact ⟨[], rfl, .nil⟩
  | case2 c d s hne hp hle ih =>
    intro rs rest h
    rw [classItems] at h
    · simp only [hp, if_true, hle] at h
      obtain ⟨⟨rs', s'⟩, h1, h2⟩ := Rd.bind_ok_inv h
      simp only [Rd.pure_eq, Rd.ok.injEq, Prod.mk.injEq] at h2
      obtain ⟨rfl, rfl⟩ := h2
      obtain ⟨t, rfl, ht⟩ := ih h1
      rw [Bool.and_eq_true, classPlain_iff, classPlain_iff] at hp
      exact ⟨c :: '-' :: d :: t, rfl, .range hp.1 hp.2 hle ht⟩
    · exact hne
  | case3 c d s hne hp hle =>
    intro rs rest h
    rw [classItems] at h
    · simp [hp, hle] at h
    · exact hne
  | case4 c d s hne hp =>
    intro rs rest h
    rw [classItems] at h
    · simp [hp] at h
    · exact hne
  | case5 c s hne hno hp ih =>
    intro rs rest h
    rw [classItems] at h
    · simp only [hp, if_true] at h
      obtain ⟨⟨rs', s'⟩, h1, h2⟩ := Rd.bind_ok_inv h
      simp only [Rd.pure_eq, Rd.ok.injEq, Prod.mk.injEq] at h2
      obtain ⟨rfl, rfl⟩ := h2
      obtain ⟨t, rfl, ht⟩ := ih h1
      exact ⟨c :: t, rfl, .char ((classPlain_iff c).mp hp) ht⟩
    · exact hne
    · exact hno
  | case6 c s hne hno hp =>
    intro rs rest h
    rw [classItems] at h
    · simp [hp] at h
    · exact hne
    · exact hno
  | case7 =>
    intro rs rest h
    simp [classItems] at h

theorem classSign_inv (s : Str) :
    (∃ u, s = '^' :: u ∧ classSign s = (true, u)) ∨ classSign s = (false, s) := by
  by_cases h : ∃ u, s = '^' :: u
  · obtain ⟨u, rfl⟩ := h
    exact .inl ⟨u, rfl, rfl⟩
  · right
    rw [classSign]
    intro u hu
    exact h ⟨u, hu⟩

theorem classOf_inv {s : Str} {k : Chars} {rest : Str} (h : classOf s = .ok (k, rest)) :
    ∃ t, '[' :: s = t ++ rest ∧ Written .atom (.one k) t := by
  unfold classOf at h
  split at h
  · simp at h
  · rename_i hh
    obtain ⟨⟨rs, s'⟩, h1, h2⟩ := Rd.bind_ok_inv h
    simp only [Rd.pure_eq, Rd.ok.injEq, Prod.mk.injEq] at h2
    obtain ⟨rfl, rfl⟩ := h2
    obtain ⟨t, ht, hc⟩ := classItems_inv _ h1
    have hne : rs ≠ [] := by
      rintro rfl
      cases hc
      rw [ht] at hh
      simp at hh
    rcases classSign_inv s with ⟨u, rfl, hs⟩ | hs
    · rw [hs] at ht ⊢
      simp only at ht
      subst ht
      exact ⟨'[' :: '^' :: t ++ [']'], by simp, .noClass hne hc⟩
    · rw [hs] at ht ⊢
      simp only at ht
      subst ht
      exact ⟨'[' :: t ++ [']'], by simp, .class hne hc⟩

theorem quantSign_inv {a : Rx} {t : Str} (h : Written .atom a t) (s : Str) :
    ∃ u, s = u ++ (quantSign a s).2 ∧ Written .term (quantSign a s).1 (t ++ u) := by
  unfold quantSign
  split
  · exact ⟨['*', '?'], rfl, .star h (by simp)⟩
  · exact ⟨['+', '?'], rfl, .plus h (by simp)⟩
  · exact ⟨['?', '?'], rfl, .opt h (by simp)⟩
  · exact ⟨['*'], rfl, .star h (by simp)⟩
  · exact ⟨['+'], rfl, .plus h (by simp)⟩
  · exact ⟨['?'], rfl, .opt h (by simp)⟩
  · exact ⟨[], rfl, by rw [List.append_nil]; exact .bare h⟩

theorem quantified_inv {a r : Rx} {t s rest : Str} (h : Written .atom a t)
    (hq : quantified a s = .ok (r, rest)) : ∃ u, t ++ s = u ++ rest ∧ Written .term r u := by
  unfold quantified at hq
  split at hq
  · simp at hq
  · simp only [Rd.ok.injEq] at hq
    obtain ⟨u, h1, h2⟩ := quantSign_inv h s
    rw [hq] at h1 h2
    exact ⟨t ++ u, by rw [h1, List.append_assoc], h2⟩

theorem escaped_inv {c : Char} {k : Chars} (h : escaped c = .ok k) :
    Written .atom (.one k) ['\\', c] := by
  unfold escaped at h
  split at h
  · rename_i hc
    cases h
    exact .escape hc
  · split at h
    · rename_i hc; subst hc; cases h; exact .digit
    · split at h
      · rename_i hc; subst hc; cases h; exact .noDigit
      · split at h
        · rename_i hc; subst hc; cases h; exact .word
        · split at h
          · rename_i hc; subst hc; cases h; exact .noWord
          · simp at h

/-- The kind of a part that is read. -/
def Part.kind : Part → Kind
  | .alts => .alts
  | .terms => .terms
  | .term => .term

theorem read_inv : ∀ (n : Nat) (p : Part) (s : Str) {r : Rx} {rest : Str},
    read n p s = .ok (r, rest) → ∃ t, s = t ++ rest ∧ Written p.kind r t := by
  intro n
  induction n with
  | zero => intro p s r rest h; simp [read] at h
  | succ n ih =>
    intro p s r rest h
    cases p with
    | alts =>
      rw [read] at h
      obtain ⟨⟨a, s1⟩, h1, h2⟩ := Rd.bind_ok_inv h
      obtain ⟨t, rfl, ht⟩ := ih _ _ h1
      simp only at h2
      split at h2
      · rename_i u
        obtain ⟨⟨b, s2⟩, h3, h4⟩ := Rd.bind_ok_inv h2
        obtain ⟨v, rfl, hv⟩ := ih _ _ h3
        simp only [Rd.pure_eq, Rd.ok.injEq, Prod.mk.injEq] at h4
        obtain ⟨rfl, rfl⟩ := h4
        exact ⟨t ++ '|' :: v, by simp, .alt ht hv⟩
      · simp only [Rd.pure_eq, Rd.ok.injEq, Prod.mk.injEq] at h2
        obtain ⟨rfl, rfl⟩ := h2
        exact ⟨t, rfl, .last ht⟩
    | terms =>
      rw [read.eq_def] at h
      simp only at h
      split at h
      · simp only [Rd.ok.injEq, Prod.mk.injEq] at h
        obtain ⟨rfl, rfl⟩ := h
        exact ⟨[], rfl, .none⟩
      · split at h
        · simp only [Rd.ok.injEq, Prod.mk.injEq] at h
          obtain ⟨rfl, rfl⟩ := h
          exact ⟨[], rfl, .none⟩
        · obtain ⟨⟨a, s1⟩, h1, h2⟩ := Rd.bind_ok_inv h
          obtain ⟨t, ht', ht⟩ := ih _ _ h1
          obtain ⟨⟨b, s2⟩, h3, h4⟩ := Rd.bind_ok_inv h2
          obtain ⟨v, hv', hv⟩ := ih _ _ h3
          simp only [Rd.pure_eq, Rd.ok.injEq, Prod.mk.injEq] at h4 hv'
          obtain ⟨rfl, rfl⟩ := h4
          exact ⟨t ++ v, by rw [ht', hv', List.append_assoc], .more ht hv⟩
    | term =>
      have hgroup : ∀ {t u : Str} {x : Rx × Str}, (∀ a, Written .alts a t →
          Written .atom a (u ++ t ++ [')'])) → Written .alts x.1 t → groupEnd x = .ok (r, rest) →
          ∃ v, u ++ t ++ x.2 = v ++ rest ∧ Written .term r v := by
        intro t u x hw hx hg
        unfold groupEnd at hg
        split at hg
        · rename_i w hw'
          obtain ⟨v, h1, h2⟩ := quantified_inv (hw _ hx) hg
          exact ⟨v, by rw [hw', ← h1]; simp, h2⟩
        · simp at hg
      rw [read.eq_def] at h
      simp only at h
      split at h
      · simp at h
      · rename_i s
        obtain ⟨s0, h1, h2⟩ := Rd.bind_ok_inv h
        obtain ⟨x, h3, h4⟩ := Rd.bind_ok_inv h2
        obtain ⟨t, rfl, ht⟩ := ih _ _ (r := x.1) (rest := x.2) h3
        unfold groupStart at h1
        split at h1
        · cases h1
          obtain ⟨v, e, hv⟩ := hgroup (u := ['(', '?', ':']) (fun a ha => .quiet ha) ht h4
          exact ⟨v, e, hv⟩
        · simp at h1
        · cases h1
          obtain ⟨v, e, hv⟩ := hgroup (u := ['(']) (fun a ha => .group ha) ht h4
          exact ⟨v, e, hv⟩
      · obtain ⟨⟨k, s1⟩, h1, h2⟩ := Rd.bind_ok_inv h
        obtain ⟨t, e, ht⟩ := classOf_inv h1
        rw [e]
        exact quantified_inv ht h2
      · obtain ⟨k, h1, h2⟩ := Rd.bind_ok_inv h
        exact quantified_inv (escaped_inv h1) h2
      · exact quantified_inv .dot h
      · split at h
        · rename_i hp
          have := (plain_iff _).mp hp
          exact quantified_inv (.char this.1 this.2) h
        · split at h <;> simp at h

theorem parse_inv {a : Rx} {t : Str} (h : parse t = .ok a) : Written .alts a t := by
  unfold parse at h
  obtain ⟨⟨r, s⟩, h1, h2⟩ := Rd.bind_ok_inv h
  obtain ⟨u, rfl, hu⟩ := read_inv _ _ _ h1
  simp only at h2
  split at h2
  · simp only [Rd.pure_eq, Rd.ok.injEq] at h2
    subst h2
    rw [List.append_nil]; exact hu
  · simp at h2

/-! ## Refused texts -/

theorem parse_closed {a : Rx} {t u : Str} (h : Written .alts a t) : parse (t ++ ')' :: u) = .bad := by
  have := reads_written h (3 * (t ++ ')' :: u).length + 3)
    (by simp only [List.length_append, List.length_cons]; omega) (')' :: u) (.inr ⟨_, rfl⟩)
  rw [parse, this]
  rfl

/-- A text that cannot be read after an opening parenthesis cannot be read after anything. -/
theorem reads_open {k : Kind} {a : Rx} {s : Str} (h : Written k a s) {t : Str}
    (hb : ∀ n, 3 * t.length + 5 ≤ n → read n .terms ('(' :: t) = .bad) :
    (k = .terms → ∀ n, 3 * (s.length + t.length) + 5 ≤ n → read n .terms (s ++ '(' :: t) = .bad) ∧
    (k = .alts → ∀ n, 3 * (s.length + t.length) + 6 ≤ n → read n .alts (s ++ '(' :: t) = .bad) := by
  induction h with
  | none => exact ⟨fun _ n hn => hb n (by simpa using hn), by simp⟩
  | @more a b s u h1 h2 _ ih =>
    refine ⟨fun _ n hn => ?_, by simp⟩
    obtain ⟨m, rfl⟩ : ∃ m, n = m + 1 := ⟨n - 1, by omega⟩
    obtain ⟨c, v, rfl, hc⟩ := (atom_head h1).1 (.inr rfl)
    simp only [List.length_append, List.length_cons] at hn
    have hst : Stops .term (u ++ '(' :: t) := by
      rcases (atom_head h2).2.1 rfl with rfl | ⟨d, v, rfl, hd⟩
      · simp [Stops, quantNext]
      · simp only [List.mem_cons, List.not_mem_nil, or_false, not_or] at hd
        simp [Stops, quantNext, hd]
    have e1 := reads_written h1 m (by simp only [List.length_cons]; omega) _ hst
    have e2 := ih.1 rfl m (by omega)
    simp only [List.mem_cons, List.not_mem_nil, or_false, not_or] at hc
    rw [List.append_assoc]
    simp only [List.cons_append] at e1 ⊢
    rw [read]
    simp only [hc, or_self, if_false, e1, Rd.ok_bind, e2, Rd.bad_bind]
  | last h ih =>
    refine ⟨by simp, fun _ n hn => ?_⟩
    obtain ⟨m, rfl⟩ : ∃ m, n = m + 1 := ⟨n - 1, by omega⟩
    rw [read, ih.1 rfl m (by omega), Rd.bad_bind]
  | @alt a b s u h1 h2 _ ih =>
    refine ⟨by simp, fun _ n hn => ?_⟩
    obtain ⟨m, rfl⟩ : ∃ m, n = m + 1 := ⟨n - 1, by omega⟩
    simp only [List.length_append, List.length_cons] at hn
    rw [List.append_assoc, List.cons_append, read,
      reads_written h1 m (by omega) _ (.inr ⟨_, .inr rfl⟩)]
    simp only [Rd.ok_bind, ih.2 rfl m (by omega), Rd.bad_bind]
  | _ => simp

theorem parse_open {a b : Rx} {s t : Str} (hs : Written .alts a s) (ht : Written .alts b t) :
    parse (s ++ '(' :: t) = .bad := by
  have hb : ∀ n, 3 * t.length + 5 ≤ n → read n .terms ('(' :: t) = .bad := by
    intro n hn
    obtain ⟨m, rfl⟩ : ∃ m, n = m + 2 := ⟨n - 2, by omega⟩
    have e := reads_written ht m (by omega) [] (.inl rfl)
    rw [List.append_nil] at e
    have hq := (atom_head ht).2.2 rfl
    have hm : groupStart t = .ok t := by
      cases t with
      | nil => rfl
      | cons c t =>
        simp only [List.head?_cons, ne_eq, Option.some.injEq] at hq
        rw [groupStart] <;> simp_all
    have e2 : read (m + 1) .term ('(' :: t) = .bad := by
      rw [read, hm, Rd.ok_bind, e]
      rfl
    rw [read]
    simp [e2]
  have := (reads_open hs hb).2 rfl (3 * (s ++ '(' :: t).length + 3)
    (by simp only [List.length_append, List.length_cons]; omega)
  rw [parse, this]
  rfl

/-- A quantifier with nothing before it is refused wherever an alternative begins. -/
theorem read_quant {q : Char} (hq : q ∈ c!"*+?") (u : Str) (n : Nat) :
    read (n + 2) .terms (q :: u) = .bad ∧ read (n + 3) .alts (q :: u) = .bad := by
  have h1 : read (n + 1) .term (q :: u) = .bad := by
    simp only [List.mem_cons, List.not_mem_nil, or_false] at hq
    rcases hq with rfl | rfl | rfl <;> simp [read, plain, syntaxChars]
  have h2 : read (n + 2) .terms (q :: u) = .bad := by
    rw [read]
    simp only [List.mem_cons, List.not_mem_nil, or_false] at hq
    rcases hq with rfl | rfl | rfl <;> simp [h1, Rd.bad_bind]
  exact ⟨h2, by rw [read, h2, Rd.bad_bind]⟩

theorem reads_bar_quant {k : Kind} {a : Rx} {s : Str} (h : Written k a s) {q : Char}
    (hq : q ∈ c!"*+?") (u : Str) : k = .alts →
    ∀ n, 3 * s.length + 6 ≤ n → read n .alts (s ++ '|' :: q :: u) = .bad := by
  induction h with
  | last h ih =>
    intro _ n hn
    obtain ⟨m, rfl⟩ : ∃ m, n = m + 4 := ⟨n - 4, by omega⟩
    rw [read, reads_written h (m + 3) (by omega) _ (.inr ⟨_, .inr rfl⟩)]
    simp only [Rd.ok_bind, (read_quant hq u m).2, Rd.bad_bind]
  | @alt a b s v h1 h2 _ ih =>
    intro _ n hn
    obtain ⟨m, rfl⟩ : ∃ m, n = m + 1 := ⟨n - 1, by omega⟩
    simp only [List.length_append, List.length_cons] at hn
    rw [List.append_assoc, List.cons_append, read,
      reads_written h1 m (by omega) _ (.inr ⟨_, .inr rfl⟩)]
    simp only [Rd.ok_bind, ih rfl m (by omega), Rd.bad_bind]
  | _ => simp

theorem parse_quant {q : Char} (hq : q ∈ c!"*+?") (u : Str) : parse (q :: u) = .bad := by
  rw [parse, show 3 * (q :: u).length + 3 = (3 * u.length + 3) + 3 by simp; omega,
    (read_quant hq u _).2]
  rfl

theorem parse_bar_quant {a : Rx} {s : Str} (h : Written .alts a s) {q : Char}
    (hq : q ∈ c!"*+?") (u : Str) : parse (s ++ '|' :: q :: u) = .bad := by
  rw [parse, reads_bar_quant h hq u rfl _
    (by simp only [List.length_append, List.length_cons]; omega)]
  rfl

theorem parse_open_quant {a : Rx} {s : Str} (h : Written .alts a s) {q : Char}
    (hq : q = '*' ∨ q = '+') (u : Str) : parse (s ++ '(' :: q :: u) = .bad := by
  have hb : ∀ n, 3 * (q :: u).length + 5 ≤ n → read n .terms ('(' :: q :: u) = .bad := by
    intro n hn
    obtain ⟨m, rfl⟩ : ∃ m, n = m + 5 := ⟨n - 5, by omega⟩
    have hm : groupStart (q :: u) = .ok (q :: u) := by
      rcases hq with rfl | rfl <;> rfl
    have e := (read_quant (q := q) (by rcases hq with rfl | rfl <;> simp) u m).2
    have e2 : read (m + 4) .term ('(' :: q :: u) = .bad := by
      rw [read, hm, Rd.ok_bind, e]
      rfl
    rw [read]
    simp [e2]
  have := (reads_open h hb).2 rfl (3 * (s ++ '(' :: q :: u).length + 3)
    (by simp only [List.length_append, List.length_cons]; omega)
  rw [parse, this]
  rfl

end Casbin.Regex
