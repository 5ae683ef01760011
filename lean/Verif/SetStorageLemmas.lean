import Verif.ModelDef

/-!
# Lemmas about the test for set storage

A matcher is seen as parts joined by ` && `; removing the pattern of one name acts on each part alone.
-/

namespace Casbin
namespace SetStorage

/-- A character of a name. -/
def wordChar (c : Char) : Bool := c.isAlphanum || c == '_'

/-- A character of a name, or the dot. -/
def partChar (c : Char) : Bool := wordChar c || c == '.'

/-- A part of a matcher: `r.a == p.b` with any two separators in place of the dots, or other text. -/
inductive Part
  | eq (c d : Char) (a b : Str)
  | rest (x : Str)

/-- The text of a part. -/
def Part.text : Part → Str
  | .eq c d a b => 'r' :: c :: a ++ (c!" == p" ++ d :: b)
  | .rest x => x

/-- Its characters are those of names, and no pattern for the name `n` begins inside. -/
def Part.Fits (n : Str) : Part → Prop
  | .eq c d a b => partChar c = true ∧ partChar d = true ∧ (∀ x ∈ a, partChar x = true) ∧
      (∀ x ∈ b, partChar x = true) ∧ ∀ pre y, c :: a ≠ pre ++ 'r' :: y :: n
  | .rest x => ∀ y ∈ x, partChar y = true

/-- The parts joined by ` && `. -/
def joined : List Part → Str
  | [] => []
  | [p] => p.text
  | p :: q :: ps => p.text ++ (c!" && " ++ joined (q :: ps))

/-- What is left of a part without the pattern for the name `n`. -/
def Part.without (n : Str) : Part → Part
  | .eq c d a b => if a = n ∧ n <+: b then .rest (b.drop n.length) else .eq c d a b
  | .rest x => .rest x

theorem matchesHere_iff (n s : Str) (hn : ∀ x ∈ n, wordChar x = true) :
    ∀ pat, pat = n → (matchesHere pat s = true ↔ ∃ t, s = n ++ t) := by
  rintro pat rfl
  induction pat generalizing s with
  | nil => simp [matchesHere]
  | cons p ps ih =>
    have hp : p ≠ '.' := by
      rintro rfl
      exact absurd (hn '.' (by simp)) (by decide)
    cases s with
    | nil => simp [matchesHere]
    | cons c s =>
      simp only [matchesHere, if_neg hp, Bool.and_eq_true, decide_eq_true_eq,
        ih s (fun x hx => hn x (by simp [hx])), List.cons_append, List.cons.injEq]
      constructor
      · rintro ⟨rfl, t, rfl⟩; exact ⟨t, rfl, rfl⟩
      · rintro ⟨t, rfl, rfl⟩; exact ⟨rfl, t, rfl⟩

theorem matchesHere_append (p q : Str) : ∀ s, matchesHere (p ++ q) s = true ↔
    ∃ u t, s = u ++ t ∧ u.length = p.length ∧ matchesHere p u = true ∧ matchesHere q t = true := by
  induction p with
  | nil =>
    intro s
    constructor
    · intro h; exact ⟨[], s, rfl, rfl, rfl, h⟩
    · rintro ⟨u, t, rfl, hl, _, h⟩
      rw [List.length_eq_zero_iff.mp hl]; exact h
  | cons a p ih =>
    intro s
    cases s with
    | nil =>
      simp only [List.cons_append, matchesHere, Bool.false_eq_true, false_iff]
      rintro ⟨u, t, h, hl, _⟩
      obtain ⟨rfl, rfl⟩ := List.append_eq_nil_iff.mp h.symm
      simp at hl
    | cons c s =>
      simp only [List.cons_append, matchesHere, Bool.and_eq_true, ih]
      constructor
      · rintro ⟨h, u, t, rfl, hl, h1, h2⟩
        exact ⟨c :: u, t, rfl, by simp [hl], by simp only [matchesHere, Bool.and_eq_true]; exact ⟨h, h1⟩, h2⟩
      · rintro ⟨u, t, h, hl, h1, h2⟩
        cases u with
        | nil => simp at hl
        | cons x u =>
          simp only [List.cons_append, List.cons.injEq] at h
          obtain ⟨rfl, rfl⟩ := h
          simp only [matchesHere, Bool.and_eq_true] at h1
          exact ⟨h1.1, u, t, rfl, by simpa using hl, h1.2, h2⟩

/-- What the pattern of a name matches. -/
theorem matches_pattern {n s : Str} (hn : ∀ x ∈ n, wordChar x = true) :
    matchesHere (c!"r." ++ n ++ c!" == p." ++ n) s = true ↔
      ∃ c d t, c ≠ '\n' ∧ c ≠ '\r' ∧ d ≠ '\n' ∧ d ≠ '\r' ∧
        s = 'r' :: c :: n ++ (c!" == p" ++ d :: n ++ t) := by
  have one : ∀ (p : Char) (ps s : Str), matchesHere (p :: ps) s = true ↔
      ∃ c t, s = c :: t ∧ (if p = '.' then c ≠ '\n' ∧ c ≠ '\r' else p = c) ∧ matchesHere ps t = true := by
    intro p ps s
    cases s with
    | nil => simp [matchesHere]
    | cons c s =>
      simp only [matchesHere, Bool.and_eq_true, List.cons.injEq]
      constructor
      · rintro ⟨h1, h2⟩
        refine ⟨c, s, ⟨rfl, rfl⟩, ?_, h2⟩
        split <;> simp_all
      · rintro ⟨c', t, ⟨rfl, rfl⟩, h1, h2⟩
        refine ⟨?_, h2⟩
        split <;> simp_all
  have word : ∀ ps s, matchesHere (n ++ ps) s = true ↔ ∃ t, s = n ++ t ∧ matchesHere ps t = true := by
    intro ps s
    rw [matchesHere_append]
    constructor
    · rintro ⟨u, t, rfl, hl, h1, h2⟩
      obtain ⟨w, rfl⟩ := (matchesHere_iff n u hn n rfl).mp h1
      have : w = [] := by
        have : w.length = 0 := by simpa using hl
        exact List.length_eq_zero_iff.mp this
      subst this
      exact ⟨t, by simp, h2⟩
    · rintro ⟨t, rfl, h2⟩
      exact ⟨n, t, rfl, rfl, (matchesHere_iff n n hn n rfl).mpr ⟨[], by simp⟩, h2⟩
  have e : c!"r." ++ n ++ c!" == p." ++ n =
      'r' :: '.' :: (n ++ (' ' :: '=' :: '=' :: ' ' :: 'p' :: '.' :: (n ++ []))) := by simp
  rw [e]
  simp only [one, word]
  constructor
  · rintro ⟨_, _, rfl, h1, c, _, rfl, h2, _, rfl, _, _, rfl, h3, _, _, rfl, h4, _, _, rfl, h5, _, _,
      rfl, h6, _, _, rfl, h7, d, _, rfl, h8, t, rfl, _⟩
    simp only [show ¬ ('r' = '.') by decide, show ¬ (' ' = '.') by decide, show ¬ ('=' = '.') by decide,
      show ¬ ('p' = '.') by decide, if_false, if_true] at h1 h2 h3 h4 h5 h6 h7 h8
    subst h1 h3 h4 h5 h6 h7
    exact ⟨c, d, t, h2.1, h2.2, h8.1, h8.2, by simp⟩
  · rintro ⟨c, d, t, h1, h2, h3, h4, rfl⟩
    refine ⟨'r', _, rfl, by simp, c, _, rfl, by simp [h1, h2], _, rfl, ' ', _, rfl, by simp, '=', _, rfl,
      by simp, '=', _, rfl, by simp, ' ', _, rfl, by simp, 'p', _, rfl, by simp, d, _, rfl,
      by simp [h3, h4], t, rfl, rfl⟩

theorem removeMatches_skip (pat : Str) : ∀ (w s : Str),
    (∀ u v, w = u ++ v → v ≠ [] → matchesHere pat (v ++ s) = false) →
    removeMatches pat 0 (w ++ s) = w ++ removeMatches pat 0 s := by
  intro w
  induction w with
  | nil => intro s _; rfl
  | cons c w ih =>
    intro s h
    have h0 := h [] (c :: w) rfl (by simp)
    rw [List.cons_append] at h0
    rw [List.cons_append, removeMatches, if_neg (by simp [h0]),
      ih s (fun u v he hv => h (c :: u) v (by simp [he]) hv)]
    rfl

theorem removeMatches_drop (pat : Str) : ∀ (w s : Str),
    removeMatches pat w.length (w ++ s) = removeMatches pat 0 s := by
  intro w
  induction w with
  | nil => intro s; rfl
  | cons c w ih => intro s; simpa [removeMatches] using ih s

theorem removeMatches_take {pat w : Str} (s : Str) (hl : w.length = pat.length) (hw : w ≠ [])
    (hm : matchesHere pat (w ++ s) = true) :
    removeMatches pat 0 (w ++ s) = removeMatches pat 0 s := by
  cases w with
  | nil => exact absurd rfl hw
  | cons c w =>
    rw [List.cons_append] at hm ⊢
    rw [removeMatches, if_pos hm, ← hl]
    simpa using removeMatches_drop pat w s

/-- The text behind a part: nothing, or ` && ` and more. -/
def Behind (s : Str) : Prop := s = [] ∨ ∃ t, s = c!" && " ++ t

/-- Two texts of word characters, each followed by something else, agree. -/
theorem span_unique {P : Char → Bool} : ∀ {u v s t : Str}, (∀ x ∈ u, P x = true) → (∀ x ∈ v, P x = true) →
    (∀ x ∈ s.head?, P x = false) → (∀ x ∈ t.head?, P x = false) → u ++ s = v ++ t → u = v ∧ s = t := by
  intro u
  induction u with
  | nil =>
    intro v s t _ hv hs _ h
    cases v with
    | nil => exact ⟨rfl, by simpa using h⟩
    | cons x v =>
      exfalso
      simp only [List.nil_append, List.cons_append] at h
      subst h
      have h1 := hs x (by simp)
      have h2 := hv x (by simp)
      rw [h1] at h2; exact absurd h2 (by decide)
  | cons y u ih =>
    intro v s t hu hv hs ht h
    cases v with
    | nil =>
      exfalso
      simp only [List.nil_append, List.cons_append] at h
      subst h
      have h1 := ht y (by simp)
      have h2 := hu y (by simp)
      rw [h1] at h2; exact absurd h2 (by decide)
    | cons x v =>
      simp only [List.cons_append, List.cons.injEq] at h
      obtain ⟨rfl, h⟩ := h
      obtain ⟨rfl, rfl⟩ := ih (fun z hz => hu z (by simp [hz])) (fun z hz => hv z (by simp [hz])) hs ht h
      exact ⟨rfl, rfl⟩

theorem wordChar_part {x : Char} (h : wordChar x = true) : partChar x = true := by
  simp [partChar, h]

theorem Behind.head {s : Str} (h : Behind s) : ∀ x ∈ s.head?, partChar x = false := by
  rcases h with rfl | ⟨t, rfl⟩
  · simp
  · intro x hx
    obtain rfl : ' ' = x := by simpa using hx
    decide

/-- Text of part characters followed by the end of the part does not begin with the pattern. -/
theorem no_match_tail {n : Str} (hn : ∀ x ∈ n, wordChar x = true) (hne : n ≠ []) {v s : Str}
    (hv : ∀ x ∈ v, partChar x = true) (hs : Behind s) :
    matchesHere (c!"r." ++ n ++ c!" == p." ++ n) (v ++ s) = false := by
  rw [Bool.eq_false_iff]
  intro h
  obtain ⟨c, d, t, -, -, -, -, h⟩ := (matches_pattern hn).mp h
  obtain ⟨m, n, rfl⟩ := List.exists_cons_of_ne_nil hne
  by_cases hc : partChar c = true
  · obtain ⟨-, h2⟩ := span_unique (P := partChar) (v := 'r' :: c :: (m :: n)) hv
      (by
        intro x hx
        simp only [List.mem_cons] at hx
        rcases hx with rfl | rfl | rfl | hx
        · decide
        · exact hc
        · exact wordChar_part (hn _ (by simp))
        · exact wordChar_part (hn x (by simp [hx])))
      hs.head (by intro x hx; obtain rfl : ' ' = x := by simpa using hx
                  decide) h
    rcases hs with rfl | ⟨t', rfl⟩
    · simp at h2
    · simp at h2
  · obtain ⟨-, h2⟩ := span_unique (P := partChar) (v := ['r'])
      (t := c :: m :: n ++ (c!" == p" ++ d :: (m :: n) ++ t)) hv (by simp; decide) hs.head
      (by intro x hx; obtain rfl : c = x := by simpa using hx
          simpa using hc) (by simpa using h)
    rcases hs with rfl | ⟨t', rfl⟩
    · simp at h2
    · simp only [List.cons_append, List.cons.injEq] at h2
      have := hn m (by simp)
      rw [← h2.2.1] at this
      exact absurd this (by decide)

/-- Removing the pattern of a name takes a whole match, or leaves the part as it is. -/
theorem removeMatches_part {n : Str} (hn : ∀ x ∈ n, wordChar x = true) (hne : n ≠ []) (p : Part)
    (hp : p.Fits n) {s : Str} (hs : Behind s) :
    removeMatches (c!"r." ++ n ++ c!" == p." ++ n) 0 (p.text ++ s) =
      (p.without n).text ++ removeMatches (c!"r." ++ n ++ c!" == p." ++ n) 0 s := by
  cases p with
  | rest x =>
    refine removeMatches_skip _ x s fun u v he _ => ?_
    exact no_match_tail hn hne (fun y hy => hp y (by rw [he]; simp [hy])) hs
  | eq c d a b =>
    obtain ⟨hc, hd, ha, hb, hin⟩ := hp
    have hnl : ∀ {x : Char}, partChar x = true → x ≠ '\n' ∧ x ≠ '\r' := by
      intro x hx
      constructor <;> (rintro rfl; exact absurd hx (by decide))
    by_cases hm : a = n ∧ n <+: b
    · obtain ⟨rfl, x, rfl⟩ := hm
      have e : (Part.eq c d a (a ++ x)).text ++ s =
          ('r' :: c :: a ++ (c!" == p" ++ d :: a)) ++ (x ++ s) := by simp [Part.text]
      have e2 : ((Part.eq c d a (a ++ x)).without a).text = x := by simp [Part.without, Part.text]
      rw [e, e2, removeMatches_take]
      · exact removeMatches_skip _ x s fun u v he _ =>
          no_match_tail hn hne (fun y hy => hb y (by rw [he]; simp [hy])) hs
      · simp
      · simp
      · rw [matches_pattern hn]
        exact ⟨c, d, x ++ s, (hnl hc).1, (hnl hc).2, (hnl hd).1, (hnl hd).2, by simp⟩
    · have e2 : ((Part.eq c d a b).without n) = .eq c d a b := by simp [Part.without, hm]
      rw [e2]
      refine removeMatches_skip _ _ s ?_
      intro u v he hv
      rw [Bool.eq_false_iff]
      intro h
      simp only [Part.text] at he
      rcases List.append_eq_append_iff.mp he with ⟨w, hw1, hw2⟩ | ⟨w, hw1, hw2⟩
      · -- the match begins in ` == p` or behind
        rcases List.append_eq_append_iff.mp hw2 with ⟨w', hw3, hw4⟩ | ⟨w', hw3, hw4⟩
        · rw [no_match_tail hn hne (v := v) (fun y hy => ?_) hs] at h
          · exact absurd h (by decide)
          · have : y ∈ d :: b := by rw [hw4]; simp [hy]
            rcases List.mem_cons.mp this with rfl | h'
            · exact hd
            · exact hb y h'
        · obtain ⟨_, _, _, -, -, -, -, hq⟩ := (matches_pattern hn).mp h
          cases w' with
          | nil =>
            rw [hw4] at h
            rw [List.nil_append, no_match_tail hn hne (fun y hy => ?_) hs] at h
            · exact absurd h (by decide)
            · rcases List.mem_cons.mp hy with rfl | h'
              · exact hd
              · exact hb y h'
          | cons z w' =>
            rw [hw4] at hq
            simp only [List.cons_append, List.cons.injEq] at hq
            have hz : z ∈ c!" == p" := by rw [hw3]; simp
            rw [hq.1] at hz
            exact absurd hz (by decide)
      · -- it begins on the left side
        obtain ⟨c', d', t, -, -, -, -, hq⟩ := (matches_pattern hn).mp h
        rw [hw2] at hq
        have hwp : ∀ x ∈ w, partChar x = true := by
          intro x hx
          have : x ∈ 'r' :: c :: a := by rw [hw1]; simp [hx]
          simp only [List.mem_cons] at this
          rcases this with rfl | rfl | h'
          · decide
          · exact hc
          · exact ha x h'
        have hsp : ∀ (z : Str), ∀ x ∈ (c!" == p" ++ z).head?, partChar x = false := by
          intro z x hx
          obtain rfl : ' ' = x := by simpa using hx
          decide
        obtain ⟨m, n', rfl⟩ := List.exists_cons_of_ne_nil hne
        by_cases hc' : partChar c' = true
        · obtain ⟨h1, h2⟩ := span_unique (P := partChar) (u := w) (s := c!" == p" ++ (d :: b ++ s))
            (v := 'r' :: c' :: (m :: n')) (t := c!" == p" ++ (d' :: (m :: n') ++ t)) hwp
            (by
              intro x hx
              simp only [List.mem_cons] at hx
              rcases hx with rfl | rfl | rfl | hx
              · decide
              · exact hc'
              · exact wordChar_part (hn _ (by simp))
              · exact wordChar_part (hn x (by simp [hx])))
            (hsp _) (hsp _) (by simpa using hq)
          subst h1
          cases u with
          | nil =>
            simp only [List.nil_append, List.cons.injEq, true_and] at hw1
            refine hm ⟨hw1.2, ?_⟩
            simp only [List.cons_append, List.nil_append, List.cons.injEq, true_and] at h2
            have h3 : b ++ s = (m :: n') ++ t := by simpa using h2.2
            rcases List.append_eq_append_iff.mp h3 with ⟨z, hz1, hz2⟩ | ⟨z, hz1, hz2⟩
            · cases z with
              | nil => exact ⟨[], by simpa using hz1⟩
              | cons y z =>
                exfalso
                have h4 : wordChar y = true := hn y (by rw [hz1]; simp)
                have h5 := hs.head y (by rw [hz2]; simp)
                rw [wordChar_part h4] at h5
                exact absurd h5 (by decide)
            · exact ⟨z, hz1.symm⟩
          | cons y u =>
            simp only [List.cons_append, List.cons.injEq] at hw1
            exact hin u c' hw1.2
        · obtain ⟨-, h2⟩ := span_unique (P := partChar) (u := w) (s := c!" == p" ++ (d :: b ++ s))
            (v := ['r']) (t := c' :: (m :: n') ++ (c!" == p" ++ (d' :: (m :: n') ++ t))) hwp
            (by simp; decide) (hsp _)
            (by intro x hx; obtain rfl : c' = x := by simpa using hx
                simpa using hc') (by simpa using hq)
          simp only [List.cons_append, List.nil_append, List.cons.injEq] at h2
          have := hn m (by simp)
          rw [← h2.2.1] at this
          exact absurd this (by decide)

/-- Removing the pattern of a name from the whole text. -/
theorem removeMatches_joined {n : Str} (hn : ∀ x ∈ n, wordChar x = true) (hne : n ≠ []) :
    ∀ ps : List Part, (∀ p ∈ ps, p.Fits n) →
    removeMatches (c!"r." ++ n ++ c!" == p." ++ n) 0 (joined ps) = joined (ps.map (Part.without n)) := by
  have sep : ∀ s, removeMatches (c!"r." ++ n ++ c!" == p." ++ n) 0 (c!" && " ++ s) =
      c!" && " ++ removeMatches (c!"r." ++ n ++ c!" == p." ++ n) 0 s := by
    intro s
    refine removeMatches_skip _ _ s ?_
    intro u v he hv
    rw [Bool.eq_false_iff]
    intro h
    obtain ⟨_, _, _, -, -, -, -, hq⟩ := (matches_pattern hn).mp h
    cases v with
    | nil => exact hv rfl
    | cons z v =>
      simp only [List.cons_append, List.cons.injEq] at hq
      have hz : z ∈ c!" && " := by rw [he]; simp
      rw [hq.1] at hz
      exact absurd hz (by decide)
  intro ps
  induction ps with
  | nil => intro _; rfl
  | cons p ps ih =>
    intro h
    cases ps with
    | nil =>
      have := removeMatches_part hn hne p (h p (by simp)) (s := []) (.inl rfl)
      simpa [joined, removeMatches] using this
    | cons q ps =>
      have h1 := removeMatches_part hn hne p (h p (by simp)) (s := c!" && " ++ joined (q :: ps))
        (.inr ⟨_, rfl⟩)
      have h2 := ih fun x hx => h x (by simp only [List.mem_cons] at hx ⊢; right; exact hx)
      rw [sep, h2] at h1
      simpa only [joined, List.map_cons] using h1

theorem without_pos {n a b : Str} {c d : Char} (h : a = n ∧ n <+: b) :
    (Part.eq c d a b).without n = .rest (b.drop n.length) := if_pos h

theorem without_neg {n a b : Str} {c d : Char} (h : ¬ (a = n ∧ n <+: b)) :
    (Part.eq c d a b).without n = .eq c d a b := if_neg h

theorem fits_without {n k : Str} {p : Part} (h : p.Fits k) : (p.without n).Fits k := by
  cases p with
  | rest x => exact h
  | eq c d a b =>
    by_cases hm : a = n ∧ n <+: b
    · rw [without_pos hm]
      exact fun y hy => h.2.2.2.1 y (List.mem_of_mem_drop hy)
    · rw [without_neg hm]
      exact h

/-- The parts left in the end. -/
def left (ns : List Str) (ps : List Part) : List Part :=
  ns.foldl (fun ps n => ps.map (Part.without n)) ps

theorem left_map (ns : List Str) : ∀ ps : List Part,
    left ns ps = ps.map fun p => ns.foldl (fun p n => p.without n) p := by
  induction ns with
  | nil => intro ps; simp [left]
  | cons n ns ih =>
    intro ps
    have : left (n :: ns) ps = left ns (ps.map (Part.without n)) := rfl
    rw [this, ih, List.map_map]
    rfl

theorem rest_left (ns : List Str) (x : Str) :
    ns.foldl (fun p n => p.without n) (Part.rest x) = .rest x := by
  induction ns with
  | nil => rfl
  | cons n ns ih => exact ih

/-- What is left of a comparison. -/
theorem eq_left (ns : List Str) (c d : Char) (a b : Str) :
    (ns.foldl (fun p n => p.without n) (Part.eq c d a b)).text = [] ↔ a ∈ ns ∧ a = b := by
  induction ns with
  | nil => simp [Part.text]
  | cons n ns ih =>
    rw [List.foldl_cons]
    by_cases h : a = n ∧ n <+: b
    · rw [without_pos h, rest_left]
      obtain ⟨rfl, x, rfl⟩ := h
      simp [Part.text]
    · rw [without_neg h, ih]
      constructor
      · rintro ⟨h1, h2⟩; exact ⟨by simp [h1], h2⟩
      · rintro ⟨h1, rfl⟩
        refine ⟨?_, rfl⟩
        rcases List.mem_cons.mp h1 with rfl | h1
        · exact absurd ⟨rfl, List.prefix_refl _⟩ h
        · exact h1

theorem word_plain {n : Str} (hn : ∀ x ∈ n, wordChar x = true) :
    (c!"r." ++ n ++ c!" == p." ++ n).all plainRegexChar = true := by
  have : ∀ x, wordChar x = true → plainRegexChar x = true := by
    intro x hx
    by_contra h
    simp only [plainRegexChar, Bool.not_eq_true', Bool.not_eq_false] at h
    have : x ∈ c!"^$\\*+?()[]{}|" := by simpa using h
    have hall : ∀ y ∈ c!"^$\\*+?()[]{}|", wordChar y = false := by decide
    rw [hall x this] at hx
    exact absurd hx (by decide)
  rw [List.all_eq_true]
  intro x hx
  simp only [List.mem_append] at hx
  rcases hx with ((hx | hx) | hx) | hx
  · revert x; decide
  · exact this x (hn x hx)
  · revert x; decide
  · exact this x (hn x hx)

/-- The loop of the test on such a matcher. -/
theorem stripMatcher_joined (rx : Str → Str → Outcome Str) : ∀ (ns : List Str) (ps : List Part),
    (∀ n ∈ ns, n ≠ [] ∧ ∀ x ∈ n, wordChar x = true) → (∀ n ∈ ns, ∀ p ∈ ps, p.Fits n) →
    stripMatcher rx (ns.map (c!"r_" ++ ·)) (joined ps) = .ok (joined (left ns ps)) := by
  intro ns
  induction ns with
  | nil => intro ps _ _; rfl
  | cons n ns ih =>
    intro ps hn hf
    have hpat : hashPattern (c!"r_" ++ n) = c!"r." ++ n ++ c!" == p." ++ n := rfl
    rw [List.map_cons, stripMatcher, if_neg (by simp)]
    rw [hpat, regexRemove, if_pos ⟨word_plain (hn n (by simp)).2, by simp⟩, Outcome.ok_bind,
      removeMatches_joined (hn n (by simp)).2 (hn n (by simp)).1 ps (hf n (by simp)),
      ih _ (fun k hk => hn k (by simp [hk]))]
    · rfl
    · intro k hk p hp
      obtain ⟨q, hq, rfl⟩ := List.mem_map.mp hp
      exact fits_without (hf k (by simp [hk]) q hq)

theorem count_text {p : Part} (hp : ∃ n, p.Fits n) : p.text.count '&' = 0 := by
  obtain ⟨n, hp⟩ := hp
  have no : ∀ {l : Str}, (∀ x ∈ l, partChar x = true) → l.count '&' = 0 := by
    intro l hl
    rw [List.count_eq_zero]
    intro h
    exact absurd (hl _ h) (by decide)
  cases p with
  | rest x => exact no hp
  | eq c d a b =>
    obtain ⟨hc, hd, ha, hb, -⟩ := hp
    have h1 := no (l := 'r' :: c :: a) (by
      intro x hx
      simp only [List.mem_cons] at hx
      rcases hx with rfl | rfl | h'
      · decide
      · exact hc
      · exact ha x h')
    have h2 := no (l := d :: b) (by
      intro x hx
      rcases List.mem_cons.mp hx with rfl | h'
      · exact hd
      · exact hb x h')
    simp only [Part.text, List.count_append] at h1 h2 ⊢
    rw [h1, h2]
    decide

/-- Joined parts are nothing but the joints, as many as for `k + 1` parts. -/
theorem joined_empty : ∀ (ps : List Part) (k : Nat), (∀ p ∈ ps, ∃ n, p.Fits n) →
    (joined ps = (List.replicate k c!" && ").flatten ↔
      (ps.length = k + 1 ∨ ps = [] ∧ k = 0) ∧ ∀ p ∈ ps, p.text = []) := by
  intro ps
  induction ps with
  | nil =>
    intro k _
    cases k with
    | zero => simp [joined]
    | succ k => simp [joined, List.replicate_succ]
  | cons p ps ih =>
    intro k h
    cases ps with
    | nil =>
      cases k with
      | zero => simp [joined]
      | succ k =>
        simp only [joined, List.replicate_succ, List.flatten_cons, List.length_singleton]
        constructor
        · intro he
          have := count_text (h p (by simp))
          rw [he] at this
          simp at this
        · rintro ⟨h1 | h1, -⟩
          · omega
          · simp at h1
    | cons q ps =>
      cases k with
      | zero =>
        simp only [joined, List.replicate_zero, List.flatten_nil]
        constructor
        · intro he
          have := congrArg (List.count '&') he
          simp at this
        · rintro ⟨h1 | h1, -⟩
          · simp at h1
          · simp at h1
      | succ k =>
        have ih' := ih k fun x hx => h x (by simp only [List.mem_cons] at hx ⊢; right; exact hx)
        simp only [joined, List.replicate_succ, List.flatten_cons]
        constructor
        · intro he
          have hp0 := count_text (h p (by simp))
          cases hp : p.text with
          | nil =>
            rw [hp] at he
            have := ih'.mp (List.append_cancel_left he)
            refine ⟨?_, ?_⟩
            · left
              rcases this.1 with h1 | h1
              · simpa using h1
              · simp at h1
            · intro x hx
              rcases List.mem_cons.mp hx with rfl | hx
              · exact hp
              · exact this.2 x hx
          | cons y t =>
            exfalso
            rw [hp] at he
            cases p with
            | rest x =>
              simp only [Part.text] at hp
              subst hp
              obtain ⟨_, hf⟩ := h (.rest (y :: t)) (by simp)
              have := hf y (by simp)
              simp only [List.cons_append, List.cons.injEq] at he
              rw [he.1] at this
              exact absurd this (by decide)
            | eq c d a b =>
              simp only [Part.text, List.cons_append, List.cons.injEq] at hp he
              rw [← hp.1] at he
              exact absurd he.1 (by decide)
        · rintro ⟨h1, h2⟩
          have := ih'.mpr ⟨?_, fun x hx => h2 x (by simp only [List.mem_cons] at hx ⊢; right; exact hx)⟩
          · rw [h2 p (by simp), this]
            rfl
          · left
            rcases h1 with h1 | h1
            · simpa using h1
            · simp at h1

end SetStorage
end Casbin
