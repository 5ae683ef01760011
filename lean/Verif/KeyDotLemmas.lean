import Verif.KeyPatternLemmas

/-!
# Path templates with dots, repeated characters and wildcards anywhere, and the lemmas behind
`Verif.Props.KeyDots`
-/

namespace Casbin

/-! ## Specification -/

/-- A piece of a path template: a character, a dot, a character followed by `+`, the wildcard `/*`, or a
parameter. -/
inductive Piece
  | char (c : Char)
  | dot
  | many (c : Char)
  | wild
  | par (name : Str)

/-- What a piece stands for in a path. -/
def Piece.Takes : Piece → Str → Prop
  | .char c, s => s = [c]
  | .dot, s => ∃ c, s = [c] ∧ c ≠ '\n' ∧ c ≠ '\r'
  | .many c, s => s ≠ [] ∧ ∀ d ∈ s, d = c
  | .wild, s => ∃ r, s = '/' :: r ∧ '\n' ∉ r ∧ '\r' ∉ r
  | .par _, s => s ≠ [] ∧ '/' ∉ s

/-- The path is made of what the pieces stand for, one after the other. -/
def Covers : List Piece → Str → Prop
  | [], path => path = []
  | p :: ps, path => ∃ s rest, path = s ++ rest ∧ p.Takes s ∧ Covers ps rest

/-- The text of a piece; `par` is how parameters are written. -/
def Piece.text (par : Str → Str) : Piece → Str
  | .char c => [c]
  | .dot => c!"."
  | .many c => [c, '+']
  | .wild => c!"/*"
  | .par n => par n

/-- The text of a template. -/
def piecesText (par : Str → Str) (ps : List Piece) : Str := ps.flatMap (Piece.text par)

/-- `:name`. -/
def colonPar (n : Str) : Str := ':' :: n

/-- `{name}`. -/
def bracePar (n : Str) : Str := '{' :: n ++ c!"}"

/-- A character that stands for itself: a slash or an ordinary one. -/
def Itself (c : Char) : Prop := c = '/' ∨ Ordinary c

/-- A template with parameters `:name`, each up to a slash or the end. -/
def ColonPieces : List Piece → Prop
  | [] => True
  | .char c :: ps => Itself c ∧ c ≠ ':' ∧ ColonPieces ps
  | .many c :: ps => Itself c ∧ c ≠ ':' ∧ ColonPieces ps
  | .dot :: ps => ColonPieces ps
  | .wild :: ps => ColonPieces ps
  | .par n :: ps =>
    n ≠ [] ∧ '/' ∉ n ∧ (∀ c ∈ (piecesText colonPar ps).head?, c = '/') ∧ ColonPieces ps

/-- A template with parameters `{name}`. -/
def BracePieces : List Piece → Prop
  | [] => True
  | .char c :: ps => Itself c ∧ BracePieces ps
  | .many c :: ps => Itself c ∧ BracePieces ps
  | .dot :: ps => BracePieces ps
  | .wild :: ps => BracePieces ps
  | .par n :: ps => n ≠ [] ∧ '/' ∉ n ∧ '}' ∉ n ∧ BracePieces ps

/-! ## What a list of items matches -/

/-- What one item takes. -/
def RxItem.Takes (it : RxItem) (s : Str) : Prop :=
  (∀ c ∈ s, it.cls.has c = true) ∧
  match it.quant with
  | .one => s.length = 1
  | .star => True
  | .plus => s ≠ []

theorem take_has {it : RxItem} {s : Str} {n : Nat} (h : n ≤ (s.takeWhile it.cls.has).length) :
    ∀ c ∈ s.take n, it.cls.has c = true := by
  have hp : s.take n <+: s.takeWhile it.cls.has := by
    apply List.prefix_of_prefix_length_le (List.take_prefix _ _) (List.takeWhile_prefix _)
    simp; omega
  intro c hc
  exact List.all_eq_true.mp (List.all_takeWhile (p := it.cls.has) (l := s)) _ (hp.subset hc)

theorem choices_mem (it : RxItem) (s : Str) (n : Nat) :
    n ∈ it.choices s ↔ n ≤ (s.takeWhile it.cls.has).length ∧
      match it.quant with
      | .one => n = 1
      | .star => True
      | .plus => 1 ≤ n := by
  have hrev : n ∈ it.choices s ↔ n ∈ (match it.quant with
      | .one => if 1 ≤ (s.takeWhile it.cls.has).length then [1] else []
      | .star => List.range ((s.takeWhile it.cls.has).length + 1)
      | .plus => (List.range (s.takeWhile it.cls.has).length).map (· + 1)) := by
    unfold RxItem.choices
    cases it.lazy
    · exact List.mem_reverse
    · exact Iff.rfl
  rw [hrev]
  cases it.quant with
  | one =>
    simp only
    split
    · simp only [List.mem_singleton]
      constructor
      · rintro rfl; exact ⟨by omega, rfl⟩
      · exact fun h => h.2
    · simp only [List.not_mem_nil, false_iff]
      rintro ⟨h1, rfl⟩
      omega
  | star => simp [Nat.lt_succ_iff]
  | plus =>
    simp only [List.mem_map, List.mem_range]
    constructor
    · rintro ⟨a, h, rfl⟩; omega
    · rintro ⟨h1, h2⟩; exact ⟨n - 1, by omega, by omega⟩

/-- The text is made of what the items take. -/
def Taken : List RxItem → Str → Prop
  | [], p => p = []
  | it :: its, p => ∃ s rest, p = s ++ rest ∧ it.Takes s ∧ Taken its rest

theorem rxRun_taken (its : List RxItem) : ∀ p, (rxRun its p).isSome = true ↔ Taken its p := by
  induction its with
  | nil =>
    intro p
    cases p <;> simp [rxRun, Taken]
  | cons it its ih =>
    intro p
    rw [rxRun, List.findSome?_isSome_iff]
    simp only [Option.isSome_map, ih, Taken, choices_mem]
    constructor
    · rintro ⟨n, ⟨h1, h2⟩, h3⟩
      have hle := (List.takeWhile_prefix (l := p) it.cls.has).length_le
      refine ⟨p.take n, p.drop n, (List.take_append_drop _ _).symm, ⟨take_has h1, ?_⟩, h3⟩
      cases hq : it.quant with
      | one =>
        simp only [hq] at h2 ⊢
        subst h2
        rw [List.length_take]; omega
      | star => trivial
      | plus =>
        simp only [hq] at h2 ⊢
        intro he
        have := congrArg List.length he
        rw [List.length_take, List.length_nil] at this
        omega
    · rintro ⟨s, rest, rfl, ⟨h1, h2⟩, h3⟩
      refine ⟨s.length, ⟨?_, ?_⟩, by simpa using h3⟩
      · rw [List.takeWhile_append_of_pos h1]
        simp
      · cases hq : it.quant with
        | one => simpa only [hq] using h2
        | star => trivial
        | plus =>
          simp only [hq] at h2 ⊢
          exact List.length_pos_iff.mpr h2

/-! ## The items of a template -/

/-- The items of a piece. -/
def Piece.items (lz grp : Bool) : Piece → List RxItem
  | .char c => [{ cls := .char c }]
  | .dot => [{ cls := .any }]
  | .many c => [{ cls := .char c, quant := .plus }]
  | .wild => [slashItem, { cls := .any, quant := .star }]
  | .par _ => [{ cls := .notSlash, quant := .plus, lazy := lz, group := grp }]

theorem taken_append (a b : List RxItem) : ∀ p, Taken (a ++ b) p ↔
    ∃ s rest, p = s ++ rest ∧ Taken a s ∧ Taken b rest := by
  induction a with
  | nil => intro p; simp [Taken]
  | cons it a ih =>
    intro p
    simp only [List.cons_append, Taken, ih]
    constructor
    · rintro ⟨s, _, rfl, h, s', rest, rfl, h', hb⟩
      exact ⟨s ++ s', rest, by simp, ⟨s, s', rfl, h, h'⟩, hb⟩
    · rintro ⟨_, rest, rfl, ⟨s, s', rfl, h, h'⟩, hb⟩
      exact ⟨s, s' ++ rest, by simp, h, s', rest, rfl, h', hb⟩

theorem taken_piece (lz grp : Bool) (p : Piece) (s : Str) : Taken (p.items lz grp) s ↔ p.Takes s := by
  cases p with
  | char c =>
    simp only [Piece.items, Taken, RxItem.Takes, Piece.Takes, CharClass.has, decide_eq_true_eq]
    constructor
    · rintro ⟨s, _, rfl, ⟨h1, h2⟩, rfl⟩
      obtain ⟨d, rfl⟩ := List.length_eq_one_iff.mp h2
      simpa using h1
    · rintro rfl
      exact ⟨[c], [], rfl, ⟨by simp, rfl⟩, rfl⟩
  | dot =>
    simp only [Piece.items, Taken, RxItem.Takes, Piece.Takes, CharClass.has, Bool.and_eq_true,
      decide_eq_true_eq]
    constructor
    · rintro ⟨s, _, rfl, ⟨h1, h2⟩, rfl⟩
      obtain ⟨d, rfl⟩ := List.length_eq_one_iff.mp h2
      exact ⟨d, by simp, by simpa using h1⟩
    · rintro ⟨c, rfl, h⟩
      exact ⟨[c], [], rfl, ⟨by simpa using h, rfl⟩, rfl⟩
  | many c =>
    simp only [Piece.items, Taken, RxItem.Takes, Piece.Takes, CharClass.has, decide_eq_true_eq]
    constructor
    · rintro ⟨s, _, rfl, ⟨h1, h2⟩, rfl⟩
      exact ⟨by simpa using h2, by simpa using h1⟩
    · rintro ⟨h1, h2⟩
      exact ⟨s, [], by simp, ⟨h2, h1⟩, rfl⟩
  | wild =>
    simp only [Piece.items, slashItem, Taken, RxItem.Takes, Piece.Takes, CharClass.has, Bool.and_eq_true,
      decide_eq_true_eq]
    constructor
    · rintro ⟨s, _, rfl, ⟨h1, h2⟩, r, _, rfl, ⟨h3, -⟩, rfl⟩
      obtain ⟨d, rfl⟩ := List.length_eq_one_iff.mp h2
      obtain rfl : d = '/' := by simpa using h1
      exact ⟨r, by simp, fun h => (h3 _ h).1 rfl, fun h => (h3 _ h).2 rfl⟩
    · rintro ⟨r, rfl, h1, h2⟩
      exact ⟨['/'], r, rfl, ⟨by simp, rfl⟩, r, [], by simp,
        ⟨fun c hc => ⟨fun e => h1 (e ▸ hc), fun e => h2 (e ▸ hc)⟩, trivial⟩, rfl⟩
  | par n =>
    simp only [Piece.items, Taken, RxItem.Takes, Piece.Takes, CharClass.has, decide_eq_true_eq]
    constructor
    · rintro ⟨s, _, rfl, ⟨h1, h2⟩, rfl⟩
      exact ⟨by simpa using h2, fun h => by simpa using h1 '/' (by simpa using h)⟩
    · rintro ⟨h1, h2⟩
      exact ⟨s, [], by simp, ⟨fun c hc e => h2 (e ▸ hc), h1⟩, rfl⟩

theorem taken_pieces (lz grp : Bool) (ps : List Piece) : ∀ path,
    Taken (ps.flatMap (Piece.items lz grp)) path ↔ Covers ps path := by
  induction ps with
  | nil => intro path; simp [Taken, Covers]
  | cons p ps ih =>
    intro path
    simp only [List.flatMap_cons, taken_append, taken_piece, ih, Covers]

/-! ## Reading the regular expression -/

/-- The text of a piece in the regular expression. -/
def Piece.rxText (rep : Str) : Piece → Str
  | .char c => [c]
  | .dot => c!"."
  | .many c => [c, '+']
  | .wild => c!"/.*"
  | .par _ => rep

/-- The characters stand for themselves. -/
def Piece.Fair : Piece → Prop
  | .char c => Itself c
  | .many c => Itself c
  | _ => True

theorem itself_plain {c : Char} (h : Itself c) : rxPlain c = true := by
  rcases h with rfl | h
  · rfl
  · simp only [Ordinary, List.mem_cons, not_or] at h
    simp only [rxPlain, List.mem_cons, not_or, decide_eq_true_eq]
    tauto

theorem plain_quant {c : Char} (h : rxPlain c = true) : c ≠ '*' ∧ c ≠ '+' ∧ c ≠ '?' := by
  refine ⟨?_, ?_, ?_⟩ <;> (rintro rfl; revert h; decide)

theorem noQuant_cons {c : Char} {s : Str} (h : c ≠ '*' ∧ c ≠ '+' ∧ c ≠ '?') : NoQuant (c :: s) := by
  intro d hd
  simp only [List.head?_cons, Option.mem_def, Option.some.injEq] at hd
  subst hd
  exact h

theorem quant_plus {s : Str} (hs : NoQuant s) : rxQuant ('+' :: s) = (.plus, false, s) := by
  unfold rxQuant
  split <;> first | (simp_all; done) | (exfalso; simp_all [NoQuant])

theorem quant_star {s : Str} (hs : NoQuant s) : rxQuant ('*' :: s) = (.star, false, s) := by
  unfold rxQuant
  split <;> first | (simp_all; done) | (exfalso; simp_all [NoQuant])

theorem rxItem_class {c : Char} {s t : Str} {q : Quant} (hc : rxPlain c = true)
    (hq : rxQuant s = (q, false, t)) : rxItem (c :: s) = some ({ cls := .char c, quant := q }, t) := by
  have hne : ∀ d, rxPlain d = false → c ≠ d := by rintro d hd rfl; rw [hc] at hd; simp at hd
  have h1 := hne '(' rfl
  have h2 : rxClass (c :: s) = some (.char c, s) := by
    unfold rxClass
    split
    · rename_i heq; exact absurd (List.cons.inj heq).1 (hne _ rfl)
    · rename_i heq; exact absurd (List.cons.inj heq).1 (hne _ rfl)
    · rename_i heq; exact absurd (List.cons.inj heq).1 (hne _ rfl)
    · rename_i heq; exact absurd (List.cons.inj heq).1 (hne _ rfl)
    · rename_i heq
      obtain ⟨rfl, rfl⟩ := List.cons.inj heq
      simp [hc]
    · rename_i heq; simp at heq
  unfold rxItem
  split
  · rename_i heq; exact absurd (List.cons.inj heq).1 h1
  · rw [h2]
    simp [hq]

theorem rxItem_dot {s t : Str} {q : Quant} (hq : rxQuant s = (q, false, t)) :
    rxItem ('.' :: s) = some ({ cls := .any, quant := q }, t) := by
  simp [rxItem, rxClass, hq]

theorem reads_pieces {rep : Str} {lz grp : Bool} (hr : IsRep rep lz grp) (ps : List Piece)
    (h : ∀ p ∈ ps, p.Fair) :
    Reads (ps.flatMap (Piece.rxText rep)) (ps.flatMap (Piece.items lz grp)) ∧
      NoQuant (ps.flatMap (Piece.rxText rep)) := by
  induction ps with
  | nil => exact ⟨reads_nil, by simp [NoQuant]⟩
  | cons p ps ih =>
    obtain ⟨ih1, ih2⟩ := ih (fun p hp => h p (by simp [hp]))
    have hp := h p (by simp)
    simp only [List.flatMap_cons]
    cases p with
    | char c =>
      have hc := itself_plain hp
      exact ⟨reads_item (x := [c]) (by simp) (rxItem_plain hc ih2) ih1, noQuant_cons (plain_quant hc)⟩
    | dot =>
      exact ⟨reads_item (x := c!".") (by simp) (rxItem_dot (rxQuant_none ih2)) ih1, by
        simp [Piece.rxText, NoQuant]⟩
    | many c =>
      have hc := itself_plain hp
      exact ⟨reads_item (x := [c, '+']) (by simp) (rxItem_class hc (quant_plus ih2)) ih1,
        noQuant_cons (plain_quant hc)⟩
    | wild =>
      refine ⟨?_, by simp [Piece.rxText, NoQuant]⟩
      exact reads_item (x := c!"/") (by simp) (rxItem_plain rfl (by simp [NoQuant]))
        (reads_item (x := c!".*") (by simp) (rxItem_dot (quant_star ih2)) ih1)
    | par n => exact ⟨reads_item hr.ne (hr.item _ ih2) ih1, hr.head _⟩

theorem rxMatch_pieces {rep : Str} {lz grp : Bool} (hr : IsRep rep lz grp) {ps : List Piece}
    (h : ∀ p ∈ ps, p.Fair) (rx : RxLib) (path : Str) :
    rxMatch rx (ps.flatMap (Piece.rxText rep)) path =
      .ok (rxRun (ps.flatMap (Piece.items lz grp)) path) := by
  have := (reads_pieces hr ps h).1 _ (le_refl _)
  rw [rxMatch, this]

/-! ## Making the regular expression -/

/-- The text of a piece after the wildcards are replaced. -/
def Piece.prepared (par : Str → Str) : Piece → Str
  | .wild => c!"/.*"
  | p => p.text par

theorem itself_star {c : Char} (h : Itself c) : c ≠ '*' := (plain_quant (itself_plain h)).1

theorem pieces_star {par : Str → Str} (hpar : ∀ n, ∀ c ∈ (par n).head?, c ≠ '*') (hne : ∀ n, par n ≠ [])
    (ps : List Piece) (h : ∀ p ∈ ps, p.Fair) : ∀ c ∈ (piecesText par ps).head?, c ≠ '*' := by
  cases ps with
  | nil => simp [piecesText]
  | cons p ps =>
    have hp := h p (by simp)
    intro c hc
    simp only [piecesText, List.flatMap_cons] at hc
    cases p with
    | char d =>
      simp only [Piece.text, List.cons_append, List.head?_cons, Option.mem_def, Option.some.injEq] at hc
      exact hc ▸ itself_star hp
    | dot =>
      simp only [Piece.text, List.cons_append, List.head?_cons, Option.mem_def, Option.some.injEq] at hc
      subst hc; decide
    | many d =>
      simp only [Piece.text, List.cons_append, List.head?_cons, Option.mem_def, Option.some.injEq] at hc
      exact hc ▸ itself_star hp
    | wild =>
      simp only [Piece.text, List.cons_append, List.head?_cons, Option.mem_def, Option.some.injEq] at hc
      subst hc; decide
    | par n =>
      refine hpar n c ?_
      simp only [Piece.text] at hc
      rwa [List.head?_append_of_ne_nil _ (hne n)] at hc

theorem prepare_absent {a s : Str} (h : '/' ∉ a) : prepareWildCard (a ++ s) = a ++ prepareWildCard s :=
  replacePattern_absent h

theorem prepare_char {c : Char} {s : Str} (h : ∀ d ∈ s.head?, d ≠ '*') :
    prepareWildCard (c :: s) = c :: prepareWildCard s := by
  by_cases hc : c = '/'
  · subst hc; exact prepare_slash h
  · exact prepare_absent (a := [c]) (by simpa using fun e => hc e.symm)

theorem prepare_wild (s : Str) : prepareWildCard (c!"/*" ++ s) = c!"/.*" ++ prepareWildCard s := by
  simp [prepareWildCard, replacePattern, List.isPrefixOf]

theorem prepare_pieces {par : Str → Str} (hpar : ∀ n, ∀ c ∈ (par n).head?, c ≠ '*') (hne : ∀ n, par n ≠ [])
    (ps : List Piece) (h : ∀ p ∈ ps, p.Fair) (hs : ∀ n, Piece.par n ∈ ps → '/' ∉ par n) :
    prepareWildCard (piecesText par ps) = ps.flatMap (Piece.prepared par) := by
  induction ps with
  | nil => rfl
  | cons p ps ih =>
    have ih := ih (fun p hp => h p (by simp [hp])) (fun n hn => hs n (by simp [hn]))
    have hst := pieces_star hpar hne ps (fun p hp => h p (by simp [hp]))
    simp only [piecesText, List.flatMap_cons] at ih hst ⊢
    rw [← ih]
    cases p with
    | char c => exact prepare_char hst
    | dot => exact prepare_absent (a := c!".") (by decide)
    | many c =>
      show prepareWildCard (c :: '+' :: _) = _
      rw [prepare_char (by simp)]
      exact congrArg _ (prepare_absent (a := c!"+") (by decide))
    | wild => exact prepare_wild _
    | par n => exact prepare_absent (hs n (by simp))

theorem prepared_head (ps : List Piece) :
    (∀ c ∈ (piecesText colonPar ps).head?, c = '/') →
      ∀ c ∈ (ps.flatMap (Piece.prepared colonPar)).head?, c = '/' := by
  cases ps with
  | nil => simp
  | cons p ps => cases p <;> simp [piecesText, Piece.prepared, Piece.text, colonPar]

theorem colon_pieces (rep : Str) (ps : List Piece) (h : ColonPieces ps) :
    replaceColon rep false (ps.flatMap (Piece.prepared colonPar)) = ps.flatMap (Piece.rxText rep) := by
  induction ps with
  | nil => rfl
  | cons p ps ih =>
    simp only [List.flatMap_cons]
    cases p with
    | char c =>
      obtain ⟨-, h2, h3⟩ := h
      rw [← ih h3]
      exact replaceColon_absent (a := [c]) (by simpa using fun e => h2 e.symm)
    | dot =>
      rw [← ih h]
      exact replaceColon_absent (a := c!".") (by decide)
    | many c =>
      obtain ⟨-, h2, h3⟩ := h
      rw [← ih h3]
      exact replaceColon_absent (a := [c, '+']) (by simpa using fun e => h2 e.symm)
    | wild =>
      rw [← ih h]
      exact replaceColon_absent (a := c!"/.*") (by decide)
    | par n =>
      obtain ⟨h1, h2, h3, h4⟩ := h
      rw [← ih h4]
      exact replaceColon_name h1 h2 (prepared_head ps h3)

theorem itself_braces {c : Char} (h : Itself c) : '{' ≠ c ∧ '}' ≠ c := by
  have := itself_plain h
  refine ⟨?_, ?_⟩ <;> (rintro rfl; revert this; decide)

theorem brace_pieces (rep : Str) (ps : List Piece) (h : BracePieces ps) :
    replacePlaces rep 0 (ps.flatMap (Piece.prepared bracePar)) = ps.flatMap (Piece.rxText rep) := by
  induction ps with
  | nil => rfl
  | cons p ps ih =>
    simp only [List.flatMap_cons]
    cases p with
    | char c =>
      obtain ⟨h2, h3⟩ := h
      rw [← ih h3]
      exact (places_absent (a := [c]) (by simpa using (itself_braces h2).1)).1
    | dot =>
      rw [← ih h]
      exact (places_absent (a := c!".") (by decide)).1
    | many c =>
      obtain ⟨h2, h3⟩ := h
      rw [← ih h3]
      exact (places_absent (a := [c, '+']) (by simpa using (itself_braces h2).1)).1
    | wild =>
      rw [← ih h]
      exact (places_absent (a := c!"/.*") (by decide)).1
    | par n =>
      obtain ⟨h1, h2, h3, h4⟩ := h
      rw [← ih h4]
      simp only [Piece.prepared, Piece.text, bracePar, Piece.rxText, List.cons_append, List.append_assoc,
        List.nil_append]
      rw [replacePlaces, if_pos rfl, placeName_name h1 h2 h3]
      simp only
      have := replacePlaces_skip (rep := rep) (a := n ++ c!"}")
        (s := ps.flatMap (Piece.prepared bracePar))
      simp only [List.length_append, List.length_singleton, List.append_assoc, List.cons_append,
        List.nil_append] at this
      rw [this]

theorem fair_colon (ps : List Piece) (h : ColonPieces ps) :
    (∀ p ∈ ps, p.Fair) ∧ ∀ n, Piece.par n ∈ ps → '/' ∉ colonPar n := by
  induction ps with
  | nil => simp
  | cons p ps ih =>
    cases p with
    | char c => have := ih h.2.2; simpa [Piece.Fair, h.1] using this
    | dot => have := ih h; simpa [Piece.Fair] using this
    | many c => have := ih h.2.2; simpa [Piece.Fair, h.1] using this
    | wild => have := ih h; simpa [Piece.Fair] using this
    | par n =>
      have := ih h.2.2.2
      refine ⟨by simpa [Piece.Fair] using this.1, fun m hm => ?_⟩
      simp only [List.mem_cons, Piece.par.injEq] at hm
      rcases hm with rfl | hm
      · simpa [colonPar] using h.2.1
      · exact this.2 m hm

theorem fair_brace (ps : List Piece) (h : BracePieces ps) :
    (∀ p ∈ ps, p.Fair) ∧ ∀ n, Piece.par n ∈ ps → '/' ∉ bracePar n := by
  induction ps with
  | nil => simp
  | cons p ps ih =>
    cases p with
    | char c => have := ih h.2; simpa [Piece.Fair, h.1] using this
    | dot => have := ih h; simpa [Piece.Fair] using this
    | many c => have := ih h.2; simpa [Piece.Fair, h.1] using this
    | wild => have := ih h; simpa [Piece.Fair] using this
    | par n =>
      have := ih h.2.2.2
      refine ⟨by simpa [Piece.Fair] using this.1, fun m hm => ?_⟩
      simp only [List.mem_cons, Piece.par.injEq] at hm
      rcases hm with rfl | hm
      · simpa [bracePar] using h.2.1
      · exact this.2 m hm

theorem rx_braces {rep : Str} (hr : '{' ∉ rep ∧ '}' ∉ rep) (ps : List Piece) (h : ∀ p ∈ ps, p.Fair) :
    '{' ∉ ps.flatMap (Piece.rxText rep) ∧ '}' ∉ ps.flatMap (Piece.rxText rep) := by
  have key : ∀ p ∈ ps, '{' ∉ p.rxText rep ∧ '}' ∉ p.rxText rep := by
    intro p hp
    have := h p hp
    cases p with
    | char c => simpa [Piece.rxText] using itself_braces this
    | dot => simp [Piece.rxText]
    | many c => simpa [Piece.rxText] using itself_braces this
    | wild => simp [Piece.rxText]
    | par n => exact hr
  simp only [List.mem_flatMap, not_exists, not_and]
  exact ⟨fun p hp => (key p hp).1, fun p hp => (key p hp).2⟩

theorem rx_star {rep : Str} {lz grp : Bool} (hr : IsRep rep lz grp) (ps : List Piece)
    (h : ∀ p ∈ ps, p.Fair) : ps.flatMap (Piece.rxText rep) ≠ c!"*" := by
  intro e
  have := (reads_pieces hr ps h).2
  rw [e] at this
  simp [NoQuant] at this

end Casbin
