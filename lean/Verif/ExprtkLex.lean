import Verif.ExprtkAssemble

/-!
# The replacements and the lexer on a written expression
-/

namespace Casbin
namespace Exprtk

/-! ## Replacing doubled characters -/

theorem rd_cons {c x : Char} {w s : Str} (h : x ≠ c) :
    replaceDouble c w (x :: s) = x :: replaceDouble c w s := by
  cases s with
  | nil => rfl
  | cons y s => simp [replaceDouble, h]

theorem rd_skip {c : Char} {w : Str} : ∀ {a : Str} (b : Str), c ∉ a →
    replaceDouble c w (a ++ b) = a ++ replaceDouble c w b
  | [], b, _ => rfl
  | x :: a, b, h => by
    have hx : x ≠ c := fun e => h (by simp [e])
    rw [List.cons_append, rd_cons hx, rd_skip b (fun hc => h (by simp [hc]))]
    rfl

theorem rd_double {c : Char} {w s : Str} :
    replaceDouble c w (c :: c :: s) = w ++ replaceDouble c w s := by simp [replaceDouble]

/-- A literal without the doubled character, before another character. -/
theorem rd_lit {c q : Char} {w : Str} (hq : q ≠ c) : ∀ {a : Str} (b : Str), ¬ [c, c] <:+: a →
    replaceDouble c w (a ++ q :: b) = a ++ q :: replaceDouble c w b
  | [], b, _ => rd_cons hq
  | [x], b, _ => by
    by_cases hx : x = c
    · subst hx
      simp only [List.cons_append, List.nil_append, replaceDouble, hq, and_false, if_false]
      rw [rd_cons hq]
    · simp only [List.cons_append, List.nil_append]
      rw [rd_cons hx, rd_cons hq]
  | x :: y :: a, b, h => by
    have h' : ¬ [c, c] <:+: y :: a := fun hc => h (hc.trans (List.suffix_cons x _).isInfix)
    have hxy : ¬ (x = c ∧ y = c) := by
      rintro ⟨hx, hy⟩
      rw [hx, hy] at h
      exact h (List.prefix_append [c, c] a).isInfix
    have ih := rd_lit hq (w := w) b h'
    simp only [List.cons_append] at ih ⊢
    simp only [replaceDouble, hxy, if_false]
    rw [ih]

/-! ## Texts with words written in different ways -/

/-- A layout with words written by `f`. -/
def layoutWith (f : Word → Str) : List (Str × Word) → Str → Str
  | [], z => z
  | (b, w) :: ws, z => b ++ (f w ++ layoutWith f ws z)

theorem layout_eq : ∀ (l : List (Str × Word)) (z : Str), layout l z = layoutWith Word.text l z
  | [], z => rfl
  | (b, w) :: l, z => by simp [layout, layoutWith, layout_eq l z]

/-- After the first replacement. -/
def text1 : Word → Str
  | .op .and => c!"and"
  | w => w.text
/-- After the second. -/
def text2 : Word → Str
  | .op .or => c!"or"
  | w => text1 w
/-- After the third: what exprtk gets. -/
def text3 : Word → Str
  | .str s => '\'' :: s ++ c!"'"
  | w => text2 w

theorem sym_chars {s : Str} (h : Evaluator.validSymbol s = true) :
    ∀ c ∈ s, isSymChar c = true ∨ c = '.' := by
  cases s with
  | nil => simp
  | cons x t =>
    simp only [Evaluator.validSymbol, Bool.and_eq_true, List.all_eq_true] at h
    obtain ⟨⟨hx, hm⟩, hl⟩ := h
    intro c hc
    rcases List.mem_cons.mp hc with rfl | hc
    · left
      simp [isSymChar, Char.isAlphanum, hx]
    · cases hg : t.getLast? with
      | none => simp at hg; subst hg; simp at hc
      | some z =>
        rw [hg] at hl
        have ht : t = t.dropLast ++ [z] := (List.dropLast_append_getLast? z hg).symm
        rw [ht] at hc
        rcases List.mem_append.mp hc with hc | hc
        · have := hm c hc
          simp only [Bool.or_eq_true, beq_iff_eq] at this
          rcases this with (h | h) | h
          · left; simp [isSymChar, h]
          · left; simp [isSymChar, h]
          · right; exact h
        · simp only [List.mem_singleton] at hc
          subst hc
          left
          simpa [isSymChar] using hl

theorem sym_avoids {s : Str} (h : Evaluator.validSymbol s = true) {c : Char}
    (h1 : isSymChar c = false) (h2 : c ≠ '.') : c ∉ s := fun hc => by
  rcases sym_chars h c hc with h' | h'
  · rw [h1] at h'; cases h'
  · exact h2 h'

theorem digit_avoids (ds : List (Fin 10)) {c : Char} (h : c.isDigit = false) :
    c ∉ (Word.digits ds).text := by
  simp only [Word.text, List.mem_map, not_exists, not_and]
  intro d _ hd
  have key : ∀ d : Fin 10, (Char.ofNat (48 + d.val)).isDigit = true := by decide
  rw [← hd, key d] at h
  cases h

theorem blank_avoids {b : Str} (h : Blank b) {c : Char} (hc : isBlank c = false) : c ∉ b := fun hm => by
  rcases h c hm with rfl | rfl | rfl | rfl <;> revert hc <;> decide

theorem step1 {w : Word} (h : w.WF) (t : Str) :
    replaceDouble '&' c!"and" (w.text ++ t) = text1 w ++ replaceDouble '&' c!"and" t := by
  cases w with
  | sym s => exact rd_skip t (sym_avoids h.1 (by decide) (by decide))
  | digits ds => exact rd_skip t (digit_avoids ds (by decide))
  | str s =>
    have hl : Literal s := h
    simp only [Word.text, text1, List.cons_append, List.append_assoc, List.nil_append]
    rw [rd_cons (by decide), rd_lit (by decide) t hl.noAnd]
  | op o => cases o <;> first
      | exact rd_double
      | exact rd_skip t (by decide)
  | _ => exact rd_skip t (by decide)

theorem step2 {w : Word} (h : w.WF) (t : Str) :
    replaceDouble '|' c!"or" (text1 w ++ t) = text2 w ++ replaceDouble '|' c!"or" t := by
  cases w with
  | sym s => exact rd_skip t (sym_avoids h.1 (by decide) (by decide))
  | digits ds => exact rd_skip t (digit_avoids ds (by decide))
  | str s =>
    have hl : Literal s := h
    simp only [Word.text, text1, text2, List.cons_append, List.append_assoc, List.nil_append]
    rw [rd_cons (by decide), rd_lit (by decide) t hl.noOr]
  | op o => cases o <;> first
      | exact rd_double
      | exact rd_skip t (by decide)
  | _ => exact rd_skip t (by decide)

/-- The replacement of quotes. -/
def quote (c : Char) : Char := if c = '"' then '\'' else c

theorem map_quote {s : Str} (h : '"' ∉ s) : s.map quote = s := by
  induction s with
  | nil => rfl
  | cons x s ih =>
    have hx : x ≠ '"' := fun e => h (by simp [e])
    simp only [List.map_cons, ih (fun hc => h (by simp [hc]))]
    simp [quote, hx]

theorem step3 {w : Word} (h : w.WF) : (text2 w).map quote = text3 w := by
  cases w with
  | sym s => exact map_quote (sym_avoids h.1 (by decide) (by decide))
  | digits ds => exact map_quote (digit_avoids ds (by decide))
  | str s =>
    have hl : Literal s := h
    have : '"' ∉ s := fun hc => (hl.chars _ hc).2.2.1 rfl
    simp only [text2, text1, text3, Word.text, List.cons_append, List.map_cons, List.map_append,
      map_quote this]
    rfl
  | op o => cases o <;> exact map_quote (by decide)
  | _ => exact map_quote (by decide)

theorem prep_layout : ∀ (l : List (Str × Word)) (z : Str), (∀ b ∈ l.map Prod.fst, Blank b) →
    Blank z → (∀ w ∈ l.map Prod.snd, w.WF) →
    prep (layout l z) = layoutWith text3 l z := by
  intro l z hb hz hw
  have s1 : replaceDouble '&' c!"and" (layoutWith Word.text l z) = layoutWith text1 l z := by
    induction l with
    | nil =>
      have := rd_skip (c := '&') (w := c!"and") [] (blank_avoids hz (by decide))
      simpa [layoutWith, replaceDouble] using this
    | cons bw l ih =>
      obtain ⟨b, w⟩ := bw
      simp only [layoutWith]
      rw [rd_skip _ (blank_avoids (hb b (by simp)) (by decide)), step1 (hw w (by simp)),
        ih (fun b h => hb b (by simp at h ⊢; tauto)) (fun w h => hw w (by simp at h ⊢; tauto))]
  have s2 : replaceDouble '|' c!"or" (layoutWith text1 l z) = layoutWith text2 l z := by
    clear s1
    induction l with
    | nil =>
      have := rd_skip (c := '|') (w := c!"or") [] (blank_avoids hz (by decide))
      simpa [layoutWith, replaceDouble] using this
    | cons bw l ih =>
      obtain ⟨b, w⟩ := bw
      simp only [layoutWith]
      rw [rd_skip _ (blank_avoids (hb b (by simp)) (by decide)), step2 (hw w (by simp)),
        ih (fun b h => hb b (by simp at h ⊢; tauto)) (fun w h => hw w (by simp at h ⊢; tauto))]
  have s3 : (layoutWith text2 l z).map quote = layoutWith text3 l z := by
    clear s1 s2
    induction l with
    | nil => exact map_quote (blank_avoids hz (by decide))
    | cons bw l ih =>
      obtain ⟨b, w⟩ := bw
      simp only [layoutWith, List.map_append]
      rw [map_quote (blank_avoids (hb b (by simp)) (by decide)), step3 (hw w (by simp)),
        ih (fun b h => hb b (by simp at h ⊢; tauto)) (fun w h => hw w (by simp at h ⊢; tauto))]
  rw [layout_eq]
  unfold prep
  rw [s1, s2]
  exact s3

/-! ## Scanning single words -/

/-- The text cannot continue a symbol or a number. -/
def Break : Str → Prop
  | [] => True
  | c :: _ => isSymChar c = false ∧ c ≠ '.'

theorem symSpan_break {s : Str} (h : Break s) : symSpan s = ([], s) := by
  cases s with
  | nil => rfl
  | cons c s => simp [symSpan, h.1, h.2]

theorem symSpan_append {rest : Str} (hr : Break rest) : ∀ {s : Str},
    (∀ c ∈ s, isSymChar c = true ∨ c = '.') → ¬ c!".." <:+: s → s.getLast? ≠ some '.' →
    symSpan (s ++ rest) = (s, rest)
  | [], _, _, _ => symSpan_break hr
  | [c], hc, _, hl => by
    have : isSymChar c = true := (hc c (by simp)).resolve_right (by rintro rfl; simp at hl)
    simp [symSpan, this, symSpan_break hr]
  | c :: d :: s, hc, hd, hl => by
    have ih := symSpan_append hr (s := d :: s) (fun x hx => hc x (List.mem_cons_of_mem _ hx))
      (fun h => hd (h.trans (List.suffix_cons c _).isInfix)) (by simpa using hl)
    have hok : (isSymChar c || (c == '.' && dotOk (d :: s ++ rest))) = true := by
      rcases hc c (by simp) with h | rfl
      · simp [h]
      · have hdd : isSymChar d = true := by
          refine (hc d (by simp)).resolve_right ?_
          rintro rfl
          exact hd (List.prefix_append c!".." s).isInfix
        simp [dotOk, hdd]
    rw [List.cons_append]
    simp only [symSpan]
    rw [if_pos hok, ih]

theorem valid_last {s : Str} (h : Evaluator.validSymbol s = true) : s.getLast? ≠ some '.' := by
  cases s with
  | nil => simp
  | cons x t =>
    simp only [Evaluator.validSymbol, Bool.and_eq_true] at h
    obtain ⟨⟨hx, -⟩, hl⟩ := h
    intro hc
    cases ht : t.getLast? with
    | none =>
      simp at ht
      subst ht
      simp at hc
      subst hc
      revert hx
      decide
    | some z =>
      rw [ht] at hl
      rw [List.getLast?_cons, ht] at hc
      simp at hc
      subst hc
      revert hl
      decide

theorem digitSpan_append {rest : Str} (hr : Break rest) : ∀ {s : Str}, (∀ c ∈ s, c.isDigit = true) →
    digitSpan (s ++ rest) = (s, rest)
  | [], _ => by
    cases rest with
    | nil => rfl
    | cons c r =>
      have : c.isDigit = false := by
        have := hr.1
        simp only [isSymChar, Char.isAlphanum, Bool.or_eq_false_iff] at this
        exact this.1.2
      simp [digitSpan, this]
  | c :: s, h => by
    rw [List.cons_append]
    simp only [digitSpan, h c (by simp), if_true]
    rw [digitSpan_append hr (fun x hx => h x (List.mem_cons_of_mem _ hx))]

theorem digitsVal_text (ds : List (Fin 10)) : digitsVal (Word.digits ds).text = decimalValue ds := by
  have key : ∀ d : Fin 10, (Char.ofNat (48 + d.val)).toNat - 48 = d.val := by decide
  have : ∀ (ds : List (Fin 10)) (n : Nat),
      (ds.map (fun d => Char.ofNat (48 + d.val))).foldl (fun n c => 10 * n + (c.toNat - 48)) n
        = ds.foldl (fun n d => 10 * n + d.val) n := by
    intro ds
    induction ds with
    | nil => intro n; rfl
    | cons d ds ih => intro n; simp only [List.map_cons, List.foldl_cons, key, ih]
  exact this ds 0

theorem digit_text (ds : List (Fin 10)) : ∀ c ∈ (Word.digits ds).text, c.isDigit = true := by
  intro c hc
  simp only [Word.text, List.mem_map] at hc
  obtain ⟨d, _, rfl⟩ := hc
  have key : ∀ d : Fin 10, (Char.ofNat (48 + d.val)).isDigit = true := by decide
  exact key d

theorem scanNumber_append {ds : List (Fin 10)} {rest : Str} (hr : Break rest)
    (hv : decimalValue ds < 2 ^ 24) :
    scanNumber ((Word.digits ds).text ++ rest) = .ok (decimalValue ds, rest) := by
  have h := digitSpan_append hr (digit_text ds)
  unfold scanNumber
  rw [h]
  simp only
  split
  · exact absurd rfl hr.2
  · exact absurd hr.1 (by decide)
  · exact absurd hr.1 (by decide)
  · rw [digitsVal_text, if_pos hv]

theorem scanString_append {s rest : Str}
    (h : ∀ c ∈ s, ' ' ≤ c ∧ c ≤ '~' ∧ c ≠ '"' ∧ c ≠ '\'' ∧ c ≠ '\\') :
    scanString (s ++ '\'' :: rest) = .ok (s, rest) := by
  induction s with
  | nil => simp [scanString, isStringChar]
  | cons c s ih =>
    obtain ⟨h1, h2, _, h4, h5⟩ := h c (by simp)
    rw [List.cons_append]
    simp only [scanString]
    have hs : isStringChar c = true := by simp [isStringChar, h1, h2]
    rw [hs, ih (fun x hx => h x (List.mem_cons_of_mem _ hx))]
    simp [h4, h5, Read.bind]

/-- The characters of operators. -/
def opChar (c : Char) : Bool := c == '<' || c == '>' || c == '=' || c == '*' || c == '/'

theorem scanOperator_append {o : BinOp} (ho : o ∉ wordOps) {rest : Str}
    (hr : ∀ c r, rest = c :: r → opChar c = false) :
    scanOperator (text3 (.op o) ++ rest) = .ok (.op o, rest) := by
  cases rest with
  | nil => revert ho; cases o <;> decide
  | cons c r =>
    have := hr c r rfl
    simp only [opChar, Bool.or_eq_false_iff, beq_eq_false_iff_ne] at this
    obtain ⟨⟨⟨⟨h1, h2⟩, h3⟩, h4⟩, h5⟩ := this
    revert ho
    cases o <;> intro ho <;> first
      | exact absurd (by decide) ho
      | simp [text3, text2, text1, Word.text, opText, BinOp.name, scanOperator, h1, h2, h3, h4, h5]

/-- What may follow a word directly. -/
structure Follows (w : Word) (rest : Str) : Prop where
  letters : w.lettered = true → Break rest
  ops : ∀ c r, w.starts = false → rest = c :: r → w ≠ .rpar → w ≠ .comma → opChar c = false

theorem lexN_blank {b : Str} (hb : Blank b) (n : Nat) (s : Str) :
    lexN (b.length + n) (b ++ s) = lexN n s := by
  induction b with
  | nil => simp
  | cons c b ih =>
    have hc : isBlank c = true := by
      rcases hb c (by simp) with rfl | rfl | rfl | rfl <;> decide
    have : (c :: b).length + n = (b.length + n) + 1 := by simp; omega
    rw [this, List.cons_append]
    simp only [lexN, hc, if_true]
    exact ih (fun x hx => hb x (List.mem_cons_of_mem _ hx))

theorem valid_head {s : Str} (h : Evaluator.validSymbol s = true) :
    ∃ c t, s = c :: t ∧ c.isAlpha = true := by
  cases s with
  | nil => simp [Evaluator.validSymbol] at h
  | cons c t =>
    simp only [Evaluator.validSymbol, Bool.and_eq_true] at h
    exact ⟨c, t, rfl, h.1.1⟩

theorem alpha_not_blank {c : Char} (h : c.isAlpha = true) : isBlank c = false := by
  cases hb : isBlank c with
  | false => rfl
  | true =>
    simp only [isBlank, Bool.or_eq_true, beq_iff_eq] at hb
    rcases hb with (((((rfl | rfl) | rfl) | rfl) | rfl) | rfl) | rfl <;> revert h <;> decide

theorem digit_not_blank {c : Char} (h : c.isDigit = true) : isBlank c = false := by
  cases hb : isBlank c with
  | false => rfl
  | true =>
    simp only [isBlank, Bool.or_eq_true, beq_iff_eq] at hb
    rcases hb with (((((rfl | rfl) | rfl) | rfl) | rfl) | rfl) | rfl <;> revert h <;> decide

theorem digit_not_alpha {c : Char} (h : c.isDigit = true) : c.isAlpha = false := by
  simp only [Char.isDigit, Bool.and_eq_true, decide_eq_true_eq, UInt32.le_iff_toNat_le] at h
  simp only [Char.isAlpha, Char.isUpper, Char.isLower, Bool.or_eq_false_iff, Bool.and_eq_false_iff,
    decide_eq_false_iff_not, UInt32.le_iff_toNat_le]
  have h2 := h.2
  have e1 : ('9' : Char).val.toNat = 57 := rfl
  have e2 : ('A' : Char).val.toNat = 65 := rfl
  have e3 : ('a' : Char).val.toNat = 97 := rfl
  rw [e1] at h2
  rw [e2, e3]
  omega

theorem lex_sym {s : Str} (hv : Evaluator.validSymbol s = true) (hd : ¬ c!".." <:+: s) {rest : Str}
    (hr : Break rest) (n : Nat) :
    lexN (n + 1) (s ++ rest) = (lexN n rest).bind fun ts => .ok (.sym s :: ts) := by
  have hs := symSpan_append hr (sym_chars hv) hd (valid_last hv)
  obtain ⟨c, t, rfl, hc⟩ := valid_head hv
  rw [List.cons_append] at hs ⊢
  simp only [lexN, alpha_not_blank hc, hc, if_true, Bool.false_eq_true, if_false, hs]

theorem lex_word {w : Word} (hw : w.WF) {rest : Str} (hf : Follows w rest) (n : Nat) :
    lexN (n + 1) (text3 w ++ rest) = (lexN n rest).bind fun ts => .ok (w.tok :: ts) := by
  cases w with
  | sym s => exact lex_sym hw.1 hw.2.1 (hf.letters rfl) n
  | digits ds =>
    obtain ⟨hne, hv⟩ := hw
    have hs := scanNumber_append (hf.letters rfl) hv
    have hd := digit_text ds
    change lexN (n + 1) ((Word.digits ds).text ++ rest) = _
    revert hs hd
    cases ht : (Word.digits ds).text with
    | nil => simp [Word.text, hne] at ht
    | cons c t =>
      intro hs hd
      have hc := hd c (by simp)
      rw [List.cons_append] at hs ⊢
      simp only [lexN, digit_not_blank hc, digit_not_alpha hc, hc, if_true, Bool.false_eq_true,
        if_false, hs, Read.bind, Word.tok]
  | str s =>
    have hl : Literal s := hw
    have hs := scanString_append (rest := rest) hl.chars
    have e : text3 (.str s) ++ rest = '\'' :: (s ++ '\'' :: rest) := by simp [text3]
    rw [e]
    simp only [lexN, show isBlank '\'' = false by decide, show ('\'').isAlpha = false by decide,
      show ('\'').isDigit = false by decide, Bool.false_eq_true, if_false, if_true, hs, Read.bind,
      Word.tok]
  | op o =>
    by_cases ho : o ∈ wordOps
    · have hn : text3 (.op o) = o.name := by
        revert ho; cases o <;> decide
      have hv : Evaluator.validSymbol o.name = true ∧ '.' ∉ o.name := by
        revert ho; cases o <;> decide
      rw [hn, lex_sym hv.1 (noDots_of_noDot hv.2) (hf.letters (by simp [Word.lettered, ho]))]
      simp [Word.tok, ho]
    · have hs := scanOperator_append ho (rest := rest)
        (fun c r h => hf.ops c r rfl h (by simp) (by simp))
      have hc : ∃ c t, text3 (.op o) = c :: t ∧ isBlank c = false ∧ c.isAlpha = false ∧
          c.isDigit = false ∧ c ≠ '\'' := by
        revert ho
        cases o <;> intro ho <;> first
          | exact absurd (by decide) ho
          | exact ⟨_, _, rfl, by decide, by decide, by decide, by decide⟩
      obtain ⟨c, t, ht, h1, h2, h3, h4⟩ := hc
      rw [ht, List.cons_append] at hs ⊢
      simp only [lexN, h1, h2, h3, h4, Bool.false_eq_true, if_false, hs, Read.bind, Word.tok, ho]
  | lpar =>
    simp [text3, text2, text1, Word.text, lexN, isBlank, show ('(').isAlpha = false by decide,
      show ('(').isDigit = false by decide, scanOperator, Read.bind, Word.tok]
  | rpar =>
    simp [text3, text2, text1, Word.text, lexN, isBlank, show (')').isAlpha = false by decide,
      show (')').isDigit = false by decide, scanOperator, Read.bind, Word.tok]
  | comma =>
    simp [text3, text2, text1, Word.text, lexN, isBlank, show (',').isAlpha = false by decide,
      show (',').isDigit = false by decide, scanOperator, Read.bind, Word.tok]

/-! ## Lexing a text -/

theorem blank_follows {c : Char} (h : c = ' ' ∨ c = '\t' ∨ c = '\n' ∨ c = '\r') :
    isSymChar c = false ∧ c ≠ '.' ∧ opChar c = false := by
  rcases h with rfl | rfl | rfl | rfl <;> decide

theorem follows_blank {w : Word} {b : Str} (hb : Blank b) (hne : b ≠ []) (s : Str) :
    Follows w (b ++ s) := by
  cases b with
  | nil => exact absurd rfl hne
  | cons c b =>
    have h := blank_follows (hb c (by simp))
    refine ⟨fun _ => ⟨h.1, h.2.1⟩, ?_⟩
    intro x r _ hx _ _
    simp only [List.cons_append, List.cons.injEq] at hx
    rw [← hx.1]
    exact h.2.2

theorem follows_end {w : Word} {z : Str} (hz : Blank z) : Follows w z := by
  by_cases h : z = []
  · subst h
    exact ⟨fun _ => trivial, fun c r _ h => by cases h⟩
  · simpa using follows_blank (w := w) hz h []

theorem alpha_opChar {c : Char} (h : c.isAlpha = true) : opChar c = false := by
  cases hb : opChar c with
  | false => rfl
  | true =>
    simp only [opChar, Bool.or_eq_true, beq_iff_eq] at hb
    rcases hb with (((rfl | rfl) | rfl) | rfl) | rfl <;> revert h <;> decide

theorem digit_opChar {c : Char} (h : c.isDigit = true) : opChar c = false := by
  cases hb : opChar c with
  | false => rfl
  | true =>
    simp only [opChar, Bool.or_eq_true, beq_iff_eq] at hb
    rcases hb with (((rfl | rfl) | rfl) | rfl) | rfl <;> revert h <;> decide

/-- The first character of a word that can start an expression does not continue an operator. -/
theorem starts_head {w : Word} (hw : w.WF) (hs : w.starts = true) :
    ∃ c t, text3 w = c :: t ∧ opChar c = false := by
  cases w with
  | sym s =>
    obtain ⟨c, t, rfl, hc⟩ := valid_head hw.1
    exact ⟨c, t, rfl, alpha_opChar hc⟩
  | digits ds =>
    have hd := digit_text ds
    cases ht : (Word.digits ds).text with
    | nil => simp [Word.text, hw.1] at ht
    | cons c t =>
      rw [ht] at hd
      exact ⟨c, t, ht, digit_opChar (hd c (by simp))⟩
  | str s => exact ⟨_, _, rfl, by decide⟩
  | lpar => exact ⟨_, _, rfl, by decide⟩
  | op o => cases hs
  | rpar => cases hs
  | comma => cases hs

/-- The first character of a word that is not lettered does not continue a lettered one. -/
theorem plain_head {w : Word} (hl : w.lettered = false) (t : Str) : Break (text3 w ++ t) := by
  cases w with
  | sym s => cases hl
  | digits ds => cases hl
  | str s => exact ⟨by decide, by decide⟩
  | op o =>
    revert hl
    cases o <;> intro hl <;> first
      | (cases hl; done)
      | exact ⟨by decide, by decide⟩
  | _ => exact ⟨by decide, by decide⟩

theorem follows_word {v w : Word} (hw : w.WF) (hp : okPair v w)
    (hl : ¬ (v.lettered = true ∧ w.lettered = true)) (t : Str) : Follows v (text3 w ++ t) := by
  refine ⟨fun h => plain_head (by simpa [h] using hl) t, ?_⟩
  intro c r hv hc h1 h2
  have hs : w.starts = true := by
    cases v with
    | op o => exact hp
    | rpar => exact absurd rfl h1
    | comma => exact absurd rfl h2
    | _ => cases hv
  obtain ⟨d, u, hd, ho⟩ := starts_head hw hs
  rw [hd, List.cons_append, List.cons.injEq] at hc
  rw [← hc.1]
  exact ho

theorem follows_rest {v : Word} {b : Str} {w : Word} {l : List (Str × Word)} {z : Str}
    (hb : Blank b) (hw : w.WF) (hp : okPair v w) (hl : v.lettered ∧ w.lettered → b ≠ []) :
    Follows v (layoutWith text3 ((b, w) :: l) z) := by
  simp only [layoutWith]
  by_cases h : b = []
  · subst h
    exact follows_word hw hp (fun h => hl h rfl) _
  · exact follows_blank hb h _

theorem lexN_layout {z : Str} (hz : Blank z) : ∀ (l : List (Str × Word)),
    (∀ b ∈ l.map Prod.fst, Blank b) → (∀ w ∈ l.map Prod.snd, w.WF) →
    (l.map Prod.snd).IsChain okPair → Spaced l →
    ∀ n, (layoutWith text3 l z).length ≤ n →
      lexN n (layoutWith text3 l z) = .ok (l.map (fun x => x.2.tok))
  | [], _, _, _, _, n, hn => by
    obtain ⟨m, rfl⟩ := Nat.exists_eq_add_of_le hn
    have := lexN_blank hz m []
    simp only [List.append_nil] at this
    simp only [layoutWith, this, List.map_nil]
    cases m <;> rfl
  | (b, w) :: l, hb, hw, hc, hs, n, hn => by
    have hwf : w.WF := hw w (by simp)
    have hf : Follows w (layoutWith text3 l z) := by
      cases l with
      | nil => exact follows_end hz
      | cons x l =>
        obtain ⟨b', w'⟩ := x
        simp only [List.map_cons, List.isChain_cons_cons] at hc
        exact follows_rest (hb b' (by simp)) (hw w' (by simp)) hc.1 hs.1
    have ih := lexN_layout hz l (fun b h => hb b (by simp at h ⊢; tauto))
      (fun w h => hw w (by simp at h ⊢; tauto)) (by
        cases l with
        | nil => simp
        | cons x l => simp only [List.map_cons, List.isChain_cons_cons] at hc ⊢; exact hc.2)
      (by cases l with
        | nil => trivial
        | cons x l => exact hs.2)
    simp only [layoutWith, List.length_append] at hn
    have hpos : 0 < (text3 w).length := by
      cases w with
      | sym s => obtain ⟨c, t, rfl, _⟩ := valid_head hwf.1; simp [text3, text2, text1, Word.text]
      | digits ds =>
        have := hwf.1
        simp only [text3, text2, text1, Word.text, List.length_map]
        exact List.length_pos_iff.mpr this
      | str s => simp [text3]
      | op o => cases o <;> decide
      | _ => decide
    obtain ⟨m, rfl⟩ : ∃ m, n = b.length + (m + 1) := ⟨n - b.length - 1, by omega⟩
    simp only [layoutWith]
    rw [lexN_blank (hb b (by simp)), lex_word hwf hf, ih m (by omega)]
    rfl

/-- Lexing a laid out sequence of words. -/
theorem lex_layout {ws : List Word} {l : List (Str × Word)} {z : Str} (h : LaysOut ws l z)
    (hs : ws.IsChain okPair) (hw : ∀ w ∈ ws, w.WF) :
    lex (prep (layout l z)) = .ok (ws.map Word.tok) := by
  obtain ⟨rfl, hb, hz, hsp⟩ := h
  rw [prep_layout l z hb hz hw]
  unfold lex
  rw [lexN_layout hz l hb hw hs hsp _ (Nat.le_refl _)]
  simp

end Exprtk
end Casbin
