import Verif.Exprtk

/-!
# What the parser accepts

A grammar of expressions over tokens, and that everything the parser of `Exprtk.lean` reads belongs
to it; parentheses and quotes of a text and of its tokens.
-/

namespace Casbin
namespace Exprtk

/-- Arguments with commas between them. -/
def joinComma : List (List Tok) → List Tok
  | [] => []
  | [a] => a
  | a :: b :: rest => a ++ .comma :: joinComma (b :: rest)

/-- Expressions: numbers, texts, variables (names with a dot), calls with at least one argument,
groups, and two expressions with an operator between them. -/
inductive Sentence : List Tok → Prop
  | num (n : Nat) : Sentence [.num n]
  | str (s : Str) : Sentence [.str s]
  | var (s : Str) : '.' ∈ s → Sentence [.sym s]
  | call (f : Str) (args : List (List Tok)) : args ≠ [] → (∀ a ∈ args, Sentence a) →
      Sentence (.sym f :: .lpar :: (joinComma args ++ [.rpar]))
  | group (ts : List Tok) : Sentence ts → Sentence (.lpar :: (ts ++ [.rpar]))
  | op (a b : List Tok) (t : Tok) : Sentence a → Sentence b → t.binop.isSome → Sentence (a ++ t :: b)

theorem Read.bind_ok_inv {α β : Type} {x : Read α} {f : α → Read β} {b : β} (h : x.bind f = .ok b) :
    ∃ a, x = .ok a ∧ f a = .ok b := by
  cases x with
  | ok a => exact ⟨a, rfl, h⟩
  | reject => cases h
  | outside => cases h

/-- `pe` reads expressions only. -/
def Sound (pe : List Tok → Read Parsed) : Prop :=
  ∀ ts e rest, pe ts = .ok (e, rest) → ∃ us, ts = us ++ rest ∧ Sentence us

theorem readArgs_sound {pe : List Tok → Read Parsed} (hpe : Sound pe) : ∀ (n : Nat) (ts : List Tok)
    (es : List Expr) (rest : List Tok), readArgs pe n ts = .ok (es, rest) →
    ∃ args, args ≠ [] ∧ (∀ a ∈ args, Sentence a) ∧ ts = joinComma args ++ .rpar :: rest
  | 0, _, _, _, h => by simp [readArgs] at h
  | n + 1, ts, es, rest, h => by
    unfold readArgs at h
    obtain ⟨⟨e, us⟩, h1, h2⟩ := Read.bind_ok_inv h
    obtain ⟨vs, rfl, hv⟩ := hpe _ _ _ h1
    simp only at h2
    split at h2
    · next rest' =>
      obtain ⟨rfl, rfl⟩ : [e] = es ∧ rest' = rest := by simpa using h2
      exact ⟨[vs], by simp, by simpa using hv, rfl⟩
    · next rest' =>
      obtain ⟨⟨qs, r⟩, h3, h4⟩ := Read.bind_ok_inv h2
      obtain ⟨args, ha1, ha2, rfl⟩ := readArgs_sound hpe n _ _ _ h3
      simp only [Read.ok.injEq, Prod.mk.injEq] at h4
      obtain ⟨rfl, rfl⟩ := h4
      refine ⟨vs :: args, by simp, ?_, ?_⟩
      · intro a h
        rcases List.mem_cons.mp h with rfl | h
        · exact hv
        · exact ha2 a h
      · cases args with
        | nil => exact absurd rfl ha1
        | cons b bs => simp [joinComma]
    · cases h2

theorem branch_sound {pe : List Tok → Read Parsed} (hpe : Sound pe) : Sound (branch pe) := by
  intro ts e rest h
  unfold branch at h
  split at h
  · next n us =>
    obtain ⟨_, rfl⟩ : _ ∧ us = rest := by simpa using h
    exact ⟨[.num n], rfl, .num n⟩
  · next s us =>
    obtain ⟨_, rfl⟩ : _ ∧ us = rest := by simpa using h
    exact ⟨[.str s], rfl, .str s⟩
  · next s us =>
    split at h
    · cases h
    · split at h
      · next vs =>
        split at h
        · cases h
        · obtain ⟨⟨es, r⟩, h1, h2⟩ := Read.bind_ok_inv h
          obtain ⟨args, ha1, ha2, rfl⟩ := readArgs_sound hpe _ _ _ _ h1
          obtain ⟨_, rfl⟩ : _ ∧ r = rest := by simpa using h2
          exact ⟨_, by simp, .call s args ha1 ha2⟩
      · split at h
        · next hd =>
          obtain ⟨_, rfl⟩ : _ ∧ us = rest := by simpa using h
          exact ⟨[.sym s], rfl, .var s hd⟩
        · cases h
  · next us =>
    obtain ⟨⟨x, vs⟩, h1, h2⟩ := Read.bind_ok_inv h
    obtain ⟨ws, rfl, hw⟩ := hpe _ _ _ h1
    simp only at h2
    split at h2
    · next r =>
      obtain ⟨_, rfl⟩ : _ ∧ r = rest := by simpa using h2
      exact ⟨_, by simp, .group ws hw⟩
    · cases h2
  · cases h
  · cases h
  · cases h

theorem opLoop_sound {pe : Nat → List Tok → Read Parsed} (hpe : ∀ q, Sound (pe q)) (p : Nat) :
    ∀ (n : Nat) (pre : List Tok) (e : Expr) (ts : List Tok) (e' : Expr) (rest : List Tok),
      Sentence pre → opLoop pe p n e ts = .ok (e', rest) →
      ∃ us, ts = us ++ rest ∧ Sentence (pre ++ us)
  | 0, _, _, _, _, _, _, h => by simp [opLoop] at h
  | n + 1, pre, e, ts, e', rest, hs, h => by
    unfold opLoop at h
    split at h
    · obtain ⟨_, rfl⟩ : _ ∧ [] = rest := by simpa using h
      exact ⟨[], rfl, by simpa using hs⟩
    · next t us =>
      split at h
      · split at h
        · cases h
        · obtain ⟨_, rfl⟩ : _ ∧ t :: us = rest := by simpa using h
          exact ⟨[], rfl, by simpa using hs⟩
      · next o ho =>
        split at h
        · obtain ⟨_, rfl⟩ : _ ∧ t :: us = rest := by simpa using h
          exact ⟨[], rfl, by simpa using hs⟩
        · obtain ⟨⟨x, vs⟩, h1, h2⟩ := Read.bind_ok_inv h
          obtain ⟨ws, rfl, hw⟩ := hpe _ _ _ _ h1
          obtain ⟨zs, rfl, hz⟩ := opLoop_sound hpe p n (pre ++ t :: ws) _ _ _ _
            (.op pre ws t hs hw (by simp [ho])) h2
          exact ⟨t :: ws ++ zs, by simp, by simpa using hz⟩

theorem parseE_sound (d : Nat) : ∀ p, Sound (parseE d p) := by
  induction d using Nat.strongRecOn with
  | _ d ih =>
    intro p ts e rest h
    match d, h with
    | 0, h => simp [parseE] at h
    | 1, h => simp [parseE] at h
    | d + 2, h =>
      unfold parseE at h
      obtain ⟨⟨x, us⟩, h1, h2⟩ := Read.bind_ok_inv h
      obtain ⟨vs, rfl, hv⟩ := branch_sound (ih d (by omega) 0) _ _ _ h1
      obtain ⟨ws, rfl, hw⟩ := opLoop_sound (fun q => ih (d + 1) (by omega) q) p _ vs _ _ _ _ hv h2
      exact ⟨vs ++ ws, by simp, hw⟩

theorem corpus_sound : ∀ (n : Nat) (ts : List Tok) (es : List Expr), corpus n ts = .ok es →
    ∃ parts, parts ≠ [] ∧ (∀ p ∈ parts, Sentence p) ∧ ts = parts.flatten
  | 0, _, _, h => by simp [corpus] at h
  | n + 1, ts, es, h => by
    unfold corpus at h
    obtain ⟨⟨e, us⟩, h1, h2⟩ := Read.bind_ok_inv h
    obtain ⟨vs, rfl, hv⟩ := parseE_sound _ _ _ _ _ h1
    obtain ⟨_, _, h3⟩ := Read.bind_ok_inv h2
    simp only at h3
    split at h3
    · exact ⟨[vs], by simp, by simpa using hv, by simp⟩
    · obtain ⟨qs, h4, _⟩ := Read.bind_ok_inv h3
      obtain ⟨parts, _, hp, rfl⟩ := corpus_sound n _ _ h4
      refine ⟨vs :: parts, by simp, ?_, by simp⟩
      intro p h
      rcases List.mem_cons.mp h with rfl | h
      · exact hv
      · exact hp p h

/-- What `read` accepts is a sequence of expressions, once the multiplications are written out. -/
theorem read_sound {text : Str} {e : Expr} (h : read text = .ok e) :
    ∃ ts parts, lex (prep text) = .ok ts ∧ parts ≠ [] ∧ (∀ p ∈ parts, Sentence p) ∧
      (insertMul ts).map replaceTok = parts.flatten := by
  unfold read at h
  obtain ⟨ts, h1, h2⟩ := Read.bind_ok_inv h
  split at h2
  · cases h2
  · obtain ⟨us, h3, h4⟩ := Read.bind_ok_inv h2
    obtain ⟨es, h5, _⟩ := Read.bind_ok_inv h4
    obtain ⟨parts, hp1, hp2, rfl⟩ := corpus_sound _ _ _ h5
    refine ⟨ts, parts, h1, hp1, hp2, ?_⟩
    unfold assemble at h3
    split at h3
    · cases h3
    · split at h3
      · cases h3
      · split at h3
        · cases h3
        · simpa using h3

/-! ## Parentheses -/

/-- The number of open parentheses after the tokens, when `k` were open before; none if one too many
is closed. -/
def depth : Nat → List Tok → Option Nat
  | k, [] => some k
  | k, .lpar :: ts => depth (k + 1) ts
  | 0, .rpar :: _ => none
  | k + 1, .rpar :: ts => depth k ts
  | k, _ :: ts => depth k ts

theorem depth_append : ∀ (k : Nat) (ts us : List Tok),
    depth k (ts ++ us) = (depth k ts).bind fun j => depth j us
  | k, [], us => rfl
  | k, t :: ts, us => by
    cases t with
    | lpar => simp only [List.cons_append, depth]; exact depth_append _ ts us
    | rpar =>
      cases k with
      | zero => rfl
      | succ k => simp only [List.cons_append, depth]; exact depth_append _ ts us
    | _ => simp only [List.cons_append, depth]; exact depth_append _ ts us

theorem depth_joinComma (k : Nat) : ∀ args : List (List Tok), (∀ a ∈ args, ∀ j, depth j a = some j) →
    depth k (joinComma args) = some k
  | [], _ => rfl
  | [a], h => by simpa [joinComma] using h a (by simp) k
  | a :: b :: rest, h => by
    rw [joinComma, depth_append, h a (by simp) k]
    simp only [Option.bind_some, depth]
    exact depth_joinComma k (b :: rest) fun c hc => h c (List.mem_cons_of_mem _ hc)

theorem Sentence.depth {ts : List Tok} (h : Sentence ts) : ∀ k, depth k ts = some k := by
  induction h with
  | num n => intro k; rfl
  | str s => intro k; rfl
  | var s hs => intro k; rfl
  | call f args hne _ ih =>
    intro k
    simp only [Exprtk.depth]
    rw [depth_append, depth_joinComma (k + 1) args ih]
    rfl
  | group ts _ ih =>
    intro k
    simp only [Exprtk.depth]
    rw [depth_append, ih (k + 1)]
    rfl
  | op a b t ha hb ht iha ihb =>
    intro k
    rw [depth_append, iha k]
    simp only [Option.bind_some]
    cases t with
    | lpar => cases ht
    | rpar => cases ht
    | _ => exact ihb k

theorem depth_flatten {parts : List (List Tok)} (h : ∀ p ∈ parts, Sentence p) (k : Nat) :
    depth k parts.flatten = some k := by
  induction parts with
  | nil => rfl
  | cons p ps ih =>
    rw [List.flatten_cons, depth_append, (h p (by simp)).depth]
    exact ih fun q hq => h q (List.mem_cons_of_mem _ hq)

theorem depth_map_replace : ∀ (k : Nat) (ts : List Tok), depth k (ts.map replaceTok) = depth k ts
  | k, [] => rfl
  | k, t :: ts => by
    cases t with
    | lpar => exact depth_map_replace (k + 1) ts
    | rpar =>
      cases k with
      | zero => rfl
      | succ k => exact depth_map_replace k ts
    | sym s =>
      have ih := depth_map_replace k ts
      simp only [List.map_cons, replaceTok]
      split
      · exact ih
      · split
        · exact ih
        · exact ih
    | _ => exact depth_map_replace k ts

theorem depth_insertMul : ∀ (ts : List Tok) (k : Nat), depth k (insertMul ts) = depth k ts
  | [], k => rfl
  | [t], k => rfl
  | a :: b :: ts, k => by
    have ih := depth_insertMul (b :: ts)
    have e : ∀ us vs : List Tok, (∀ j, depth j us = depth j vs) → depth k (a :: us) = depth k (a :: vs) := by
      intro us vs h
      cases a with
      | lpar => exact h (k + 1)
      | rpar =>
        cases k with
        | zero => rfl
        | succ k => exact h k
      | _ => exact h k
    unfold insertMul
    split
    · exact e _ _ fun j => ih j
    · exact e _ _ ih

/-! ## The same in the text -/

/-- Is it a quotation mark? -/
def isQuote (c : Char) : Bool := c == '\'' || c == '"'

/-- Reads a text from the left: whether a quotation is open and how many parentheses are open outside
quotations; none if one too many is closed. -/
def scan : Bool → Nat → Str → Option (Bool × Nat)
  | q, k, [] => some (q, k)
  | q, k, c :: cs =>
    if isQuote c then scan (!q) k cs
    else if q then scan q k cs
    else if c = '(' then scan q (k + 1) cs
    else if c = ')' then match k with
      | 0 => none
      | k + 1 => scan q k cs
    else scan q k cs

theorem scan_cons (q : Bool) (k : Nat) (c : Char) (cs : Str) : scan q k (c :: cs) =
    if isQuote c then scan (!q) k cs
    else if q then scan q k cs
    else if c = '(' then scan q (k + 1) cs
    else if c = ')' then match k with
      | 0 => none
      | k + 1 => scan q k cs
    else scan q k cs := by
  cases k <;> rfl

/-- A character that `scan` passes over. -/
def plain (c : Char) : Bool := !(isQuote c || c == '(' || c == ')')

theorem scan_plain {c : Char} (h : plain c = true) (q : Bool) (k : Nat) (cs : Str) :
    scan q k (c :: cs) = scan q k cs := by
  have h1 : isQuote c = false ∧ c ≠ '(' ∧ c ≠ ')' := by
    simp only [plain, Bool.not_eq_true', Bool.or_eq_false_iff, beq_eq_false_iff_ne, ne_eq] at h
    exact ⟨h.1.1, h.1.2, h.2⟩
  rw [scan_cons, if_neg (by simp [h1.1])]
  split
  · rfl
  · rw [if_neg h1.2.1, if_neg h1.2.2]

theorem scan_quoted {c : Char} (h : isQuote c = false) (k : Nat) (cs : Str) :
    scan true k (c :: cs) = scan true k cs := by
  rw [scan_cons, if_neg (by simp [h]), if_pos rfl]

theorem scan_append_plain {l : Str} (h : ∀ c ∈ l, plain c = true) (q : Bool) (k : Nat) (cs : Str) :
    scan q k (l ++ cs) = scan q k cs := by
  induction l with
  | nil => rfl
  | cons c l ih =>
    rw [List.cons_append, scan_plain (h c (by simp)), ih fun d hd => h d (List.mem_cons_of_mem _ hd)]

/-- Replacing a doubled plain character by plain characters does not matter. -/
theorem scan_replaceDouble {c : Char} (hc : plain c = true) {w : Str} (hw : ∀ d ∈ w, plain d = true) :
    ∀ (s : Str) (q : Bool) (k : Nat), scan q k (replaceDouble c w s) = scan q k s
  | [], q, k => rfl
  | [a], q, k => rfl
  | a :: b :: s, q, k => by
    unfold replaceDouble
    split
    · next h =>
      obtain ⟨rfl, rfl⟩ := h
      rw [scan_append_plain hw, scan_replaceDouble hc hw s, scan_plain hc, scan_plain hc]
    · have ih := scan_replaceDouble hc hw (b :: s)
      rw [scan_cons, scan_cons]
      split
      · exact ih _ _
      · split
        · exact ih _ _
        · split
          · exact ih _ _
          · split
            · cases k with
              | zero => rfl
              | succ k => exact ih _ _
            · exact ih _ _

theorem scan_marks : ∀ (s : Str) (q : Bool) (k : Nat),
    scan q k (s.map fun c => if c = '"' then '\'' else c) = scan q k s
  | [], q, k => rfl
  | c :: s, q, k => by
    have ih := scan_marks s
    by_cases h : c = '"'
    · subst h
      exact ih _ _
    · simp only [List.map_cons, if_neg h]
      rw [scan_cons, scan_cons]
      split
      · exact ih _ _
      · split
        · exact ih _ _
        · split
          · exact ih _ _
          · split
            · cases k with
              | zero => rfl
              | succ k => exact ih _ _
            · exact ih _ _

theorem scan_prep (s : Str) (q : Bool) (k : Nat) : scan q k (prep s) = scan q k s := by
  unfold prep
  rw [scan_marks, scan_replaceDouble (by decide) (by decide), scan_replaceDouble (by decide) (by decide)]

theorem plain_of_sym {c : Char} (h : isSymChar c = true) : plain c = true := by
  unfold plain isQuote
  simp only [Bool.not_eq_true', Bool.or_eq_false_iff, beq_eq_false_iff_ne, ne_eq]
  refine ⟨⟨⟨?_, ?_⟩, ?_⟩, ?_⟩ <;> (rintro rfl; revert h; decide)

theorem scan_symSpan (q : Bool) (k : Nat) : ∀ s : Str, scan q k (symSpan s).2 = scan q k s
  | [] => rfl
  | c :: cs => by
    unfold symSpan
    split
    · next h =>
      have hp : plain c = true := by
        rcases (Bool.or_eq_true _ _).mp h with h | h
        · exact plain_of_sym h
        · obtain rfl : c = '.' := by
            have := ((Bool.and_eq_true _ _).mp h).1
            simpa using this
          decide
      rw [scan_plain hp]
      exact scan_symSpan q k cs
    · rfl

theorem scan_digitSpan (q : Bool) (k : Nat) : ∀ s : Str, scan q k (digitSpan s).2 = scan q k s
  | [] => rfl
  | c :: cs => by
    unfold digitSpan
    split
    · next h =>
      have hp : plain c = true := plain_of_sym (by
        unfold isSymChar
        simp [Char.isAlphanum, h])
      rw [scan_plain hp]
      exact scan_digitSpan q k cs
    · rfl

theorem scan_scanNumber {s : Str} {n : Nat} {rest : Str} (h : scanNumber s = .ok (n, rest)) (q : Bool)
    (k : Nat) : scan q k s = scan q k rest := by
  have h1 := scan_digitSpan q k s
  unfold scanNumber at h
  split at h
  · cases h
  · cases h
  · cases h
  · split at h
    · simp only [Read.ok.injEq, Prod.mk.injEq] at h
      rw [← h.2, ← h1]
    · cases h

theorem scan_scanString (k : Nat) : ∀ (s a rest : Str), '"' ∉ s → scanString s = .ok (a, rest) →
    scan true k s = scan false k rest
  | [], _, _, _, h => by simp [scanString] at h
  | c :: cs, a, rest, hq, h => by
    unfold scanString at h
    split at h
    · cases h
    · split at h
      · cases h
      · split at h
        · next hc =>
          subst hc
          simp only [Read.ok.injEq, Prod.mk.injEq] at h
          rw [← h.2]
          rfl
        · next hc =>
          obtain ⟨⟨b, r⟩, h1, h2⟩ := Read.bind_ok_inv h
          simp only [Read.ok.injEq, Prod.mk.injEq] at h2
          obtain ⟨_, rfl⟩ := h2
          have hc' : isQuote c = false := by
            unfold isQuote
            simp only [Bool.or_eq_false_iff, beq_eq_false_iff_ne, ne_eq]
            exact ⟨hc, fun h => hq (h ▸ List.mem_cons_self)⟩
          rw [scan_quoted hc']
          exact scan_scanString k cs b r (fun h => hq (List.mem_cons_of_mem _ h)) h1

theorem scan_scanOperator {s : Str} {t : Tok} {rest : Str} (h : scanOperator s = .ok (t, rest)) (k : Nat) :
    scan false k s = (depth k [t]).bind fun j => scan false j rest := by
  unfold scanOperator at h
  split at h <;> (try cases h) <;> try rfl
  · cases k <;> rfl
  · split at h <;> cases h

theorem scanOperator_suffix {s : Str} {t : Tok} {rest : Str} (h : scanOperator s = .ok (t, rest)) :
    ∀ c ∈ rest, c ∈ s := by
  unfold scanOperator at h
  split at h <;> (try cases h) <;> try (intro c hc; simp [hc])
  split at h <;> cases h

theorem symSpan_suffix : ∀ s : Str, ∀ c ∈ (symSpan s).2, c ∈ s
  | [], _, h => h
  | a :: s, c, h => by
    unfold symSpan at h
    split at h
    · exact List.mem_cons_of_mem _ (symSpan_suffix s c h)
    · exact h

theorem digitSpan_suffix : ∀ s : Str, ∀ c ∈ (digitSpan s).2, c ∈ s
  | [], _, h => h
  | a :: s, c, h => by
    unfold digitSpan at h
    split at h
    · exact List.mem_cons_of_mem _ (digitSpan_suffix s c h)
    · exact h

theorem scanNumber_suffix {s : Str} {n : Nat} {rest : Str} (h : scanNumber s = .ok (n, rest)) :
    ∀ c ∈ rest, c ∈ s := by
  have h1 := digitSpan_suffix s
  unfold scanNumber at h
  split at h
  · cases h
  · cases h
  · cases h
  · split at h
    · simp only [Read.ok.injEq, Prod.mk.injEq] at h
      rw [← h.2]
      exact h1
    · cases h

theorem scanString_suffix : ∀ (s a rest : Str), scanString s = .ok (a, rest) → ∀ c ∈ rest, c ∈ s
  | [], _, _, h => by simp [scanString] at h
  | d :: cs, a, rest, h => by
    unfold scanString at h
    split at h
    · cases h
    · split at h
      · cases h
      · split at h
        · simp only [Read.ok.injEq, Prod.mk.injEq] at h
          rw [← h.2]
          exact fun c hc => List.mem_cons_of_mem _ hc
        · obtain ⟨⟨b, r⟩, h1, h2⟩ := Read.bind_ok_inv h
          simp only [Read.ok.injEq, Prod.mk.injEq] at h2
          obtain ⟨_, rfl⟩ := h2
          exact fun c hc => List.mem_cons_of_mem _ (scanString_suffix cs b r h1 c hc)

theorem plain_of_blank {c : Char} (h : isBlank c = true) : plain c = true := by
  unfold plain isQuote
  simp only [Bool.not_eq_true', Bool.or_eq_false_iff, beq_eq_false_iff_ne, ne_eq]
  refine ⟨⟨⟨?_, ?_⟩, ?_⟩, ?_⟩ <;> (rintro rfl; revert h; decide)

/-- The tokens have the parentheses of the text, and all quotations are closed. -/
theorem scan_lexN : ∀ (n : Nat) (s : Str) (ts : List Tok), '"' ∉ s → lexN n s = .ok ts →
    ∀ k, scan false k s = (depth k ts).map fun j => (false, j)
  | _, [], ts, _, h, k => by
    unfold lexN at h
    obtain rfl : [] = ts := by simpa using h
    rfl
  | 0, _ :: _, _, _, h, _ => by simp [lexN] at h
  | n + 1, c :: cs, ts, hq, h, k => by
    have sub : ∀ {r : Str}, (∀ d ∈ r, d ∈ c :: cs) → '"' ∉ r := fun h1 h2 => hq (h1 _ h2)
    unfold lexN at h
    split at h
    · next hb =>
      rw [scan_plain (plain_of_blank hb)]
      exact scan_lexN n cs ts (sub fun d hd => List.mem_cons_of_mem _ hd) h k
    · split at h
      · obtain ⟨us, h1, h2⟩ := Read.bind_ok_inv h
        obtain rfl : _ = ts := by simpa using h2
        rw [← scan_symSpan false k (c :: cs),
          scan_lexN n _ us (sub (symSpan_suffix _)) h1 k]
        rfl
      · split at h
        · obtain ⟨⟨m, r⟩, h0, h'⟩ := Read.bind_ok_inv h
          obtain ⟨us, h1, h2⟩ := Read.bind_ok_inv h'
          obtain rfl : _ = ts := by simpa using h2
          rw [scan_scanNumber h0, scan_lexN n _ us (sub (scanNumber_suffix h0)) h1 k]
          rfl
        · split at h
          · next hc =>
            subst hc
            obtain ⟨⟨a, r⟩, h0, h'⟩ := Read.bind_ok_inv h
            obtain ⟨us, h1, h2⟩ := Read.bind_ok_inv h'
            obtain rfl : _ = ts := by simpa using h2
            have hs := scan_scanString k cs a r (sub fun d hd => List.mem_cons_of_mem _ hd) h0
            have e : scan false k ('\'' :: cs) = scan true k cs := rfl
            rw [e, hs, scan_lexN n _ us (sub fun d hd =>
              List.mem_cons_of_mem _ (scanString_suffix _ _ _ h0 d hd)) h1 k]
            rfl
          · obtain ⟨⟨t, r⟩, h0, h'⟩ := Read.bind_ok_inv h
            obtain ⟨us, h1, h2⟩ := Read.bind_ok_inv h'
            obtain rfl : _ = ts := by simpa using h2
            rw [scan_scanOperator h0, show t :: us = [t] ++ us from rfl, depth_append]
            cases hd : depth k [t] with
            | none => rfl
            | some j =>
              exact scan_lexN n _ us (sub (scanOperator_suffix h0)) h1 j

theorem prep_noMark (s : Str) : '"' ∉ prep s := by
  unfold prep
  intro h
  obtain ⟨c, _, hc⟩ := List.mem_map.mp h
  split at hc
  · cases hc
  · next h => exact h hc

end Exprtk
end Casbin
