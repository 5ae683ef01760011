import Verif.ExprtkParse
import Mathlib.Data.List.Chain

/-!
# The token passes leave a written expression alone
-/

namespace Casbin
namespace Exprtk

/-- Words an expression can begin with. -/
def Word.starts : Word → Bool
  | .sym _ | .digits _ | .str _ | .lpar => true
  | _ => false

/-- Words an expression can end with. -/
def Word.ends : Word → Bool
  | .sym _ | .digits _ | .str _ | .rpar => true
  | _ => false

/-- Neighbours in a written expression. -/
def okPair : Word → Word → Prop
  | .sym _, .lpar => True
  | .op _, w => w.starts = true
  | .lpar, w => w.starts = true
  | .comma, w => w.starts = true
  | v, .op _ => v.ends = true
  | v, .rpar => v.ends = true
  | v, .comma => v.ends = true
  | _, _ => False

/-- A word sequence of an expression: right neighbours, right ends. -/
structure Shape (ws : List Word) : Prop where
  chain : ws.IsChain okPair
  first : ∃ w, ws.head? = some w ∧ w.starts = true
  last : ∃ w, ws.getLast? = some w ∧ w.ends = true

theorem shape_one {w : Word} (h1 : w.starts = true) (h2 : w.ends = true) : Shape [w] :=
  ⟨by simp, ⟨w, rfl, h1⟩, ⟨w, rfl, h2⟩⟩

theorem Shape.ne_nil {ws : List Word} (h : Shape ws) : ws ≠ [] := by
  rintro rfl
  obtain ⟨w, hw, _⟩ := h.first
  simp at hw

theorem chain_join {a b : List Word} (ha : a.IsChain okPair) (hb : b.IsChain okPair)
    (h : ∀ x y, a.getLast? = some x → b.head? = some y → okPair x y) :
    (a ++ b).IsChain okPair :=
  List.isChain_append.mpr ⟨ha, hb, fun x hx y hy => h x y hx hy⟩

theorem Shape.before {a : List Word} (ha : Shape a) {w : Word} {b : List Word}
    (hb : (w :: b).IsChain okPair) (hw : ∀ v : Word, v.ends = true → okPair v w) :
    (a ++ w :: b).IsChain okPair := by
  refine chain_join ha.chain hb ?_
  intro x y hx hy
  simp only [List.head?_cons, Option.some.injEq] at hy
  subst hy
  obtain ⟨l, hl, he⟩ := ha.last
  rw [hl, Option.some.injEq] at hx
  exact hx ▸ hw l he

theorem Shape.after {a : List Word} (ha : Shape a) {w : Word} (hw : ∀ v : Word, v.starts = true → okPair w v)
    {b : List Word} (hb : (a ++ b).IsChain okPair) : (w :: (a ++ b)).IsChain okPair := by
  obtain ⟨x, hx, hs⟩ := ha.first
  cases a with
  | nil => simp at hx
  | cons y a =>
    simp only [List.head?_cons, Option.some.injEq] at hx
    subst hx
    exact List.IsChain.cons_cons (hw _ hs) hb

theorem pair_op_left (o : BinOp) (v : Word) (h : v.ends = true) : okPair v (.op o) := by
  cases v <;> simp_all [okPair, Word.ends]
theorem pair_rpar_left (v : Word) (h : v.ends = true) : okPair v .rpar := by
  cases v <;> simp_all [okPair, Word.ends]
theorem pair_comma_left (v : Word) (h : v.ends = true) : okPair v .comma := by
  cases v <;> simp_all [okPair, Word.ends]
theorem pair_op_right (o : BinOp) (v : Word) (h : v.starts = true) : okPair (.op o) v := by
  cases v <;> simp_all [okPair]
theorem pair_lpar_right (v : Word) (h : v.starts = true) : okPair .lpar v := by
  cases v <;> simp_all [okPair]
theorem pair_comma_right (v : Word) (h : v.starts = true) : okPair .comma v := by
  cases v <;> simp_all [okPair]

theorem shape_bin {a b : List Word} (o : BinOp) (ha : Shape a) (hb : Shape b) :
    Shape (a ++ .op o :: b) := by
  refine ⟨?_, ?_, ?_⟩
  · refine ha.before ?_ (pair_op_left o)
    have := hb.after (pair_op_right o) (b := []) (by simpa using hb.chain)
    simpa using this
  · obtain ⟨w, hw, hs⟩ := ha.first
    refine ⟨w, ?_, hs⟩
    cases a with
    | nil => simp at hw
    | cons x a => simpa using hw
  · obtain ⟨w, hw, hs⟩ := hb.last
    refine ⟨w, ?_, hs⟩
    rw [List.getLast?_append_of_ne_nil _ (by simp)]
    rw [List.getLast?_cons, hw]
    rfl

theorem shape_group {a : List Word} (ha : Shape a) : Shape (.lpar :: a ++ [.rpar]) := by
  refine ⟨?_, ⟨.lpar, rfl, rfl⟩, ⟨.rpar, ?_, rfl⟩⟩
  · exact ha.after pair_lpar_right (ha.before (by simp) pair_rpar_left)
  · rw [List.getLast?_append_of_ne_nil _ (by simp)]; rfl

theorem chain_args : ∀ (more : List Ast) (a : Ast), Shape (a.words 0) →
    (∀ x ∈ more, Shape (x.words 0)) →
    (a.words 0 ++ wordsMore more ++ [Word.rpar]).IsChain okPair
  | [], a, ha, _ => by
      simp only [wordsMore, List.append_nil]
      exact ha.before (by simp) pair_rpar_left
  | b :: more, a, ha, hm => by
      simp only [wordsMore, List.append_assoc, List.cons_append]
      refine ha.before ?_ pair_comma_left
      have := chain_args more b (hm b (by simp)) (fun x hx => hm x (by simp [hx]))
      rw [List.append_assoc] at this
      exact (hm b (by simp)).after pair_comma_right this

mutual
theorem shape : ∀ (e : Ast) (p : Nat), Shape (e.words p)
  | .str _, _ => by simpa only [Ast.words] using shape_one rfl rfl
  | .num _, _ => by simpa only [Ast.words] using shape_one rfl rfl
  | .var _, _ => by simpa only [Ast.words] using shape_one rfl rfl
  | .call f a more, p => by
      have h := chain_args more a (shape a 0) (shapeAll more)
      have ha := shape a 0
      simp only [Ast.words]
      refine ⟨?_, ⟨_, rfl, rfl⟩, ⟨.rpar, ?_, rfl⟩⟩
      · refine List.IsChain.cons_cons trivial ?_
        rw [List.append_assoc]
        exact ha.after pair_lpar_right (by rw [← List.append_assoc]; exact h)
      · rw [← List.cons_append, ← List.cons_append, List.getLast?_append_of_ne_nil _ (by simp)]
        rfl
  | .bin o a b, p => by
      have h := shape_bin o (shape a (leftRank o)) (shape b (rightRank o))
      simp only [Ast.words]
      by_cases hp : rank o < p
      · rw [if_pos hp]; exact shape_group h
      · rw [if_neg hp]; exact h
  | .group e, p => by
      simp only [Ast.words]
      exact shape_group (shape e 0)
theorem shapeAll : ∀ (es : List Ast), ∀ x ∈ es, Shape (x.words 0)
  | [] => by simp
  | e :: es => by
      intro x hx
      rcases List.mem_cons.mp hx with hx | hx
      · rw [hx]; exact shape e 0
      · exact shapeAll es x hx
end

/-! ## Well-formed words -/

/-- Names, numbers and literals of a word. -/
def Word.WF : Word → Prop
  | .sym s => Evaluator.validSymbol s = true ∧ ¬ c!".." <:+: s ∧ lower s ∉ reservedSymbols
  | .digits ds => ds ≠ [] ∧ decimalValue ds < 2 ^ 24
  | .str s => Literal s
  | _ => True

theorem noDots_of_noDot {f : Str} (h : '.' ∉ f) : ¬ c!".." <:+: f := fun hi =>
  h (hi.subset (by simp))

mutual
theorem words_wf : ∀ (e : Ast) (p : Nat), e.WF → ∀ w ∈ e.words p, w.WF
  | .str s, p, h => by simpa [Ast.words, Word.WF, Ast.WF] using h
  | .num ds, p, h => by simpa [Ast.words, Word.WF, Ast.WF] using h
  | .var x, p, h => by
      have hx : VarName x := by simpa [Ast.WF] using h
      simpa [Ast.words, Word.WF] using ⟨hx.valid, hx.noDots, lower_dot hx.dot⟩
  | .call f a more, p, h => by
      simp only [Ast.WF] at h
      intro w hw
      simp only [Ast.words, List.mem_cons, List.mem_append, List.not_mem_nil, or_false] at hw
      rcases hw with rfl | rfl | (hw | hw) | rfl
      · exact ⟨h.1.valid, noDots_of_noDot h.1.noDot, h.1.free⟩
      · trivial
      · exact words_wf a 0 h.2.1 w hw
      · exact wordsMore_wf more h.2.2 w hw
      · trivial
  | .bin o a b, p, h => by
      simp only [Ast.WF] at h
      intro w hw
      have hm : w ∈ a.words (leftRank o) ∨ w ∈ b.words (rightRank o) ∨
          w = .op o ∨ w = .lpar ∨ w = .rpar := by
        simp only [Ast.words] at hw
        by_cases hp : rank o < p
        · rw [if_pos hp] at hw
          simp only [List.cons_append, List.mem_cons, List.mem_append, List.not_mem_nil,
            or_false] at hw
          tauto
        · rw [if_neg hp] at hw
          simp only [List.mem_cons, List.mem_append] at hw
          tauto
      rcases hm with hw | hw | rfl | rfl | rfl
      · exact words_wf a _ h.1 w hw
      · exact words_wf b _ h.2 w hw
      · trivial
      · trivial
      · trivial
  | .group e, p, h => by
      simp only [Ast.WF] at h
      intro w hw
      simp only [Ast.words, List.cons_append, List.mem_cons, List.mem_append, List.not_mem_nil,
        or_false] at hw
      rcases hw with rfl | hw | rfl
      · trivial
      · exact words_wf e 0 h w hw
      · trivial
theorem wordsMore_wf : ∀ (es : List Ast), allWF es → ∀ w ∈ wordsMore es, w.WF
  | [], _ => by simp [wordsMore]
  | e :: es, h => by
      simp only [allWF] at h
      intro w hw
      simp only [wordsMore, List.mem_cons, List.mem_append] at hw
      rcases hw with rfl | hw | hw
      · trivial
      · exact words_wf e 0 h.1 w hw
      · exact wordsMore_wf es h.2 w hw
end

/-! ## The passes -/

theorem somePair_false {f : Tok → Tok → Bool} : ∀ {ws : List Word}, ws.IsChain okPair →
    (∀ w ∈ ws, w.WF) →
    (∀ v w : Word, okPair v w → v.WF → w.WF → f v.tok w.tok = false) →
    somePair f (ws.map Word.tok) = false
  | [], _, _, _ => rfl
  | [_], _, _, _ => rfl
  | v :: w :: ws, hc, hw, hf => by
      rw [List.isChain_cons_cons] at hc
      simp only [List.map_cons, somePair]
      rw [hf v w hc.1 (hw v (by simp)) (hw w (by simp)), Bool.false_or]
      exact somePair_false (ws := w :: ws) hc.2 (fun x hx => hw x (List.mem_cons_of_mem _ hx)) hf

theorem insertMul_id : ∀ {ts : List Tok}, somePair mulBetween ts = false → insertMul ts = ts
  | [], _ => rfl
  | [_], _ => rfl
  | a :: b :: ts, h => by
      simp only [somePair, Bool.or_eq_false_iff] at h
      simp only [insertMul, h.1, Bool.false_eq_true, if_false]
      rw [insertMul_id h.2]

theorem tok_op (o : BinOp) :
    (Word.op o).tok = .op o ∨ ∃ s, (Word.op o).tok = .sym s ∧ s = o.name ∧ o ∈ wordOps := by
  by_cases h : o ∈ wordOps
  · exact .inr ⟨o.name, by simp [Word.tok, h], rfl, h⟩
  · exact .inl (by simp [Word.tok, h])

theorem ignored_wordOp {o : BinOp} (h : o ∈ wordOps) : (Tok.sym o.name).ignored = true := by
  revert h
  cases o <;> decide

theorem reservedWords_sub : ∀ s ∈ reservedWords, s ∈ reservedSymbols := by decide

theorem not_ignored {s : Str} (h : lower s ∉ reservedSymbols) : (Tok.sym s).ignored = false := by
  simp only [Tok.ignored, decide_eq_false_iff_not]
  exact fun hc => h (reservedWords_sub _ hc)

theorem mul_op_left (o : BinOp) (t : Tok) : mulBetween (Word.op o).tok t = false := by
  rcases tok_op o with h | ⟨s, h, rfl, ho⟩
  · rw [h]; cases t <;> simp [mulBetween]
  · rw [h]; simp [mulBetween, ignored_wordOp ho]

theorem mul_op_right (o : BinOp) (t : Tok) : mulBetween t (Word.op o).tok = false := by
  rcases tok_op o with h | ⟨s, h, rfl, ho⟩
  · rw [h]; cases t <;> simp [mulBetween]
  · rw [h]; simp [mulBetween, ignored_wordOp ho]

theorem mul_pair (v w : Word) (h : okPair v w) : mulBetween v.tok w.tok = false := by
  cases v with
  | op o => exact mul_op_left o _
  | _ =>
    cases w with
    | op o => exact mul_op_right o _
    | _ => simp_all [okPair, Word.tok, mulBetween, Word.starts, Word.ends]

theorem join_pair (v w : Word) (h : okPair v w) : joinable v.tok w.tok = false := by
  cases v with
  | op o =>
    rcases tok_op o with h' | ⟨s, h', _, _⟩
    · rw [h']; cases w <;> simp_all [okPair, Word.tok, joinable, Word.starts]
    · rw [h']; cases w <;> simp_all [okPair, Word.tok, joinable, Word.starts]
  | _ =>
    cases w with
    | op o =>
      rcases tok_op o with h' | ⟨s, h', _, _⟩ <;> rw [h'] <;>
        simp_all [okPair, Word.tok, joinable, Word.starts, Word.ends]
    | _ => simp_all [okPair, Word.tok, joinable, Word.starts, Word.ends]

theorem group_pair (v w : Word) (h : okPair v w) : groupPair v.tok w.tok = false := by
  cases v with
  | op o =>
    rcases tok_op o with h' | ⟨s, h', _, _⟩ <;> rw [h'] <;> simp [groupPair]
  | _ =>
    cases w with
    | op o =>
      rcases tok_op o with h' | ⟨s, h', _, _⟩ <;> rw [h'] <;> simp [groupPair, Word.tok]
    | _ => simp_all [okPair, Word.tok, groupPair, Word.starts, Word.ends]

theorem bad_pair (v w : Word) (h : okPair v w) : badPair v.tok w.tok = false := by
  cases v with
  | op o =>
    rcases tok_op o with h' | ⟨s, h', _, _⟩ <;> rw [h'] <;> simp [badPair]
  | _ =>
    cases w with
    | op o =>
      rcases tok_op o with h' | ⟨s, h', _, _⟩ <;> rw [h'] <;> simp [badPair, Word.tok]
    | _ => simp_all [okPair, Word.tok, badPair, Word.starts, Word.ends]

theorem replace_id (w : Word) (h : w.WF) : replaceTok w.tok = w.tok := by
  cases w with
  | op o => cases o <;> rfl
  | sym s =>
    have hs : lower s ∉ reservedSymbols := h.2.2
    have h1 : lower s ≠ c!"true" := fun hc => hs (by rw [hc]; decide)
    have h2 : lower s ≠ c!"false" := fun hc => hs (by rw [hc]; decide)
    simp only [Word.tok, replaceTok, h1, h2, if_false]
  | _ => rfl

/-- The passes before parsing change nothing. -/
theorem assemble_words {ws : List Word} (hs : ws.IsChain okPair) (hw : ∀ w ∈ ws, w.WF)
    (hl : ws.length ≤ 10000) : assemble (ws.map Word.tok) = .ok (ws.map Word.tok) := by
  have h1 : insertMul (ws.map Word.tok) = ws.map Word.tok :=
    insertMul_id (somePair_false hs hw (fun v w h _ _ => mul_pair v w h))
  have h2 := somePair_false (f := joinable) hs hw (fun v w h _ _ => join_pair v w h)
  have h3 := somePair_false (f := groupPair) hs hw (fun v w h _ _ => group_pair v w h)
  have h4 := somePair_false (f := badPair) hs hw (fun v w h _ _ => bad_pair v w h)
  have h5 : (ws.map Word.tok).map replaceTok = ws.map Word.tok := by
    rw [List.map_map]
    exact List.map_congr_left (fun w h => replace_id w (hw w h))
  unfold assemble
  rw [h1, h2, h3, h5, h4]
  simp [Nat.not_lt.mpr hl]

end Exprtk
end Casbin
