import Verif.GrammarLemmas
import Verif.Props.Exprtk

/-!
# C101, more: what the accepted matchers have in common

For every text: `Exprtk.read` answers `outside` for the features of exprtk that are not modelled; of
those texts nothing is said.
-/

namespace Casbin
namespace MatcherProps

open Exprtk

theorem read_of_parse {lib : ExprLib} (hL : Faithful lib) {text : Str} {e : Expr}
    (ho : Exprtk.read text ≠ .outside) (hp : lib.parse text = some e) : Exprtk.read text = .ok e := by
  cases h : Exprtk.read text with
  | ok e' => rw [hL.reads _ _ h] at hp; rw [Option.some.inj hp]
  | reject => rw [hL.refuses _ h] at hp; cases hp
  | outside => exact absurd h ho

/-- C101: a matcher whose parentheses outside quotations do not pair up, or with a quotation that is
not closed, is refused, whatever else it contains. -/
theorem C101_closed {lib : ExprLib} (hL : Faithful lib) {text : Str}
    (ho : Exprtk.read text ≠ .outside) (hb : scan false 0 text ≠ some (false, 0)) :
    lib.parse text = none := by
  cases hp : lib.parse text with
  | none => rfl
  | some e =>
    exfalso
    obtain ⟨ts, parts, h1, _, h3, h4⟩ := read_sound (read_of_parse hL ho hp)
    have h5 := scan_lexN _ _ ts (prep_noMark text) h1 0
    rw [scan_prep, ← depth_insertMul, ← depth_map_replace, h4, depth_flatten h3] at h5
    exact hb h5

/-- C101: an accepted matcher is a sequence of expressions (after `*` is put where exprtk assumes it,
and `true`, `false` are numbers). More than one is the case of `C101_fails`. -/
theorem C101_grammar_partial {lib : ExprLib} (hL : Faithful lib) {text : Str} {e : Expr}
    (ho : Exprtk.read text ≠ .outside) (hp : lib.parse text = some e) :
    ∃ ts parts, lex (prep text) = .ok ts ∧ parts ≠ [] ∧ (∀ p ∈ parts, Sentence p) ∧
      (insertMul ts).map replaceTok = parts.flatten :=
  read_sound (read_of_parse hL ho hp)

/-- A token an expression can begin with. -/
def Begins : Tok → Prop
  | .num _ | .str _ | .sym _ | .lpar => True
  | _ => False

/-- A token an expression can end with. -/
def Ends : Tok → Prop
  | .num _ | .str _ | .rpar => True
  | .sym s => '.' ∈ s
  | _ => False

theorem sentence_ends {ts : List Tok} (h : Sentence ts) :
    ∃ a us vs b, ts = a :: us ∧ ts = vs ++ [b] ∧ Begins a ∧ Ends b := by
  induction h with
  | num n => exact ⟨_, [], [], _, rfl, rfl, trivial, trivial⟩
  | str s => exact ⟨_, [], [], _, rfl, rfl, trivial, trivial⟩
  | var s hs => exact ⟨_, [], [], _, rfl, rfl, trivial, hs⟩
  | call f args _ _ _ =>
    exact ⟨_, _, .sym f :: .lpar :: joinComma args, .rpar, rfl, by simp, trivial, trivial⟩
  | group ts _ _ => exact ⟨_, _, .lpar :: ts, .rpar, rfl, by simp, trivial, trivial⟩
  | op a b t _ _ _ iha ihb =>
    obtain ⟨x, us, _, _, rfl, _, hx, _⟩ := iha
    obtain ⟨_, _, ws, y, _, rfl, _, hy⟩ := ihb
    exact ⟨x, _, (x :: us) ++ t :: ws, y, rfl, by simp, hx, hy⟩

theorem insertMul_cons (t : Tok) (ts : List Tok) : ∃ us, insertMul (t :: ts) = t :: us := by
  cases ts with
  | nil => exact ⟨[], rfl⟩
  | cons b ts => unfold insertMul; split <;> exact ⟨_, rfl⟩

theorem insertMul_last : ∀ (ts : List Tok) (b : Tok), ∃ us, insertMul (ts ++ [b]) = us ++ [b]
  | [], b => ⟨[], rfl⟩
  | [a], b => by
    show ∃ us, insertMul [a, b] = _
    unfold insertMul
    split
    · exact ⟨[a, .op .mul], rfl⟩
    · exact ⟨[a], rfl⟩
  | a :: c :: ts, b => by
    obtain ⟨us, h⟩ := insertMul_last (c :: ts) b
    show ∃ us, insertMul (a :: c :: (ts ++ [b])) = _
    unfold insertMul
    rw [show c :: (ts ++ [b]) = (c :: ts) ++ [b] from rfl, h]
    split
    · exact ⟨a :: .op .mul :: us, rfl⟩
    · exact ⟨a :: us, rfl⟩

theorem begins_replace {t : Tok} (h : Begins (replaceTok t)) : Begins t := by
  cases t <;> first | exact h | trivial

theorem ends_replace {t : Tok} (h : Ends (replaceTok t)) : Ends t ∨
    ∃ s, t = .sym s ∧ (lower s = c!"true" ∨ lower s = c!"false") := by
  cases t with
  | sym s =>
    by_cases h1 : lower s = c!"true"
    · exact .inr ⟨s, rfl, .inl h1⟩
    · by_cases h2 : lower s = c!"false"
      · exact .inr ⟨s, rfl, .inr h2⟩
      · left
        simpa [replaceTok, h1, h2] using h
  | _ => exact .inl h

/-- C101: a matcher is refused if its first token is an operator, a comma or a closing parenthesis, or
its last token an operator (also one that is a word, like the `and` of a final `&&`), a comma or an
opening parenthesis; and so is one without tokens. -/
theorem C101_ends {lib : ExprLib} (hL : Faithful lib) {text : Str} (ho : Exprtk.read text ≠ .outside)
    {ts : List Tok} (ht : lex (prep text) = .ok ts)
    (hb : ts = [] ∨ (∃ a us, ts = a :: us ∧ ¬ Begins a) ∨
      (∃ us b, ts = us ++ [b] ∧ (b.binop.isSome ∨ b = .comma ∨ b = .lpar ∨ b = .bang))) :
    lib.parse text = none := by
  cases hp : lib.parse text with
  | none => rfl
  | some e =>
    exfalso
    obtain ⟨ts', parts, h1, h2, h3, h4⟩ := read_sound (read_of_parse hL ho hp)
    obtain rfl : ts = ts' := by rw [ht] at h1; exact Read.ok.inj h1
    obtain ⟨p, ps, rfl⟩ := List.exists_cons_of_ne_nil h2
    rcases hb with rfl | ⟨a, us, rfl, ha⟩ | ⟨us, b, rfl, hb⟩
    · obtain ⟨a, us, _, _, rfl, _⟩ := sentence_ends (h3 p (by simp))
      simp [insertMul] at h4
    · obtain ⟨a', us', _, _, rfl, _, h, _⟩ := sentence_ends (h3 p (by simp))
      obtain ⟨vs, hv⟩ := insertMul_cons a us
      rw [hv] at h4
      simp only [List.map_cons, List.flatten_cons, List.cons_append, List.cons.injEq] at h4
      exact ha (begins_replace (h4.1 ▸ h))
    · obtain ⟨qs, q, hq⟩ : ∃ qs q, p :: ps = qs ++ [q] :=
        ⟨(p :: ps).dropLast, (p :: ps).getLast (by simp), (List.dropLast_append_getLast (by simp)).symm⟩
      obtain ⟨_, _, vs, b', _, rfl, _, h⟩ := sentence_ends (h3 q (by rw [hq]; simp))
      obtain ⟨ws, hw⟩ := insertMul_last us b
      rw [hw, hq] at h4
      simp only [List.map_append, List.map_cons, List.map_nil, List.flatten_append, List.flatten_cons,
        List.flatten_nil, List.append_nil, ← List.append_assoc] at h4
      have he : replaceTok b = b' := by
        have := (List.append_inj' h4 rfl).2
        simpa using this
      rcases ends_replace (he ▸ h) with hE | ⟨s, rfl, hs⟩
      · cases b with
        | sym s =>
          rcases hb with hb | hb | hb | hb
          · have hs : '.' ∈ s := hE
            have hw : wordOp s ≠ none := by
              intro hn
              rw [show (Tok.sym s).binop = wordOp s from rfl, hn] at hb
              cases hb
            have hl : lower s ∈ [c!"and", c!"nand", c!"or", c!"nor", c!"xor", c!"xnor", c!"in",
                c!"like", c!"ilike"] := by
              by_contra hc
              simp only [List.mem_cons, List.not_mem_nil, or_false, not_or] at hc
              obtain ⟨e1, e2, e3, e4, e5, e6, e7, e8, e9⟩ := hc
              apply hw
              simp [wordOp, e1, e2, e3, e4, e5, e6, e7, e8, e9]
            have hd : '.' ∈ lower s := List.mem_map.mpr ⟨'.', hs, by decide⟩
            simp only [List.mem_cons, List.not_mem_nil, or_false] at hl
            rcases hl with h | h | h | h | h | h | h | h | h <;> (rw [h] at hd; revert hd; decide)
          · cases hb
          · cases hb
          · cases hb
        | num n => rcases hb with hb | hb | hb | hb <;> cases hb
        | str n => rcases hb with hb | hb | hb | hb <;> cases hb
        | rpar => rcases hb with hb | hb | hb | hb <;> cases hb
        | _ => exact hE
      · rcases hb with hb | hb | hb | hb
        · have hw : wordOp s = none := by rcases hs with hs | hs <;> (unfold wordOp; rw [hs]; decide)
          rw [show (Tok.sym s).binop = wordOp s from rfl, hw] at hb
          cases hb
        · cases hb
        · cases hb
        · cases hb

/-- Is the text refused by the modelled part? -/
def refused : Read Expr → Bool
  | .reject => true
  | _ => false

theorem not_outside {r : Read Expr} (h : refused r = true) : r ≠ .outside := by
  rintro rfl
  cases h

/-- Non-vacuity of C101: a call that is not closed, a quotation that is not closed, a final `&&`, an
operator at the beginning. All are read (not `outside`). -/
example : (∀ lib, Faithful lib → lib.parse c!"g(r.sub, p.sub && r.obj == p.obj" = none) ∧
    (∀ lib, Faithful lib → lib.parse c!"r.sub == \"alice && r.obj == p.obj" = none) ∧
    (∀ lib, Faithful lib → lib.parse c!"r.sub == p.sub &&" = none) ∧
    (∀ lib, Faithful lib → lib.parse c!"== p.sub && r.act == p.act" = none) := by
  refine ⟨fun lib h => C101_closed h (not_outside (by decide +kernel)) (by decide +kernel),
    fun lib h => C101_closed h (not_outside (by decide +kernel)) (by decide +kernel),
    fun lib h => C101_ends h (ts := [.sym c!"r.sub", .op .eq, .sym c!"p.sub", .sym c!"and"])
      (not_outside (by decide +kernel)) (by decide +kernel)
      (.inr (.inr ⟨[.sym c!"r.sub", .op .eq, .sym c!"p.sub"], .sym c!"and", rfl, .inl (by decide +kernel)⟩)),
    fun lib h => C101_ends h (ts := [.op .eq, .sym c!"p.sub", .sym c!"and", .sym c!"r.act", .op .eq,
        .sym c!"p.act"]) (not_outside (by decide +kernel)) (by decide +kernel) (.inr (.inl ⟨_, _, rfl, id⟩))⟩

/-- Non-vacuity of the grammar: the matcher of rbac_model.conf is accepted and read. -/
example : ∃ e, Exprtk.read c!"g(r.sub, p.sub) && r.obj == p.obj && r.act == p.act" = .ok e ∧
    (stdLib noRx).parse c!"g(r.sub, p.sub) && r.obj == p.obj && r.act == p.act" = some e :=
  ⟨.op c!"and" [.op c!"and" [.call c!"g" [.var c!"r.sub", .var c!"p.sub"],
      .op c!"==" [.var c!"r.obj", .var c!"p.obj"]], .op c!"==" [.var c!"r.act", .var c!"p.act"]],
    by rfl, (stdLib_faithful noRx).reads _ _ (by rfl)⟩

end MatcherProps
end Casbin
