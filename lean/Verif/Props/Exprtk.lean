import Verif.Factory
import Verif.ConditionFixtures
import Verif.EndToEndLemmas

/-!
# C97–C106: matcher texts

How exprtk reads a matcher, what the conditions people write mean, and the answers of an enforcer
whose matcher is such a condition. `Faithful` (StdLib.lean) is what is assumed of the expression
library; `Cond`, `Cond.meaning`, `Cond.WrittenAs` (Conditions.lean) are the specification.
-/

namespace Casbin
namespace MatcherProps

open Exprtk Enforcer DecisionProps Fixtures

/-! ## C97 -/

/-- C97: whatever was asked of the factory before, by whichever evaluators, the function registered
for a grouping type asks the role manager of the call, and the functions registered by
`LoadFunctions` are those of their names, with their numbers of parameters. -/
theorem C97_factory (before : List Factory.Call) :
    (∀ rm narg, (Factory.loadGFunction rm narg ((Factory.calls before []).2)).1
      = .ok (some ⟨.g rm narg, narg⟩)) ∧
    (Factory.loadFunctions ((Factory.calls before []).2)).1
      = .ok (Evaluator.builtins.map fun b => (b.1, some ⟨b.2, b.2.arity⟩)) := by
  have key : ∀ cs : List Factory.Call, (Factory.calls cs []).2 = [] ∧
      (∃ fs, (Factory.calls cs []).1 = .ok fs) := by
    intro cs
    induction cs with
    | nil => exact ⟨rfl, [], rfl⟩
    | cons c cs ih =>
      obtain ⟨h1, fs, h2⟩ := ih
      have hg : Factory.getFunction c.kind c.narg c.rm []
          = (.ok (Factory.make c.kind c.narg c.rm), []) := rfl
      simp only [Factory.calls, M.bind_run, hg, M.pure_run]
      cases hc : Factory.calls cs [] with
      | mk r s =>
        rw [hc] at h1 h2
        simp only at h1 h2
        subst h1 h2
        exact ⟨rfl, _, rfl⟩
  rw [(key before).1]
  exact ⟨fun _ _ => rfl, rfl⟩

/-- Non-vacuity of C97: two enforcers with different role managers. -/
example : (Factory.loadGFunction (some 7) 2
    ((Factory.calls [⟨.gfunction, 2, some 3⟩, ⟨.keyMatch, 2, none⟩] []).2)).1
      = .ok (some ⟨.g (some 7) 2, 2⟩) := by decide

/-! ## C98 -/

/-- C98: a matcher written from an expression, with the usual ranking of operators, parentheses where
they are needed or wanted, and white space where it is needed, is read as that expression. (What a
matcher that is nothing but a call of `keyGet` means: `C168_matcher_fails`.) -/
theorem C98_reading {lib : ExprLib} (hL : Faithful lib) {e : Ast} {t : Ty} (hw : e.WF)
    (ht : Typed e t) (hn : ∀ f args, e.tree = .call f args → t = .num) (hd : e.depth 0 ≤ 400)
    (hl : (e.words 0).length ≤ 10000) {l : List (Str × Word)} {z : Str}
    (h : LaysOut (e.words 0) l z) : lib.parse (layout l z) = some e.tree :=
  hL.reads _ _ (read_written hw ht hn hd hl h)

/-- Non-vacuity of C98: a matcher with arithmetic, a group that is needed and one that is not, and
white space only where it is needed. -/
example : (let _ := insertionOrder
    ∀ lib, Faithful lib → lib.parse
      c!"(r.sub==\"root\") || f(r.a,r.b)*(2+3) <= 10 && r.sub != p.sub " = some
        (.op c!"or" [.op c!"==" [.var c!"r.sub", .str c!"root"],
          .op c!"and" [.op c!"<=" [.op c!"*" [.call c!"f" [.var c!"r.a", .var c!"r.b"],
              .op c!"+" [.num 2, .num 3]], .num 10],
            .op c!"!=" [.var c!"r.sub", .var c!"p.sub"]]])) := by
  intro _ lib hL
  let e : Ast := .bin .or (.group (.bin .eq (.var c!"r.sub") (.str c!"root")))
    (.bin .and (.bin .lte (.bin .mul (.call c!"f" (.var c!"r.a") [.var c!"r.b"])
      (.bin .add (.num [2]) (.num [3]))) (.num [1, 0])) (.bin .ne (.var c!"r.sub") (.var c!"p.sub")))
  have hw : e.WF := by
    simp only [e, Ast.WF, allWF, decimalValue, and_true]
    decide +kernel
  have ht : Typed e .num := .num2 (by decide) (.group (.cmp (by decide) (.var _) (.str _)))
    (.num2 (by decide) (.num2 (by decide) (.num2 (by decide) (.call (.var _) (.cons (.var _) .nil))
      (.num2 (by decide) (.num _) (.num _))) (.num _)) (.cmp (by decide) (.var _) (.var _)))
  have hl := laysOut_of (ws := e.words 0)
    [0, 0, 0, 0, 0, 1, 1, 0, 0, 0, 0, 0, 0, 0, 0, 0, 0, 0, 1, 1, 1, 1, 1, 1] (by decide +kernel)
  have hl : LaysOut (e.words 0) _ c!" " := ⟨hl.words, hl.blank, by simp [Blank], hl.spaced⟩
  exact C98_reading hL hw ht (fun _ _ _ => rfl) (by decide +kernel) (by decide +kernel) hl

/-! ## C99 -/

/-- C99: two texts with the same words are read alike. Missing: texts without white space between
two words that exprtk reads as words, among them `&&` and `||` (`C99_fails`). -/
theorem C99_whiteSpace_partial {lib : ExprLib} (hL : Faithful lib) {e : Ast} {t : Ty} (hw : e.WF)
    (ht : Typed e t) (hd : e.depth 0 ≤ 400) (hl : (e.words 0).length ≤ 10000)
    {l l' : List (Str × Word)} {z z' : Str} (h : LaysOut (e.words 0) l z)
    (h' : LaysOut (e.words 0) l' z') :
    lib.parse (layout l z) = lib.parse (layout l' z') := by
  rw [hL.reads _ _ (read_statement hw ht hd hl h), hL.reads _ _ (read_statement hw ht hd hl h')]

/-- Non-vacuity of C99: blanks are needed only around `&&`. -/
example : ∀ lib, Faithful lib → lib.parse c!"r.sub==p.sub && r.act==p.act"
    = lib.parse c!"r.sub == p.sub && r.act == p.act" := by
  intro lib hL
  have h := laysOut_of (ws := noResCond.ast.words 0) [0, 0, 0, 1, 1, 0, 0] (by decide +kernel)
  have h' := laysOut_of (ws := noResCond.ast.words 0) [0, 1, 1, 1, 1, 1, 1] (by decide +kernel)
  have := C99_whiteSpace_partial hL (cond_wf written_noRes.wf) (cond_typed written_noRes.wf)
    (by decide +kernel) (by decide +kernel) h h'
  exact this

/-- C99 is false: without the blanks around `&&` the matcher is refused. -/
theorem C99_fails : ¬ ∀ (lib : ExprLib) (l l' : List (Str × Word)), Faithful lib →
    l.map Prod.snd = l'.map Prod.snd → (∀ b ∈ l.map Prod.fst, Blank b) →
    (∀ b ∈ l'.map Prod.fst, Blank b) → lib.parse (layout l []) = lib.parse (layout l' []) := by
  intro h
  have hf := stdLib_faithful noRx
  have := h (stdLib noRx) (withBlanks (noResCond.ast.words 0) [0, 1, 1, 1, 1, 1, 1])
    (withBlanks (noResCond.ast.words 0) [0, 0, 0, 0, 0, 0, 0]) hf (by decide +kernel)
    (withBlanks_blank _ _) (withBlanks_blank _ _)
  rw [show layout (withBlanks (noResCond.ast.words 0) [0, 1, 1, 1, 1, 1, 1]) [] = mNoRes by
      decide +kernel,
    show layout (withBlanks (noResCond.ast.words 0) [0, 0, 0, 0, 0, 0, 0]) []
      = c!"r.sub==p.sub&&r.act==p.act" by decide +kernel,
    hf.reads _ _ written_noRes.read, hf.refuses _ (by rfl)] at this
  cases this

/-! ## C100 -/

/-- C100: a comparison with a text between quotes compares with the characters between the quotes.
Missing: texts containing `&&` or `||` (`C100_fails`), and texts with quotes, backslashes or
characters other than printable ASCII. -/
theorem C100_literal_partial {lib : ExprLib} (hL : Faithful lib) {x s : Str} (hx : VarName x)
    (hs : Literal s) (heap : List RM) {N : Naming} {v : Str} (hv : N.var (lower x) = some v) :
    holds lib heap N (x ++ c!" == \"" ++ s ++ c!"\"") = .ok (decide (v = s)) := by
  have hw : (Cond.eq (.field x) (.lit s)).WrittenAs (x ++ c!" == \"" ++ s ++ c!"\"") := by
    refine ⟨⟨hx, hs⟩, ?_, ?_, [([], .sym x), (c!" ", .op .eq), (c!" ", .str s)], [], ?_, ?_⟩
    · simp only [Cond.ast, Operand.ast, Ast.depth]
      decide
    · simp [Cond.ast, Operand.ast, Ast.words]
    · refine ⟨?_, ?_, by simp [Blank], ?_⟩
      · simp [Cond.ast, Operand.ast, Ast.words]
      · simp [Blank]
      · simp [Spaced]
    · simp [layout, Word.text, opText, BinOp.name]
  have := holds_written (lib := lib) (heap := heap) (N := N) (field := fun _ => v)
    (fn := fun _ _ => .ok false) hL hw
    ⟨by intro y hy
        simp only [Cond.fields, Operand.fields, List.mem_append, List.mem_singleton,
          List.not_mem_nil, or_false] at hy
        rw [hy, hv], by intro f n hf; simp [Cond.calls] at hf⟩
  exact this

/-- Non-vacuity of C100: a text with operators, blanks and single `&` and `|`. -/
example : VarName c!"r.sub" ∧ Literal c!"a & b | (c == 1)" := by decide +kernel

/-- C100 is false: the text `"R&&D"` does not stand for the characters `R&&D`, but for `RandD`. -/
theorem C100_fails : ¬ ∀ (lib : ExprLib) (heap : List RM) (N : Naming) (x s v : Str), Faithful lib →
    VarName x → '"' ∉ s → '\'' ∉ s → '\\' ∉ s → N.var x = some v →
    holds lib heap N (x ++ c!" == \"" ++ s ++ c!"\"") = .ok (decide (v = s)) := by
  intro h
  have hf := stdLib_faithful noRx
  have := h (stdLib noRx) [] ⟨fun _ => some c!"R&&D", fun _ => none⟩ c!"r.sub"
    c!"R&&D" c!"R&&D" hf (by decide +kernel) (by decide) (by decide) (by decide) rfl
  rw [holds_of_knows (hf.reads _ (.op c!"==" [.var c!"r.sub", .str c!"RandD"]) (by rfl))
    (by simp [Naming.Knows, Naming.KnowsAll])] at this
  simp [denote, denoteAll, hf.eq] at this

/-! ## C101 -/

/-- C101: a matcher with a closing parenthesis or a comma too many, or with an opening parenthesis too
many, is refused. Missing: a matcher that is two expressions without an operator between them, which
is accepted and means the second (`C101_fails`). -/
theorem C101_refused_partial {lib : ExprLib} (hL : Faithful lib) {e : Ast} {t : Ty} (hw : e.WF)
    (ht : Typed e t) (hd : e.depth 0 ≤ 398) (hl : (e.words 0).length < 10000)
    {l : List (Str × Word)} {z : Str}
    (h : LaysOut (e.words 0 ++ [.rpar]) l z ∨ LaysOut (e.words 0 ++ [.comma]) l z ∨
      LaysOut (.lpar :: e.words 0) l z) :
    lib.parse (layout l z) = none := by
  have hs := shape e 0
  have hwf := words_wf e 0 hw
  have hne : (e.words 0).map Word.tok ≠ [] := by simpa using hs.ne_nil
  apply hL.refuses
  have after : ∀ w : Word, (w = .rpar ∨ w = .comma) → LaysOut (e.words 0 ++ [w]) l z →
      read (layout l z) = .reject := by
    intro w hwc h
    have hc : (e.words 0 ++ [w]).IsChain okPair :=
      hs.before (by simp) (by
        rcases hwc with rfl | rfl
        · exact pair_rpar_left
        · exact pair_comma_left)
    have hwf' : ∀ v ∈ e.words 0 ++ [w], v.WF := by
      intro v hv
      rcases List.mem_append.mp hv with hv | hv
      · exact hwf v hv
      · rw [List.mem_singleton] at hv
        rw [hv]
        rcases hwc with rfl | rfl <;> trivial
    have hp : parseE 400 0 ((e.words 0).map Word.tok ++ [w.tok]) = .ok (e.tree, [w.tok]) := by
      refine (good e hw).closed (by omega) ?_ ?_ ?_ <;> rcases hwc with rfl | rfl <;> decide
    unfold Exprtk.read
    rw [lex_layout h hc hwf']
    simp only [Read.bind]
    rw [if_neg (by simp), assemble_words hc hwf' (by simp; omega)]
    simp only
    obtain ⟨n, hn⟩ : ∃ n, ((e.words 0 ++ [w]).map Word.tok).length = n + 2 :=
      ⟨((e.words 0).map Word.tok).length - 1, by
        have := List.length_pos_iff.mpr hne
        simp at this ⊢
        omega⟩
    rw [hn]
    simp only [corpus, List.map_append, List.map_cons, List.map_nil]
    rw [hp]
    simp only [Read.bind]
    rw [typeOf_tree ht]
    simp only
    have hb : parseE 400 0 [w.tok] = .reject := by rcases hwc with rfl | rfl <;> rfl
    rw [hb]
  rcases h with h | h | h
  · exact after .rpar (.inl rfl) h
  · exact after .comma (.inr rfl) h
  · have hc : (Word.lpar :: e.words 0).IsChain okPair := by
      have := hs.after pair_lpar_right (b := []) (by simpa using hs.chain)
      simpa using this
    have hwf' : ∀ v ∈ Word.lpar :: e.words 0, v.WF := by
      intro v hv
      rcases List.mem_cons.mp hv with rfl | hv
      · trivial
      · exact hwf v hv
    have hp : parseE 398 0 ((e.words 0).map Word.tok) = .ok (e.tree, []) := by
      have := good e hw 0 0 398 [] 1 (e.tree, []) hd (fun _ _ => Nat.zero_le _)
        ⟨by simp, by simp, by simp⟩ (by simp) rfl
      simpa using this
    unfold Exprtk.read
    rw [lex_layout h hc hwf']
    simp only [Read.bind]
    rw [if_neg (by simp), assemble_words hc hwf' (by simp; omega)]
    have hb : parseE 400 0 (.lpar :: (e.words 0).map Word.tok) = .reject := by
      rw [parseE]
      simp only [branch]
      rw [hp]
      rfl
    simp only [List.map_cons, List.length_cons, corpus]
    rw [show Word.lpar.tok = .lpar from rfl, hb]
    rfl

/-- Non-vacuity of C101: the matcher of basic_without_resources_model.conf with one `)` too many. -/
example : ∀ lib, Faithful lib → lib.parse c!"r.sub == p.sub && r.act == p.act)" = none := by
  intro lib hL
  have h := laysOut_of (ws := noResCond.ast.words 0 ++ [.rpar]) [0, 1, 1, 1, 1, 1, 1, 0]
    (by decide +kernel)
  have := C101_refused_partial hL (cond_wf written_noRes.wf) (cond_typed written_noRes.wf)
    (by decide +kernel) (by decide +kernel) (.inl h)
  exact this

/-- C101 is false: a matcher with a forgotten `&&` is accepted, and means its last condition: alice
is not asked for, anybody may access `data1`. -/
theorem C101_fails : ¬ ∀ (lib : ExprLib) (t : Str) (heap : List RM) (N : Naming), Faithful lib →
    t = c!"r.sub == \"alice\" r.obj == \"data1\"" → N.var (lower c!"r.sub") = some c!"bob" →
    N.var (lower c!"r.obj") = some c!"data1" → holds lib heap N t ≠ .ok true := by
  intro h
  have hf := stdLib_faithful noRx
  refine h (stdLib noRx) _ []
    ⟨fun x => if x = c!"r.sub" then some c!"bob" else some c!"data1", fun _ => none⟩ hf rfl rfl rfl ?_
  rw [holds_of_knows (hf.reads _ (.op c!";" [.op c!"==" [.var c!"r.sub", .str c!"alice"],
      .op c!"==" [.var c!"r.obj", .str c!"data1"]]) (by rfl)) (by
        simp only [Naming.Knows, Naming.KnowsAll]
        refine ⟨⟨⟨_, rfl⟩, trivial, trivial⟩, ⟨⟨_, rfl⟩, trivial, trivial⟩, trivial⟩)]
  have h1 := hf.last [Val.ofBool false] (Val.ofBool true)
  simp only [List.singleton_append] at h1
  simp [denote, denoteAll, hf.eq, h1, show lower c!"r.sub" = c!"r.sub" from rfl,
    show lower c!"r.obj" = c!"r.obj" from rfl]

/-! ## C102 -/

/-- C102: a matcher that is a written condition holds for a request and a rule exactly when the
condition says so, given the values of its fields and functions. -/
theorem C102_condition {lib : ExprLib} (hL : Faithful lib) {c : Cond} {text : Str}
    (ht : c.WrittenAs text) {heap : List RM} {N : Naming} {field : Str → Str}
    {fn : Str → List Str → Outcome Bool} (hfields : ∀ x ∈ c.fields, N.var (lower x) = some (field x))
    (hcalls : ∀ f n, (f, n) ∈ c.calls → ∃ fr, N.fn (lower f) = some fr ∧ fr.arity = n ∧
      ∀ args : List Str, args.length = n →
        (fr.meaning lib heap (args.map Val.str)).map Val.truthy = fn f args) :
    holds lib heap N text = c.meaning field fn :=
  holds_written hL ht ⟨hfields, hcalls⟩

/-- Non-vacuity of C102: the matcher of ipmatch_model.conf for an address and a network. -/
example : holds (stdLib noRx) []
    ⟨fun x => if x = c!"r.sub" then some c!"10.0.3.7" else if x = c!"p.sub" then some c!"10.0.0.0/16"
        else some c!"same", fun _ => some (.builtin .ipMatch)⟩ mIp = .ok true := by
  rw [C102_condition (stdLib_faithful noRx) written_ip
    (field := fun x => if x = c!"r.sub" then c!"10.0.3.7" else if x = c!"p.sub" then c!"10.0.0.0/16"
        else c!"same")
    (fn := fun _ args =>
      ((FunRef.builtin .ipMatch).meaning (stdLib noRx) [] (args.map Val.str)).map Val.truthy)
    (by intro x hx
        have : x ∈ [c!"r.sub", c!"p.sub", c!"r.obj", c!"p.obj", c!"r.act", c!"p.act"] := by
          revert hx; revert x; decide
        simp only [List.mem_cons, List.not_mem_nil, or_false] at this
        rcases this with rfl | rfl | rfl | rfl | rfl | rfl <;> rfl)
    (by intro f n hf
        refine ⟨.builtin .ipMatch, rfl, ?_, fun _ _ => rfl⟩
        simp only [ipCond, sameObj, sameAct, Cond.calls, List.append_nil, List.mem_singleton,
          Prod.mk.injEq] at hf
        rw [hf.2]; rfl)]
  decide +kernel

end MatcherProps
end Casbin
