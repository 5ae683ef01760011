import Verif.GettingLemmas
import Verif.StdLib
import Verif.ConditionLemmas
import Verif.ConditionFixtures

/-!
# C168: the string an evaluator gets

A program gives the evaluator a variable of its own with `EnableGet`, lets a text assign to it, and asks for
the string with `GetString`. It expects the string to be the value of the right side under the values given
last.
-/

namespace Casbin
namespace Getting

open Custom Direct

variable [IterOrder]

/-- C168: after any calls on a new evaluator that keep the names apart, when `Eval` answers yes to a text that
assigns to a name of the evaluator's own variable, and the right side has identifiers only, then `GetString`
answers with the value of the right side under the values given last (the empty string for a function that
gives no string); so it does when asked again, and
`GetBoolean` answers yes. Missing: names that are not kept apart (`C168_identifier_fails`), names exprtk does
not take (`C168_name_fails`), texts that `Eval` refuses (`C168_refused_fails`), texts that assign nothing
(`C168_value_fails`). -/
theorem C168_partial (lib : ExprLib) {h : List RM} (hwf : ∀ R ∈ h, R.WF) (hpl : ∀ R ∈ h, R.pattern = none)
    {cs : List Call} {s s' : Obj} (ht : Tidy lib cs h) (hrun : runAll lib cs (Obj.new h) = (.ok (), s))
    {t x : Str} {e : Expr} (hne : t ≠ []) (hp : lib.parse t = some (.op c!":=" [.var x, e]))
    (hx : lower x ∈ owns cs) (hk : (namesOf (plain cs)).Knows e)
    (hev : Getting.eval lib t s = (.ok true, s')) :
    ∀ v w, denote lib h (namesOf (plain cs)) e = .ok v → (v = .str w ∨ (∀ u, v ≠ .str u) ∧ w = []) →
      (getString lib s').1 = .ok w ∧
      (getString lib (getString lib s').2).1 = .ok w ∧
      (getBoolean lib s').1 = .ok true := by
  intro v w hv hw
  obtain rfl : text v = w := by
    rcases hw with rfl | ⟨hw, rfl⟩
    · rfl
    · cases v with
      | str u => exact absurd rfl (hw u)
      | num n => rfl
      | nan => rfl
  have hs := runAll_new hwf hpl cs ht hrun
  have hh := sound_names hwf hpl ht
  have hap : ∀ k ∈ owns cs, (namesOf (plain cs)).var k = none := fun k hk => (ht.own k hk).1
  have hq := eval_run hs hap t (fun y e' hb => by
    rw [hp] at hb
    have hb : assignment (.op c!":=" [.var x, e]) = some (y, e') := hb
    have := assignment_some hb
    injection this with _ h2
    injection h2 with h3 _
    injection h3 with h4
    subst h4
    exact hap _ hx)
  rw [hev] at hq
  obtain ⟨⟨b, hb, herr⟩, h2, _⟩ := hq
  cases hb
  obtain ⟨e1, p1, p2⟩ := h2.good herr hne
  rw [hp] at p1
  cases p1
  have key : ∀ s0 : Obj, Stands lib (namesOf (plain cs)) (owns cs) t h s0 →
      s0.ev.compiled = some (.op c!":=" [.var x, e]) → ∀ o s1, exprValue lib s0 = (o, s1) →
      o = .ok .nan ∧ s1.result = text v ∧ Stands lib (namesOf (plain cs)) (owns cs) t h s1 ∧
        s1.ev.compiled = some (.op c!":=" [.var x, e]) := by
    intro s0 h0 hc o s1 hr
    obtain ⟨k1, k2, k3, k4, _⟩ := value_run h0 hh hr
    have hown := denote_own lib h (w := s0.result) (fun k hk => hap k (h0.bound k hk)) e hk
    obtain ⟨k5, k6⟩ := k4 _ hc x e rfl v (hown.trans hv)
    exact ⟨k5, k6, k1, by rw [k2]; exact hc⟩
  rcases hr : exprValue lib s' with ⟨o, s1⟩
  obtain ⟨k1, k2, k3, k4⟩ := key s' h2 p2 o s1 hr
  subst k1
  have hget : getString lib s' = (.ok (text v), s1) := by
    simp only [getString, M.bind_run, hr, M.get_run, M.pure_run, k2]
  refine ⟨by rw [hget], ?_, ?_⟩
  · rw [hget]
    rcases hr2 : exprValue lib s1 with ⟨o2, s2⟩
    obtain ⟨j1, j2, _, _⟩ := key s1 k3 k4 o2 s2 hr2
    subst j1
    simp only [getString, M.bind_run, hr2, M.get_run, M.pure_run, j2]
  · simp only [getBoolean, M.bind_run, hr, M.pure_run, Val.truthy]

/-- `Eval` answers yes to such a text, if it is not the one it was given last. -/
theorem C168_eval_partial (lib : ExprLib) {h : List RM} (hwf : ∀ R ∈ h, R.WF)
    (hpl : ∀ R ∈ h, R.pattern = none) {cs : List Call} {s : Obj} (ht : Tidy lib cs h)
    (hrun : runAll lib cs (Obj.new h) = (.ok (), s)) {t x : Str} {e : Expr} (hne : t ≠ [])
    (hnew : lastText cs [] ≠ t) (hp : lib.parse t = some (.op c!":=" [.var x, e])) (hx : lower x ∈ owns cs)
    (hk : (namesOf (plain cs)).Knows e) : (Getting.eval lib t s).1 = .ok true := by
  have hs := runAll_new hwf hpl cs ht hrun
  have hap : ∀ k ∈ owns cs, (namesOf (plain cs)).var k = none := fun k hk => (ht.own k hk).1
  have hv : (tables s (visible s)).get = (withOwn (namesOf (plain cs)) (owns cs) s.result).var := funext fun k => by
    have hg : s.ev.vars.get k = (namesOf (plain cs)).var k := congrFun hs.tab.vars k
    rw [tables_get, hg]
    simp only [visible_iff hs hap k]
    rfl
  have hknow : (withOwn (namesOf (plain cs)) (owns cs) s.result).Knows (.op c!":=" [.var x, e]) := by
    simp only [Naming.Knows, Naming.KnowsAll, and_true]
    refine ⟨⟨s.result, by simp only [withOwn, hx, if_true]⟩, knows_mono (N := namesOf (plain cs))
      (N' := withOwn (namesOf (plain cs)) (owns cs) s.result) (fun y hy => ?_) (fun f fr hf => hf) e hk⟩
    simp only [withOwn]
    split
    · exact ⟨_, rfl⟩
    · exact hy
  have hres := (resolves_iff (N := withOwn (namesOf (plain cs)) (owns cs) s.result) hv hs.tab.funs _).mpr hknow
  have hcomp : compile lib (tables s (visible s)) s.ev.funs t = some (.op c!":=" [.var x, e]) := by
    unfold compile
    rw [if_neg hne, hp]
    simp only
    exact if_pos hres
  have hne2 : s.ev.exprStr ≠ t := by rw [hs.text]; exact hnew
  simp only [Getting.eval, Evaluator.eval, ne_eq, hne2, not_false_eq_true, if_true, hcomp]

/-- When `Eval` answers no, `GetString` goes on answering for the text before. -/
theorem C168_refused_fails (lib : ExprLib) (s s' : Obj) {t : Str}
    (h : Getting.eval lib t s = (.ok false, s')) : (getString lib s').1 = (getString lib s).1 := by
  have hsame : s'.ev.compiled = s.ev.compiled ∧ s'.ev.vars = s.ev.vars ∧ s'.ev.funs = s.ev.funs ∧
      s'.bound = s.bound ∧ s'.result = s.result ∧ s'.heap = s.heap := by
    simp only [Getting.eval, Prod.mk.injEq] at h
    obtain ⟨h1, rfl⟩ := h
    unfold Evaluator.eval at h1 ⊢
    simp only at h1 ⊢
    split at h1
    · next hs =>
      simp only [hs, not_false_eq_true, if_true, ne_eq, true_and]
      split at h1
      · cases h1
      · simp only [Bool.true_eq_false, if_false, and_self]
    · next hs =>
      have hs : s.ev.exprStr = t := by simpa using hs
      simp only [hs, not_true_eq_false, if_false, ne_eq, false_and, and_self]
  obtain ⟨h1, h2, h3, h4, h5, h6⟩ := hsame
  have htab : tables s' s'.bound = tables s s.bound := by simp only [tables, h2, h4, h5]
  simp only [getString, M.bind_run, exprValue, h1]
  cases s.ev.compiled with
  | none => simp only [M.get_run, M.pure_run, h5]
  | some e =>
    simp only
    cases assignment e with
    | none =>
      simp only [htab, h3, h6]
      rcases evalExpr lib (tables s s.bound) s.ev.funs e s.heap with ⟨o, hp⟩
      cases o <;> simp only [M.get_run, M.pure_run, h5]
    | some p =>
      obtain ⟨x, e'⟩ := p
      simp only [htab, h3, h6]
      rcases evalExpr lib (tables s s.bound) s.ev.funs e' s.heap with ⟨o, hp⟩
      cases o with
      | ok v =>
        simp only [M.get_run, M.pure_run, store, h4]
        split
        · rfl
        · simp only [h5]
      | throw _ => rfl
      | ub _ => rfl

/-- The string of a text that assigns nothing is the one of the last assignment that was evaluated. -/
theorem C168_value_fails (lib : ExprLib) (s : Obj) {e : Expr} (hc : s.ev.compiled = some e)
    (ha : assignment e = none) {v : Val}
    (hv : (evalExpr lib (tables s s.bound) s.ev.funs e s.heap).1 = .ok v) :
    (getString lib s).1 = .ok s.result := by
  simp only [getString, M.bind_run, exprValue, hc, ha]
  rcases hr : evalExpr lib (tables s s.bound) s.ev.funs e s.heap with ⟨o, hp⟩
  rw [hr] at hv
  simp only at hv
  subst hv
  simp only [M.get_run, M.pure_run]

/-! ## The test -/

/-- The calls of tests/built_in_functions_test.cpp 48–60 before `Eval`. -/
def getTest (n k1 k2 : Str) : List Call :=
  [.func c!"keyGet" (.builtin .keyGet), .ident c!"key1" k1, .ident c!"key2" k2, .enable n]

omit [IterOrder] in
theorem getTest_tidy (lib : ExprLib) (k1 k2 : Str) (h : List RM) :
    Tidy lib (getTest c!"key_get_result" k1 k2) h := by
  have he : entered (plain (getTest c!"key_get_result" k1 k2)) = [(c!"keyGet", .builtin .keyGet)] := rfl
  have ho : owns (getTest c!"key_get_result" k1 k2) = [c!"key_get_result"] := rfl
  refine ⟨fun nf hnf i n hi => ?_, fun x v hx nf hnf => ?_, fun k hk => ?_, fun t ht => ?_⟩
  · rw [he, List.mem_singleton] at hnf
    subst hnf
    cases hi
  · rw [he, List.mem_singleton] at hnf
    subst hnf
    simp only [getTest, plain, Call.plain, List.flatMap_cons, List.flatMap_nil, List.append_nil, List.cons_append,
      List.nil_append, List.mem_cons, reduceCtorEq, Use.ident.injEq, List.not_mem_nil, or_false, false_or] at hx
    rcases hx with ⟨rfl, _⟩ | ⟨rfl, _⟩ <;> decide
  · rw [ho, List.mem_singleton] at hk
    subst hk
    refine ⟨rfl, fun nf hnf => ?_⟩
    rw [he, List.mem_singleton] at hnf
    subst hnf
    decide
  · simp [getTest] at ht

/-- What the test asserts, for all texts: the string is the one of `KeyGet`. -/
theorem C168_keyGet {lib : ExprLib} (hb : ∀ a b, lib.builtin .keyGet [a, b] = .ok (.str (keyGet a b)))
    {t : Str} (hne : t ≠ [])
    (hp : lib.parse t = some (.op c!":=" [.var c!"key_get_result", .call c!"keyGet" [.var c!"key1", .var c!"key2"]]))
    (k1 k2 : Str) (h : List RM) (hwf : ∀ R ∈ h, R.WF) (hpl : ∀ R ∈ h, R.pattern = none) :
    let s := (runAll lib (getTest c!"key_get_result" k1 k2) (Obj.new h)).2
    let s' := (Getting.eval lib t s).2
    (Getting.eval lib t s).1 = .ok true ∧ (getString lib s').1 = .ok (keyGet k1 k2) := by
  intro s s'
  have hrun : runAll lib (getTest c!"key_get_result" k1 k2) (Obj.new h) = (.ok (), s) := rfl
  have hx : lower c!"key_get_result" ∈ owns (getTest c!"key_get_result" k1 k2) := by
    show _ ∈ [c!"key_get_result"]
    decide
  have hk : (namesOf (plain (getTest c!"key_get_result" k1 k2))).Knows
      (.call c!"keyGet" [.var c!"key1", .var c!"key2"]) := by
    simp only [Naming.Knows, Naming.KnowsAll]
    exact ⟨⟨.builtin .keyGet, rfl, rfl⟩, ⟨k1, rfl⟩, ⟨k2, rfl⟩, trivial⟩
  have hyes := C168_eval_partial lib hwf hpl (getTest_tidy lib k1 k2 h) hrun hne
    (by simpa [getTest, lastText] using hne) hp hx hk
  refine ⟨hyes, ?_⟩
  refine (C168_partial lib hwf hpl (getTest_tidy lib k1 k2 h) hrun hne hp hx hk (s' := s') (Prod.ext hyes rfl)
    (.str (keyGet k1 k2)) _ ?_ (.inl rfl)).1
  have hv1 : (namesOf (plain (getTest c!"key_get_result" k1 k2))).var (lower c!"key1") = some k1 := rfl
  have hv2 : (namesOf (plain (getTest c!"key_get_result" k1 k2))).var (lower c!"key2") = some k2 := rfl
  have hf : (namesOf (plain (getTest c!"key_get_result" k1 k2))).fn (lower c!"keyGet")
      = some (.builtin .keyGet) := rfl
  have hm : (FunRef.builtin .keyGet).meaning lib h [.str k1, .str k2] = .ok (.str (keyGet k1 k2)) := by
    rw [← hb]; rfl
  simp only [denote, denoteAll, hv1, hv2, hf, Outcome.map, hm]

/-! ## A library that reads assignments -/

/-- The blanks before a text. -/
def trim (s : Str) : Str := s.dropWhile Exprtk.isBlank

/-- Reading of `name := expression` or `name := expression;` (exprtk.hpp 25084–25331, 24904–24972), where the
right side is one string. -/
def readAssignment (t : Str) : Option Expr :=
  match (t.span fun c => c != ':') with
  | (l, ':' :: '=' :: r) =>
    let x := (trim (trim l).reverse).reverse
    let r := (trim r.reverse)
    let r := (match r with | ';' :: r => r | r => r).reverse
    match (Exprtk.lex (Exprtk.prep r)).bind Exprtk.assemble with
    | .ok ts =>
      match Exprtk.parseE 400 0 ts with
      | .ok (e, []) =>
        if Exprtk.typeOf e = .ok .str ∧ Evaluator.validSymbol x = true then some (.op c!":=" [.var x, e]) else none
      | _ => none
    | _ => none
  | _ => none

/-- A library that reads assignments as well. -/
def getLib : ExprLib where
  parse t := (readAssignment t).or ((stdLib fun _ _ => .ok none).parse t)
  prim := (stdLib fun _ _ => .ok none).prim
  builtin := (stdLib fun _ _ => .ok none).builtin

/-- The calls of a program that asks for what stands behind `/docs/`. -/
def docs (n : Str) : List Call :=
  [.load, .ident c!"r.obj" c!"/docs/guide", .ident c!"p.obj" c!"/docs/*", .enable n]

/-- Calls, then `Eval` and `GetString`. -/
def answer (cs : List Call) (t : Str) : Outcome Bool × Outcome Str :=
  let _ := insertionOrder
  let s := (runAll getLib cs (Obj.new [])).2
  ((Getting.eval getLib t s).1, (getString getLib (Getting.eval getLib t s).2).1)

/-- The string under the values given last: `r.obj` is changed after the text was compiled. -/
example : answer (docs [] ++ [.eval c!"key_get_result := keyGet(r.obj, p.obj);", .string,
      .ident c!"R.obj" c!"/docs/index"]) c!"key_get_result := keyGet(r.obj, p.obj);"
    = (.ok true, .ok c!"index") := by decide +kernel

omit [IterOrder] in
/-- C168 is false for names that are not kept apart: the program also has an identifier of this name, the text
assigns to that, and the string stays empty. -/
theorem C168_identifier_fails :
    answer (docs c!"part") c!"part := keyGet(r.obj, p.obj)" = (.ok true, .ok c!"guide") ∧
    answer (docs c!"part" ++ [.ident c!"part" c!""]) c!"part := keyGet(r.obj, p.obj)"
      = (.ok true, .ok []) := by
  decide +kernel

omit [IterOrder] in
/-- C168 is false for names exprtk does not take: `EnableGet` does not say so, the text is refused, and the
string stays empty, or is the one of the text before. -/
theorem C168_name_fails :
    answer (docs c!"min") c!"min := keyGet(r.obj, p.obj)" = (.ok false, .ok []) ∧
    answer (docs c!"_part") c!"_part := keyGet(r.obj, p.obj)" = (.ok false, .ok []) ∧
    answer (docs c!"part" ++ [.enable c!"min", .eval c!"part := 'old'"]) c!"min := keyGet(r.obj, p.obj)"
      = (.ok false, .ok c!"old") := by
  decide +kernel

/-- A text that assigns nothing: the string is that of the text before. -/
example : answer (docs c!"part" ++ [.eval c!"part := 'old'", .string]) c!"keyGet(r.obj, p.obj)"
    = (.ok true, .ok c!"old") := by decide +kernel

/-! ## A matcher that is a call of `keyGet` -/

omit [IterOrder] in
/-- A matcher that is nothing but a call of `keyGet` holds for no request, whatever the string is: the number
of such a call is 0. -/
theorem C168_matcher_fails {lib : ExprLib} (hL : Faithful lib)
    (hb : ∀ a b, lib.builtin .keyGet [a, b] = .ok (.str (keyGet a b)))
    {heap : List RM} {N : Naming} {f x y : Str} {l : List (Str × Exprtk.Word)} {z : Str}
    (hlow : lower f = c!"keyget") (hfn : N.fn c!"keyget" = some (.builtin .keyGet))
    {a b : Str} (ha : N.var (lower x) = some a) (hc : N.var (lower y) = some b)
    (hw : (Exprtk.Ast.call f (.var x) [.var y]).WF)
    (h : Exprtk.LaysOut ((Exprtk.Ast.call f (.var x) [.var y]).words 0) l z) :
    holds lib heap N (Exprtk.layout l z) = .ok false := by
  have hread := Exprtk.read_statement hw (.call (.var x) (.cons (.var y) .nil)) (by
    simp [Exprtk.Ast.depth, Exprtk.depthMore]) (by
    simp [Exprtk.Ast.words, Exprtk.wordsMore]) h
  have hmem : lower f ∈ Exprtk.stringFunctions := by rw [hlow]; decide
  simp only [Exprtk.Ast.tree, Exprtk.trees, Exprtk.numeric, hmem, if_true] at hread
  have hparse := hL.reads _ _ hread
  unfold holds
  simp only [hparse]
  rw [if_pos]
  · have hm : (FunRef.builtin .keyGet).meaning lib heap [.str a, .str b] = .ok (.str (keyGet a b)) := by
      rw [← hb]; rfl
    simp only [denote, denoteAll, ha, hc, hlow, hfn, hm, Outcome.map, hL.value, Val.truthy]
    rfl
  · simp only [Naming.Knows, Naming.KnowsAll, ha, hc, hlow, hfn]
    exact ⟨⟨⟨_, rfl, rfl⟩, ⟨_, rfl⟩, ⟨_, rfl⟩, trivial⟩, trivial⟩

omit [IterOrder] in
/-- Non-vacuity of `C168_matcher_fails`: `keyGet(r.obj, p.obj)`, where the string is `guide`. -/
example (N : Naming) (hfn : N.fn c!"keyget" = some (.builtin .keyGet))
    (ha : N.var c!"r.obj" = some c!"/docs/guide") (hb : N.var c!"p.obj" = some c!"/docs/*") :
    holds (stdLib fun _ _ => .ok none) [] N c!"keyGet(r.obj, p.obj)" = .ok false := by
  have h := laysOut_of (ws := (Exprtk.Ast.call c!"keyGet" (.var c!"r.obj") [.var c!"p.obj"]).words 0)
    [0, 0, 0, 0, 1, 0] (by decide +kernel)
  exact C168_matcher_fails (x := c!"r.obj") (y := c!"p.obj") (f := c!"keyGet") (stdLib_faithful _)
    (fun _ _ => rfl) (by decide) hfn ha hb (by
    simp only [Exprtk.Ast.WF, Exprtk.allWF, and_true]
    decide +kernel) h

end Getting
end Casbin
