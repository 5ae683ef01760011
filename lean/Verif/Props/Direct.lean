import Verif.DirectLemmas
import Verif.StdLib

/-!
# C165: an evaluator used directly

A program enters identifiers and functions, gives the evaluator a text, and asks for its value. It expects
`Eval` to say whether the text can be evaluated with what was entered, and the value to be the one of the
text under the values given last.
-/

namespace Casbin
namespace Direct

open Custom

variable [IterOrder]

/-- C165: after any calls on a new evaluator, when `Eval` answers yes to a text that is not empty, the text
is an expression over what was entered, and `GetBoolean` answers with its value under the values given
last, and, for each function name, the function entered first. -/
theorem C165_value (lib : ExprLib) {h : List RM} (hwf : ∀ R ∈ h, R.WF) (hpl : ∀ R ∈ h, R.pattern = none)
    {us : List Use} {st st' : LibObj} (hm : Managed us h) (ha : Apart us)
    (hrun : runAll lib us (Evaluator.new, h) = (.ok (), st)) {s : Str} (hne : s ≠ [])
    (hev : (exprtk lib).eval s st = (.ok true, st')) :
    ∃ e, lib.parse s = some e ∧ (namesOf us).Knows e ∧
      ((exprtk lib).getBoolean st').1 = (denote lib h (namesOf us) e).map Val.truthy := by
  obtain ⟨h1, h2, h3⟩ := runAll_new hwf hpl hm ha hrun
  obtain ⟨ev, h'⟩ := st
  simp only at h1 h2
  subst h1
  obtain ⟨_, h4⟩ := eval_run h2 s
  simp only [exprtk, onEv, Prod.mk.injEq] at hev
  obtain ⟨h5, rfl⟩ := hev
  have herr : (Evaluator.eval lib s ev).2.err = false := by
    unfold Evaluator.eval at h5 ⊢
    split at h5
    · next hs =>
      rw [if_pos hs]
      split at h5
      · rfl
      · cases h5
    · next hs =>
      rw [if_neg hs]
      simpa using h5
  obtain ⟨e, e1, e2, e3⟩ := h4.good herr hne
  refine ⟨e, e1, e3, ?_⟩
  simp only [exprtk, M.bind_run, value_run h4 h3, e2]
  cases denote lib h' (namesOf us) e <;> rfl

/-- C165: `Eval` answers yes just to the texts that are expressions over what was entered, if the text is
not the one it was given last. Missing: the same text again (`C165_again`, `C165_fails`). -/
theorem C165_eval_partial (lib : ExprLib) {h : List RM} (hwf : ∀ R ∈ h, R.WF)
    (hpl : ∀ R ∈ h, R.pattern = none) {us : List Use} {st : LibObj} (hm : Managed us h) (ha : Apart us)
    (hrun : runAll lib us (Evaluator.new, h) = (.ok (), st)) {s : Str} (hnew : lastText us [] ≠ s) :
    (((exprtk lib).eval s st).1 = .ok true ↔ s ≠ [] ∧ ∃ e, lib.parse s = some e ∧ (namesOf us).Knows e) ∧
    (((exprtk lib).eval s st).1 = .ok false ↔
      ¬ (s ≠ [] ∧ ∃ e, lib.parse s = some e ∧ (namesOf us).Knows e)) := by
  obtain ⟨h1, h2, h3⟩ := runAll_new hwf hpl hm ha hrun
  have hc := compile_iff h2 s
  have ht : st.1.exprStr ≠ s := by rw [h2.text]; exact hnew
  simp only [exprtk, onEv, Evaluator.eval, ht, ne_eq, not_false_eq_true, if_true]
  cases hcomp : compile lib st.1.vars st.1.funs s with
  | some e =>
    obtain ⟨c1, c2, c3⟩ := (hc e).mp hcomp
    have : s ≠ [] ∧ ∃ e, lib.parse s = some e ∧ (namesOf us).Knows e := ⟨c1, e, c2, c3⟩
    simp only [true_iff, Outcome.ok.injEq, Bool.true_eq_false, false_iff, not_not]
    exact ⟨this, this⟩
  | none =>
    have : ¬ (s ≠ [] ∧ ∃ e, lib.parse s = some e ∧ (namesOf us).Knows e) := by
      rintro ⟨c1, e, c2, c3⟩
      rw [(hc e).mpr ⟨c1, c2, c3⟩] at hcomp
      cases hcomp
    simp only [Outcome.ok.injEq, Bool.false_eq_true, false_iff, true_iff]
    exact ⟨this, this⟩

/-- No text is given to `Eval`. -/
def Quiet (us : List Use) : Prop := ∀ s, Use.eval s ∉ us

/-- Given the same text again, `Eval` repeats its answer, whatever was entered since. -/
theorem C165_again (lib : ExprLib) (st st1 st2 : LibObj) {s : Str} {b : Bool}
    (h1 : (exprtk lib).eval s st = (.ok b, st1)) {us : List Use} (hq : Quiet us)
    (h2 : runAll lib us st1 = (.ok (), st2)) : ((exprtk lib).eval s st2).1 = .ok b := by
  have hold : ∀ (us : List Use) (a c : LibObj), Quiet us → runAll lib us a = (.ok (), c) →
      c.1.exprStr = a.1.exprStr ∧ c.1.err = a.1.err := by
    intro us
    induction us with
    | nil =>
      intro a c _ hr
      simp only [runAll, M.pure_run, Prod.mk.injEq, true_and] at hr
      subst hr
      exact ⟨rfl, rfl⟩
    | cons u us ih =>
      intro a c hq hr
      simp only [runAll, M.bind_run] at hr
      have hstep : (u.run lib a).2.1.exprStr = a.1.exprStr ∧ (u.run lib a).2.1.err = a.1.err := by
        cases u with
        | ident x v =>
          simp only [Use.run, onEv, addIdentifier, Evaluator.addIdentifier]
          split
          · exact ⟨rfl, rfl⟩
          · split
            · exact ⟨rfl, rfl⟩
            · split <;> exact ⟨rfl, rfl⟩
        | func n f =>
          simp only [Use.run, onEv, addFunction, Evaluator.addFunction, M.modify_run]
          split
          · split <;> exact ⟨rfl, rfl⟩
          · exact ⟨rfl, rfl⟩
        | load =>
          have hL : ∀ (L : List (Str × FunRef)) (ev : Evaluator),
              (addFunctions L ev).2.exprStr = ev.exprStr ∧ (addFunctions L ev).2.err = ev.err := by
            intro L
            induction L with
            | nil => intro ev; exact ⟨rfl, rfl⟩
            | cons p L ihL =>
              intro ev
              obtain ⟨n, f⟩ := p
              have h0 : ∃ ev', addFunction n f ev = (.ok (), ev') ∧ ev'.exprStr = ev.exprStr ∧
                  ev'.err = ev.err := by
                simp only [addFunction, Evaluator.addFunction, M.modify_run]
                split
                · split <;> exact ⟨_, rfl, rfl, rfl⟩
                · exact ⟨_, rfl, rfl, rfl⟩
              obtain ⟨ev', e1, e2, e3⟩ := h0
              simp only [addFunctions, M.bind_run, e1]
              exact ⟨(ihL ev').1.trans e2, (ihL ev').2.trans e3⟩
          exact hL _ a.1
        | eval s => exact absurd (List.mem_cons_self ..) (hq s)
        | value =>
          have hv : (Custom.exprValue lib a).2.1 = a.1 := by
            unfold Custom.exprValue
            split <;> rfl
          simp only [Use.run, exprtk, M.bind_run]
          rcases hx : Custom.exprValue lib a with ⟨o, a'⟩
          rw [hx] at hv
          simp only at hv
          cases o <;> simp only [M.pure_run, hv, and_self]
      rcases hu : u.run lib a with ⟨o, a'⟩
      rw [hu] at hr hstep
      simp only at hstep
      cases o with
      | ok _ =>
        simp only at hr
        have := ih a' c (fun s hs => hq s (List.mem_cons_of_mem _ hs)) hr
        exact ⟨this.1.trans hstep.1, this.2.trans hstep.2⟩
      | throw _ => simp only [Prod.mk.injEq, reduceCtorEq, false_and] at hr
      | ub _ => simp only [Prod.mk.injEq, reduceCtorEq, false_and] at hr
  obtain ⟨k1, k2⟩ := hold us st1 st2 hq h2
  have hfirst : st1.1.exprStr = s ∧ st1.1.err = !b := by
    simp only [exprtk, onEv, Prod.mk.injEq] at h1
    obtain ⟨h1, rfl⟩ := h1
    unfold Evaluator.eval at h1 ⊢
    split at h1
    · next hs =>
      rw [if_pos hs]
      split at h1
      · cases h1; exact ⟨rfl, rfl⟩
      · cases h1; exact ⟨rfl, rfl⟩
    · next hs =>
      rw [if_neg hs]
      have hs : st.1.exprStr = s := by simpa using hs
      cases h1
      exact ⟨hs, (Bool.not_not _).symm⟩
  simp only [exprtk, onEv, Evaluator.eval, k1, hfirst.1, ne_eq, not_true_eq_false, if_false, k2, hfirst.2,
    Bool.not_not]

omit [IterOrder] in
/-- The property is false for a text given again: the identifier it lacked has been entered meanwhile, the
text could be evaluated, and `Eval` still answers no; `GetBoolean` answers with nothing compiled at all. -/
theorem C165_fails : letI := insertionOrder
    let lib := stdLib fun _ _ => .ok none
    let s := c!"user.role == 'admin'"
    let no := runAll lib [.eval s, .ident c!"user.role" c!"guest"] (Evaluator.new, [])
    (runAll lib [.ident c!"user.role" c!"guest", .eval s] (Evaluator.new, [])).2.1.err = false ∧
    no.1 = .ok () ∧ ((exprtk lib).eval s no.2).1 = .ok false ∧ ((exprtk lib).getBoolean no.2).1 = .ok true := by
  decide +kernel

/-- When `Eval` answers no, `GetBoolean` goes on answering for the text before. -/
theorem C165_old_fails (lib : ExprLib) (st st' : LibObj) {s : Str}
    (h : (exprtk lib).eval s st = (.ok false, st')) :
    ((exprtk lib).getBoolean st').1 = ((exprtk lib).getBoolean st).1 := by
  have hkeep : ∀ (a c : LibObj), c.1.compiled = a.1.compiled → c.1.vars = a.1.vars → c.1.funs = a.1.funs →
      c.2 = a.2 → ((exprtk lib).getBoolean c).1 = ((exprtk lib).getBoolean a).1 := by
    intro a c h1 h2 h3 h4
    simp only [exprtk, M.bind_run, Custom.exprValue, h1, h2, h3, h4]
    cases a.1.compiled with
    | none => rfl
    | some e =>
      simp only
      cases (evalExpr lib a.1.vars a.1.funs e a.2).1 <;> rfl
  simp only [exprtk, onEv, Prod.mk.injEq] at h
  obtain ⟨h1, rfl⟩ := h
  have hsame : (Evaluator.eval lib s st.1).2.compiled = st.1.compiled ∧
      (Evaluator.eval lib s st.1).2.vars = st.1.vars ∧ (Evaluator.eval lib s st.1).2.funs = st.1.funs := by
    unfold Evaluator.eval at h1 ⊢
    split at h1
    · next hs =>
      rw [if_pos hs]
      split at h1
      · cases h1
      · exact ⟨rfl, rfl, rfl⟩
    · next hs =>
      rw [if_neg hs]
      exact ⟨rfl, rfl, rfl⟩
  exact hkeep _ _ hsame.1 hsame.2.1 hsame.2.2 rfl

omit [IterOrder] in
/-- A check that is broken lets everybody in: the text before was satisfied, the new one is not even an
expression, and `GetBoolean` answers yes. -/
theorem C165_check_fails : letI := insertionOrder
    let lib := stdLib fun _ _ => .ok none
    let st := runAll lib [.ident c!"user.role" c!"admin", .eval c!"user.role == 'admin'", .ident c!"user.role" c!"admin",
      .eval c!"user.role =="] (Evaluator.new, [])
    st.1 = .ok () ∧ ((exprtk lib).eval c!"user.role ==" st.2).1 = .ok false ∧
    ((exprtk lib).getBoolean st.2).1 = .ok true := by
  decide +kernel

/-- A new evaluator takes the empty text for an expression, and its value for true. -/
theorem C165_empty_fails (lib : ExprLib) (h : List RM) :
    ((exprtk lib).eval [] (Evaluator.new, h)).1 = .ok true ∧
    ((exprtk lib).getBoolean ((exprtk lib).eval [] (Evaluator.new, h)).2).1 = .ok true :=
  ⟨rfl, rfl⟩

/-- An identifier cannot have the name of a word or constant of exprtk, in whatever case: entering it is a
null dereference. -/
theorem C165_name_fails (lib : ExprLib) {h : List RM} (hwf : ∀ R ∈ h, R.WF)
    (hpl : ∀ R ∈ h, R.pattern = none) {us : List Use} {st : LibObj} (hm : Managed us h) (ha : Apart us)
    (hrun : runAll lib us (Evaluator.new, h) = (.ok (), st)) {x v : Str} (hx : lower x ∈ taken)
    (hfirst : ∀ y w, Use.ident y w ∈ us → lower y ≠ lower x) :
    (runAll lib (us ++ [.ident x v]) (Evaluator.new, h)).1 = .ub .nullDeref := by
  have happ : ∀ (us vs : List Use) (a : LibObj), runAll lib (us ++ vs) a =
      match runAll lib us a with
      | (.ok _, b) => runAll lib vs b
      | (.throw e, b) => (.throw e, b)
      | (.ub e, b) => (.ub e, b) := by
    intro us
    induction us with
    | nil => intro vs a; rfl
    | cons u us ih =>
      intro vs a
      simp only [List.cons_append, runAll, M.bind_run]
      rcases u.run lib a with ⟨o, b⟩
      cases o with
      | ok _ => exact ih vs b
      | throw _ => rfl
      | ub _ => rfl
  have hgiven : ∀ us : List Use, (∀ y w, Use.ident y w ∈ us → lower y ≠ lower x) → given us (lower x) = none := by
    intro us
    induction us with
    | nil => intro _; rfl
    | cons u us ih =>
      intro hf
      simp only [given, ih fun y w hy => hf y w (List.mem_cons_of_mem _ hy)]
      cases u with
      | ident y w =>
        have := hf y w (List.mem_cons_self ..)
        simp only [Use.gives, if_neg this]
        rfl
      | _ => rfl
  obtain ⟨_, h2, _⟩ := runAll_new hwf hpl hm ha hrun
  have hnone : st.1.vars.has (lower x) = false := by
    simp only [UMap.has, h2.vars, namesOf, hgiven us hfirst]
    rfl
  rw [happ, hrun]
  simp only [runAll, M.bind_run, Use.run, onEv, addIdentifier, hnone, hx, Bool.not_false, decide_true,
    Bool.and_self, if_true]

/-! ## Non-vacuity -/

/-- The calls of tests/built_in_functions_test.cpp. -/
def keyTest (k1 k2 : Str) : List Use :=
  [.func c!"keyMatch" (.builtin .keyMatch), .ident c!"key1" k1, .ident c!"key2" k2]

omit [IterOrder] in
theorem keyTest_apart (k1 k2 : Str) : Apart (keyTest k1 k2) := by
  intro x v hx nf hnf
  have hnf : nf = (c!"keyMatch", .builtin .keyMatch) := by
    simpa [keyTest, entered, Use.enters] using hnf
  subst hnf
  simp only [keyTest, List.mem_cons, reduceCtorEq, Use.ident.injEq, List.not_mem_nil, or_false,
    false_or] at hx
  rcases hx with ⟨rfl, _⟩ | ⟨rfl, _⟩ <;> decide

/-- What the test asserts, for all texts: the value is the one of `KeyMatch`. -/
theorem C165_keyMatch {lib : ExprLib} (hb : ∀ a b, lib.builtin .keyMatch [a, b] = .ok (Val.ofBool (keyMatch a b)))
    (hp : lib.parse c!"keyMatch(key1, key2)" = some (.call c!"keyMatch" [.var c!"key1", .var c!"key2"]))
    (k1 k2 : Str) (h : List RM) (hwf : ∀ R ∈ h, R.WF) (hpl : ∀ R ∈ h, R.pattern = none) :
    let st := (runAll lib (keyTest k1 k2) (Evaluator.new, h)).2
    let st' := ((exprtk lib).eval c!"keyMatch(key1, key2)" st).2
    ((exprtk lib).eval c!"keyMatch(key1, key2)" st).1 = .ok true ∧
    ((exprtk lib).getBoolean st').1 = .ok (keyMatch k1 k2) := by
  intro st st'
  have hrun : runAll lib (keyTest k1 k2) (Evaluator.new, h) = (.ok (), st) := rfl
  have hman : Managed (keyTest k1 k2) h := by
    intro nf hnf i n he
    have hnf : nf = (c!"keyMatch", .builtin .keyMatch) := by
      simpa [keyTest, entered, Use.enters] using hnf
    subst hnf
    cases he
  have hk : (namesOf (keyTest k1 k2)).Knows (.call c!"keyMatch" [.var c!"key1", .var c!"key2"]) := by
    simp only [Naming.Knows, Naming.KnowsAll]
    exact ⟨⟨.builtin .keyMatch, rfl, rfl⟩, ⟨k1, rfl⟩, ⟨k2, rfl⟩, trivial⟩
  have hyes := ((C165_eval_partial lib hwf hpl hman (keyTest_apart k1 k2) hrun
    (s := c!"keyMatch(key1, key2)") (by simp [keyTest, lastText])).1).mpr ⟨by decide, _, hp, hk⟩
  refine ⟨hyes, ?_⟩
  obtain ⟨e, e1, _, e3⟩ := C165_value lib hwf hpl hman (keyTest_apart k1 k2) hrun
    (s := c!"keyMatch(key1, key2)") (by decide) (st' := st') (Prod.ext hyes rfl)
  rw [hp] at e1
  cases e1
  rw [e3]
  have hv1 : (namesOf (keyTest k1 k2)).var (lower c!"key1") = some k1 := rfl
  have hv2 : (namesOf (keyTest k1 k2)).var (lower c!"key2") = some k2 := rfl
  have hf : (namesOf (keyTest k1 k2)).fn (lower c!"keyMatch") = some (.builtin .keyMatch) := rfl
  have hm : (FunRef.builtin .keyMatch).meaning lib h [.str k1, .str k2] = .ok (Val.ofBool (keyMatch k1 k2)) := by
    rw [← hb]; rfl
  simp only [denote, denoteAll, hv1, hv2, hf, Outcome.map, hm, Val.truthy_ofBool]

/-- Non-vacuity of `C165_name_fails`: `in`, `Max` and `pi` are such names. -/
example : lower c!"in" ∈ taken ∧ lower c!"Max" ∈ taken ∧ lower c!"pi" ∈ taken ∧ lower c!"role" ∉ taken := by
  decide

omit [IterOrder] in
/-- A function that is entered a second time is not replaced. -/
example : letI := insertionOrder
    let lib := stdLib fun _ _ => .ok none
    let st := runAll lib [.func c!"m" (.builtin .keyMatch), .func c!"M" (.g none 2), .ident c!"k.a" c!"/x/y",
      .ident c!"k.b" c!"/x/*", .eval c!"m(k.a, k.b)"] (Evaluator.new, [])
    st.1 = .ok () ∧ ((exprtk lib).getBoolean st.2).1 = .ok true := by
  decide +kernel

end Direct
end Casbin
