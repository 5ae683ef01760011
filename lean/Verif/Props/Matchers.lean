import Verif.Props.Exprtk
import Verif.Props.EndToEnd

/-!
# C103–C106: enforcers whose matcher is a written condition
-/

namespace Casbin
namespace MatcherProps

open Exprtk Enforcer DecisionProps Fixtures EndToEnd

variable [IterOrder] {lib : ExprLib} {E : Enforcer} {r p e : Assertion}

/-! ## C103 -/

/-- C103: under allow-override without an effect column, the answer to a request is whether some
rule looked at satisfies the condition written as matcher; when no rule is looked at, whether the
condition holds with all fields of the rule empty. `Interprets` says what the fields and functions
of the condition are for a rule. -/
theorem C103_answer (hL : Faithful lib) {exp : Str} (h : Setup lib E r p e exp) {c : Cond}
    (hc : c.WrittenAs exp) (heff : e.value = c!"some(where (p.eft == allow))")
    (hft : c!"p_eft" ∉ p.tokens) {vals : List Str} (hlen : vals.length = r.tokens.length)
    (hrules : ∀ rule ∈ candidates p vals, rule.length = p.tokens.length)
    {field : Rule → Str → Str} {fn : Str → List Str → Outcome Bool} {V : Rule → Bool}
    (hI : ∀ rule, rule.length = p.tokens.length →
      Interprets lib E.heap (naming E.model r.tokens p.tokens vals rule) c (field rule) fn)
    (hV : ∀ rule, rule.length = p.tokens.length → c.meaning (field rule) fn = .ok (V rule)) :
    (E.enforce lib (vals.map ReqVal.str)).1 =
      .ok (if candidates p vals = [] then V (p.tokens.map fun _ => [])
           else (candidates p vals).any V) := by
  refine allow_answer (h.request hlen) heff hft h.noEval hrules V ?_
  intro rule hr
  simp only [verdict, ruleText, h.noEval, Bool.false_eq_true, if_false, Outcome.ok_bind]
  rw [holds_written hL hc (hI rule hr), hV rule hr]

/-! ## C104 -/

omit [IterOrder] in
/-- The fields of `r = sub, obj, act` and `p = sub, obj, act`. -/
theorem fields3 (m : Model) (a b c x y z : Str) :
    ∀ w ∈ [c!"r.sub", c!"r.obj", c!"r.act", c!"p.sub", c!"p.obj", c!"p.act"],
      (naming m rA.tokens pTok [a, b, c] [x, y, z]).var (lower w) =
        some (if w = c!"r.sub" then a else if w = c!"r.obj" then b else if w = c!"r.act" then c
          else if w = c!"p.sub" then x else if w = c!"p.obj" then y else z) := by
  intro w hw
  simp only [List.mem_cons, List.not_mem_nil, or_false] at hw
  rcases hw with rfl | rfl | rfl | rfl | rfl | rfl <;> rfl

/-- C104: with the matcher of examples/basic_with_root_model.conf a request is granted exactly when it
is stored as a rule or made by `root`. Missing: the request of three empty strings while no rule is
looked at, which is granted (`C104_fails`), and with set storage requests with a NUL character. -/
theorem C104_root_partial (hL : Faithful lib) (h : Setup lib E rA p e mRoot)
    (hv : e.value = c!"some(where (p.eft == allow))") (ht : p.tokens = pTok)
    (hlen : p.policy.hash = false → ∀ rule ∈ p.policy.items, rule.length = 3) (a b c : Str)
    (hne : [a, b, c] ≠ [[], [], []] ∨ (p.policy.hash = false ∧ p.policy.items ≠ []))
    (hnul : p.policy.hash = true → NoNul [a, b, c]) :
    (E.enforce lib [.str a, .str b, .str c]).1 =
      .ok (decide ([a, b, c] ∈ p.policy.items ∨ a = c!"root")) := by
  have hc : ∀ rule ∈ candidates p [a, b, c], rule.length = 3 := by
    intro rule hr
    unfold candidates at hr
    split at hr
    · split at hr
      · simp only [List.mem_singleton] at hr; subst hr; rfl
      · simp at hr
    · rename_i hh; exact hlen (by simpa using hh) rule hr
  have key := C103_answer hL h written_root hv (by rw [ht]; decide) (vals := [a, b, c]) rfl
    (by rw [ht]; exact hc)
    (field := fun rule w => match rule with
      | [x, y, z] => if w = c!"r.sub" then a else if w = c!"r.obj" then b else
          if w = c!"r.act" then c else if w = c!"p.sub" then x else if w = c!"p.obj" then y else z
      | _ => [])
    (fn := fun _ _ => .ok false)
    (V := fun rule => decide ([a, b, c] = rule ∨ a = c!"root")) (by
      intro rule hr
      rw [ht] at hr ⊢
      obtain ⟨x, y, z, rfl⟩ := length3 hr
      refine ⟨?_, ?_⟩
      · intro w hw
        exact fields3 E.model a b c x y z w (by
          revert hw
          revert w
          decide)
      · intro f n hf
        exact absurd hf (by simp [rootCond, aclCond, sameObj, sameAct, Cond.calls])) (by
      intro rule hr
      rw [ht] at hr
      obtain ⟨x, y, z, rfl⟩ := length3 hr
      simp only [rootCond, aclCond, sameObj, sameAct, rSub, rObj, rAct, pSub, pObj, pAct,
        Cond.meaning, Operand.val]
      simp [Bool.and_assoc])
  refine key.trans ?_
  congr 1
  rw [ht]
  by_cases hh : p.policy.hash = true
  · have hv : [a, b, c] ≠ [[], [], []] := by
      rcases hne with h1 | ⟨h1, _⟩
      · exact h1
      · rw [hh] at h1; cases h1
    by_cases hin : [a, b, c] ∈ p.policy.items
    · simp [candidates, hh, hin, cString_of_noNul (hnul hh)]
    · simp only [candidates, hh, if_true, hin, if_false, cString_of_noNul (hnul hh)]
      have : ¬ [a, b, c] = List.map (fun _ => []) pTok := by simpa [pTok] using hv
      simp only [this]
  · have hh : p.policy.hash = false := by simpa using hh
    by_cases hi : p.policy.items = []
    · have hv : [a, b, c] ≠ [[], [], []] := by
        rcases hne with h1 | ⟨_, h1⟩
        · exact h1
        · exact absurd hi h1
      have : ¬ [a, b, c] = List.map (fun _ => []) pTok := by simpa [pTok] using hv
      simp only [candidates, hh, hi, Bool.false_eq_true, if_false, if_true, List.not_mem_nil, this]
    · simp only [candidates, hh, Bool.false_eq_true, if_false, hi]
      rw [Bool.eq_iff_iff, List.any_eq_true]
      simp only [decide_eq_true_eq]
      constructor
      · rintro ⟨rule, hr, rfl | hroot⟩
        · exact .inl hr
        · exact .inr hroot
      · rintro (hr | hroot)
        · exact ⟨_, hr, .inl rfl⟩
        · obtain ⟨rule, hr⟩ := List.exists_mem_of_ne_nil _ hi
          exact ⟨rule, hr, .inr hroot⟩

omit [IterOrder] in
/-- The model of examples/basic_with_root_model.conf. -/
def rootModel (P : Policies) : Model :=
  [(c!"m", [(c!"m", asrt c!"m" mRoot [])]), (c!"r", rDef), (c!"p", pDef P), (c!"e", eDef)]

omit [IterOrder] in
theorem setup_root (lib : ExprLib) (P : Policies) :
    Setup lib (enforcer (rootModel P)) rA (pA P) eA mRoot :=
  ⟨⟨⟨⟨rfl, rfl, by decide, by decide, by show ∀ t ∈ pTok, _; decide,
      by decide, by show (pTok.map polName).Nodup; decide, by
      simp [rootModel, Model.secMap, enforcer, UMap.get], lower_find (by
      simp [rootModel, Model.secMap, enforcer, UMap.get, lower])⟩, good_noG rfl, evOK_new _ _ _ _⟩, by
    intro t a ha
    simp [Model.find, enforcer, rootModel, UMap.get] at ha, by simp [enforcer]⟩,
    rfl, rfl, rfl, by decide, by decide⟩

/-- C104 after any history on a new enforcer (editing calls, requests, loads, saves, and the other
`Deed`s), in terms of the rules stored then. -/
theorem C104_history_partial (hL : Faithful lib) (P : Policies) (acts : List Deed)
    (hd : LoadableDeeds lib acts (enforcer (rootModel P))) (a b c : Str) :
    ∃ p, (runDeeds lib acts (enforcer (rootModel P))).model.find c!"p" c!"p" = some p ∧
      ((p.policy.hash = false → ∀ rule ∈ p.policy.items, rule.length = 3) →
        [a, b, c] ≠ [[], [], []] → (p.policy.hash = true → NoNul [a, b, c]) →
        ((runDeeds lib acts (enforcer (rootModel P))).enforce lib [.str a, .str b, .str c]).1 =
          .ok (decide ([a, b, c] ∈ p.policy.items ∨ a = c!"root"))) := by
  obtain ⟨p, ht, h⟩ := (setup_root lib P).deeds acts hd
  exact ⟨p, h.ready.state.defs.findP,
    fun hl hv hnul => C104_root_partial hL h rfl ht hl a b c (.inl hv) hnul⟩

omit [IterOrder] in
/-- C104 is false: a request of empty strings is granted although nothing is stored and nobody is
`root`. -/
theorem C104_fails : ¬ ∀ (_ : IterOrder) (lib : ExprLib) (P : Policies) (a b c : Str),
    Faithful lib → (∀ rule ∈ P.items, rule.length = 3) →
    ((enforcer (rootModel P)).enforce lib [.str a, .str b, .str c]).1 =
      .ok (decide ([a, b, c] ∈ P.items ∨ a = c!"root")) := by
  intro h
  have := @h insertionOrder (stdLib noRx) { hash := false, items := [] } [] [] []
    (stdLib_faithful noRx) (by decide)
  exact absurd this (by decide +kernel)

/-- Non-vacuity of C103, C104: the model, the library with the modelled functions, a history. -/
example : (letI := insertionOrder
    ((runActs (stdLib noRx) [.edit (.add false c!"p" bob), .ask [c!"x"],
        .ask [c!"alice", c!"data1", c!"read"], .edit (.remove false c!"p" alice)]
      (enforcer (rootModel { hash := false, items := [alice] }))).enforce (stdLib noRx)
        [.str c!"root", .str c!"data7", .str c!"write"]).1) = .ok true := by
  decide +kernel

/-! ## C105 -/

/-- The matchers of the models in examples/, without the one with `eval(...)`, which is replaced
before the text is read. -/
def exampleMatchers : List Str :=
  [mAcl, mRbac, mDom, mRoot, mNoRes, mNoUsers, mIp, mKey, mKey2, mRes, mAbac, mAll, mPat, mGlob,
   mCustom, mIn]

omit [IterOrder] in
/-- C105: the matchers of the example models are conditions that exprtk reads. Missing: the one with
`in`. Those with `globMatch` and `keyMatchCustom` are read, but no such function exists
(`C105_fails`). -/
theorem C105_examples_partial : ∀ text ∈ exampleMatchers, text ≠ mIn →
    ∃ c : Cond, c.WrittenAs text := by
  intro text h hn
  simp only [exampleMatchers, List.mem_cons, List.not_mem_nil, or_false, hn] at h
  rcases h with rfl | rfl | rfl | rfl | rfl | rfl | rfl | rfl | rfl | rfl | rfl | rfl | rfl | rfl | rfl
  · exact ⟨_, written_acl⟩
  · exact ⟨_, written_rbac⟩
  · exact ⟨_, written_dom⟩
  · exact ⟨_, written_root⟩
  · exact ⟨_, written_noRes⟩
  · exact ⟨_, written_noUsers⟩
  · exact ⟨_, written_ip⟩
  · exact ⟨_, written_key⟩
  · exact ⟨_, written_key2⟩
  · exact ⟨_, written_res⟩
  · exact ⟨_, written_abac⟩
  · exact ⟨_, written_all⟩
  · exact ⟨_, written_pat⟩
  · exact ⟨_, written_glob⟩
  · exact ⟨_, written_custom⟩

omit [IterOrder] in
/-- A matcher that calls a function the model does not have throws for every request and rule. -/
theorem unknown_function (hL : Faithful lib) {c : Cond} {text : Str} (ht : c.WrittenAs text)
    (heap : List RM) {N : Naming} {f : Str} {n : Nat} (hf : (f, n) ∈ c.calls) (hN : N.fn (lower f) = none) :
    holds lib heap N text = .throw .parse := by
  have hk : ∀ c : Cond, (f, n) ∈ c.calls → ¬ N.Knows c.ast.tree := by
    intro c
    induction c with
    | eq a b => simp [Cond.calls]
    | ne a b => simp [Cond.calls]
    | test g a more =>
      intro h hk
      simp only [Cond.calls, List.mem_singleton, Prod.mk.injEq] at h
      simp only [Cond.ast, Ast.tree, Naming.Knows, ← h.1, hN, reduceCtorEq, false_and,
        exists_false] at hk
    | and a b iha ihb =>
      intro h hk
      simp only [Cond.ast, Ast.tree, Naming.Knows, Naming.KnowsAll] at hk
      rcases List.mem_append.mp h with h | h
      · exact iha h hk.1
      · exact ihb h hk.2.1
    | or a b iha ihb =>
      intro h hk
      simp only [Cond.ast, Ast.tree, Naming.Knows, Naming.KnowsAll] at hk
      rcases List.mem_append.mp h with h | h
      · exact iha h hk.1
      · exact ihb h hk.2.1
    | group a ih =>
      intro h hk
      exact ih h (by simpa only [Cond.ast, Ast.tree] using hk)
  unfold holds
  rw [hL.reads _ _ ht.read]
  simp only
  rw [if_neg (hk c hf)]

omit [IterOrder] in
/-- C105 is false: the matcher of rbac_model_matcher_using_in_op.conf is refused whatever its names
mean; those of glob_model.conf and keymatch_custom_model.conf are, in every model without a grouping
type of that name in any case. -/
theorem C105_fails (hL : Faithful lib) (heap : List RM) :
    (∀ N, holds lib heap N mIn = .throw .parse) ∧
    (∀ m rt pt vals rule, (∀ k, lower k = c!"globmatch" → m.find c!"g" k = none) →
      holds lib heap (naming m rt pt vals rule) mGlob = .throw .parse) ∧
    (∀ m rt pt vals rule, (∀ k, lower k = c!"keymatchcustom" → m.find c!"g" k = none) →
      holds lib heap (naming m rt pt vals rule) mCustom = .throw .parse) := by
  refine ⟨?_, ?_, ?_⟩
  · intro N
    unfold holds
    rw [hL.refuses mIn (by rfl)]
  · intro m rt pt vals rule h
    refine unknown_function hL written_glob heap (f := c!"globMatch") (n := 2) (by decide) ?_
    have h1 : UMap.get lowBuiltins (lower c!"globMatch") = none := by decide
    simp only [naming, functions, h1]
    rw [h _ (by decide)]
    rfl
  · intro m rt pt vals rule h
    refine unknown_function hL written_custom heap (f := c!"keyMatchCustom") (n := 2) (by decide) ?_
    have h1 : UMap.get lowBuiltins (lower c!"keyMatchCustom") = none := by decide
    simp only [naming, functions, h1]
    rw [h _ (by decide)]
    rfl

/-- Non-vacuity of C105: such a library and such models exist. -/
example : Faithful (stdLib noRx) ∧ ∀ k, (aclModel (.vector [alice])).find c!"g" k = none :=
  ⟨stdLib_faithful _, fun _ => rfl⟩

/-! ## C106 -/

omit [IterOrder] in
/-- C106: a matcher that negates a condition, `!` before its text, is refused for every request and
rule: no negation is ignored. -/
theorem C106_negation (hL : Faithful lib) {c : Cond} {text : Str} (ht : c.WrittenAs text)
    (hsize : (c.ast.words 0).length < 10000) (heap : List RM) (N : Naming) :
    holds lib heap N ('!' :: text) = .throw .parse := by
  obtain ⟨l, z, hl, rfl⟩ := ht.laidOut
  have hs := shape c.ast 0
  have hwf := words_wf c.ast 0 (cond_wf ht.wf)
  have hlex := lex_layout hl hs.chain hwf
  have hp : prep ('!' :: layout l z) = '!' :: prep (layout l z) := by
    unfold prep
    rw [rd_cons (by decide), rd_cons (by decide)]
    rfl
  obtain ⟨w, ws, hw, hst⟩ : ∃ w ws, c.ast.words 0 = w :: ws ∧ w.starts = true := by
    obtain ⟨w, h1, h2⟩ := hs.first
    cases hc : c.ast.words 0 with
    | nil => rw [hc] at h1; cases h1
    | cons a b => rw [hc] at h1; cases h1; exact ⟨_, _, rfl, h2⟩
  -- the text does not begin with `=`
  have heq : ∀ u, prep (layout l z) ≠ '=' :: u := by
    intro u hu
    rw [hu] at hlex
    simp only [lex, List.length_cons, lexN, show Exprtk.isBlank '=' = false by decide,
      show ('=').isAlpha = false by decide, show ('=').isDigit = false by decide,
      Bool.false_eq_true, if_false, show ('=' : Char) ≠ '\'' by decide] at hlex
    have hop : ∃ rest, scanOperator ('=' :: u) = .ok (.op .eq, rest) := by
      cases u with
      | nil => exact ⟨_, rfl⟩
      | cons d u =>
        by_cases hd : d = '='
        · subst hd; exact ⟨_, rfl⟩
        · exact ⟨d :: u, by simp [scanOperator, hd]⟩
    obtain ⟨rest, hop⟩ := hop
    rw [hop] at hlex
    simp only [Read.bind] at hlex
    cases hx : lexN u.length rest with
    | reject => rw [hx] at hlex; cases hlex
    | outside => rw [hx] at hlex; cases hlex
    | ok us =>
      rw [hx] at hlex
      have := Read.ok.inj hlex
      rw [hw, List.map_cons, List.cons.injEq] at this
      cases w <;> simp [Word.starts] at hst <;> simp [Word.tok] at this
  have hbang : lex ('!' :: prep (layout l z)) = .ok (.bang :: (c.ast.words 0).map Word.tok) := by
    have hop : scanOperator ('!' :: prep (layout l z)) = .ok (.bang, prep (layout l z)) := by
      cases hx : prep (layout l z) with
      | nil => rfl
      | cons d u =>
        have hd : d ≠ '=' := fun h => heq u (by rw [hx, h])
        simp [scanOperator, hd]
    simp only [lex, List.length_cons, lexN, show Exprtk.isBlank '!' = false by decide,
      show ('!').isAlpha = false by decide, show ('!').isDigit = false by decide,
      Bool.false_eq_true, if_false, show ('!' : Char) ≠ '\'' by decide, hop, Read.bind]
    rw [show lexN (prep (layout l z)).length (prep (layout l z)) = _ from hlex]
  have hread : Exprtk.read ('!' :: layout l z) = .reject := by
    unfold Exprtk.read
    rw [hp, hbang]
    simp only [Read.bind]
    rw [if_neg (by simp)]
    have ha : assemble (.bang :: (c.ast.words 0).map Word.tok)
        = .ok (.bang :: (c.ast.words 0).map Word.tok) := by
      have h0 := assemble_words hs.chain hwf (by omega)
      have h1 : insertMul ((c.ast.words 0).map Word.tok) = (c.ast.words 0).map Word.tok :=
        insertMul_id (somePair_false hs.chain hwf (fun v w h _ _ => mul_pair v w h))
      have h2 := somePair_false (f := joinable) hs.chain hwf (fun v w h _ _ => join_pair v w h)
      have h3 := somePair_false (f := groupPair) hs.chain hwf (fun v w h _ _ => group_pair v w h)
      have h4 := somePair_false (f := badPair) hs.chain hwf (fun v w h _ _ => bad_pair v w h)
      have h5 : ((c.ast.words 0).map Word.tok).map replaceTok = (c.ast.words 0).map Word.tok := by
        rw [List.map_map]
        exact List.map_congr_left (fun w h => replace_id w (hwf w h))
      have hj : joinable .bang w.tok = false := by
        cases w <;> simp [Word.starts] at hst <;> rfl
      have g1 : insertMul (.bang :: (c.ast.words 0).map Word.tok)
          = .bang :: (c.ast.words 0).map Word.tok := by
        have hm : mulBetween .bang w.tok = false := by cases w.tok <;> simp [mulBetween]
        rw [hw] at h1 ⊢
        simp only [List.map_cons] at h1 ⊢
        simp only [insertMul, hm, Bool.false_eq_true, if_false, h1]
      have pair : ∀ f : Tok → Tok → Bool, f .bang w.tok = false →
          somePair f ((c.ast.words 0).map Word.tok) = false →
          somePair f (.bang :: (c.ast.words 0).map Word.tok) = false := by
        intro f hb hf
        rw [hw] at hf ⊢
        simp only [List.map_cons] at hf ⊢
        simp only [somePair, hb, hf, Bool.or_false]
      unfold assemble
      rw [g1, pair _ hj h2, pair _ rfl h3, List.map_cons, h5,
        show replaceTok .bang = .bang from rfl, pair _ rfl h4]
      simp
      omega
    rw [ha]
    have hb : ∀ ts, parseE 400 0 (.bang :: ts) = .reject := by
      intro ts
      rw [parseE]
      rfl
    simp only [List.length_cons, corpus, hb]
    rfl
  unfold holds
  rw [hL.refuses _ hread]

/-- Non-vacuity of C106: a negated group. -/
example : ∀ lib, Faithful lib → ∀ heap N,
    holds lib heap N c!"!(r.sub == p.sub && r.act == p.act)" = .throw .parse := by
  intro lib hL heap N
  have hw : (Cond.group noResCond).WrittenAs c!"(r.sub == p.sub && r.act == p.act)" :=
    writtenAs_of [0, 0, 1, 1, 1, 1, 1, 1, 0] (by decide +kernel)
  exact C106_negation hL hw (by decide +kernel) heap N

end MatcherProps
end Casbin
