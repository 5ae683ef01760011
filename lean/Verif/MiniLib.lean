import Verif.DecisionMain
import Verif.Fixtures

/-!
# A concrete expression library for examples

`miniLib` reads the matcher texts used in the examples; `verdict_compute` evaluates the
specification on concrete data.
-/

namespace Casbin
namespace Fixtures

def eqv (x y : Str) : Expr := .op c!"==" [.var x, .var y]
def andE (a b : Expr) : Expr := .op c!"and" [a, b]

/-- The tree of `mAcl`. -/
def aclTree : Expr :=
  andE (andE (eqv c!"r.sub" c!"p.sub") (eqv c!"r.obj" c!"p.obj")) (eqv c!"r.act" c!"p.act")

/-- The tree of `mRbac`. -/
def rbacTree : Expr :=
  andE (andE (.call c!"g" [.var c!"r.sub", .var c!"p.sub"]) (eqv c!"r.obj" c!"p.obj"))
    (eqv c!"r.act" c!"p.act")

/-- The matcher of examples/rbac_with_domains_model.conf and its tree. -/
def mDom : Str :=
  c!"g(r.sub, p.sub, r.dom) && r.dom == p.dom && r.obj == p.obj && r.act == p.act"
def domTree : Expr :=
  andE (andE (andE (.call c!"g" [.var c!"r.sub", .var c!"p.sub", .var c!"r.dom"])
    (eqv c!"r.dom" c!"p.dom")) (eqv c!"r.obj" c!"p.obj")) (eqv c!"r.act" c!"p.act")

/-- A matcher that looks at the subject only. -/
def mSub : Str := c!"r.sub == p.sub"
/-- A matcher that every rule satisfies. -/
def mTrue : Str := c!"1 == 1"
/-- A matcher with a rule text. -/
def mEval : Str := c!"eval(p.sub_rule)"
/-- A matcher with an unknown name. -/
def mBad : Str := c!"r.sub == p.nobody"

/-- A library that knows the texts of the examples. -/
def miniLib : ExprLib where
  parse s :=
    if s = mAcl then some aclTree
    else if s = mRbac then some rbacTree
    else if s = mSub then some (eqv c!"r.sub" c!"p.sub")
    else if s = mTrue then some (.op c!"==" [.num 1, .num 1])
    else if s = mDom then some domTree
    else if s = mBad then some (eqv c!"r.sub" c!"p.nobody")
    else none
  prim o vs :=
    if o = c!"==" then
      match vs with
      | [a, b] => Val.ofBool (decide (a = b))
      | _ => .nan
    else if o = c!"and" then Val.ofBool (vs.all Val.truthy)
    else .nan
  builtin _ _ := .ok (.num 0)

end Fixtures

variable [IterOrder]

/-- The functions of the model as a table. -/
def stdFuns (m : Model) : UMap Str FunRef :=
  addAllFuns (addAllFuns [] Evaluator.builtins) (gFunctions m)

/-- `holds` by computation. -/
def holdsC (lib : ExprLib) (m : Model) (heap : List RM) (vars : UMap Str Str) (text : Str) :
    Outcome Bool :=
  match lib.parse text with
  | none => .throw .parse
  | some e =>
    if resolves vars (stdFuns m) e then
      (evalExpr lib vars (stdFuns m) e heap).1.map Val.truthy
    else .throw .parse

theorem holds_compute (lib : ExprLib) {m : Model} {heap : List RM} (hG : GoodRoles m heap)
    (hn : (m.secMap c!"g").keys.Nodup)
    (hl : ∀ k a, m.find c!"g" k = some a → lower k = k) (rt pt vals : List Str) (rule : Rule) (text : Str) :
    holds lib heap (naming m rt pt vals rule) text
      = holdsC lib m heap (bindings rt pt vals rule) text := by
  have hf : (stdFuns m).get = (naming m rt pt vals rule).fn :=
    get_loaded hn hl [] (by intro f fr h; simp at h)
  unfold holds holdsC
  cases lib.parse text with
  | none => rfl
  | some e =>
    simp only
    by_cases hr : resolves (bindings rt pt vals rule) (stdFuns m) e = true
    · rw [if_pos ((resolves_iff (N := naming m rt pt vals rule) rfl hf e).mp hr), if_pos hr,
        evalExpr_denote lib hG.wf hG.plain (N := naming m rt pt vals rule) rfl hf (ptr_functions hG)]
    · rw [if_neg (fun h => hr ((resolves_iff (N := naming m rt pt vals rule) rfl hf e).mpr h)),
        if_neg hr]

/-- `verdict` by computation. -/
def verdictC (lib : ExprLib) (m : Model) (heap : List RM) (exp : Str) (rt pt vals : List Str)
    (rule : Rule) : Outcome Bool := do
  let text ← ruleText exp pt rule
  holdsC lib m heap (bindings rt pt vals rule) text

theorem verdict_compute (lib : ExprLib) {m : Model} {heap : List RM} (hG : GoodRoles m heap)
    (hn : (m.secMap c!"g").keys.Nodup)
    (hl : ∀ k a, m.find c!"g" k = some a → lower k = k) (exp : Str) (rt pt vals : List Str) (rule : Rule) :
    verdict lib m heap exp rt pt vals rule = verdictC lib m heap exp rt pt vals rule := by
  unfold verdict verdictC
  cases ruleText exp pt rule with
  | throw e => rfl
  | ub u => rfl
  | ok t => exact holds_compute lib hG hn hl rt pt vals rule t

namespace Fixtures

def rA : Assertion := asrt c!"r" c!"sub, obj, act" [c!"r_sub", c!"r_obj", c!"r_act"]
def pTok : List Str := [c!"p_sub", c!"p_obj", c!"p_act"]
def pA (P : Policies) : Assertion := asrt c!"p" c!"sub, obj, act" pTok P
def eA : Assertion := asrt c!"e" c!"some(where (p.eft == allow))" []

def pTokE : List Str := [c!"p_sub", c!"p_obj", c!"p_act", c!"p_eft"]
/-- A policy definition with an effect column. -/
def pE (P : Policies) : Assertion := asrt c!"p" c!"sub, obj, act, eft" pTokE P
def eE (eff : Str) : Assertion := asrt c!"e" eff []

/-- The ACL model with an effect column and the given effect expression. -/
def eftModel (eff : Str) (P : Policies) : Model :=
  [(c!"m", [(c!"m", asrt c!"m" mAcl [])]), (c!"r", rDef), (c!"p", [(c!"p", pE P)]),
   (c!"e", [(c!"e", eE eff)])]

def eft (eff : Str) (P : List Rule) : Enforcer := enforcer (eftModel eff (.vector P))

omit [IterOrder] in
theorem good_noG {m : Model} (h : m.get c!"g" = none) : GoodRoles m (enforcer m).heap :=
  ⟨by simp [enforcer, RM.WF_new], by simp [enforcer, RM.new], by
    intro k a i hk
    simp [Model.find, h] at hk⟩

omit [IterOrder] in
theorem consistent_acl (lib : ExprLib) (P : Policies) :
    Consistent lib (enforcer (aclModel P)) rA (pA P) where
  defs := ⟨rfl, rfl, by decide, by decide, by show ∀ t ∈ pTok, _; decide,
    by decide, by show (pTok.map polName).Nodup; decide, by
    simp [aclModel, Model.secMap, enforcer, UMap.get],
    by intro k a h; exact absurd h (by simp [aclModel, Model.find, enforcer, UMap.get])⟩
  roles := good_noG rfl
  eval := evOK_new _ _ _ _

omit [IterOrder] in
theorem consistent_eft (lib : ExprLib) (eff : Str) (P : Policies) :
    Consistent lib (enforcer (eftModel eff P)) rA (pE P) where
  defs := ⟨rfl, rfl, by decide, by decide, by show ∀ t ∈ pTokE, _; decide,
    by decide, by show (pTokE.map polName).Nodup; decide, by
    simp [eftModel, Model.secMap, enforcer, UMap.get],
    by intro k a h; exact absurd h (by simp [eftModel, Model.find, enforcer, UMap.get])⟩
  roles := good_noG rfl
  eval := evOK_new _ _ _ _

omit [IterOrder] in
theorem request_acl (P : Policies) (vals : List Str) (h : vals.length = 3) :
    Request miniLib (enforcer (aclModel P)) rA (pA P) eA [] mAcl vals :=
  ⟨consistent_acl _ P, rfl, rfl, rfl, by decide, h⟩

omit [IterOrder] in
theorem request_eft (eff : Str) (P : Policies) (vals : List Str) (h : vals.length = 3) :
    Request miniLib (enforcer (eftModel eff P)) rA (pE P) (eE eff) [] mAcl vals :=
  ⟨consistent_eft _ eff P, rfl, rfl, rfl, by decide, h⟩

/-- Evaluation of the ACL matcher on a concrete rule. -/
theorem verdict_acl (P : Policies) (vals : List Str) (rule : Rule) :
    verdict miniLib (aclModel P) [RM.new 10] mAcl rA.tokens (pA P).tokens vals rule
      = verdictC miniLib (aclModel P) [RM.new 10] mAcl rA.tokens (pA P).tokens vals rule :=
  verdict_compute _ (consistent_acl miniLib P).roles (consistent_acl miniLib P).defs.gNodup
    (consistent_acl miniLib P).defs.gLower _ _ _ _ _

theorem verdict_eft (eff : Str) (P : Policies) (vals : List Str) (rule : Rule) :
    verdict miniLib (eftModel eff P) [RM.new 10] mAcl rA.tokens (pE P).tokens vals rule
      = verdictC miniLib (eftModel eff P) [RM.new 10] mAcl rA.tokens (pE P).tokens vals rule :=
  verdict_compute _ (consistent_eft miniLib eff P).roles
    (consistent_eft miniLib eff P).defs.gNodup (consistent_eft miniLib eff P).defs.gLower _ _ _ _ _

/-- What the end-to-end properties assume of the expression library: it reads the matcher texts of
examples/basic_model.conf, examples/rbac_model.conf and examples/rbac_with_domains_model.conf as the
trees above, `==` compares strings and `and` is conjunction. -/
structure SoundLib (lib : ExprLib) : Prop where
  acl : lib.parse mAcl = some aclTree
  rbac : lib.parse mRbac = some rbacTree
  dom : lib.parse mDom = some domTree
  eq : ∀ a b, lib.prim c!"==" [.str a, .str b] = Val.ofBool (decide (a = b))
  and : ∀ a b, (lib.prim c!"and" [a, b]).truthy = (a.truthy && b.truthy)

omit [IterOrder] in
theorem miniLib_sound : SoundLib miniLib where
  acl := rfl
  rbac := rfl
  dom := rfl
  eq := fun a b => by simp [miniLib]
  and := fun a b => by simp [miniLib]

omit [IterOrder] in
theorem holds_of_knows {lib : ExprLib} {heap : List RM} {N : Naming} {text : Str} {e : Expr}
    (hp : lib.parse text = some e) (hk : N.Knows e) :
    holds lib heap N text = (denote lib heap N e).map Val.truthy := by
  unfold holds
  simp only [hp]
  rw [if_pos hk]

omit [IterOrder] in
theorem holds_mAcl {lib : ExprLib} (hL : SoundLib lib) (heap : List RM) {N : Naming}
    {a b c x y z : Str} (g1 : N.var (lower c!"r.sub") = some a) (g2 : N.var (lower c!"r.obj") = some b)
    (g3 : N.var (lower c!"r.act") = some c) (g4 : N.var (lower c!"p.sub") = some x)
    (g5 : N.var (lower c!"p.obj") = some y) (g6 : N.var (lower c!"p.act") = some z) :
    holds lib heap N mAcl = .ok (decide (a = x ∧ b = y ∧ c = z)) := by
  rw [holds_of_knows hL.acl (by
    simp [aclTree, andE, eqv, Naming.Knows, Naming.KnowsAll, g1, g2, g3, g4, g5, g6])]
  simp only [aclTree, andE, eqv, denote, denoteAll, g1, g2, g3, g4, g5, g6, Outcome.map_ok, hL.eq,
    hL.and, Val.truthy_ofBool]
  congr 1
  simp [Bool.and_assoc]

omit [IterOrder] in
/-- The ACL matcher on any request and rule. -/
theorem verdict_mAcl {lib : ExprLib} (hL : SoundLib lib) (m : Model) (heap : List RM)
    (pt' : List Str) (a b c x y z : Str) (rest : List Str) :
    verdict lib m heap mAcl rA.tokens (pTok ++ pt') [a, b, c] ([x, y, z] ++ rest)
      = .ok (decide (a = x ∧ b = y ∧ c = z)) := by
  have hev : hasEval mAcl = false := by decide
  simp only [verdict, ruleText, hev, Bool.false_eq_true, if_false, Outcome.ok_bind]
  exact holds_mAcl hL heap rfl rfl rfl rfl rfl rfl

omit [IterOrder] in
/-- The RBAC matcher on any request and rule, for a model with grouping type `g`. -/
theorem verdict_mRbac {lib : ExprLib} (hL : SoundLib lib) (m : Model) (heap : List RM)
    {ga : Assertion} (hg : m.find c!"g" c!"g" = some ga) (hn : countChar '_' ga.value = 2)
    (a b c x y z : Str) :
    verdict lib m heap mRbac rA.tokens pTok [a, b, c] [x, y, z]
      = .ok (linked heap ga.rm a x && decide (b = y ∧ c = z)) := by
  have hev : hasEval mRbac = false := by decide
  simp only [verdict, ruleText, hev, Bool.false_eq_true, if_false, Outcome.ok_bind]
  generalize hN : naming m rA.tokens pTok [a, b, c] [x, y, z] = N
  have g1 : N.var (lower c!"r.sub") = some a := by rw [← hN]; rfl
  have g2 : N.var (lower c!"r.obj") = some b := by rw [← hN]; rfl
  have g3 : N.var (lower c!"r.act") = some c := by rw [← hN]; rfl
  have g4 : N.var (lower c!"p.sub") = some x := by rw [← hN]; rfl
  have g5 : N.var (lower c!"p.obj") = some y := by rw [← hN]; rfl
  have g6 : N.var (lower c!"p.act") = some z := by rw [← hN]; rfl
  have g7 : N.fn (lower c!"g") = some (.g ga.rm 2) := by
    rw [← hN, show lower c!"g" = c!"g" by decide]
    have : UMap.get lowBuiltins c!"g" = none := by decide
    simp [naming, functions, this, hg, hn]
  rw [holds_of_knows hL.rbac (by
    simp [rbacTree, andE, eqv, Naming.Knows, Naming.KnowsAll, g1, g2, g3, g4, g5, g6, g7,
      FunRef.arity])]
  simp only [rbacTree, andE, eqv, denote, denoteAll, g1, g2, g3, g4, g5, g6, g7, Outcome.map_ok,
    hL.eq, hL.and, Val.truthy_ofBool, FunRef.meaning, allStrs, Option.map_some]
  congr 1
  simp [Bool.and_assoc]

/-- The tokens of examples/rbac_with_domains_model.conf. -/
def rTokD : List Str := [c!"r_sub", c!"r_dom", c!"r_obj", c!"r_act"]
def pTokD : List Str := [c!"p_sub", c!"p_dom", c!"p_obj", c!"p_act"]

omit [IterOrder] in
/-- The domain matcher on any request and rule, for a model with grouping type `g`. -/
theorem verdict_mDom {lib : ExprLib} (hL : SoundLib lib) (m : Model) (heap : List RM)
    {ga : Assertion} (hg : m.find c!"g" c!"g" = some ga) (hn : countChar '_' ga.value = 3)
    (a d b c x e y z : Str) :
    verdict lib m heap mDom rTokD pTokD [a, d, b, c] [x, e, y, z]
      = .ok (linked heap ga.rm (inDomain d a) (inDomain d x) && decide (d = e ∧ b = y ∧ c = z)) := by
  have hev : hasEval mDom = false := by decide
  simp only [verdict, ruleText, hev, Bool.false_eq_true, if_false, Outcome.ok_bind]
  generalize hN : naming m rTokD pTokD [a, d, b, c] [x, e, y, z] = N
  have g1 : N.var (lower c!"r.sub") = some a := by rw [← hN]; rfl
  have g1' : N.var (lower c!"r.dom") = some d := by rw [← hN]; rfl
  have g2 : N.var (lower c!"r.obj") = some b := by rw [← hN]; rfl
  have g3 : N.var (lower c!"r.act") = some c := by rw [← hN]; rfl
  have g4 : N.var (lower c!"p.sub") = some x := by rw [← hN]; rfl
  have g4' : N.var (lower c!"p.dom") = some e := by rw [← hN]; rfl
  have g5 : N.var (lower c!"p.obj") = some y := by rw [← hN]; rfl
  have g6 : N.var (lower c!"p.act") = some z := by rw [← hN]; rfl
  have g7 : N.fn (lower c!"g") = some (.g ga.rm 3) := by
    rw [← hN, show lower c!"g" = c!"g" by decide]
    have : UMap.get lowBuiltins c!"g" = none := by decide
    simp [naming, functions, this, hg, hn]
  rw [holds_of_knows hL.dom (by
    simp [domTree, andE, eqv, Naming.Knows, Naming.KnowsAll, g1, g1', g2, g3, g4, g4', g5, g6, g7,
      FunRef.arity])]
  simp only [domTree, andE, eqv, denote, denoteAll, g1, g1', g2, g3, g4, g4', g5, g6, g7,
    Outcome.map_ok, hL.eq, hL.and, Val.truthy_ofBool, FunRef.meaning, allStrs, Option.map_some]
  congr 1
  simp [Bool.and_assoc]

omit [IterOrder] in
theorem text_noEval {exp : Str} (h : hasEval exp = false) (hne : exp ≠ []) (pt : List Str)
    (rule : Rule) : ruleText exp pt rule ≠ .ok [] := by
  simp [ruleText, h, hne]

omit [IterOrder] in
theorem satisfies_eft (eff : Str) (P : Policies) (a b c x y z w : Str) :
    Satisfies miniLib (enforcer (eftModel eff P)) mAcl rA (pE P) [a, b, c] [x, y, z, w] ↔
      a = x ∧ b = y ∧ c = z := by
  have := verdict_mAcl miniLib_sound (eftModel eff P) [RM.new 10] [c!"p_eft"] a b c x y z [w]
  unfold Satisfies
  rw [show verdict miniLib (enforcer (eftModel eff P)).model (enforcer (eftModel eff P)).heap mAcl
    rA.tokens (pE P).tokens [a, b, c] [x, y, z, w] = _ from this]
  simp

omit [IterOrder] in
theorem evaluates_eft (eff : Str) (P : Policies) (a b c x y z w : Str) :
    Evaluates miniLib (enforcer (eftModel eff P)) mAcl rA (pE P) [a, b, c] [x, y, z, w] :=
  ⟨rfl, text_noEval (by decide) (by decide) _ _,
    ⟨_, verdict_mAcl miniLib_sound (eftModel eff P) [RM.new 10] [c!"p_eft"] a b c x y z [w]⟩⟩

omit [IterOrder] in
theorem satisfies_acl (P : Policies) (a b c x y z : Str) :
    Satisfies miniLib (enforcer (aclModel P)) mAcl rA (pA P) [a, b, c] [x, y, z] ↔
      a = x ∧ b = y ∧ c = z := by
  have := verdict_mAcl miniLib_sound (aclModel P) [RM.new 10] [] a b c x y z []
  unfold Satisfies
  rw [show verdict miniLib (enforcer (aclModel P)).model (enforcer (aclModel P)).heap mAcl
    rA.tokens (pA P).tokens [a, b, c] [x, y, z] = _ from this]
  simp

omit [IterOrder] in
theorem evaluates_acl (P : Policies) (a b c x y z : Str) :
    Evaluates miniLib (enforcer (aclModel P)) mAcl rA (pA P) [a, b, c] [x, y, z] :=
  ⟨rfl, text_noEval (by decide) (by decide) _ _,
    ⟨_, verdict_mAcl miniLib_sound (aclModel P) [RM.new 10] [] a b c x y z []⟩⟩

end Fixtures
end Casbin
