import Verif.ConditionLemmas

/-!
# The matchers of the example models as conditions
-/

namespace Casbin

open Exprtk

/-! ## Checking that a text is a written condition -/

instance (x : Str) : Decidable (VarName x) :=
  decidable_of_iff (Evaluator.validSymbol x = true ∧ '.' ∈ x ∧ ¬ c!".." <:+: x)
    ⟨fun h => ⟨h.1, h.2.1, h.2.2⟩, fun h => ⟨h.valid, h.dot, h.noDots⟩⟩

instance (f : Str) : Decidable (FunName f) :=
  decidable_of_iff (Evaluator.validSymbol f = true ∧ '.' ∉ f ∧ f.map Char.toLower ∉ reservedSymbols)
    ⟨fun h => ⟨h.1, h.2.1, h.2.2⟩, fun h => ⟨h.valid, h.noDot, h.free⟩⟩

instance (s : Str) : Decidable (Literal s) :=
  decidable_of_iff ((∀ c ∈ s, ' ' ≤ c ∧ c ≤ '~' ∧ c ≠ '"' ∧ c ≠ '\'' ∧ c ≠ '\\') ∧
      ¬ c!"&&" <:+: s ∧ ¬ c!"||" <:+: s)
    ⟨fun h => ⟨h.1, h.2.1, h.2.2⟩, fun h => ⟨h.chars, h.noAnd, h.noOr⟩⟩

instance (a : Operand) : Decidable a.WF :=
  match a with
  | .field x => inferInstanceAs (Decidable (VarName x))
  | .lit s => inferInstanceAs (Decidable (Literal s))

def Cond.decWF : (c : Cond) → Decidable c.WF
  | .eq a b => inferInstanceAs (Decidable (a.WF ∧ b.WF))
  | .ne a b => inferInstanceAs (Decidable (a.WF ∧ b.WF))
  | .test f a more => inferInstanceAs (Decidable (FunName f ∧
      lower f ∉ [c!"keyget", c!"keyget2", c!"keyget3"] ∧ a.WF ∧ ∀ x ∈ more, x.WF))
  | .and a b => @instDecidableAnd _ _ a.decWF b.decWF
  | .or a b => @instDecidableAnd _ _ a.decWF b.decWF
  | .group a => a.decWF

instance (c : Cond) : Decidable c.WF := c.decWF

def decSpaced : (l : List (Str × Word)) → Decidable (Spaced l)
  | [] => isTrue trivial
  | [_] => isTrue trivial
  | (_, v) :: (b, w) :: ws =>
    @instDecidableAnd (v.lettered ∧ w.lettered → b ≠ []) _ inferInstance (decSpaced ((b, w) :: ws))

instance (l : List (Str × Word)) : Decidable (Spaced l) := decSpaced l

/-- Words with the given numbers of spaces before them. -/
def withBlanks : List Word → List Nat → List (Str × Word)
  | w :: ws, n :: ns => (List.replicate n ' ', w) :: withBlanks ws ns
  | _, _ => []

theorem withBlanks_blank : ∀ (ws : List Word) (ns : List Nat),
    ∀ b ∈ (withBlanks ws ns).map Prod.fst, Blank b
  | [], _ => by simp [withBlanks]
  | _ :: _, [] => by simp [withBlanks]
  | w :: ws, n :: ns => by
    intro b hb
    simp only [withBlanks, List.map_cons, List.mem_cons] at hb
    rcases hb with rfl | hb
    · intro c hc
      left
      exact List.eq_of_mem_replicate hc
    · exact withBlanks_blank ws ns b hb

theorem laysOut_of {ws : List Word} (ns : List Nat)
    (h : (withBlanks ws ns).map Prod.snd = ws ∧ Spaced (withBlanks ws ns)) :
    LaysOut ws (withBlanks ws ns) [] :=
  ⟨h.1, withBlanks_blank _ _, by simp [Blank], h.2⟩

theorem writtenAs_of {c : Cond} {text : Str} (ns : List Nat)
    (h : c.WF ∧ c.ast.depth 0 ≤ 400 ∧ (c.ast.words 0).length ≤ 10000 ∧
      (withBlanks (c.ast.words 0) ns).map Prod.snd = c.ast.words 0 ∧
      Spaced (withBlanks (c.ast.words 0) ns) ∧ text = layout (withBlanks (c.ast.words 0) ns) []) :
    c.WrittenAs text :=
  ⟨h.1, h.2.1, h.2.2.1, _, _, laysOut_of ns ⟨h.2.2.2.1, h.2.2.2.2.1⟩, h.2.2.2.2.2⟩

namespace Fixtures

/-- A regular expression library that finds nothing. -/
def noRx : RxLib := fun _ _ => .ok none

/-! ## The matchers -/

def rSub : Operand := .field c!"r.sub"
def rObj : Operand := .field c!"r.obj"
def rAct : Operand := .field c!"r.act"
def rDom : Operand := .field c!"r.dom"
def pSub : Operand := .field c!"p.sub"
def pObj : Operand := .field c!"p.obj"
def pAct : Operand := .field c!"p.act"
def pDom : Operand := .field c!"p.dom"
def sameObj : Cond := .eq rObj pObj
def sameAct : Cond := .eq rAct pAct

/-- examples/basic_model.conf. -/
def aclCond : Cond := .and (.and (.eq rSub pSub) sameObj) sameAct
/-- examples/rbac_model.conf. -/
def rbacCond : Cond := .and (.and (.test c!"g" rSub [pSub]) sameObj) sameAct
/-- examples/rbac_with_domains_model.conf. -/
def domCond : Cond :=
  .and (.and (.and (.test c!"g" rSub [pSub, rDom]) (.eq rDom pDom)) sameObj) sameAct
/-- examples/basic_with_root_model.conf. -/
def rootCond : Cond := .or aclCond (.eq rSub (.lit c!"root"))
def mRoot : Str := c!"r.sub == p.sub && r.obj == p.obj && r.act == p.act || r.sub == \"root\""
/-- examples/basic_without_resources_model.conf. -/
def noResCond : Cond := .and (.eq rSub pSub) sameAct
def mNoRes : Str := c!"r.sub == p.sub && r.act == p.act"
/-- examples/basic_without_users_model.conf. -/
def noUsersCond : Cond := .and sameObj sameAct
def mNoUsers : Str := c!"r.obj == p.obj && r.act == p.act"
/-- examples/ipmatch_model.conf. -/
def ipCond : Cond := .and (.and (.test c!"ipMatch" rSub [pSub]) sameObj) sameAct
def mIp : Str := c!"ipMatch(r.sub, p.sub) && r.obj == p.obj && r.act == p.act"
/-- examples/keymatch_model.conf. -/
def keyCond : Cond :=
  .and (.and (.eq rSub pSub) (.test c!"keyMatch" rObj [pObj])) (.test c!"regexMatch" rAct [pAct])
def mKey : Str := c!"r.sub == p.sub && keyMatch(r.obj, p.obj) && regexMatch(r.act, p.act)"
/-- examples/keymatch2_model.conf. -/
def key2Cond : Cond :=
  .and (.and (.eq rSub pSub) (.test c!"keyMatch2" rObj [pObj])) (.test c!"regexMatch" rAct [pAct])
def mKey2 : Str := c!"r.sub == p.sub && keyMatch2(r.obj, p.obj) && regexMatch(r.act, p.act)"
/-- examples/rbac_with_resource_roles_model.conf. -/
def resCond : Cond :=
  .and (.and (.test c!"g" rSub [pSub]) (.test c!"g2" rObj [pObj])) sameAct
def mRes : Str := c!"g(r.sub, p.sub) && g2(r.obj, p.obj) && r.act == p.act"

/-- examples/abac_model.conf. -/
def abacCond : Cond := .eq rSub (.field c!"r.obj.Owner")
def mAbac : Str := c!"r.sub == r.obj.Owner"
/-- examples/rbac_with_all_pattern_model.conf. -/
def allCond : Cond :=
  .and (.and (.and (.eq rSub pSub) (.test c!"g" rObj [pObj, rDom])) (.eq rDom pDom)) sameAct
def mAll : Str := c!"r.sub == p.sub && g(r.obj, p.obj, r.dom) && r.dom == p.dom && r.act == p.act"
/-- examples/rbac_with_pattern_model.conf. -/
def patCond : Cond :=
  .and (.and (.test c!"g" rSub [pSub]) (.test c!"g2" rObj [pObj])) (.test c!"regexMatch" rAct [pAct])
def mPat : Str := c!"g(r.sub, p.sub) && g2(r.obj, p.obj) && regexMatch(r.act, p.act)"
/-- examples/glob_model.conf. -/
def globCond : Cond :=
  .and (.and (.eq rSub pSub) (.test c!"globMatch" rObj [pObj])) sameAct
def mGlob : Str := c!"r.sub == p.sub && globMatch(r.obj, p.obj) && r.act == p.act"
/-- examples/keymatch_custom_model.conf. -/
def customCond : Cond :=
  .and (.and (.eq rSub pSub) (.test c!"keyMatchCustom" rObj [pObj]))
    (.test c!"regexMatch" rAct [pAct])
def mCustom : Str :=
  c!"r.sub == p.sub && keyMatchCustom(r.obj, p.obj) && regexMatch(r.act, p.act)"
/-- examples/rbac_model_matcher_using_in_op.conf. -/
def mIn : Str :=
  c!"g(r.sub, p.sub) && r.obj == p.obj && r.act == p.act || r.obj in ('data2', 'data3')"

theorem written_acl : aclCond.WrittenAs mAcl :=
  writtenAs_of [0, 1, 1, 1, 1, 1, 1, 1, 1, 1, 1] (by decide +kernel)
theorem written_rbac : rbacCond.WrittenAs mRbac :=
  writtenAs_of [0, 0, 0, 0, 1, 0, 1, 1, 1, 1, 1, 1, 1, 1] (by decide +kernel)
theorem written_dom : domCond.WrittenAs mDom :=
  writtenAs_of [0, 0, 0, 0, 1, 0, 1, 0, 1, 1, 1, 1, 1, 1, 1, 1, 1, 1, 1, 1] (by decide +kernel)
theorem written_root : rootCond.WrittenAs mRoot :=
  writtenAs_of [0, 1, 1, 1, 1, 1, 1, 1, 1, 1, 1, 1, 1, 1, 1] (by decide +kernel)
theorem written_noRes : noResCond.WrittenAs mNoRes :=
  writtenAs_of [0, 1, 1, 1, 1, 1, 1] (by decide +kernel)
theorem written_noUsers : noUsersCond.WrittenAs mNoUsers :=
  writtenAs_of [0, 1, 1, 1, 1, 1, 1] (by decide +kernel)
theorem written_ip : ipCond.WrittenAs mIp :=
  writtenAs_of [0, 0, 0, 0, 1, 0, 1, 1, 1, 1, 1, 1, 1, 1] (by decide +kernel)
theorem written_key : keyCond.WrittenAs mKey :=
  writtenAs_of [0, 1, 1, 1, 1, 0, 0, 0, 1, 0, 1, 1, 0, 0, 0, 1, 0] (by decide +kernel)
theorem written_key2 : key2Cond.WrittenAs mKey2 :=
  writtenAs_of [0, 1, 1, 1, 1, 0, 0, 0, 1, 0, 1, 1, 0, 0, 0, 1, 0] (by decide +kernel)
theorem written_res : resCond.WrittenAs mRes :=
  writtenAs_of [0, 0, 0, 0, 1, 0, 1, 1, 0, 0, 0, 1, 0, 1, 1, 1, 1] (by decide +kernel)

theorem written_abac : abacCond.WrittenAs mAbac := writtenAs_of [0, 1, 1] (by decide +kernel)
theorem written_all : allCond.WrittenAs mAll :=
  writtenAs_of [0, 1, 1, 1, 1, 0, 0, 0, 1, 0, 1, 0, 1, 1, 1, 1, 1, 1, 1, 1] (by decide +kernel)
theorem written_pat : patCond.WrittenAs mPat :=
  writtenAs_of [0, 0, 0, 0, 1, 0, 1, 1, 0, 0, 0, 1, 0, 1, 1, 0, 0, 0, 1, 0] (by decide +kernel)
theorem written_glob : globCond.WrittenAs mGlob :=
  writtenAs_of [0, 1, 1, 1, 1, 0, 0, 0, 1, 0, 1, 1, 1, 1] (by decide +kernel)
theorem written_custom : customCond.WrittenAs mCustom :=
  writtenAs_of [0, 1, 1, 1, 1, 0, 0, 0, 1, 0, 1, 1, 0, 0, 0, 1, 0] (by decide +kernel)

/-- What is known of exprtk is enough for the end-to-end properties of EndToEnd.lean. -/
theorem _root_.Casbin.Faithful.sound {lib : ExprLib} (hL : Faithful lib) : SoundLib lib where
  acl := hL.reads _ _ written_acl.read
  rbac := hL.reads _ _ written_rbac.read
  dom := hL.reads _ _ written_dom.read
  eq := hL.eq
  and a b := by simp [hL.and]

end Fixtures
end Casbin
