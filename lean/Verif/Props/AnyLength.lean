import Verif.Props.PolicyTexts
import Verif.Props.ResourceRoles
import Verif.Props.Matchers

/-!
# C68, C69, C70, C104, C107, C110: policies with rules of any length

`readDown` (Props/PolicyTexts.lean) reads rules of which one that grants ends the request; `readOut`
is the same for the other effect expressions.
-/

namespace Casbin
namespace TextProps

open Exprtk Enforcer EndToEnd DecisionProps Fixtures ModelProps MatcherProps

variable [IterOrder] {lib : ExprLib} {E : Enforcer} {r p e : Assertion} {matcher exp : Str}
  {vals : List Str}

/-- The answer that rules give when they are read from the first to the last: a rule that does not
have `n` values is an error; the first for which `ends` has an answer gives it; in the end the answer
is `last`. -/
def readOut (n : Nat) (ends : Rule → Option Bool) (last : Bool) : List Rule → Outcome Bool
  | [] => .ok last
  | rule :: rest =>
    if rule.length ≠ n then .throw .enforcer
    else match ends rule with
      | some b => .ok b
      | none => readOut n ends last rest

omit [IterOrder] in
theorem readOut_append {n : Nat} {ends : Rule → Option Bool} {last : Bool} {pre : List Rule}
    (h : ∀ y ∈ pre, y.length = n ∧ ends y = none) (rest : List Rule) :
    readOut n ends last (pre ++ rest) = readOut n ends last rest := by
  induction pre with
  | nil => rfl
  | cons y pre ih =>
    obtain ⟨h1, h2⟩ := h y (by simp)
    simp only [List.cons_append, readOut, h1, ne_eq, not_true_eq_false, if_false, h2]
    exact ih fun z hz => h z (by simp [hz])

omit [IterOrder] in
theorem readOut_all {n : Nat} {ends : Rule → Option Bool} {last : Bool} {l : List Rule}
    (h : ∀ y ∈ l, y.length = n ∧ ends y = none) : readOut n ends last l = .ok last := by
  have := readOut_append (last := last) h []
  simpa [readOut] using this

open Classical in
/-- The answer under any supported effect expression, for rules of any length and a matcher that has
a value for the rules of the declared length. -/
theorem answer_any (hR : Request lib E r p e matcher exp vals) (hs : Supported e.value)
    (hev : hasEval exp = false) (hc : candidates p vals ≠ [])
    (hV : ∀ rule ∈ candidates p vals, rule.length = p.tokens.length →
      ∃ b, verdict lib E.model E.heap exp r.tokens p.tokens vals rule = .ok b)
    {ends : Rule → Option Bool} {last : Bool}
    (hyes : ∀ rule ∈ candidates p vals, rule.length = p.tokens.length →
      Settles lib E exp e.value r p vals rule →
      ends rule = some (decide (HasEffect p.tokens rule .allow)))
    (hno : ∀ rule ∈ candidates p vals, rule.length = p.tokens.length →
      ¬ Settles lib E exp e.value r p vals rule → ends rule = none)
    (hlast : (∀ rule ∈ candidates p vals, rule.length = p.tokens.length) →
      (last = true ↔ e.value = c!"!some(where (p.eft == deny))" ∨
        (e.value = c!"some(where (p.eft == allow)) && !some(where (p.eft == deny))" ∧
          ∃ rule ∈ candidates p vals, Satisfies lib E exp r p vals rule ∧
            HasEffect p.tokens rule .allow))) :
    (E.enforceWithMatcher lib matcher (vals.map ReqVal.str)).1 =
      readOut p.tokens.length ends last (candidates p vals) := by
  have htext : ∀ rule : Rule, ruleText exp p.tokens rule ≠ .ok [] :=
    fun rule => by simp [ruleText, hev, hR.nonempty]
  have hE : ∀ {o : Outcome (Bool × Rule)},
      (E.enforceEx lib matcher (vals.map ReqVal.str) []).1 = o →
      (E.enforceWithMatcher lib matcher (vals.map ReqVal.str)).1 = o.map Prod.fst := by
    intro o ho
    unfold Enforcer.enforceWithMatcher
    rw [M.bind_run]
    rcases hx : E.enforceEx lib matcher (vals.map ReqVal.str) [] with ⟨o', E'⟩
    rw [hx] at ho
    subst ho
    cases o' <;> rfl
  have hpass : ∀ {l : List Rule}, (∀ y ∈ l, y ∈ candidates p vals) →
      (∀ y ∈ l, Passes lib E exp e.value r p vals y) →
      ∀ y ∈ l, y.length = p.tokens.length ∧ ends y = none := by
    intro l hl h y hy
    exact ⟨(h y hy).1.length, hno y (hl y hy) (h y hy).1.length (h y hy).2⟩
  rcases C125_in_order hR hs (fun rule _ _ => htext rule) hc [] with
    ⟨pre, rule, post, b, hl, hpre, hevr, hset, ho, hb⟩ | ⟨pre, bad, post, o, hl, hpre, hf, ho⟩ |
    ⟨hall, b, x, ho, hb⟩
  · have hm : rule ∈ candidates p vals := by rw [hl]; simp
    have he := hyes rule hm hevr.length hset
    rw [hE ho, hl, readOut_append (hpass (fun y hy => by rw [hl]; simp [hy]) hpre)]
    have : decide (HasEffect p.tokens rule .allow) = b := by
      rw [Bool.eq_iff_iff, decide_eq_true_iff]; exact hb.symm
    simp [readOut, hevr.length, he, this, Outcome.map]
  · have hm : bad ∈ candidates p vals := by rw [hl]; simp
    rw [hE ho, hl, readOut_append (hpass (fun y hy => by rw [hl]; simp [hy]) hpre)]
    cases hf with
    | length hn => simp [readOut, hn, Outcome.map]
    | throws x hn hv => obtain ⟨b, h⟩ := hV bad hm hn; rw [h] at hv; cases hv
    | ub u hn hv => obtain ⟨b, h⟩ := hV bad hm hn; rw [h] at hv; cases hv
  · rw [hE ho, readOut_all (hpass (fun _ h => h) hall)]
    have : b = last := by
      rw [Bool.eq_iff_iff, hb, hlast fun y hy => (hall y hy).1.length]
    rw [this]; rfl

/-! ## C68 -/

/-- C68: with the ACL model, a vector as storage and rules of any length, the rules are read in the
order in which they are stored: the request itself grants, a rule that does not have three values
throws when it is reached. -/
theorem C68_any_length (hL : SoundLib lib) (h : Setup lib E rA p e mAcl)
    (hv : e.value = c!"some(where (p.eft == allow))") (ht : p.tokens = pTok)
    (hvec : p.policy.hash = false) (hne : p.policy.items ≠ []) (a b c : Str) :
    (E.enforce lib [.str a, .str b, .str c]).1 =
      readDown 3 (fun rule => rule = [a, b, c]) p.policy.items := by
  have hcand : candidates p [a, b, c] = p.policy.items := by simp [candidates, hvec]
  have key := allow_answer_any (h.request (vals := [a, b, c]) rfl) hv
    (by rw [ht]; decide) h.noEval (by rw [hcand]; exact hne)
    (fun rule => decide ([a, b, c] = rule)) (by
      intro rule hr
      rw [ht] at hr ⊢
      obtain ⟨x, y, z, rfl⟩ := length3 hr
      have := verdict_mAcl hL E.model E.heap [] a b c x y z []
      simp only [List.append_nil] at this
      rw [this]
      simp)
  refine key.trans ?_
  rw [ht, hcand]
  refine readDown_congr fun y _ _ => ?_
  rw [decide_eq_true_iff]
  exact eq_comm

/-- C68: with set storage only the request itself is looked up; the other stored rules, of whatever
length, do not matter. -/
theorem C68_any_set (hL : SoundLib lib) (h : Setup lib E rA p e mAcl)
    (hv : e.value = c!"some(where (p.eft == allow))") (ht : p.tokens = pTok)
    (hset : p.policy.hash = true) (a b c : Str) (hne : [a, b, c] ≠ [[], [], []])
    (hnul : NoNul [a, b, c]) :
    (E.enforce lib [.str a, .str b, .str c]).1 = .ok (decide ([a, b, c] ∈ p.policy.items)) :=
  C68_acl_partial hL h hv ht (fun h => by rw [hset] at h; cases h) a b c (.inl hne) fun _ => hnul

/-! ## C103, C104 -/

/-- C103 with rules of any length: the rules looked at are read in order, one that satisfies the
condition grants. -/
theorem C103_any_length (hL : Faithful lib) {exp : Str} (h : Setup lib E r p e exp) {c : Cond}
    (hc : c.WrittenAs exp) (heff : e.value = c!"some(where (p.eft == allow))")
    (hft : c!"p_eft" ∉ p.tokens) {vals : List Str} (hlen : vals.length = r.tokens.length)
    (hne : candidates p vals ≠ [])
    {field : Rule → Str → Str} {fn : Str → List Str → Outcome Bool} {V : Rule → Bool}
    (hI : ∀ rule, rule.length = p.tokens.length →
      Interprets lib E.heap (naming E.model r.tokens p.tokens vals rule) c (field rule) fn)
    (hV : ∀ rule, rule.length = p.tokens.length → c.meaning (field rule) fn = .ok (V rule)) :
    (E.enforce lib (vals.map ReqVal.str)).1 =
      readDown p.tokens.length (fun rule => V rule = true) (candidates p vals) := by
  refine allow_answer_any (h.request hlen) heff hft h.noEval hne V ?_
  intro rule hr
  simp only [verdict, ruleText, h.noEval, Bool.false_eq_true, if_false, Outcome.ok_bind]
  rw [holds_written hL hc (hI rule hr), hV rule hr]

/-- C104: the same with the matcher of examples/basic_with_root_model.conf: `root` is granted unless
the first rule is malformed. -/
theorem C104_any_length (hL : Faithful lib) (h : Setup lib E rA p e mRoot)
    (hv : e.value = c!"some(where (p.eft == allow))") (ht : p.tokens = pTok)
    (hvec : p.policy.hash = false) (hne : p.policy.items ≠ []) (a b c : Str) :
    (E.enforce lib [.str a, .str b, .str c]).1 =
      readDown 3 (fun rule => rule = [a, b, c] ∨ a = c!"root") p.policy.items := by
  have hcand : candidates p [a, b, c] = p.policy.items := by simp [candidates, hvec]
  have key := C103_any_length hL h written_root hv (by rw [ht]; decide) (vals := [a, b, c]) rfl
    (by rw [hcand]; exact hne)
    (field := fun rule w => match rule with
      | [x, y, z] => if w = c!"r.sub" then a else if w = c!"r.obj" then b else
          if w = c!"r.act" then c else if w = c!"p.sub" then x else if w = c!"p.obj" then y else z
      | _ => [])
    (fn := fun _ _ => .ok false)
    (V := fun rule => decide ([a, b, c] = rule ∨ a = c!"root")) (by
      intro rule hr
      rw [ht] at hr ⊢
      obtain ⟨x, y, z, rfl⟩ := length3 hr
      refine ⟨?_, ?_⟩
      · intro w hw
        exact fields3 E.model a b c x y z w (by
          revert hw
          revert w
          decide)
      · intro f n hf
        exact absurd hf (by simp [rootCond, aclCond, sameObj, sameAct, Cond.calls])) (by
      intro rule hr
      rw [ht] at hr
      obtain ⟨x, y, z, rfl⟩ := length3 hr
      simp only [rootCond, aclCond, sameObj, sameAct, rSub, rObj, rAct, pSub, pObj, pAct,
        Cond.meaning, Operand.val]
      simp [Bool.and_assoc])
  refine key.trans ?_
  rw [ht, hcand]
  refine readDown_congr fun y _ _ => ?_
  rw [decide_eq_true_iff]
  exact or_congr_left eq_comm

/-! ## C107 -/

open Classical in
/-- C107 with rules of any length: with rbac_with_deny_model.conf and rbac_with_not_deny_model.conf
the first rule that applies and says `deny` ends the request, with priority_model.conf the first that
applies and says `allow` or `deny`; a rule that does not have four values throws when it is reached. -/
theorem C107_any_length (hL : Faithful lib) (h : Linked lib E rA p e mRbac)
    (ht : p.tokens = ModelProps.pTokE) (hvec : p.policy.hash = false) (hne : p.policy.items ≠ [])
    {ga : Assertion} (hg : E.model.find c!"g" c!"g" = some ga) (h2 : countChar '_' ga.value = 2)
    (honly : ∀ t, t ≠ c!"g" → E.model.find c!"g" t = none) (sub obj act : Str) :
    (e.value = c!"some(where (p.eft == allow)) && !some(where (p.eft == deny))" →
      (E.enforce lib [.str sub, .str obj, .str act]).1 =
        readOut 4 (fun rule => if Applies ga.policy.items sub obj act rule ∧ Says rule c!"deny"
            then some false else none)
          (decide (∃ rule ∈ p.policy.items, Applies ga.policy.items sub obj act rule ∧
            Says rule c!"allow")) p.policy.items) ∧
    (e.value = c!"!some(where (p.eft == deny))" →
      (E.enforce lib [.str sub, .str obj, .str act]).1 =
        readOut 4 (fun rule => if Applies ga.policy.items sub obj act rule ∧ Says rule c!"deny"
            then some false else none) true p.policy.items) ∧
    (e.value = c!"priority(p.eft) || deny" →
      (E.enforce lib [.str sub, .str obj, .str act]).1 =
        readOut 4 (fun rule => if Applies ga.policy.items sub obj act rule then
            if Says rule c!"allow" then some true else if Says rule c!"deny" then some false
            else none else none) false p.policy.items) := by
  have hcand : candidates p [sub, obj, act] = p.policy.items := by simp [candidates, hvec]
  have hR := h.setup.request (vals := [sub, obj, act]) rfl
  have hlink : ∀ s, linked E.heap ga.rm sub s = true ↔
      ∃ n ≤ 10, RM.Path (Grants ga.policy.items) n sub s := by
    intro s
    rw [h.setup.ready.ptr _ _ hg, linked_mirrors h.mirrors]
    have := storedLinks_two hg h2 honly
    constructor
    · rintro ⟨n, hn, hp⟩; exact ⟨n, hn, hp.congr this⟩
    · rintro ⟨n, hn, hp⟩; exact ⟨n, hn, hp.congr fun a b => (this a b).symm⟩
  have hV : ∀ rule : Rule, rule.length = 4 →
      ∃ b, verdict lib E.model E.heap mRbac rA.tokens p.tokens [sub, obj, act] rule = .ok b := by
    intro rule hl
    obtain ⟨x, y, z, w, rfl⟩ := length4 hl
    exact ⟨_, by rw [ht]; exact verdict_rbacE hL hg h2 sub obj act x y z w⟩
  have hsat : ∀ rule : Rule, rule.length = 4 →
      (Satisfies lib E mRbac rA p [sub, obj, act] rule ↔ Applies ga.policy.items sub obj act rule) := by
    intro rule hl
    obtain ⟨x, y, z, w, rfl⟩ := length4 hl
    unfold Satisfies
    rw [ht, verdict_rbacE hL hg h2 sub obj act x y z w]
    simp only [Outcome.ok.injEq, Bool.and_eq_true, decide_eq_true_eq, hlink, Applies,
      List.cons.injEq]
    constructor
    · rintro ⟨hp, rfl, rfl⟩; exact ⟨x, [w], ⟨rfl, rfl, rfl, rfl⟩, hp⟩
    · rintro ⟨s, rest, ⟨rfl, rfl, rfl, _⟩, hp⟩; exact ⟨hp, rfl, rfl⟩
  have hal : ∀ rule : Rule, rule.length = 4 →
      (HasEffect p.tokens rule .allow ↔ Says rule c!"allow") := by
    intro rule hl
    obtain ⟨x, y, z, w, rfl⟩ := length4 hl
    rw [ht]; exact hasEffectE .allow (.inl rfl)
  have hden : ∀ rule : Rule, rule.length = 4 →
      (HasEffect p.tokens rule .deny ↔ Says rule c!"deny") := by
    intro rule hl
    obtain ⟨x, y, z, w, rfl⟩ := length4 hl
    rw [ht]; exact hasEffectE .deny (.inr rfl)
  have hone : ∀ rule : Rule, Says rule c!"deny" → ¬ Says rule c!"allow" := by
    intro rule h1 h2
    unfold Says at h1 h2
    rw [h1] at h2
    exact absurd h2 (by decide)
  have h4 : p.tokens.length = 4 := by rw [ht]; rfl
  refine ⟨fun he => ?_, fun he => ?_, fun he => ?_⟩
  · have hset : ∀ rule : Rule, rule.length = 4 → (Settles lib E mRbac e.value rA p [sub, obj, act] rule ↔
        Applies ga.policy.items sub obj act rule ∧ Says rule c!"deny") := by
      intro rule hl
      unfold Settles
      rw [hsat rule hl, hal rule hl, hden rule hl, he]
      simp
    have key := answer_any hR (by unfold Supported; rw [he]; decide) h.setup.noEval (by rw [hcand]; exact hne)
      (by rw [h4]; exact fun rule _ hl => hV rule hl)
      (ends := fun rule => if Applies ga.policy.items sub obj act rule ∧ Says rule c!"deny"
            then some false else none)
      (last := decide (∃ rule ∈ p.policy.items, Applies ga.policy.items sub obj act rule ∧
            Says rule c!"allow"))
      (by
        intro rule _ hl hs
        rw [h4] at hl
        have hs' := (hset rule hl).mp hs
        simp only [hs', and_self, if_true, hal rule hl, hone rule hs'.2, decide_false])
      (by
        intro rule _ hl hs
        rw [h4] at hl
        simp only [mt (hset rule hl).mpr hs, if_false])
      (by
        intro hall
        rw [h4, hcand] at hall
        rw [decide_eq_true_iff, he, hcand]
        simp only [List.cons.injEq, reduceCtorEq, false_or, true_and, Char.reduceEq, false_and]
        refine exists_congr fun rule => and_congr_right fun hr => ?_
        rw [hsat rule (hall rule hr), hal rule (hall rule hr)])
    rw [h4, hcand] at key
    exact key
  · have hset : ∀ rule : Rule, rule.length = 4 → (Settles lib E mRbac e.value rA p [sub, obj, act] rule ↔
        Applies ga.policy.items sub obj act rule ∧ Says rule c!"deny") := by
      intro rule hl
      unfold Settles
      rw [hsat rule hl, hal rule hl, hden rule hl, he]
      simp
    have key := answer_any hR (by unfold Supported; rw [he]; decide) h.setup.noEval (by rw [hcand]; exact hne)
      (by rw [h4]; exact fun rule _ hl => hV rule hl)
      (ends := fun rule => if Applies ga.policy.items sub obj act rule ∧ Says rule c!"deny"
            then some false else none)
      (last := true)
      (by
        intro rule _ hl hs
        rw [h4] at hl
        have hs' := (hset rule hl).mp hs
        simp only [hs', and_self, if_true, hal rule hl, hone rule hs'.2, decide_false])
      (by
        intro rule _ hl hs
        rw [h4] at hl
        simp only [mt (hset rule hl).mpr hs, if_false])
      (by intro _; simp [he])
    rw [h4, hcand] at key
    exact key
  · have hset : ∀ rule : Rule, rule.length = 4 → (Settles lib E mRbac e.value rA p [sub, obj, act] rule ↔
        Applies ga.policy.items sub obj act rule ∧ (Says rule c!"allow" ∨ Says rule c!"deny")) := by
      intro rule hl
      unfold Settles
      rw [hsat rule hl, hal rule hl, hden rule hl, he]
      simp
    have key := answer_any hR (by unfold Supported; rw [he]; decide) h.setup.noEval (by rw [hcand]; exact hne)
      (by rw [h4]; exact fun rule _ hl => hV rule hl)
      (ends := fun rule => if Applies ga.policy.items sub obj act rule then
            if Says rule c!"allow" then some true else if Says rule c!"deny" then some false
            else none else none)
      (last := false)
      (by
        intro rule _ hl hs
        rw [h4] at hl
        obtain ⟨h1, h3⟩ := (hset rule hl).mp hs
        simp only [h1, if_true, hal rule hl]
        by_cases ha : Says rule c!"allow"
        · simp [ha]
        · simp [ha, h3.resolve_left ha])
      (by
        intro rule _ hl hs
        rw [h4] at hl
        have := mt (hset rule hl).mpr hs
        by_cases h1 : Applies ga.policy.items sub obj act rule
        · have h3 : ¬ (Says rule c!"allow" ∨ Says rule c!"deny") := fun h => this ⟨h1, h⟩
          rw [not_or] at h3
          simp [h3]
        · simp [h1])
      (by intro _; simp [he])
    rw [h4, hcand] at key
    exact key

open Classical in
/-- C107 with rules of any length after any faithful history. -/
theorem C107_any_history (hL : Faithful lib) (eff : Str) (P G : List Rule)
    (hG : ∀ r ∈ G, 2 ≤ r.length) (acts : List Deed)
    (hf : FaithfulDeeds lib acts (buildRoleLinks (enforcer (effectModel eff P G))).2)
    (sub obj act : Str) :
    ∃ E, E = runDeeds lib acts (buildRoleLinks (enforcer (effectModel eff P G))).2 ∧
    ∃ p ga, E.model.find c!"p" c!"p" = some p ∧ E.model.find c!"g" c!"g" = some ga ∧
      (p.policy.items ≠ [] →
    (eff = c!"some(where (p.eft == allow)) && !some(where (p.eft == deny))" →
      (E.enforce lib [.str sub, .str obj, .str act]).1 =
        readOut 4 (fun rule => if Applies ga.policy.items sub obj act rule ∧ Says rule c!"deny"
            then some false else none)
          (decide (∃ rule ∈ p.policy.items, Applies ga.policy.items sub obj act rule ∧
            Says rule c!"allow")) p.policy.items) ∧
    (eff = c!"!some(where (p.eft == deny))" →
      (E.enforce lib [.str sub, .str obj, .str act]).1 =
        readOut 4 (fun rule => if Applies ga.policy.items sub obj act rule ∧ Says rule c!"deny"
            then some false else none) true p.policy.items) ∧
    (eff = c!"priority(p.eft) || deny" →
      (E.enforce lib [.str sub, .str obj, .str act]).1 =
        readOut 4 (fun rule => if Applies ga.policy.items sub obj act rule then
            if Says rule c!"allow" then some true else if Says rule c!"deny" then some false
            else none else none) false p.policy.items)) := by
  obtain ⟨p1, t1, v1, l1, s1⟩ := linked_effect lib eff P G hG
  obtain ⟨p, hp, t2, hv, l2, hsome, hnone⟩ := linked_history l1 s1 acts hf
  obtain ⟨ga, hga, hval⟩ := hsome c!"g" (gTwo G) rfl
  refine ⟨_, rfl, p, ga, hp, hga, fun hne => ?_⟩
  exact C107_any_length hL l2 (t2.trans t1) (hv (by rw [v1]; rfl)) hne hga
    (by rw [hval]; rfl) (fun t ht => hnone t (by rw [find_effectModel, if_neg ht])) sub obj act

/-! ## C110 -/

/-- C110: what the code answers with rbac_with_resource_roles_model.conf and rules of any length; the
two role definitions share their links. -/
theorem C110_any_shared (hL : Faithful lib) (h : Linked lib E rA p e mRes)
    (hv : e.value = c!"some(where (p.eft == allow))") (ht : p.tokens = pTok)
    (hvec : p.policy.hash = false) (hne : p.policy.items ≠ []) {ga ga2 : Assertion}
    (hg : E.model.find c!"g" c!"g" = some ga) (h2 : countChar '_' ga.value = 2)
    (hg2 : E.model.find c!"g" c!"g2" = some ga2) (h22 : countChar '_' ga2.value = 2)
    (honly : ∀ t, t ≠ c!"g" → t ≠ c!"g2" → E.model.find c!"g" t = none) (sub obj act : Str) :
    (E.enforce lib [.str sub, .str obj, .str act]).1 =
      readDown 3 (fun rule => ∃ s o, rule = [s, o, act] ∧
        Reaches (fun x y => Grants ga.policy.items x y ∨ Grants ga2.policy.items x y) sub s ∧
        Reaches (fun x y => Grants ga.policy.items x y ∨ Grants ga2.policy.items x y) obj o)
        p.policy.items := by
  have hlink : ∀ x y, linked E.heap (some E.rm) x y = true ↔
      Reaches (fun x y => Grants ga.policy.items x y ∨ Grants ga2.policy.items x y) x y := by
    intro x y
    rw [linked_mirrors h.mirrors]
    have := storedLinks_twoTypes hg h2 hg2 h22 honly
    constructor
    · rintro ⟨n, hn, hp⟩; exact ⟨n, hn, hp.congr this⟩
    · rintro ⟨n, hn, hp⟩; exact ⟨n, hn, hp.congr fun a b => (this a b).symm⟩
  have hcand : candidates p [sub, obj, act] = p.policy.items := by simp [candidates, hvec]
  have key := allow_answer_any (h.setup.request (vals := [sub, obj, act]) rfl) hv
    (by rw [ht]; decide) h.setup.noEval (by rw [hcand]; exact hne)
    (fun rule => match rule with
      | [x, y, z] => linked E.heap (some E.rm) sub x && (linked E.heap (some E.rm) obj y &&
          decide (act = z))
      | _ => false) (by
      intro rule hr
      rw [ht] at hr ⊢
      obtain ⟨x, y, z, rfl⟩ := length3 hr
      rw [verdict_res hL hg h2 hg2 h22, h.setup.ready.ptr _ _ hg, h.setup.ready.ptr _ _ hg2])
  refine key.trans ?_
  rw [ht, hcand]
  refine readDown_congr fun y _ hl => ?_
  obtain ⟨x, y, z, rfl⟩ := length3 hl
  simp only [Bool.and_eq_true, decide_eq_true_eq, hlink, List.cons.injEq, and_true]
  constructor
  · rintro ⟨h1, h3, rfl⟩; exact ⟨x, y, ⟨rfl, rfl, rfl⟩, h1, h3⟩
  · rintro ⟨s, o, ⟨rfl, rfl, rfl⟩, h1, h3⟩; exact ⟨h1, h3, rfl⟩

/-- C110 with rules of any length: the rules are read in the order in which they are stored; one for
the action that names the subject or a role of it, and the object or a role of it, grants. Names used
both for users and for resources are left out (`C110_fails`). -/
theorem C110_any_length (hL : Faithful lib) (h : Linked lib E rA p e mRes)
    (hv : e.value = c!"some(where (p.eft == allow))") (ht : p.tokens = pTok)
    (hvec : p.policy.hash = false) (hne : p.policy.items ≠ []) {ga ga2 : Assertion}
    (hg : E.model.find c!"g" c!"g" = some ga) (h2 : countChar '_' ga.value = 2)
    (hg2 : E.model.find c!"g" c!"g2" = some ga2) (h22 : countChar '_' ga2.value = 2)
    (honly : ∀ t, t ≠ c!"g" → t ≠ c!"g2" → E.model.find c!"g" t = none)
    {User : Str → Prop} (hu : ∀ x y, Grants ga.policy.items x y → User x ∧ User y)
    (hr : ∀ x y, Grants ga2.policy.items x y → ¬ User x ∧ ¬ User y) {sub obj : Str}
    (hsub : User sub) (hobj : ¬ User obj) (act : Str) :
    (E.enforce lib [.str sub, .str obj, .str act]).1 =
      readDown 3 (fun rule => ∃ s o, rule = [s, o, act] ∧
        Reaches (Grants ga.policy.items) sub s ∧ Reaches (Grants ga2.policy.items) obj o)
        p.policy.items := by
  rw [C110_any_shared hL h hv ht hvec hne hg h2 hg2 h22 honly]
  refine readDown_congr fun y _ _ => exists_congr fun s => exists_congr fun o =>
    and_congr_right fun _ => and_congr ?_ ?_
  · exact exists_congr fun n => and_congr_right fun _ => (path_within hu hr).1 hsub
  · exact exists_congr fun n => and_congr_right fun _ => (path_within hu hr).2 hobj

/-- C110 with rules of any length after any faithful history. -/
theorem C110_any_history (hL : Faithful lib) (P G G2 : List Rule)
    (hG : ∀ r ∈ G, 2 ≤ r.length) (hG2 : ∀ r ∈ G2, 2 ≤ r.length) (acts : List Deed)
    (hf : FaithfulDeeds lib acts (buildRoleLinks (enforcer (resModel P G G2))).2)
    (sub obj act : Str) :
    ∃ E, E = runDeeds lib acts (buildRoleLinks (enforcer (resModel P G G2))).2 ∧
    ∃ p ga ga2, E.model.find c!"p" c!"p" = some p ∧ E.model.find c!"g" c!"g" = some ga ∧
      E.model.find c!"g" c!"g2" = some ga2 ∧
      (p.policy.items ≠ [] →
      ∀ User : Str → Prop, (∀ x y, Grants ga.policy.items x y → User x ∧ User y) →
        (∀ x y, Grants ga2.policy.items x y → ¬ User x ∧ ¬ User y) → User sub → ¬ User obj →
      (E.enforce lib [.str sub, .str obj, .str act]).1 =
        readDown 3 (fun rule => ∃ s o, rule = [s, o, act] ∧
          Reaches (Grants ga.policy.items) sub s ∧ Reaches (Grants ga2.policy.items) obj o)
          p.policy.items) := by
  obtain ⟨p1, t1, v1, l1, s1⟩ := linked_res lib P G G2 hG hG2
  obtain ⟨p, hp, t2, hv, l2, hsome, hnone⟩ := linked_history l1 s1 acts hf
  obtain ⟨ga, hga, hval⟩ := hsome c!"g" (gTwo G) rfl
  obtain ⟨ga2, hga2, hval2⟩ := hsome c!"g2" (asrt c!"g2" c!"_, _" [] (.vector G2)) rfl
  refine ⟨_, rfl, p, ga, ga2, hp, hga, hga2, fun hne User hu hr hs ho => ?_⟩
  exact C110_any_length hL l2 rfl (t2.trans t1) (hv (by rw [v1]; rfl)) hne hga
    (by rw [hval]; rfl) hga2 (by rw [hval2]; rfl)
    (fun t h1 h2 => hnone t (by rw [find_resModel, if_neg h1, if_neg h2])) hu hr hs ho act

/-! ## C68, C69, C70 after histories -/

/-- C68 with rules of any length after any history of loadable deeds. -/
theorem C68_any_history (hL : SoundLib lib) (P : Policies) (acts : List Deed)
    (hd : LoadableDeeds lib acts (enforcer (aclModel P))) (a b c : Str) :
    ∃ E, E = runDeeds lib acts (enforcer (aclModel P)) ∧
    ∃ p, E.model.find c!"p" c!"p" = some p ∧
      (p.policy.hash = false → p.policy.items ≠ [] →
        (E.enforce lib [.str a, .str b, .str c]).1 =
          readDown 3 (fun rule => rule = [a, b, c]) p.policy.items) ∧
      (p.policy.hash = true → [a, b, c] ≠ [[], [], []] → NoNul [a, b, c] →
        (E.enforce lib [.str a, .str b, .str c]).1 =
          .ok (decide ([a, b, c] ∈ p.policy.items))) := by
  obtain ⟨p, ht, h⟩ := (setup_acl lib P).deeds acts hd
  exact ⟨_, rfl, p, h.ready.state.defs.findP,
    fun hvec hne => C68_any_length hL h rfl ht hvec hne a b c,
    fun hset hne hnul => C68_any_set hL h rfl ht hset a b c hne hnul⟩

/-- C69 with rules of any length after any faithful history. -/
theorem C69_any_history (hL : SoundLib lib) (P G : List Rule) (hG : ∀ r ∈ G, 2 ≤ r.length)
    (acts : List Deed) (hf : FaithfulDeeds lib acts (buildRoleLinks (rbac P G)).2)
    (sub obj act : Str) :
    ∃ E, E = runDeeds lib acts (buildRoleLinks (rbac P G)).2 ∧
    ∃ p ga, E.model.find c!"p" c!"p" = some p ∧ E.model.find c!"g" c!"g" = some ga ∧
      (p.policy.items ≠ [] →
      (E.enforce lib [.str sub, .str obj, .str act]).1 =
        readDown 3 (fun rule => ∃ s, rule = [s, obj, act] ∧
          ∃ n ≤ 10, RM.Path (Grants ga.policy.items) n sub s) p.policy.items) := by
  obtain ⟨p1, t1, v1, l1, s1⟩ := linked_rbac lib P G hG
  obtain ⟨p, hp, t2, hv, l2, hsome, hnone⟩ := linked_history l1 s1 acts hf
  obtain ⟨ga, hga, hval⟩ := hsome c!"g" (gA G) rfl
  refine ⟨_, rfl, p, ga, hp, hga, fun hne => ?_⟩
  refine C69_any_length hL l2 (t2.trans t1) (hv (by rw [v1]; rfl)) hga
    (by rw [hval]; show countChar '_' c!"_, _" = 2; decide) (fun t ht => hnone t ?_) sub obj act hne
  have ht' : ¬ c!"g" = t := fun e => ht e.symm
  simp [Model.find, rbacModel, UMap.get, ht']

/-- C70 with rules of any length after any faithful history: the answer is determined by the rules
and the grouping rules stored then for the domain asked for. -/
theorem C70_any_history (hL : SoundLib lib) (P G : List Rule) (hG : ∀ r ∈ G, 3 ≤ r.length)
    (acts : List Deed) (hf : FaithfulDeeds lib acts (buildRoleLinks (enforcer (domModel P G))).2)
    (sub dom obj act : Str) (hd : ':' ∉ dom) :
    ∃ E, E = runDeeds lib acts (buildRoleLinks (enforcer (domModel P G))).2 ∧
    ∃ p ga, E.model.find c!"p" c!"p" = some p ∧ E.model.find c!"g" c!"g" = some ga ∧
      (p.policy.items ≠ [] → PlainDomains ga.policy.items →
      (E.enforce lib [.str sub, .str dom, .str obj, .str act]).1 =
        readDown 4 (fun rule => ∃ s, rule = [s, dom, obj, act] ∧
          ∃ n ≤ 10, RM.Path (GrantsIn ga.policy.items dom) n sub s) p.policy.items) := by
  obtain ⟨p1, t1, v1, l1, s1⟩ := linked_dom lib P G hG
  obtain ⟨p, hp, t2, hv, l2, hsome, hnone⟩ := linked_history l1 s1 acts hf
  obtain ⟨ga, hga, hval⟩ := hsome c!"g" (gD G) rfl
  refine ⟨_, rfl, p, ga, hp, hga, fun hne hD => ?_⟩
  exact C70_any_length hL l2 (t2.trans t1) (hv (by rw [v1]; rfl)) hga
    (by rw [hval]; show countChar '_' c!"_, _, _" = 3; decide)
    (fun t ht => hnone t (find_domModel P G t ht)) hD sub dom obj act hd hne

/-! ### Examples: one malformed rule, before or behind the rule that ends the request -/

example := C68_any_length (E := acl torn) miniLib_sound (setup_acl miniLib (.vector torn)) rfl rfl rfl
  (by decide) c!"alice" c!"data1" c!"read"

omit [IterOrder] in
/-- The stored rule is granted, another request throws. -/
example : readDown 3 (fun rule => rule = alice) torn = .ok true ∧
    readDown 3 (fun rule => rule = bob) torn = .throw .enforcer := by
  constructor
  · simp [readDown, torn, alice]
  · simp [readDown, torn, bob]

example := C104_any_length (E := enforcer (rootModel (.vector torn))) (stdLib_faithful noRx)
  (setup_root _ (.vector torn)) rfl rfl rfl (by decide) c!"root" c!"data9" c!"read"

omit [IterOrder] in
example : readDown 3 (fun rule => rule = [c!"root", c!"data9", c!"read"] ∨ c!"root" = c!"root") torn
    = .ok true := by
  simp [readDown, torn]

/-- A malformed rule behind one that denies is not reached, one behind a rule that allows is. -/
example : (let _ := insertionOrder
    let E := (buildRoleLinks (enforcer (effectModel
      c!"some(where (p.eft == allow)) && !some(where (p.eft == deny))"
      [[c!"alice", c!"data1", c!"read", c!"allow"], [c!"admin", c!"data1", c!"read", c!"deny"], [c!"bob"]]
      [[c!"carol", c!"admin"]]))).2
    ((E.enforce (stdLib noRx) [.str c!"alice", .str c!"data1", .str c!"read"]).1,
      (E.enforce (stdLib noRx) [.str c!"carol", .str c!"data1", .str c!"read"]).1))
    = (.throw .enforcer, .ok false) := by
  decide +kernel

example (hf) := C107_any_history (stdLib_faithful noRx) c!"priority(p.eft) || deny"
  [[c!"alice", c!"data1", c!"read", c!"allow"], [c!"bob"]] [[c!"carol", c!"alice"]] (by decide)
  [.act (.ask [c!"carol", c!"data1", c!"read"])] hf c!"carol" c!"data1" c!"read"

/-- A malformed rule behind one for the roles of user and resource. -/
example : (let _ := insertionOrder
    let E := (buildRoleLinks (enforcer (resModel [[c!"admins", c!"docs", c!"read"], [c!"x"]]
      [[c!"alice", c!"admins"]] [[c!"a.txt", c!"docs"]]))).2
    ((E.enforce (stdLib noRx) [.str c!"alice", .str c!"a.txt", .str c!"read"]).1,
      (E.enforce (stdLib noRx) [.str c!"alice", .str c!"a.txt", .str c!"write"]).1))
    = (.ok true, .throw .enforcer) := by
  decide +kernel

/-- A role is given in one domain after a request, which does not grant it in the other. -/
def domDeeds : List Deed :=
  [.act (.ask [c!"bob", c!"d1", c!"data1", c!"read"]), .rebuild,
    .act (.edit (.add true c!"g" [c!"bob", c!"admin", c!"d1"]))]

example : (let _ := insertionOrder
    let E := runDeeds miniLib domDeeds (buildRoleLinks (enforcer (domModel
      [[c!"admin", c!"d1", c!"data1", c!"read"], [c!"admin", c!"d2", c!"data1", c!"read"], [c!"x"]]
      [[c!"alice", c!"admin", c!"d2"]]))).2
    ((E.enforce miniLib [.str c!"bob", .str c!"d1", .str c!"data1", .str c!"read"]).1,
      (E.enforce miniLib [.str c!"bob", .str c!"d2", .str c!"data1", .str c!"read"]).1))
    = (.ok true, .throw .enforcer) := by
  decide +kernel

end TextProps
end Casbin
