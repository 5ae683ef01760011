import Verif.ExampleLemmas
import Verif.Props.Builtins
import Verif.Props.KeyPatterns

/-!
# C107–C109: the example models, from matcher text to answer
-/

namespace Casbin
namespace ModelProps

open Exprtk Enforcer DecisionProps Fixtures EndToEnd

variable [IterOrder] {lib : ExprLib} {E : Enforcer} {p e : Assertion}

/-! ## C107 -/

/-- `p = sub, obj, act, eft`. -/
def pTokE : List Str := [c!"p_sub", c!"p_obj", c!"p_act", c!"p_eft"]

/-- The rule is about this object and action, and about the subject or one of its roles (at most ten
links). -/
def Applies (G : List Rule) (sub obj act : Str) (rule : Rule) : Prop :=
  ∃ s rest, rule = s :: obj :: act :: rest ∧ ∃ n ≤ 10, RM.Path (Grants G) n sub s

/-- The fourth value of the rule. -/
def Says (rule : Rule) (w : Str) : Prop := rule[3]? = some w

omit [IterOrder] in
theorem verdict_rbacE (hL : Faithful lib) {m : Model} {heap : List RM} {ga : Assertion}
    (hg : m.find c!"g" c!"g" = some ga) (h2 : countChar '_' ga.value = 2)
    (sub obj act x y z w : Str) :
    verdict lib m heap mRbac rA.tokens pTokE [sub, obj, act] [x, y, z, w]
      = .ok (linked heap ga.rm sub x && decide (obj = y ∧ act = z)) := by
  have hb : UMap.get lowBuiltins c!"g" = none := by decide
  rw [verdict_written hL written_rbac (by decide)]
  · generalize hN : naming m rA.tokens pTokE [sub, obj, act] [x, y, z, w] = N
    have v1 : valueOf N c!"r.sub" = sub := by rw [← hN]; rfl
    have v2 : valueOf N c!"p.sub" = x := by rw [← hN]; rfl
    have v3 : valueOf N c!"r.obj" = obj := by rw [← hN]; rfl
    have v4 : valueOf N c!"p.obj" = y := by rw [← hN]; rfl
    have v5 : valueOf N c!"r.act" = act := by rw [← hN]; rfl
    have v6 : valueOf N c!"p.act" = z := by rw [← hN]; rfl
    have hc : callOf lib heap N c!"g" [sub, x] = .ok (linked heap ga.rm sub x) := by
      rw [← hN]; exact callOf_g hg hb ..
    simp only [rbacCond, sameObj, sameAct, rSub, rObj, rAct, pSub, pObj, pAct, Cond.meaning,
      Operand.val, List.map_cons, List.map_nil, v1, v2, v3, v4, v5, v6, hc, Outcome.ok_bind,
      Outcome.pure_eq, Bool.and_assoc, Bool.decide_and]
  · intro v hv
    have : v ∈ [c!"r.sub", c!"p.sub", c!"r.obj", c!"p.obj", c!"r.act", c!"p.act"] := by
      revert hv; revert v; decide
    simp only [List.mem_cons, List.not_mem_nil, or_false] at this
    rcases this with rfl | rfl | rfl | rfl | rfl | rfl <;> rfl
  · intro f n hf
    have : (f, n) = (c!"g", 2) := by simpa [rbacCond, sameObj, sameAct, Cond.calls] using hf
    cases this
    rw [g_known hg hb, Option.map_some, h2]
    rfl

omit [IterOrder] in
theorem hasEffectE {x y z w : Str} (v : Effect) (hv : v = .allow ∨ v = .deny) :
    HasEffect pTokE [x, y, z, w] v ↔ Says [x, y, z, w] (if v = .allow then c!"allow" else c!"deny") := by
  have hidx : ∀ j : Nat, pTokE[j]? = some c!"p_eft" ↔ j = 3 := by
    intro j
    match j with
    | 0 => simp [pTokE]
    | 1 => simp [pTokE]
    | 2 => simp [pTokE]
    | 3 => simp [pTokE]
    | n + 4 => simp [pTokE]
  rcases hv with rfl | rfl
  · have hm : c!"p_eft" ∈ pTokE := by decide
    simp only [HasEffect, hm, not_true_eq_false, false_or, hidx, exists_eq_left, Says, if_true]
  · simp only [HasEffect, hidx, exists_eq_left, Says, reduceCtorEq, if_false]

omit [IterOrder] in
/-- The request of an RBAC enforcer with an effect column: what satisfies the matcher, and what the
effects are. -/
theorem rbacE_rules (hL : Faithful lib) (h : Linked lib E rA p e mRbac) (ht : p.tokens = pTokE)
    (hvec : p.policy.hash = false) (hlen : ∀ rule ∈ p.policy.items, rule.length = 4)
    {ga : Assertion} (hg : E.model.find c!"g" c!"g" = some ga) (h2 : countChar '_' ga.value = 2)
    (honly : ∀ t, t ≠ c!"g" → E.model.find c!"g" t = none) (sub obj act : Str) :
    candidates p [sub, obj, act] = p.policy.items ∧
    (∀ rule ∈ p.policy.items, Evaluates lib E mRbac rA p [sub, obj, act] rule) ∧
    (∀ rule ∈ p.policy.items, (Satisfies lib E mRbac rA p [sub, obj, act] rule ↔
        Applies ga.policy.items sub obj act rule) ∧
      (HasEffect p.tokens rule .allow ↔ Says rule c!"allow") ∧
      (HasEffect p.tokens rule .deny ↔ Says rule c!"deny")) := by
  have hlink : ∀ s, linked E.heap ga.rm sub s = true ↔
      ∃ n ≤ 10, RM.Path (Grants ga.policy.items) n sub s := by
    intro s
    rw [h.setup.ready.ptr _ _ hg, linked_mirrors h.mirrors]
    have := storedLinks_two hg h2 honly
    constructor
    · rintro ⟨n, hn, hp⟩; exact ⟨n, hn, hp.congr this⟩
    · rintro ⟨n, hn, hp⟩; exact ⟨n, hn, hp.congr fun a b => (this a b).symm⟩
  have hev : hasEval mRbac = false := h.setup.noEval
  refine ⟨by simp [candidates, hvec], ?_, ?_⟩
  · intro rule hr
    refine ⟨by rw [hlen rule hr, ht]; rfl, by simp [ruleText, hev, h.setup.nonempty], ?_⟩
    obtain ⟨x, y, z, w, rfl⟩ := length4 (hlen rule hr)
    exact ⟨_, by rw [ht]; exact verdict_rbacE hL hg h2 sub obj act x y z w⟩
  · intro rule hr
    obtain ⟨x, y, z, w, rfl⟩ := length4 (hlen rule hr)
    refine ⟨?_, ?_, ?_⟩
    · unfold Satisfies
      rw [ht, verdict_rbacE hL hg h2 sub obj act x y z w]
      simp only [Outcome.ok.injEq, Bool.and_eq_true, decide_eq_true_eq, hlink, Applies,
        List.cons.injEq]
      constructor
      · rintro ⟨hp, rfl, rfl⟩; exact ⟨x, [w], ⟨rfl, rfl, rfl, rfl⟩, hp⟩
      · rintro ⟨s, rest, ⟨rfl, rfl, rfl, _⟩, hp⟩; exact ⟨hp, rfl, rfl⟩
    · rw [ht]; exact hasEffectE .allow (.inl rfl)
    · rw [ht]; exact hasEffectE .deny (.inr rfl)

open Classical in
/-- C107: the answers of the RBAC models with an effect column, in terms of the stored rules: with
rbac_with_deny_model.conf some rule that applies must say `allow` and none `deny`; with
rbac_with_not_deny_model.conf none may say `deny`; with priority_model.conf the first rule that
applies and says `allow` or `deny` decides. Missing: an empty policy. -/
theorem C107_effects_partial (hL : Faithful lib) (h : Linked lib E rA p e mRbac)
    (ht : p.tokens = pTokE) (hvec : p.policy.hash = false) (hne : p.policy.items ≠ [])
    (hlen : ∀ rule ∈ p.policy.items, rule.length = 4) {ga : Assertion}
    (hg : E.model.find c!"g" c!"g" = some ga) (h2 : countChar '_' ga.value = 2)
    (honly : ∀ t, t ≠ c!"g" → E.model.find c!"g" t = none) (sub obj act : Str) :
    (e.value = c!"some(where (p.eft == allow)) && !some(where (p.eft == deny))" →
      (E.enforce lib [.str sub, .str obj, .str act]).1 = .ok (decide (
        (∃ rule ∈ p.policy.items, Applies ga.policy.items sub obj act rule ∧ Says rule c!"allow") ∧
        ¬ ∃ rule ∈ p.policy.items, Applies ga.policy.items sub obj act rule ∧ Says rule c!"deny"))) ∧
    (e.value = c!"!some(where (p.eft == deny))" →
      (E.enforce lib [.str sub, .str obj, .str act]).1 = .ok (decide (
        ¬ ∃ rule ∈ p.policy.items, Applies ga.policy.items sub obj act rule ∧ Says rule c!"deny"))) ∧
    (e.value = c!"priority(p.eft) || deny" →
      (E.enforce lib [.str sub, .str obj, .str act]).1 = .ok (decide (
        ∃ before rule after, p.policy.items = before ++ rule :: after ∧
          Applies ga.policy.items sub obj act rule ∧ Says rule c!"allow" ∧
          ∀ x ∈ before, Applies ga.policy.items sub obj act x →
            ¬ Says x c!"allow" ∧ ¬ Says x c!"deny"))) := by
  obtain ⟨hc, hev, hs⟩ := rbacE_rules hL h ht hvec hlen hg h2 honly sub obj act
  have hR := h.setup.request (vals := [sub, obj, act]) rfl
  have hdown : ∀ w : Str, ∀ v : Effect, (v = .allow ∧ w = c!"allow") ∨ (v = .deny ∧ w = c!"deny") →
      ((∃ rule ∈ p.policy.items, Satisfies lib E mRbac rA p [sub, obj, act] rule ∧
        HasEffect p.tokens rule v) ↔
      ∃ rule ∈ p.policy.items, Applies ga.policy.items sub obj act rule ∧ Says rule w) := by
    intro w v hw
    refine exists_congr fun rule => and_congr_right fun hr => ?_
    rcases hw with ⟨rfl, rfl⟩ | ⟨rfl, rfl⟩
    · exact and_congr (hs rule hr).1 (hs rule hr).2.1
    · exact and_congr (hs rule hr).1 (hs rule hr).2.2
  refine ⟨?_, ?_, ?_⟩
  · intro heff
    obtain ⟨b, h1, h2⟩ := C03_allow_and_deny hR heff (by rw [hc]; exact hne) (by rw [hc]; exact hev)
    refine h1.trans (congrArg _ ?_)
    rw [Bool.eq_iff_iff, h2, hc, decide_eq_true_iff, hdown _ _ (.inl ⟨rfl, rfl⟩),
      hdown _ _ (.inr ⟨rfl, rfl⟩)]
  · intro heff
    obtain ⟨b, h1, h2⟩ := C02_deny_override hR heff (by rw [hc]; exact hne) (by rw [hc]; exact hev)
    refine h1.trans (congrArg _ ?_)
    rw [hc, hdown _ _ (.inr ⟨rfl, rfl⟩)] at h2
    rw [Bool.eq_iff_iff, decide_eq_true_iff, ← h2, Bool.not_eq_false]
  · intro heff
    obtain ⟨b, h1, h2⟩ := C04_priority hR heff (by rw [hc]; exact hne) (by rw [hc]; exact hev)
    refine h1.trans (congrArg _ ?_)
    rw [Bool.eq_iff_iff, h2, hc, decide_eq_true_iff]
    constructor
    · rintro ⟨i, rule, hi, h3, h4, h5⟩
      have hlt := (List.getElem?_eq_some_iff.mp hi).1
      have hm := List.mem_of_getElem? hi
      refine ⟨p.policy.items.take i, rule, p.policy.items.drop (i + 1), ?_, (hs rule hm).1.mp h3,
        (hs rule hm).2.1.mp h4, ?_⟩
      · have h6 := (List.getElem?_eq_some_iff.mp hi).2
        rw [← h6, ← List.drop_eq_getElem_cons hlt, List.take_append_drop]
      · intro x hx hax
        obtain ⟨j, hj, hjx⟩ := List.mem_take_iff_getElem.mp hx
        have hx' : p.policy.items[j]? = some x := by
          rw [List.getElem?_eq_some_iff]
          exact ⟨by omega, hjx⟩
        have hxm := List.mem_of_getElem? hx'
        have := h5 j (by omega) x hx'
        rw [(hs x hxm).1, (hs x hxm).2.1, (hs x hxm).2.2] at this
        exact ⟨fun ha => this ⟨hax, .inl ha⟩, fun hd => this ⟨hax, .inr hd⟩⟩
    · rintro ⟨before, rule, after, heq, ha, hsay, hb⟩
      have hm : rule ∈ p.policy.items := by rw [heq]; simp
      refine ⟨before.length, rule, by rw [heq]; simp, (hs rule hm).1.mpr ha,
        (hs rule hm).2.1.mpr hsay, ?_⟩
      intro j hj x hx
      have hxb : x ∈ before := by
        rw [heq, List.getElem?_append_left hj] at hx
        exact List.mem_of_getElem? hx
      have hxm := List.mem_of_getElem? hx
      rw [(hs x hxm).1, (hs x hxm).2.1, (hs x hxm).2.2]
      rintro ⟨h6, h7 | h7⟩
      · exact (hb x hxb h6).1 h7
      · exact (hb x hxb h6).2 h7

/-- examples/rbac_with_deny_model.conf, rbac_with_not_deny_model.conf and priority_model.conf, by
their effect expression, with the given rules. -/
def effectModel (eff : Str) (P G : List Rule) : Model :=
  [(c!"m", [(c!"m", asrt c!"m" mRbac [])]), (c!"r", rDef),
   (c!"p", [(c!"p", asrt c!"p" c!"sub, obj, act, eft" pTokE (.vector P))]),
   (c!"g", [(c!"g", asrt c!"g" c!"_, _" [] (.vector G))]), (c!"e", [(c!"e", asrt c!"e" eff [])])]

def gTwo (G : List Rule) : Assertion := asrt c!"g" c!"_, _" [] (.vector G)

omit [IterOrder] in
theorem find_effectModel (eff : Str) (P G : List Rule) (t : Str) :
    (effectModel eff P G).find c!"g" t = if t = c!"g" then some (gTwo G) else none := by
  by_cases ht : t = c!"g"
  · subst ht; rfl
  · have ht' : ¬ c!"g" = t := fun e => ht e.symm
    simp [Model.find, effectModel, UMap.get, ht, ht']

theorem linked_effect (lib : ExprLib) (eff : Str) (P G : List Rule) (hG : ∀ r ∈ G, 2 ≤ r.length) :
    ∃ p', p'.tokens = pTokE ∧ p'.policy = .vector P ∧
      Linked lib (buildRoleLinks (enforcer (effectModel eff P G))).2 rA p' (asrt c!"e" eff []) mRbac ∧
      (∀ t, ((effectModel eff P G).find c!"g" t).map Assertion.strip =
        ((buildRoleLinks (enforcer (effectModel eff P G))).2.model.find c!"g" t).map
          Assertion.strip) := by
  refine linked_rebuilt (E := enforcer (effectModel eff P G))
    (p := asrt c!"p" c!"sub, obj, act, eft" pTokE (.vector P))
    ⟨rfl, rfl, by decide, by decide, by show ∀ t ∈ pTokE, _; decide, by decide,
      by show (pTokE.map polName).Nodup; decide, by
      simp [enforcer, effectModel, Model.secMap, UMap.get, UMap.keys], lower_find (by
      simp [enforcer, effectModel, Model.secMap, UMap.get, UMap.keys, lower])⟩
    (goodRoles_new ?_) rfl ⟨RM.new 10, rfl, rfl, rfl⟩ ?_ rfl rfl rfl (by decide) (by decide) rfl
  · intro t a ha
    rw [find_effectModel] at ha
    split at ha
    · cases ha; rfl
    · cases ha
  · intro t a ha
    rw [show (enforcer (effectModel eff P G)).model = effectModel eff P G from rfl,
      find_effectModel] at ha
    split at ha
    · cases ha; exact ⟨.inl rfl, hG⟩
    · cases ha

open Classical in
/-- C107 after any faithful history on a new enforcer whose links have
been built, in terms of the rules stored then. -/
theorem C107_history_partial (hL : Faithful lib) (eff : Str) (P G : List Rule)
    (hG : ∀ r ∈ G, 2 ≤ r.length) (acts : List Deed)
    (hf : FaithfulDeeds lib acts (buildRoleLinks (enforcer (effectModel eff P G))).2)
    (sub obj act : Str) :
    ∃ E, E = runDeeds lib acts (buildRoleLinks (enforcer (effectModel eff P G))).2 ∧
    ∃ p ga, E.model.find c!"p" c!"p" = some p ∧ E.model.find c!"g" c!"g" = some ga ∧
      (p.policy.items ≠ [] → (∀ rule ∈ p.policy.items, rule.length = 4) →
    (eff = c!"some(where (p.eft == allow)) && !some(where (p.eft == deny))" →
      (E.enforce lib [.str sub, .str obj, .str act]).1 = .ok (decide (
        (∃ rule ∈ p.policy.items, Applies ga.policy.items sub obj act rule ∧ Says rule c!"allow") ∧
        ¬ ∃ rule ∈ p.policy.items, Applies ga.policy.items sub obj act rule ∧ Says rule c!"deny"))) ∧
    (eff = c!"!some(where (p.eft == deny))" →
      (E.enforce lib [.str sub, .str obj, .str act]).1 = .ok (decide (
        ¬ ∃ rule ∈ p.policy.items, Applies ga.policy.items sub obj act rule ∧ Says rule c!"deny"))) ∧
    (eff = c!"priority(p.eft) || deny" →
      (E.enforce lib [.str sub, .str obj, .str act]).1 = .ok (decide (
        ∃ before rule after, p.policy.items = before ++ rule :: after ∧
          Applies ga.policy.items sub obj act rule ∧ Says rule c!"allow" ∧
          ∀ x ∈ before, Applies ga.policy.items sub obj act x →
            ¬ Says x c!"allow" ∧ ¬ Says x c!"deny")))) := by
  obtain ⟨p1, t1, v1, l1, s1⟩ := linked_effect lib eff P G hG
  obtain ⟨p, hp, t2, hv, l2, hsome, hnone⟩ := linked_history l1 s1 acts hf
  obtain ⟨ga, hga, hval⟩ := hsome c!"g" (gTwo G) rfl
  refine ⟨_, rfl, p, ga, hp, hga, fun hne hlen => ?_⟩
  exact C107_effects_partial hL l2 (t2.trans t1) (hv (by rw [v1]; rfl)) hne hlen hga
    (by rw [hval]; rfl) (fun t ht => hnone t (by rw [find_effectModel, if_neg ht])) sub obj act

omit [IterOrder] in
/-- C107 is false on an empty policy: the request of empty strings is granted under
allow-and-deny and under priority. -/
theorem C107_fails : ∀ eff ∈ [c!"some(where (p.eft == allow)) && !some(where (p.eft == deny))",
      c!"priority(p.eft) || deny"],
    ((let _ := insertionOrder
      ((buildRoleLinks (enforcer (effectModel eff [] []))).2.enforce (stdLib noRx)
        [.str [], .str [], .str []]).1)) = .ok true := by
  decide +kernel

/-- Non-vacuity of C107: a deny rule for a role, added after a request. -/
example : (let _ := insertionOrder
    let E := (buildRoleLinks (enforcer (effectModel c!"priority(p.eft) || deny"
      [[c!"alice", c!"data1", c!"read", c!"deny"], [c!"admin", c!"data1", c!"read", c!"allow"]]
      [[c!"alice", c!"admin"], [c!"bob", c!"admin"]]))).2
    let E' := runDeeds (stdLib noRx) [.act (.ask [c!"bob", c!"data1", c!"read"]),
      .act (.edit (.add true c!"g" [c!"carol", c!"bob"]))] E
    ((E'.enforce (stdLib noRx) [.str c!"alice", .str c!"data1", .str c!"read"]).1,
      (E'.enforce (stdLib noRx) [.str c!"carol", .str c!"data1", .str c!"read"]).1))
    = (.ok false, .ok true) := by
  decide +kernel

/-- A model with `r = sub, obj, act`, `p = sub, obj, act`, allow-override, no roles, and the given
matcher and rules. -/
def plainModel (exp : Str) (P : List Rule) : Model :=
  [(c!"m", [(c!"m", asrt c!"m" exp [])]), (c!"r", rDef), (c!"p", pDef (.vector P)), (c!"e", eDef)]

theorem linked_plain (lib : ExprLib) (exp : Str) (P : List Rule) (hne : exp ≠ [])
    (hev : hasEval exp = false) :
    ∃ p', p'.tokens = pTok ∧ p'.policy = .vector P ∧
      Linked lib (buildRoleLinks (enforcer (plainModel exp P))).2 rA p' eA exp ∧
      (∀ t, ((plainModel exp P).find c!"g" t).map Assertion.strip =
        ((buildRoleLinks (enforcer (plainModel exp P))).2.model.find c!"g" t).map
          Assertion.strip) := by
  have hno : ∀ t, (plainModel exp P).find c!"g" t = none := fun t => rfl
  refine linked_rebuilt (E := enforcer (plainModel exp P)) (p := pA (.vector P))
    ⟨rfl, rfl, by decide, by decide, by show ∀ t ∈ pTok, _; decide, by decide,
      by show (pTok.map polName).Nodup; decide, by
      simp [enforcer, plainModel, Model.secMap, UMap.get, UMap.keys], lower_find (by
      simp [enforcer, plainModel, Model.secMap, UMap.get, UMap.keys, lower])⟩
    (goodRoles_new ?_) rfl ⟨RM.new 10, rfl, rfl, rfl⟩ ?_ rfl rfl rfl hne hev rfl
  · intro t a ha
    rw [hno] at ha; cases ha
  · intro t a ha
    rw [show (enforcer (plainModel exp P)).model = plainModel exp P from rfl, hno] at ha
    cases ha

/-! ## C108 -/

/-- The matcher functions of the library are those of built_in_functions.cpp. -/
def StdFunctions (lib : ExprLib) (rx : RxLib) : Prop := ∀ b ss, lib.builtin b ss = stdBuiltin rx b ss

/-- The text of a block of IPv4 addresses that has the address with the given value. -/
def Covers (block : Str) (v : Nat) : Prop :=
  ∃ net ms e f g h n, block = net ++ '/' :: ms ∧ IsV4 net e f g h ∧ IsDecimal ms n ∧ n ≤ 32 ∧
    v / 2 ^ (32 - n) = v4Value e f g h / 2 ^ (32 - n)

/-- The text of a block of IPv4 addresses. -/
def IsBlock (block : Str) : Prop :=
  ∃ net ms e f g h n, block = net ++ '/' :: ms ∧ IsV4 net e f g h ∧ IsDecimal ms n ∧ n ≤ 32

open Classical in
/-- C108: with the matcher of ipmatch_model.conf, a request from an IPv4 address is granted exactly
when a stored rule for the object and action has a block with the address. Missing: policies that
are empty or have a rule whose subject is no block (`C108_fails`). -/
theorem C108_ip_partial {rx : RxLib} (hL : Faithful lib) (hb : StdFunctions lib rx)
    (hS : Setup lib E rA p e mIp) (hv : e.value = c!"some(where (p.eft == allow))")
    (ht : p.tokens = pTok) (hvec : p.policy.hash = false) (hne : p.policy.items ≠ [])
    (hblocks : ∀ rule ∈ p.policy.items, ∃ s o t, rule = [s, o, t] ∧ IsBlock s)
    {ip : Str} {a b c d : Nat} (hip : IsV4 ip a b c d) (obj act : Str) :
    (E.enforce lib [.str ip, .str obj, .str act]).1 =
      .ok (decide (∃ s, [s, obj, act] ∈ p.policy.items ∧ Covers s (v4Value a b c d))) := by
  have hcand : candidates p [ip, obj, act] = p.policy.items := by simp [candidates, hvec]
  have hcov : ∀ s, IsBlock s → ipMatch ip s = .ok (decide (Covers s (v4Value a b c d))) := by
    rintro s ⟨net, ms, e', f, g, h, n, rfl, hnet, hms, hn⟩
    rw [BuiltinProps.C62_ipMatch hip hnet hms hn]
    congr 1
    rw [Bool.eq_iff_iff, decide_eq_true_iff, decide_eq_true_iff]
    constructor
    · intro h1; exact ⟨net, ms, e', f, g, h, n, rfl, hnet, hms, hn, h1⟩
    · rintro ⟨net', ms', e'', f', g', h', n', heq, hnet', hms', hn', h1⟩
      have hc1 := BuiltinProps.C62_ipMatch hip hnet hms hn
      have hc2 := BuiltinProps.C62_ipMatch hip hnet' hms' hn'
      rw [← heq, hc1] at hc2
      have := Outcome.ok.inj hc2
      rw [decide_eq_decide] at this
      exact this.mpr h1
  have hreq := hS.request (vals := [ip, obj, act]) rfl
  have key := allow_nonempty hreq hv (by rw [ht]; decide) hS.noEval (by rw [hcand]; exact hne)
    (by
      rw [hcand, ht]
      intro rule hr
      obtain ⟨s, o, t, rfl, _⟩ := hblocks rule hr
      rfl)
    (V := fun rule => match rule with
      | [x, y, z] => decide (Covers x (v4Value a b c d)) && (decide (obj = y) && decide (act = z))
      | _ => false) (by
      rw [hcand, ht]
      intro rule hr
      obtain ⟨x, y, z, rfl, hbl⟩ := hblocks rule hr
      have hbi : UMap.get lowBuiltins (lower c!"ipMatch") = some (.builtin .ipMatch) := by decide
      rw [verdict_written hL written_ip (by decide)]
      · generalize hN : naming E.model rA.tokens pTok [ip, obj, act] [x, y, z] = N
        have v1 : valueOf N c!"r.sub" = ip := by rw [← hN]; rfl
        have v2 : valueOf N c!"p.sub" = x := by rw [← hN]; rfl
        have v3 : valueOf N c!"r.obj" = obj := by rw [← hN]; rfl
        have v4 : valueOf N c!"p.obj" = y := by rw [← hN]; rfl
        have v5 : valueOf N c!"r.act" = act := by rw [← hN]; rfl
        have v6 : valueOf N c!"p.act" = z := by rw [← hN]; rfl
        have hc : callOf lib E.heap N c!"ipMatch" [ip, x]
            = .ok (decide (Covers x (v4Value a b c d))) := by
          rw [← hN, callOf_builtin hbi _ _ rfl, hb]
          simp only [stdBuiltin, boolVal, hcov x hbl, Outcome.map_ok, Val.truthy_ofBool]
        simp only [ipCond, sameObj, sameAct, rSub, rObj, rAct, pSub, pObj, pAct, Cond.meaning,
          Operand.val, List.map_cons, List.map_nil, v1, v2, v3, v4, v5, v6, hc, Outcome.ok_bind,
          Outcome.pure_eq, Bool.and_assoc]
      · intro v hv
        have : v ∈ [c!"r.sub", c!"p.sub", c!"r.obj", c!"p.obj", c!"r.act", c!"p.act"] := by
          revert hv; revert v; decide
        simp only [List.mem_cons, List.not_mem_nil, or_false] at this
        rcases this with rfl | rfl | rfl | rfl | rfl | rfl <;> rfl
      · intro f n hf
        have : (f, n) = (c!"ipMatch", 2) := by
          simpa [ipCond, sameObj, sameAct, Cond.calls] using hf
        cases this
        simp [functions, hbi, FunRef.arity])
  refine key.trans (congrArg _ ?_)
  rw [hcand, Bool.eq_iff_iff, List.any_eq_true, decide_eq_true_iff]
  constructor
  · rintro ⟨rule, hr, hV⟩
    obtain ⟨x, y, z, rfl, hbl⟩ := hblocks rule hr
    simp only [Bool.and_eq_true, decide_eq_true_eq] at hV
    obtain ⟨h1, rfl, rfl⟩ := hV
    exact ⟨x, hr, h1⟩
  · rintro ⟨s, hr, hs⟩
    exact ⟨_, hr, by simp [hs]⟩

open Classical in
/-- C108 after any faithful history on a new enforcer, in terms of the
rules stored then. -/
theorem C108_history_partial {rx : RxLib} (hL : Faithful lib) (hb : StdFunctions lib rx)
    (P : List Rule) (acts : List Deed)
    (hf : FaithfulDeeds lib acts (buildRoleLinks (enforcer (plainModel mIp P))).2)
    {ip : Str} {a b c d : Nat} (hip : IsV4 ip a b c d) (obj act : Str) :
    ∃ E, E = runDeeds lib acts (buildRoleLinks (enforcer (plainModel mIp P))).2 ∧
    ∃ p, E.model.find c!"p" c!"p" = some p ∧
      (p.policy.items ≠ [] →
        (∀ rule ∈ p.policy.items, ∃ s o t, rule = [s, o, t] ∧ IsBlock s) →
      (E.enforce lib [.str ip, .str obj, .str act]).1 =
        .ok (decide (∃ s, [s, obj, act] ∈ p.policy.items ∧ Covers s (v4Value a b c d)))) := by
  obtain ⟨p1, t1, v1, l1, s1⟩ := linked_plain lib mIp P (by decide) (by decide)
  obtain ⟨p, hp, t2, hv, l2, _, _⟩ := linked_history l1 s1 acts hf
  exact ⟨_, rfl, p, hp, fun hne hbl => C108_ip_partial hL hb l2.setup rfl (t2.trans t1)
    (hv (by rw [v1]; rfl)) hne hbl hip obj act⟩

omit [IterOrder] in
/-- C108 is false: a rule about another object whose subject is a plain address makes the request
throw although a rule with a suitable block is stored. -/
theorem C108_fails : (let _ := insertionOrder
    ((enforcer (plainModel mIp [[c!"10.0.0.1", c!"data1", c!"read"],
        [c!"192.168.2.0/24", c!"data2", c!"read"]])).enforce (stdLib noRx)
      [.str c!"192.168.2.7", .str c!"data2", .str c!"read"]).1) = .throw .ipParser ∧
    Covers c!"192.168.2.0/24" (v4Value 192 168 2 7) := by
  refine ⟨by decide +kernel, c!"192.168.2.0", c!"24", 192, 168, 2, 0, 24, rfl, ?_,
    ⟨by decide, by decide, by decide⟩, by decide, by decide⟩
  refine ⟨c!"192", c!"168", c!"2", c!"0", rfl, ?_, ?_, ?_, ?_, by decide⟩ <;>
    exact ⟨by decide, by decide, by decide⟩

/-- Non-vacuity of C108: the rule for the network is added after the first request. -/
example : (let _ := insertionOrder
    let E := (buildRoleLinks (enforcer (plainModel mIp [[c!"10.0.0.0/16", c!"data1", c!"read"]]))).2
    let E' := runDeeds (stdLib noRx) [.act (.ask [c!"192.168.2.7", c!"data2", c!"read"]),
      .act (.edit (.add false c!"p" [c!"192.168.2.0/24", c!"data2", c!"read"]))] E
    ((E.enforce (stdLib noRx) [.str c!"192.168.2.7", .str c!"data2", .str c!"read"]).1,
      (E'.enforce (stdLib noRx) [.str c!"192.168.2.7", .str c!"data2", .str c!"read"]).1,
      (E'.enforce (stdLib noRx) [.str c!"192.168.3.7", .str c!"data2", .str c!"read"]).1))
    = (.ok false, .ok true, .ok false) := by
  decide +kernel

/-! ## C109 -/

open Classical in
/-- The answer with a matcher `r.sub == p.sub && f(r.obj, p.obj) && regexMatch(r.act, p.act)`. -/
theorem key_answer {rx : RxLib} (hL : Faithful lib) (hb : StdFunctions lib rx) {exp f : Str}
    {bf : Builtin} (hw : (Cond.and (.and (.eq rSub pSub) (.test f rObj [pObj]))
      (.test c!"regexMatch" rAct [pAct])).WrittenAs exp)
    (hf : UMap.get lowBuiltins (lower f) = some (.builtin bf)) (har : (FunRef.builtin bf).arity = 2)
    (hS : Setup lib E rA p e exp) (hv : e.value = c!"some(where (p.eft == allow))")
    (ht : p.tokens = pTok) (hvec : p.policy.hash = false) (hne : p.policy.items ≠ [])
    {F R : Str → Prop} {sub obj act : Str}
    (hr : ∀ rule ∈ p.policy.items, ∃ s o t, rule = [s, o, t] ∧
      (stdBuiltin rx bf [obj, o]).map Val.truthy = .ok (decide (F o)) ∧
      regexMatch rx act t = .ok (decide (R t))) :
    (E.enforce lib [.str sub, .str obj, .str act]).1 =
      .ok (decide (∃ o t, [sub, o, t] ∈ p.policy.items ∧ F o ∧ R t)) := by
  have hcand : candidates p [sub, obj, act] = p.policy.items := by simp [candidates, hvec]
  have hreq := hS.request (vals := [sub, obj, act]) rfl
  have key := allow_nonempty hreq hv (by rw [ht]; decide) hS.noEval (by rw [hcand]; exact hne)
    (by
      rw [hcand, ht]
      intro rule hrule
      obtain ⟨s, o, t, rfl, _⟩ := hr rule hrule
      rfl)
    (V := fun rule => match rule with
      | [x, y, z] => decide (sub = x) && (decide (F y) && decide (R z))
      | _ => false) (by
      rw [hcand, ht]
      intro rule hrule
      obtain ⟨x, y, z, rfl, hF, hR⟩ := hr rule hrule
      have hbi : UMap.get lowBuiltins (lower c!"regexMatch") = some (.builtin .regexMatch) := by decide
      rw [verdict_written hL hw hS.noEval]
      · generalize hN : naming E.model rA.tokens pTok [sub, obj, act] [x, y, z] = N
        have v1 : valueOf N c!"r.sub" = sub := by rw [← hN]; rfl
        have v2 : valueOf N c!"p.sub" = x := by rw [← hN]; rfl
        have v3 : valueOf N c!"r.obj" = obj := by rw [← hN]; rfl
        have v4 : valueOf N c!"p.obj" = y := by rw [← hN]; rfl
        have v5 : valueOf N c!"r.act" = act := by rw [← hN]; rfl
        have v6 : valueOf N c!"p.act" = z := by rw [← hN]; rfl
        have hc : callOf lib E.heap N f [obj, y] = .ok (decide (F y)) := by
          rw [← hN, callOf_builtin hf _ _ har, hb, hF]
        have hd : callOf lib E.heap N c!"regexMatch" [act, z] = .ok (decide (R z)) := by
          rw [← hN, callOf_builtin hbi _ _ rfl, hb]
          simp only [stdBuiltin, boolVal, hR, Outcome.map_ok, Val.truthy_ofBool]
        simp only [rSub, rObj, rAct, pSub, pObj, pAct, Cond.meaning,
          Operand.val, List.map_cons, List.map_nil, v1, v2, v3, v4, v5, v6, hc, hd, Outcome.ok_bind,
          Outcome.pure_eq, Bool.and_assoc]
      · intro v hv
        have : v ∈ [c!"r.sub", c!"p.sub", c!"r.obj", c!"p.obj", c!"r.act", c!"p.act"] := by
          simpa [Cond.fields, rSub, rObj, rAct, pSub, pObj, pAct, Operand.fields] using hv
        simp only [List.mem_cons, List.not_mem_nil, or_false] at this
        rcases this with rfl | rfl | rfl | rfl | rfl | rfl <;> rfl
      · intro g n hg
        have : (g, n) = (f, 2) ∨ (g, n) = (c!"regexMatch", 2) := by
          simpa [Cond.calls] using hg
        rcases this with h | h <;> cases h
        · simp [functions, hf, har]
        · simp [functions, hbi, FunRef.arity])
  refine key.trans (congrArg _ ?_)
  rw [hcand, Bool.eq_iff_iff, List.any_eq_true, decide_eq_true_iff]
  constructor
  · rintro ⟨rule, hrule, hV⟩
    obtain ⟨x, y, z, rfl, _⟩ := hr rule hrule
    simp only [Bool.and_eq_true, decide_eq_true_eq] at hV
    obtain ⟨rfl, h1, h2⟩ := hV
    exact ⟨y, z, hrule, h1, h2⟩
  · rintro ⟨o, t, hrule, h1, h2⟩
    exact ⟨_, hrule, by simp [h1, h2]⟩

/-- The pattern is the path, or has a `*` and what is before the first one starts the path. -/
def KeyCovers (pat path : Str) : Prop :=
  ('*' ∉ pat ∧ path = pat) ∨ ∃ pre post, pat = pre ++ '*' :: post ∧ '*' ∉ pre ∧ pre <+: path

open Classical in
/-- C109: with the matcher of keymatch_model.conf, a request is granted exactly when a stored rule of
the subject has a path pattern for the object and a regular expression for the action. Missing:
policies that are empty or have a pattern that the regular expression library refuses
(`C109_fails`). -/
theorem C109_keymatch_partial {rx : RxLib} (hL : Faithful lib) (hb : StdFunctions lib rx)
    (hS : Setup lib E rA p e mKey) (hv : e.value = c!"some(where (p.eft == allow))")
    (ht : p.tokens = pTok) (hvec : p.policy.hash = false) (hne : p.policy.items ≠ [])
    {R : Str → Prop} {act : Str} (hr : ∀ rule ∈ p.policy.items, ∃ s o t, rule = [s, o, t] ∧
      ∃ r, rx t act = .ok r ∧ (r ≠ none ↔ R t)) (sub obj : Str) :
    (E.enforce lib [.str sub, .str obj, .str act]).1 =
      .ok (decide (∃ pat t, [sub, pat, t] ∈ p.policy.items ∧ KeyCovers pat obj ∧ R t)) := by
  refine key_answer hL hb written_key (by decide) (bf := .keyMatch) rfl hS hv ht hvec hne ?_
  intro rule hrule
  obtain ⟨s, o, t, rfl, r, h1, h2⟩ := hr rule hrule
  refine ⟨s, o, t, rfl, ?_, ?_⟩
  · simp only [stdBuiltin, Outcome.map_ok, Val.truthy_ofBool]
    congr 1
    rw [Bool.eq_iff_iff, decide_eq_true_iff]
    exact BuiltinProps.C60_keyMatch obj o
  · simp only [regexMatch, h1, Outcome.ok_bind, Outcome.pure_eq]
    congr 1
    rw [Bool.eq_iff_iff, decide_eq_true_iff, ← h2]
    cases r <;> simp

/-- The path is an instance of the template. -/
def TemplateCovers (pat path : Str) : Prop :=
  ∃ segs tail bs, segs ≠ [] ∧ (∀ s ∈ segs, s.Colon) ∧ pat = template Seg.colonText segs tail ∧
    Instance segs tail path bs

open Classical in
/-- C109 for keymatch2_model.conf, with templates such as `/alice/:id/*`. Missing: other patterns. -/
theorem C109_keymatch2_partial {rx : RxLib} (hL : Faithful lib) (hb : StdFunctions lib rx)
    (hS : Setup lib E rA p e mKey2) (hv : e.value = c!"some(where (p.eft == allow))")
    (ht : p.tokens = pTok) (hvec : p.policy.hash = false) (hne : p.policy.items ≠ [])
    {R : Str → Prop} {act : Str} (hr : ∀ rule ∈ p.policy.items, ∃ s segs tail t,
      rule = [s, template Seg.colonText segs tail, t] ∧ segs ≠ [] ∧ (∀ s ∈ segs, s.Colon) ∧
      ∃ r, rx t act = .ok r ∧ (r ≠ none ↔ R t)) (sub obj : Str) :
    (E.enforce lib [.str sub, .str obj, .str act]).1 =
      .ok (decide (∃ pat t, [sub, pat, t] ∈ p.policy.items ∧ TemplateCovers pat obj ∧ R t)) := by
  refine key_answer hL hb written_key2 (by decide) (bf := .keyMatch2) rfl hS hv ht hvec hne ?_
  intro rule hrule
  obtain ⟨s, segs, tail, t, rfl, hs, hc, r, h1, h2⟩ := hr rule hrule
  refine ⟨s, _, t, rfl, ?_, ?_⟩
  · obtain ⟨b, h3, h4⟩ := KeyPatternProps.C64_keyMatch2_partial hs hc tail rx obj
    simp only [stdBuiltin, boolVal, h3, Outcome.map_ok, Val.truthy_ofBool]
    congr 1
    rw [Bool.eq_iff_iff, decide_eq_true_iff, h4]
    constructor
    · rintro ⟨bs, hbs⟩
      exact ⟨segs, tail, bs, hs, hc, rfl, hbs⟩
    · rintro ⟨segs', tail', bs, hs', hc', heq, hbs⟩
      obtain ⟨b', h5, h6⟩ := KeyPatternProps.C64_keyMatch2_partial hs' hc' tail' rx obj
      rw [← heq, h3] at h5
      cases h5
      exact h4.mp (h6.mpr ⟨bs, hbs⟩)
  · simp only [regexMatch, h1, Outcome.ok_bind, Outcome.pure_eq]
    congr 1
    rw [Bool.eq_iff_iff, decide_eq_true_iff, ← h2]
    cases r <;> simp

open Classical in
/-- C109 after any faithful history on a new enforcer, in terms of the
rules stored then. -/
theorem C109_history_partial {rx : RxLib} (hL : Faithful lib) (hb : StdFunctions lib rx)
    (P : List Rule) (acts : List Deed)
    (hf : FaithfulDeeds lib acts (buildRoleLinks (enforcer (plainModel mKey P))).2)
    (sub obj act : Str) :
    ∃ E, E = runDeeds lib acts (buildRoleLinks (enforcer (plainModel mKey P))).2 ∧
    ∃ p, E.model.find c!"p" c!"p" = some p ∧
      (p.policy.items ≠ [] → ∀ R : Str → Prop,
        (∀ rule ∈ p.policy.items, ∃ s o t, rule = [s, o, t] ∧
          ∃ r, rx t act = .ok r ∧ (r ≠ none ↔ R t)) →
      (E.enforce lib [.str sub, .str obj, .str act]).1 =
        .ok (decide (∃ pat t, [sub, pat, t] ∈ p.policy.items ∧ KeyCovers pat obj ∧ R t))) := by
  obtain ⟨p1, t1, v1, l1, s1⟩ := linked_plain lib mKey P (by decide) (by decide)
  obtain ⟨p, hp, t2, hv, l2, _, _⟩ := linked_history l1 s1 acts hf
  exact ⟨_, rfl, p, hp, fun hne R hr => C109_keymatch_partial hL hb l2.setup rfl (t2.trans t1)
    (hv (by rw [v1]; rfl)) hne hr sub obj⟩

/-- A library of regular expressions that knows plain words and refuses a lone parenthesis. -/
def wordRx : RxLib := fun pat s =>
  if pat = c!"(" then .throw .text else if s = pat then .ok (some []) else .ok none

omit [IterOrder] in
/-- C109 is false: a pattern of somebody else that the library refuses makes the request throw. -/
theorem C109_fails : (let _ := insertionOrder
    ((enforcer (plainModel mKey [[c!"bob", c!"/bob/*", c!"("], [c!"alice", c!"/alice/*", c!"GET"]])).enforce
      (stdLib wordRx) [.str c!"alice", .str c!"/alice/1", .str c!"GET"]).1) = .throw .text := by
  decide +kernel

/-- Non-vacuity of C109, with both matchers. -/
example : (let _ := insertionOrder
    let E := (buildRoleLinks (enforcer (plainModel mKey [[c!"alice", c!"/alice/*", c!"GET"]]))).2
    let E2 := (buildRoleLinks (enforcer (plainModel mKey2 [[c!"alice", c!"/alice/:id/x", c!"GET"]]))).2
    ((E.enforce (stdLib wordRx) [.str c!"alice", .str c!"/alice/7/x", .str c!"GET"]).1,
      (E.enforce (stdLib wordRx) [.str c!"alice", .str c!"/bob/7/x", .str c!"GET"]).1,
      (E2.enforce (stdLib wordRx) [.str c!"alice", .str c!"/alice/7/x", .str c!"GET"]).1,
      (E2.enforce (stdLib wordRx) [.str c!"alice", .str c!"/alice/7/8/x", .str c!"GET"]).1))
    = (.ok true, .ok false, .ok true, .ok false) := by
  decide +kernel

/-- The hypotheses of C109 on the regular expressions hold for these rules. -/
example : ∀ rule ∈ [[c!"alice", c!"/alice/*", c!"GET"], [c!"bob", c!"/bob", c!"POST"]],
    ∃ s o t, rule = [s, o, t] ∧ ∃ r, wordRx t c!"GET" = .ok r ∧ (r ≠ none ↔ t = c!"GET") := by
  intro rule hr
  simp only [List.mem_cons, List.not_mem_nil, or_false] at hr
  rcases hr with rfl | rfl
  · exact ⟨_, _, _, rfl, some [], by decide, by decide⟩
  · exact ⟨_, _, _, rfl, none, by decide, by decide⟩

end ModelProps
end Casbin
