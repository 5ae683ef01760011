import Verif.Props.Examples

/-!
# C110: roles of users and roles of resources
-/

namespace Casbin
namespace ModelProps

open Exprtk Enforcer DecisionProps Fixtures EndToEnd

variable [IterOrder] {lib : ExprLib} {E : Enforcer} {p e : Assertion}

/-- `x` has the role `y` by at most ten of these links. -/
def Reaches (S : Str → Str → Prop) (x y : Str) : Prop := ∃ n ≤ 10, RM.Path S n x y

omit [IterOrder] in
theorem storedLinks_twoTypes {m : Model} {ga ga2 : Assertion} (hg : m.find c!"g" c!"g" = some ga)
    (h2 : countChar '_' ga.value = 2) (hg2 : m.find c!"g" c!"g2" = some ga2)
    (h22 : countChar '_' ga2.value = 2)
    (honly : ∀ t, t ≠ c!"g" → t ≠ c!"g2" → m.find c!"g" t = none) (x y : Str) :
    StoredLinks m x y ↔ Grants ga.policy.items x y ∨ Grants ga2.policy.items x y := by
  constructor
  · rintro ⟨t, a, ha, r, hr, hl⟩
    by_cases ht : t = c!"g"
    · subst ht
      rw [hg] at ha
      cases ha
      rcases hl with ⟨_, a, b, rest, rfl, rfl, rfl⟩ | ⟨h3, _⟩
      · exact .inl ⟨rest, hr⟩
      · rw [h2] at h3; cases h3
    · by_cases ht2 : t = c!"g2"
      · subst ht2
        rw [hg2] at ha
        cases ha
        rcases hl with ⟨_, a, b, rest, rfl, rfl, rfl⟩ | ⟨h3, _⟩
        · exact .inr ⟨rest, hr⟩
        · rw [h22] at h3; cases h3
      · rw [honly t ht ht2] at ha; cases ha
  · rintro (⟨rest, hr⟩ | ⟨rest, hr⟩)
    · exact ⟨c!"g", ga, hg, _, hr, .inl ⟨h2, x, y, rest, rfl, rfl, rfl⟩⟩
    · exact ⟨c!"g2", ga2, hg2, _, hr, .inl ⟨h22, x, y, rest, rfl, rfl, rfl⟩⟩

omit [IterOrder] in
theorem verdict_res (hL : Faithful lib) {m : Model} {heap : List RM} {ga ga2 : Assertion}
    (hg : m.find c!"g" c!"g" = some ga) (h2 : countChar '_' ga.value = 2)
    (hg2 : m.find c!"g" c!"g2" = some ga2) (h22 : countChar '_' ga2.value = 2)
    (sub obj act x y z : Str) :
    verdict lib m heap mRes rA.tokens pTok [sub, obj, act] [x, y, z]
      = .ok (linked heap ga.rm sub x && (linked heap ga2.rm obj y && decide (act = z))) := by
  have hb : UMap.get lowBuiltins c!"g" = none := by decide
  have hb2 : UMap.get lowBuiltins c!"g2" = none := by decide
  rw [verdict_written hL written_res (by decide)]
  · generalize hN : naming m rA.tokens pTok [sub, obj, act] [x, y, z] = N
    have v1 : valueOf N c!"r.sub" = sub := by rw [← hN]; rfl
    have v2 : valueOf N c!"p.sub" = x := by rw [← hN]; rfl
    have v3 : valueOf N c!"r.obj" = obj := by rw [← hN]; rfl
    have v4 : valueOf N c!"p.obj" = y := by rw [← hN]; rfl
    have v5 : valueOf N c!"r.act" = act := by rw [← hN]; rfl
    have v6 : valueOf N c!"p.act" = z := by rw [← hN]; rfl
    have hc : callOf lib heap N c!"g" [sub, x] = .ok (linked heap ga.rm sub x) := by
      rw [← hN]; exact callOf_g hg hb ..
    have hc2 : callOf lib heap N c!"g2" [obj, y] = .ok (linked heap ga2.rm obj y) := by
      rw [← hN]; exact callOf_g hg2 hb2 ..
    simp only [resCond, sameAct, rSub, rObj, rAct, pSub, pObj, pAct, Cond.meaning,
      Operand.val, List.map_cons, List.map_nil, v1, v2, v3, v4, v5, v6, hc, hc2, Outcome.ok_bind,
      Outcome.pure_eq, Bool.and_assoc]
  · intro v hv
    have : v ∈ [c!"r.sub", c!"p.sub", c!"r.obj", c!"p.obj", c!"r.act", c!"p.act"] := by
      revert hv; revert v; decide
    simp only [List.mem_cons, List.not_mem_nil, or_false] at this
    rcases this with rfl | rfl | rfl | rfl | rfl | rfl <;> rfl
  · intro f n hf
    have : (f, n) = (c!"g", 2) ∨ (f, n) = (c!"g2", 2) := by
      simpa [resCond, sameObj, sameAct, Cond.calls] using hf
    rcases this with h | h <;> cases h
    · rw [g_known hg hb, Option.map_some, h2]; rfl
    · rw [g_known hg2 hb2, Option.map_some, h22]; rfl

open Classical in
/-- What the code answers with rbac_with_resource_roles_model.conf: the two role definitions share
their links. -/
theorem C110_shared (hL : Faithful lib) (h : Linked lib E rA p e mRes)
    (hv : e.value = c!"some(where (p.eft == allow))") (ht : p.tokens = pTok)
    (hvec : p.policy.hash = false) (hne : p.policy.items ≠ [])
    (hlen : ∀ rule ∈ p.policy.items, rule.length = 3) {ga ga2 : Assertion}
    (hg : E.model.find c!"g" c!"g" = some ga) (h2 : countChar '_' ga.value = 2)
    (hg2 : E.model.find c!"g" c!"g2" = some ga2) (h22 : countChar '_' ga2.value = 2)
    (honly : ∀ t, t ≠ c!"g" → t ≠ c!"g2" → E.model.find c!"g" t = none) (sub obj act : Str) :
    (E.enforce lib [.str sub, .str obj, .str act]).1 =
      .ok (decide (∃ s o, [s, o, act] ∈ p.policy.items ∧
        Reaches (fun x y => Grants ga.policy.items x y ∨ Grants ga2.policy.items x y) sub s ∧
        Reaches (fun x y => Grants ga.policy.items x y ∨ Grants ga2.policy.items x y) obj o)) := by
  have hlink : ∀ x y, linked E.heap (some E.rm) x y = true ↔
      Reaches (fun x y => Grants ga.policy.items x y ∨ Grants ga2.policy.items x y) x y := by
    intro x y
    rw [linked_mirrors h.mirrors]
    have := storedLinks_twoTypes hg h2 hg2 h22 honly
    constructor
    · rintro ⟨n, hn, hp⟩; exact ⟨n, hn, hp.congr this⟩
    · rintro ⟨n, hn, hp⟩; exact ⟨n, hn, hp.congr fun a b => (this a b).symm⟩
  have hcand : candidates p [sub, obj, act] = p.policy.items := by simp [candidates, hvec]
  have key := allow_nonempty (h.setup.request (vals := [sub, obj, act]) rfl) hv
    (by rw [ht]; decide) h.setup.noEval (by rw [hcand]; exact hne)
    (by rw [hcand, ht]; exact hlen)
    (V := fun rule => match rule with
      | [x, y, z] => linked E.heap (some E.rm) sub x && (linked E.heap (some E.rm) obj y &&
          decide (act = z))
      | _ => false) (by
      rw [hcand, ht]
      intro rule hr
      obtain ⟨x, y, z, rfl⟩ := List.length_eq_three.mp (hlen rule hr)
      rw [verdict_res hL hg h2 hg2 h22, h.setup.ready.ptr _ _ hg, h.setup.ready.ptr _ _ hg2])
  refine key.trans (congrArg _ ?_)
  rw [hcand, Bool.eq_iff_iff, List.any_eq_true, decide_eq_true_iff]
  constructor
  · rintro ⟨rule, hr, hV⟩
    obtain ⟨x, y, z, rfl⟩ := List.length_eq_three.mp (hlen rule hr)
    simp only [Bool.and_eq_true, decide_eq_true_eq, hlink] at hV
    obtain ⟨h3, h4, rfl⟩ := hV
    exact ⟨x, y, hr, h3, h4⟩
  · rintro ⟨s, o, hr, h3, h4⟩
    exact ⟨_, hr, by simp [hlink, h3, h4]⟩

omit [IterOrder] in
/-- Links that stay within a set of names or outside it. -/
theorem path_within {S T : Str → Str → Prop} {U : Str → Prop}
    (hS : ∀ x y, S x y → U x ∧ U y) (hT : ∀ x y, T x y → ¬ U x ∧ ¬ U y) {n : Nat} {x y : Str} :
    (U x → (RM.Path (fun x y => S x y ∨ T x y) n x y ↔ RM.Path S n x y)) ∧
    (¬ U x → (RM.Path (fun x y => S x y ∨ T x y) n x y ↔ RM.Path T n x y)) := by
  have mono : ∀ {A B : Str → Str → Prop} (_ : ∀ a b, A a b → B a b) {n a b},
      RM.Path A n a b → RM.Path B n a b := by
    intro A B hAB n a b hp
    induction hp with
    | nil => exact .nil _
    | cons he _ ih => exact .cons (hAB _ _ he) ih
  have fwd : RM.Path (fun x y => S x y ∨ T x y) n x y →
      (U x → RM.Path S n x y) ∧ (¬ U x → RM.Path T n x y) := by
    intro hp
    induction hp with
    | nil => exact ⟨fun _ => .nil _, fun _ => .nil _⟩
    | cons he _ ih =>
      constructor
      · intro hu
        rcases he with he | he
        · exact .cons he (ih.1 (hS _ _ he).2)
        · exact absurd hu (hT _ _ he).1
      · intro hu
        rcases he with he | he
        · exact absurd (hS _ _ he).1 hu
        · exact .cons he (ih.2 (hT _ _ he).2)
  exact ⟨fun hu => ⟨fun hp => (fwd hp).1 hu, mono fun _ _ => .inl⟩,
    fun hu => ⟨fun hp => (fwd hp).2 hu, mono fun _ _ => .inr⟩⟩

open Classical in
/-- C110: with rbac_with_resource_roles_model.conf, a request is granted exactly when a stored rule
for the action names the subject or a role of it by the `g` rules, and the object or a role of it by
the `g2` rules. Missing: policies where a name is used both for users and for resources
(`C110_fails`), and empty ones. -/
theorem C110_resources_partial (hL : Faithful lib) (h : Linked lib E rA p e mRes)
    (hv : e.value = c!"some(where (p.eft == allow))") (ht : p.tokens = pTok)
    (hvec : p.policy.hash = false) (hne : p.policy.items ≠ [])
    (hlen : ∀ rule ∈ p.policy.items, rule.length = 3) {ga ga2 : Assertion}
    (hg : E.model.find c!"g" c!"g" = some ga) (h2 : countChar '_' ga.value = 2)
    (hg2 : E.model.find c!"g" c!"g2" = some ga2) (h22 : countChar '_' ga2.value = 2)
    (honly : ∀ t, t ≠ c!"g" → t ≠ c!"g2" → E.model.find c!"g" t = none)
    {User : Str → Prop} (hu : ∀ x y, Grants ga.policy.items x y → User x ∧ User y)
    (hr : ∀ x y, Grants ga2.policy.items x y → ¬ User x ∧ ¬ User y) {sub obj : Str}
    (hsub : User sub) (hobj : ¬ User obj) (act : Str) :
    (E.enforce lib [.str sub, .str obj, .str act]).1 =
      .ok (decide (∃ s o, [s, o, act] ∈ p.policy.items ∧
        Reaches (Grants ga.policy.items) sub s ∧ Reaches (Grants ga2.policy.items) obj o)) := by
  rw [C110_shared hL h hv ht hvec hne hlen hg h2 hg2 h22 honly]
  congr 2
  rw [eq_iff_iff]
  refine exists_congr fun s => exists_congr fun o => and_congr_right fun _ => and_congr ?_ ?_
  · exact exists_congr fun n => and_congr_right fun _ => (path_within hu hr).1 hsub
  · exact exists_congr fun n => and_congr_right fun _ => (path_within hu hr).2 hobj

/-- examples/rbac_with_resource_roles_model.conf with the given rules. -/
def resModel (P G G2 : List Rule) : Model :=
  [(c!"m", [(c!"m", asrt c!"m" mRes [])]), (c!"r", rDef), (c!"p", pDef (.vector P)),
   (c!"g", [(c!"g", gTwo G), (c!"g2", asrt c!"g2" c!"_, _" [] (.vector G2))]), (c!"e", eDef)]

omit [IterOrder] in
theorem find_resModel (P G G2 : List Rule) (t : Str) :
    (resModel P G G2).find c!"g" t = if t = c!"g" then some (gTwo G)
      else if t = c!"g2" then some (asrt c!"g2" c!"_, _" [] (.vector G2)) else none := by
  by_cases ht : t = c!"g"
  · subst ht; rfl
  · by_cases ht2 : t = c!"g2"
    · subst ht2; rfl
    · have ht' : ¬ c!"g" = t := fun e => ht e.symm
      have ht2' : ¬ c!"g2" = t := fun e => ht2 e.symm
      simp [Model.find, resModel, UMap.get, ht, ht', ht2, ht2']

theorem linked_res (lib : ExprLib) (P G G2 : List Rule) (hG : ∀ r ∈ G, 2 ≤ r.length)
    (hG2 : ∀ r ∈ G2, 2 ≤ r.length) :
    ∃ p', p'.tokens = pTok ∧ p'.policy = .vector P ∧
      Linked lib (buildRoleLinks (enforcer (resModel P G G2))).2 rA p' eA mRes ∧
      (∀ t, ((resModel P G G2).find c!"g" t).map Assertion.strip =
        ((buildRoleLinks (enforcer (resModel P G G2))).2.model.find c!"g" t).map
          Assertion.strip) := by
  refine linked_rebuilt (E := enforcer (resModel P G G2)) (p := pA (.vector P))
    ⟨rfl, rfl, by decide, by decide, by show ∀ t ∈ pTok, _; decide, by decide,
      by show (pTok.map polName).Nodup; decide, by
      simp [enforcer, resModel, Model.secMap, UMap.get, UMap.keys], lower_find (by
      simp [enforcer, resModel, Model.secMap, UMap.get, UMap.keys, lower])⟩
    (goodRoles_new ?_) rfl ⟨RM.new 10, rfl, rfl, rfl⟩ ?_ rfl rfl rfl (by decide) (by decide) rfl
  · intro t a ha
    rw [find_resModel] at ha
    split at ha
    · cases ha; rfl
    · split at ha <;> cases ha; rfl
  · intro t a ha
    rw [show (enforcer (resModel P G G2)).model = resModel P G G2 from rfl, find_resModel] at ha
    split at ha
    · cases ha; exact ⟨.inl rfl, hG⟩
    · split at ha <;> cases ha
      exact ⟨.inl rfl, hG2⟩

open Classical in
/-- C110 after any faithful history on a new enforcer whose links have
been built, in terms of the rules stored then. -/
theorem C110_history_partial (hL : Faithful lib) (P G G2 : List Rule)
    (hG : ∀ r ∈ G, 2 ≤ r.length) (hG2 : ∀ r ∈ G2, 2 ≤ r.length) (acts : List Deed)
    (hf : FaithfulDeeds lib acts (buildRoleLinks (enforcer (resModel P G G2))).2)
    (sub obj act : Str) :
    ∃ E, E = runDeeds lib acts (buildRoleLinks (enforcer (resModel P G G2))).2 ∧
    ∃ p ga ga2, E.model.find c!"p" c!"p" = some p ∧ E.model.find c!"g" c!"g" = some ga ∧
      E.model.find c!"g" c!"g2" = some ga2 ∧
      (p.policy.items ≠ [] → (∀ rule ∈ p.policy.items, rule.length = 3) →
      ∀ User : Str → Prop, (∀ x y, Grants ga.policy.items x y → User x ∧ User y) →
        (∀ x y, Grants ga2.policy.items x y → ¬ User x ∧ ¬ User y) → User sub → ¬ User obj →
      (E.enforce lib [.str sub, .str obj, .str act]).1 =
        .ok (decide (∃ s o, [s, o, act] ∈ p.policy.items ∧
          Reaches (Grants ga.policy.items) sub s ∧ Reaches (Grants ga2.policy.items) obj o))) := by
  obtain ⟨p1, t1, v1, l1, s1⟩ := linked_res lib P G G2 hG hG2
  obtain ⟨p, hp, t2, hv, l2, hsome, hnone⟩ := linked_history l1 s1 acts hf
  obtain ⟨ga, hga, hval⟩ := hsome c!"g" (gTwo G) rfl
  obtain ⟨ga2, hga2, hval2⟩ := hsome c!"g2" (asrt c!"g2" c!"_, _" [] (.vector G2)) rfl
  refine ⟨_, rfl, p, ga, ga2, hp, hga, hga2, fun hne hlen User hu hr hs ho => ?_⟩
  exact C110_resources_partial hL l2 rfl (t2.trans t1) (hv (by rw [v1]; rfl)) hne hlen hga
    (by rw [hval]; rfl) hga2 (by rw [hval2]; rfl)
    (fun t h1 h2 => hnone t (by rw [find_resModel, if_neg h1, if_neg h2])) hu hr hs ho act

omit [IterOrder] in
/-- C110 is false: a role of a resource is also a role of the user of the same name, so `alice` the
user gets what is for the administrators because `alice` the resource is in a group of that name. -/
theorem C110_fails : (let _ := insertionOrder
    ((buildRoleLinks (enforcer (resModel [[c!"admin", c!"data1", c!"read"]] []
        [[c!"alice", c!"admin"]]))).2.enforce (stdLib noRx)
      [.str c!"alice", .str c!"data1", .str c!"read"]).1) = .ok true ∧
    ¬ Reaches (Grants []) c!"alice" c!"admin" := by
  refine ⟨by decide +kernel, ?_⟩
  rintro ⟨n, _, hp⟩
  cases hp with
  | cons h _ => obtain ⟨_, h⟩ := h; cases h

/-- Non-vacuity of C110: user and resource roles of two levels, the last link added afterwards. -/
example : (let _ := insertionOrder
    let E := (buildRoleLinks (enforcer (resModel [[c!"admins", c!"docs", c!"read"]]
      [[c!"alice", c!"staff"], [c!"staff", c!"admins"]] [[c!"a.txt", c!"texts"]]))).2
    let E' := runDeeds (stdLib noRx) [.act (.ask [c!"alice", c!"a.txt", c!"read"]),
      .act (.edit (.add true c!"g2" [c!"texts", c!"docs"]))] E
    ((E.enforce (stdLib noRx) [.str c!"alice", .str c!"a.txt", .str c!"read"]).1,
      (E'.enforce (stdLib noRx) [.str c!"alice", .str c!"a.txt", .str c!"read"]).1))
    = (.ok false, .ok true) := by
  decide +kernel

end ModelProps
end Casbin
