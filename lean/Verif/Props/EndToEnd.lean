import Verif.DeedLemmas

/-!
# C68–C70, C72: the example models end to end

`Setup` (EndToEndLemmas.lean) says which definitions an enforcer has and that nothing in its state
contradicts them; `Setup.acts` shows that it is kept by every history of editing calls and requests,
whatever they return. `SoundLib` is what is assumed of the expression library.
-/

namespace Casbin
namespace EndToEnd

open Enforcer DecisionProps Fixtures

variable [IterOrder] {lib : ExprLib} {E : Enforcer} {p : Assertion}

omit [IterOrder] in
theorem length3 {rule : Rule} (h : rule.length = 3) : ∃ x y z, rule = [x, y, z] := by
  match rule, h with
  | [x, y, z], _ => exact ⟨x, y, z, rfl⟩

omit [IterOrder] in
theorem length4 {rule : Rule} (h : rule.length = 4) : ∃ w x y z, rule = [w, x, y, z] := by
  match rule, h with
  | [w, x, y, z], _ => exact ⟨w, x, y, z, rfl⟩

/-! ## C68 -/

/-- C68: with the basic ACL model a request is granted exactly when it is stored as a rule. Missing:
the request of three empty strings while no rule is looked at, which is granted (`C68_fails`), and
with set storage requests with a NUL character, of which a stored one is denied (`C68_nul_fails`). -/
theorem C68_acl_partial (hL : SoundLib lib) {e : Assertion} (h : Setup lib E rA p e mAcl)
    (hv : e.value = c!"some(where (p.eft == allow))") (ht : p.tokens = pTok)
    (hlen : p.policy.hash = false → ∀ rule ∈ p.policy.items, rule.length = 3) (a b c : Str)
    (hne : [a, b, c] ≠ [[], [], []] ∨ (p.policy.hash = false ∧ p.policy.items ≠ []))
    (hnul : p.policy.hash = true → NoNul [a, b, c]) :
    (E.enforce lib [.str a, .str b, .str c]).1 = .ok (decide ([a, b, c] ∈ p.policy.items)) := by
  have hc : ∀ rule ∈ candidates p [a, b, c], rule.length = 3 := by
    intro rule hr
    unfold candidates at hr
    split at hr
    · split at hr
      · simp only [List.mem_singleton] at hr; subst hr; rfl
      · simp at hr
    · rename_i hh; exact hlen (by simpa using hh) rule hr
  have key := allow_answer (h.request (vals := [a, b, c]) rfl) hv (by rw [ht]; decide) h.noEval
    (by rw [ht]; exact hc) (fun rule => decide ([a, b, c] = rule)) (by
      intro rule hr
      rw [ht] at hr ⊢
      obtain ⟨x, y, z, rfl⟩ := length3 hr
      have := verdict_mAcl hL E.model E.heap [] a b c x y z []
      simp only [List.append_nil] at this
      rw [this]
      simp)
  refine key.trans ?_
  congr 1
  rw [ht]
  by_cases hh : p.policy.hash = true
  · have hv : [a, b, c] ≠ [[], [], []] := by
      rcases hne with h1 | ⟨h1, _⟩
      · exact h1
      · rw [hh] at h1; cases h1
    by_cases hin : [a, b, c] ∈ p.policy.items
    · simp [candidates, hh, hin, cString_of_noNul (hnul hh)]
    · simp only [candidates, hh, if_true, hin, if_false, cString_of_noNul (hnul hh)]
      simpa [pTok] using hv
  · have hh : p.policy.hash = false := by simpa using hh
    by_cases hi : p.policy.items = []
    · have hv : [a, b, c] ≠ [[], [], []] := by
        rcases hne with h1 | ⟨_, h1⟩
        · exact h1
        · exact absurd hi h1
      simp only [candidates, hh, hi, Bool.false_eq_true, if_false, if_true, List.not_mem_nil]
      simpa [pTok] using hv
    · simp only [candidates, hh, Bool.false_eq_true, if_false, hi]
      rw [Bool.eq_iff_iff, List.any_eq_true]
      simp only [decide_eq_true_eq]
      constructor
      · rintro ⟨rule, hr, rfl⟩; exact hr
      · intro hr; exact ⟨_, hr, rfl⟩

omit [IterOrder] in
theorem setup_acl (lib : ExprLib) (P : Policies) :
    Setup lib (enforcer (aclModel P)) rA (pA P) eA mAcl :=
  ⟨⟨consistent_acl lib P, by
    intro t a ha
    simp [Model.find, enforcer, aclModel, UMap.get] at ha, by simp [enforcer]⟩,
    rfl, rfl, rfl, by decide, by decide⟩

/-- C68 after any history on a new enforcer (editing calls, requests, loads, saves, and the other
`Deed`s), in terms of the rules stored then. -/
theorem C68_history_partial (hL : SoundLib lib) (P : Policies) (acts : List Deed)
    (hd : LoadableDeeds lib acts (enforcer (aclModel P))) (a b c : Str) :
    ∃ p, (runDeeds lib acts (enforcer (aclModel P))).model.find c!"p" c!"p" = some p ∧
      ((p.policy.hash = false → ∀ rule ∈ p.policy.items, rule.length = 3) →
        [a, b, c] ≠ [[], [], []] → (p.policy.hash = true → NoNul [a, b, c]) →
        ((runDeeds lib acts (enforcer (aclModel P))).enforce lib [.str a, .str b, .str c]).1 =
          .ok (decide ([a, b, c] ∈ p.policy.items))) := by
  obtain ⟨p, ht, h⟩ := (setup_acl lib P).deeds acts hd
  exact ⟨p, h.ready.state.defs.findP,
    fun hl hv hnul => C68_acl_partial hL h rfl ht hl a b c (.inl hv) hnul⟩

omit [IterOrder] in
/-- C68 is false: a request of empty strings is granted although the policy has one rule, which is
another one (set storage, the one the library chooses for this model). -/
theorem C68_fails : ¬ ∀ (_ : IterOrder) (lib : ExprLib) (P : Policies) (a b c : Str),
    SoundLib lib → (∀ rule ∈ P.items, rule.length = 3) →
    ((enforcer (aclModel P)).enforce lib [.str a, .str b, .str c]).1 =
      .ok (decide ([a, b, c] ∈ P.items)) := by
  intro h
  have := @h insertionOrder miniLib { hash := true, items := [alice] } [] [] [] miniLib_sound
    (by decide)
  exact absurd this (by decide +kernel)

omit [IterOrder] in
/-- C68 is false also for requests that are not empty strings: with set storage a stored rule with a
NUL character is denied. -/
theorem C68_nul_fails : ¬ ∀ (_ : IterOrder) (lib : ExprLib) (P : Policies) (a b c : Str),
    SoundLib lib → (∀ rule ∈ P.items, rule.length = 3) → [a, b, c] ≠ [[], [], []] →
    ((enforcer (aclModel P)).enforce lib [.str a, .str b, .str c]).1 =
      .ok (decide ([a, b, c] ∈ P.items)) := by
  intro h
  have := @h insertionOrder miniLib
    { hash := true, items := [[c!"al\x00ice", c!"data1", c!"read"]] } c!"al\x00ice" c!"data1" c!"read"
    miniLib_sound (by decide) (by decide)
  exact absurd this (by decide +kernel)

/-- Non-vacuity of C68: rules are added and a request made before. -/
example : (letI := insertionOrder
    ((runActs miniLib [.edit (.add false c!"p" bob), .ask [c!"x"],
        .ask [c!"alice", c!"data1", c!"read"], .edit (.remove false c!"p" alice)]
      (enforcer (aclModel { hash := true, items := [alice] }))).enforce miniLib
        [.str c!"bob", .str c!"data2", .str c!"write"]).1) = .ok true := by
  decide +kernel

/-! ## C69 -/

/-- `x` is given the role `y` by a rule of a role definition with two places. -/
def Grants (G : List Rule) (x y : Str) : Prop := ∃ rest, x :: y :: rest ∈ G

omit [IterOrder] in
theorem storedLinks_two {m : Model} {ga : Assertion} (hg : m.find c!"g" c!"g" = some ga)
    (h2 : countChar '_' ga.value = 2) (honly : ∀ t, t ≠ c!"g" → m.find c!"g" t = none) (x y : Str) :
    StoredLinks m x y ↔ Grants ga.policy.items x y := by
  constructor
  · rintro ⟨t, a, ha, r, hr, hl⟩
    by_cases ht : t = c!"g"
    · subst ht
      rw [hg] at ha
      cases ha
      rcases hl with ⟨_, a, b, rest, rfl, rfl, rfl⟩ | ⟨h3, _⟩
      · exact ⟨rest, hr⟩
      · rw [h2] at h3; cases h3
    · rw [honly t ht] at ha; cases ha
  · rintro ⟨rest, hr⟩
    exact ⟨c!"g", ga, hg, _, hr, .inl ⟨h2, x, y, rest, rfl, rfl, rfl⟩⟩

open Classical in
/-- C69: with the RBAC model, a request is granted exactly when a stored rule for object and action
names the subject or a role that the stored grouping rules give it through at most ten links.
Missing: requests with empty object and action on an empty policy (`C69_fails`); states whose links
are not those of the rules (see C23). -/
theorem C69_rbac_partial (hL : SoundLib lib) (h : Linked lib E rA p eA mRbac) (ht : p.tokens = pTok)
    (hvec : p.policy.hash = false) (hlen : ∀ rule ∈ p.policy.items, rule.length = 3)
    {ga : Assertion} (hg : E.model.find c!"g" c!"g" = some ga) (h2 : countChar '_' ga.value = 2)
    (honly : ∀ t, t ≠ c!"g" → E.model.find c!"g" t = none) (sub obj act : Str)
    (hne : p.policy.items ≠ [] ∨ obj ≠ [] ∨ act ≠ []) :
    (E.enforce lib [.str sub, .str obj, .str act]).1 =
      .ok (decide (∃ s, [s, obj, act] ∈ p.policy.items ∧
        ∃ n ≤ 10, RM.Path (Grants ga.policy.items) n sub s)) := by
  have hlink : ∀ s, linked E.heap ga.rm sub s = true ↔
      ∃ n ≤ 10, RM.Path (Grants ga.policy.items) n sub s := by
    intro s
    rw [h.setup.ready.ptr _ _ hg, linked_mirrors h.mirrors]
    have := storedLinks_two hg h2 honly
    constructor
    · rintro ⟨n, hn, hp⟩; exact ⟨n, hn, hp.congr this⟩
    · rintro ⟨n, hn, hp⟩; exact ⟨n, hn, hp.congr fun a b => (this a b).symm⟩
  have hcand : candidates p [sub, obj, act] = p.policy.items := by simp [candidates, hvec]
  have key := allow_answer (h.setup.request (vals := [sub, obj, act]) rfl) rfl (by rw [ht]; decide)
    h.setup.noEval (by rw [hcand, ht]; exact hlen)
    (fun rule => match rule with
      | [x, y, z] => linked E.heap ga.rm sub x && decide (obj = y ∧ act = z)
      | _ => false) (by
      intro rule hr
      rw [ht] at hr ⊢
      obtain ⟨x, y, z, rfl⟩ := length3 hr
      exact verdict_mRbac hL E.model E.heap hg h2 sub obj act x y z)
  refine key.trans ?_
  congr 1
  rw [ht, hcand]
  by_cases hi : p.policy.items = []
  · have : ¬ (obj = [] ∧ act = []) := by
      rintro ⟨rfl, rfl⟩
      rcases hne with h | h | h
      · exact h hi
      · exact h rfl
      · exact h rfl
    simp only [hi, if_true, pTok, List.map_cons, List.map_nil, this, decide_false, Bool.and_false,
      List.not_mem_nil, false_and, exists_false]
  · rw [if_neg hi, Bool.eq_iff_iff, List.any_eq_true]
    simp only [decide_eq_true_eq]
    constructor
    · rintro ⟨rule, hr, hv⟩
      obtain ⟨x, y, z, rfl⟩ := length3 (hlen rule hr)
      simp only [Bool.and_eq_true, decide_eq_true_eq] at hv
      obtain ⟨h1, rfl, rfl⟩ := hv
      exact ⟨x, hr, (hlink x).mp h1⟩
    · rintro ⟨s, hr, hp⟩
      exact ⟨_, hr, by simp [(hlink s).mpr hp]⟩

def gA (G : List Rule) : Assertion := asrt c!"g" c!"_, _" [] (.vector G)

omit [IterOrder] in
theorem wellDefined_rbac (P G : List Rule) : WellDefined (rbacModel P G) rA (pA (.vector P)) :=
  ⟨rfl, rfl, by decide, by decide, by show ∀ t ∈ pTok, _; decide,
    by decide, by show (pTok.map polName).Nodup; decide, by
    simp [rbacModel, Model.secMap, UMap.get, UMap.keys], lower_find (by
      simp [rbacModel, Model.secMap, UMap.get, UMap.keys, lower])⟩

omit [IterOrder] in
theorem goodRoles_rbac (P G : List Rule) : GoodRoles (rbac P G).model (rbac P G).heap :=
  ⟨by simp [rbac, enforcer, RM.WF_new], by simp [rbac, enforcer, RM.new], by
    intro k a i hk hi
    by_cases ht : c!"g" = k
    · subst ht
      have h : (rbacModel P G).find c!"g" c!"g" = some (gA G) := rfl
      rw [show (rbac P G).model = rbacModel P G from rfl, h] at hk
      cases hk
      cases hi
    · simp [rbac, enforcer, Model.find, rbacModel, UMap.get, ht] at hk⟩

/-- A new RBAC enforcer whose links have been built. -/
theorem linked_rbac (lib : ExprLib) (P G : List Rule) (hG : ∀ r ∈ G, 2 ≤ r.length) :
    ∃ p', p'.tokens = pTok ∧ p'.policy = .vector P ∧
      Linked lib (buildRoleLinks (rbac P G)).2 rA p' eA mRbac ∧
      (∀ t, ((rbacModel P G).find c!"g" t).map Assertion.strip =
          ((buildRoleLinks (rbac P G)).2.model.find c!"g" t).map Assertion.strip) :=
  linked_rebuilt (E := rbac P G) (wellDefined_rbac P G) (goodRoles_rbac P G) rfl
    ⟨RM.new 10, rfl, rfl, rfl⟩ (LinkProps.groupsOk_rbac P G hG) rfl rfl rfl (by decide) (by decide)
    rfl

omit [IterOrder] in
theorem strip_value {o o' : Option Assertion} (h : o.map Assertion.strip = o'.map Assertion.strip) :
    o.map Assertion.value = o'.map Assertion.value := by
  cases o with
  | none => cases o' with
    | none => rfl
    | some b => simp at h
  | some a => cases o' with
    | none => simp at h
    | some b =>
      simp only [Option.map_some, Option.some.injEq] at h ⊢
      have h2 := congrArg (fun x : Assertion => x.value) h
      exact h2

open Classical in
/-- C69 after any faithful history on a new enforcer whose links have
been built, in terms of the rules stored then. -/
theorem C69_history_partial (hL : SoundLib lib) (P G : List Rule) (hG : ∀ r ∈ G, 2 ≤ r.length)
    (acts : List Deed) (hf : FaithfulDeeds lib acts (buildRoleLinks (rbac P G)).2)
    (sub obj act : Str) :
    ∃ p ga, (runDeeds lib acts (buildRoleLinks (rbac P G)).2).model.find c!"p" c!"p" = some p ∧
      (runDeeds lib acts (buildRoleLinks (rbac P G)).2).model.find c!"g" c!"g" = some ga ∧
      ((∀ rule ∈ p.policy.items, rule.length = 3) →
        (p.policy.items ≠ [] ∨ obj ≠ [] ∨ act ≠ []) →
        ((runDeeds lib acts (buildRoleLinks (rbac P G)).2).enforce lib
          [.str sub, .str obj, .str act]).1 =
          .ok (decide (∃ s, [s, obj, act] ∈ p.policy.items ∧
            ∃ n ≤ 10, RM.Path (Grants ga.policy.items) n sub s))) := by
  obtain ⟨p1, t1, v1, l1, s1⟩ := linked_rbac lib P G hG
  obtain ⟨p, t2, l2, v2, hv⟩ := l1.deeds acts hf
  have hvals := fun t => (strip_value (s1 t)).trans (v2 t)
  have hgv := hvals c!"g"
  rw [show (rbacModel P G).find c!"g" c!"g" = some (gA G) from rfl] at hgv
  cases hga : (runDeeds lib acts (buildRoleLinks (rbac P G)).2).model.find c!"g" c!"g" with
  | none => rw [hga] at hgv; cases hgv
  | some ga =>
    rw [hga] at hgv
    simp only [Option.map_some, Option.some.injEq] at hgv
    refine ⟨p, ga, l2.setup.ready.state.defs.findP, rfl, fun hlen hne => ?_⟩
    refine C69_rbac_partial hL l2 (t2.trans t1) (hv (by rw [v1]; rfl)) hlen hga
      (by rw [← hgv]; show countChar '_' c!"_, _" = 2; decide) ?_ sub obj act hne
    intro t ht
    have := hvals t
    have hnone : (rbacModel P G).find c!"g" t = none := by
      have ht' : ¬ c!"g" = t := fun e => ht e.symm
      simp [Model.find, rbacModel, UMap.get, ht']
    rw [hnone] at this
    cases hx : (runDeeds lib acts (buildRoleLinks (rbac P G)).2).model.find c!"g" t with
    | none => rfl
    | some a => rw [hx] at this; cases this

omit [IterOrder] in
/-- C69 is false without rules: the request of empty strings is granted. -/
theorem C69_fails : ¬ ∀ (_ : IterOrder) (lib : ExprLib) (P G : List Rule) (sub obj act : Str),
    SoundLib lib → (∀ rule ∈ P, rule.length = 3) → (∀ r ∈ G, 2 ≤ r.length) →
    ((buildRoleLinks (rbac P G)).2.enforce lib [.str sub, .str obj, .str act]).1 = .ok true →
    ∃ s, [s, obj, act] ∈ P := by
  intro h
  obtain ⟨s, hs⟩ := @h insertionOrder miniLib [] [] [] [] [] miniLib_sound (by simp) (by simp)
    (by decide +kernel)
  simp at hs

/-- Non-vacuity of C69: a role granted through two links, one added after a request. -/
example : (letI := insertionOrder
    ((runActs miniLib [.ask [c!"alice", c!"data1", c!"read"],
        .edit (.add true c!"g" [c!"admin", c!"root"])]
      (buildRoleLinks (rbac [[c!"root", c!"data1", c!"read"]] [[c!"alice", c!"admin"]])).2).enforce
        miniLib [.str c!"alice", .str c!"data1", .str c!"read"]).1) = .ok true := by
  decide +kernel

example : letI := insertionOrder
    FaithfulActs miniLib [.ask [c!"alice", c!"data1", c!"read"],
        .edit (.add true c!"g" [c!"admin", c!"root"])]
      (buildRoleLinks (rbac [[c!"root", c!"data1", c!"read"]] [[c!"alice", c!"admin"]])).2 := by
  let _ := insertionOrder
  refine ⟨?_, by decide +kernel, trivial⟩
  intro a ha
  have h : (Act.run miniLib (.ask [c!"alice", c!"data1", c!"read"]) (buildRoleLinks
      (rbac [[c!"root", c!"data1", c!"read"]] [[c!"alice", c!"admin"]])).2).model.find c!"g" c!"g"
      = some { gA [[c!"alice", c!"admin"]] with rm := some 0 } := by decide +kernel
  rw [h] at ha
  cases ha
  exact ⟨by decide, by intro h; exact absurd h (by decide)⟩

/-- Non-vacuity: a policy file is set and loaded between requests. -/
def loadDeeds : List Deed :=
  [.act (.ask [c!"bob", c!"data2", c!"write"]),
    .setAdapter ⟨.file c!"policy.csv" (some AdapterProps.sample) true false, []⟩, .load,
    .act (.ask [c!"bob", c!"data2", c!"write"]), .save]

omit [IterOrder] in
example : letI := insertionOrder
    FaithfulDeeds miniLib loadDeeds (buildRoleLinks (rbac [alice] [[c!"alice", c!"admin"]])).2 := by
  let _ := insertionOrder
  refine ⟨trivial, ⟨[(c!"p", alice), (c!"p", bob), (c!"g", [c!"bob", c!"admin"])],
    loadsRules_file (ad := ⟨.file c!"policy.csv" (some AdapterProps.sample) true false, []⟩) rfl rfl (by decide)
      AdapterProps.sample_says (AdapterProps.shortLines_of_length (by decide)) (by decide +kernel)
      (by decide +kernel) (by decide), ?_⟩, trivial, trivial⟩
  intro x hx a ha
  have h : ∀ x ∈ [(c!"p", alice), (c!"p", bob), (c!"g", [c!"bob", c!"admin"])], (Option.all
      (fun a : Assertion => decide (countChar '_' a.value ≤ x.2.length))
      (((Deed.setAdapter ⟨.file c!"policy.csv" (some AdapterProps.sample) true false, []⟩).run miniLib
      (Deed.run miniLib (.act (.ask [c!"bob", c!"data2", c!"write"]))
        (buildRoleLinks (rbac [alice] [[c!"alice", c!"admin"]])).2)).model.find c!"g" x.1)) = true := by
    decide +kernel
  have h' := h x hx
  rw [ha] at h'
  simpa using h'

omit [IterOrder] in
example : (letI := insertionOrder
    ((runDeeds miniLib loadDeeds (buildRoleLinks (rbac [alice] [[c!"alice", c!"admin"]])).2).enforce miniLib
      [.str c!"bob", .str c!"data2", .str c!"write"]).1) = .ok true := by
  decide +kernel

/-! ## C70 -/

/-- `x` is given the role `y` in domain `d` by a rule of a role definition with three places. -/
def GrantsIn (G : List Rule) (d x y : Str) : Prop := ∃ rest, x :: y :: d :: rest ∈ G

/-- No grouping rule names a domain with a colon. -/
def PlainDomains (G : List Rule) : Prop := ∀ x y d rest, x :: y :: d :: rest ∈ G → ':' ∉ d

omit [IterOrder] in
theorem inDomain_inj {d d' x x' : Str} (h : ':' ∉ d) (h' : ':' ∉ d')
    (e : inDomain d x = inDomain d' x') : d = d' ∧ x = x' := by
  have e' : d ++ ':' :: (':' :: x) = d' ++ ':' :: (':' :: x') := by simpa [inDomain] using e
  have := RoleProps.colon_split h h' e'
  exact ⟨this.1, by simpa using this.2⟩

omit [IterOrder] in
theorem storedLinks_three {m : Model} {ga : Assertion} (hg : m.find c!"g" c!"g" = some ga)
    (h3 : countChar '_' ga.value = 3) (honly : ∀ t, t ≠ c!"g" → m.find c!"g" t = none) (x y : Str) :
    StoredLinks m x y ↔ ∃ d a b, x = inDomain d a ∧ y = inDomain d b ∧
      GrantsIn ga.policy.items d a b := by
  constructor
  · rintro ⟨t, a, ha, r, hr, hl⟩
    by_cases ht : t = c!"g"
    · subst ht
      rw [hg] at ha
      cases ha
      rcases hl with ⟨h2, _⟩ | ⟨_, a, b, d, rest, rfl, rfl, rfl⟩
      · rw [h3] at h2; cases h2
      · exact ⟨d, a, b, rfl, rfl, rest, hr⟩
    · rw [honly t ht] at ha; cases ha
  · rintro ⟨d, a, b, rfl, rfl, rest, hr⟩
    exact ⟨c!"g", ga, hg, _, hr, .inr ⟨h3, a, b, d, rest, rfl, rfl, rfl⟩⟩

omit [IterOrder] in
/-- Chains of qualified links stay inside one domain. -/
theorem path_domain {m : Model} {ga : Assertion} (hg : m.find c!"g" c!"g" = some ga)
    (h3 : countChar '_' ga.value = 3) (honly : ∀ t, t ≠ c!"g" → m.find c!"g" t = none)
    (hG : PlainDomains ga.policy.items) {d : Str} (hd : ':' ∉ d) (n : Nat) (a b : Str) :
    RM.Path (StoredLinks m) n (inDomain d a) (inDomain d b) ↔
      RM.Path (GrantsIn ga.policy.items d) n a b := by
  constructor
  · generalize hx : inDomain d a = x
    generalize hy : inDomain d b = y
    intro hp
    induction hp generalizing a with
    | nil => rw [← hy] at hx; rw [(inDomain_inj hd hd hx).2]; exact .nil _
    | cons he _ ih =>
      obtain ⟨d', a', b', rfl, rfl, hr⟩ := (storedLinks_three hg h3 honly _ _).mp he
      have hd' : ':' ∉ d' := by obtain ⟨rest, hr⟩ := hr; exact hG _ _ _ _ hr
      obtain ⟨rfl, rfl⟩ := inDomain_inj hd hd' hx
      exact .cons hr (ih b' rfl hy)
  · intro hp
    induction hp with
    | nil => exact .nil _
    | cons he _ ih =>
      exact .cons ((storedLinks_three hg h3 honly _ _).mpr ⟨d, _, _, rfl, rfl, he⟩) ih

/-- The request definition of the domain model. -/
def rD : Assertion := asrt c!"r" c!"sub, dom, obj, act" rTokD

open Classical in
/-- C70: with the domain model, the answer is determined by the rules and the grouping rules of the
domain asked for. Missing: domains with a colon (`C70_fails`), requests of empty strings on an
empty policy, and states whose links are not those of the rules. -/
theorem C70_domains_partial (hL : SoundLib lib) (h : Linked lib E rD p eA mDom)
    (ht : p.tokens = pTokD) (hvec : p.policy.hash = false)
    (hlen : ∀ rule ∈ p.policy.items, rule.length = 4)
    {ga : Assertion} (hg : E.model.find c!"g" c!"g" = some ga) (h3 : countChar '_' ga.value = 3)
    (honly : ∀ t, t ≠ c!"g" → E.model.find c!"g" t = none)
    (hG : PlainDomains ga.policy.items) (sub dom obj act : Str) (hd : ':' ∉ dom)
    (hne : p.policy.items ≠ [] ∨ dom ≠ [] ∨ obj ≠ [] ∨ act ≠ []) :
    (E.enforce lib [.str sub, .str dom, .str obj, .str act]).1 =
      .ok (decide (∃ s, [s, dom, obj, act] ∈ p.policy.items ∧
        ∃ n ≤ 10, RM.Path (GrantsIn ga.policy.items dom) n sub s)) := by
  have hlink : ∀ s, linked E.heap ga.rm (inDomain dom sub) (inDomain dom s) = true ↔
      ∃ n ≤ 10, RM.Path (GrantsIn ga.policy.items dom) n sub s := by
    intro s
    rw [h.setup.ready.ptr _ _ hg, linked_mirrors h.mirrors]
    simp only [path_domain hg h3 honly hG hd]
  have hcand : candidates p [sub, dom, obj, act] = p.policy.items := by simp [candidates, hvec]
  have key := allow_answer (h.setup.request (vals := [sub, dom, obj, act]) rfl) rfl
    (by rw [ht]; decide) h.setup.noEval (by rw [hcand, ht]; exact hlen)
    (fun rule => match rule with
      | [x, e, y, z] => linked E.heap ga.rm (inDomain dom sub) (inDomain dom x) &&
          decide (dom = e ∧ obj = y ∧ act = z)
      | _ => false) (by
      intro rule hr
      rw [ht] at hr ⊢
      obtain ⟨x, e, y, z, rfl⟩ := length4 hr
      exact verdict_mDom hL E.model E.heap hg h3 sub dom obj act x e y z)
  refine key.trans ?_
  congr 1
  rw [ht, hcand]
  by_cases hi : p.policy.items = []
  · have : ¬ (dom = [] ∧ obj = [] ∧ act = []) := by
      rintro ⟨rfl, rfl, rfl⟩
      simp [hi] at hne
    simp only [hi, if_true, pTokD, List.map_cons, List.map_nil, this, decide_false, Bool.and_false,
      List.not_mem_nil, false_and, exists_false]
  · rw [if_neg hi, Bool.eq_iff_iff, List.any_eq_true]
    simp only [decide_eq_true_eq]
    constructor
    · rintro ⟨rule, hr, hv⟩
      obtain ⟨x, e, y, z, rfl⟩ := length4 (hlen rule hr)
      simp only [Bool.and_eq_true, decide_eq_true_eq] at hv
      obtain ⟨h1, rfl, rfl, rfl⟩ := hv
      exact ⟨x, hr, (hlink x).mp h1⟩
    · rintro ⟨s, hr, hp⟩
      exact ⟨_, hr, by simp [(hlink s).mpr hp]⟩

/-- examples/rbac_with_domains_model.conf with the given rules and grouping rules. -/
def domModel (P G : List Rule) : Model :=
  [(c!"m", [(c!"m", asrt c!"m" mDom [])]), (c!"r", [(c!"r", rD)]),
   (c!"p", [(c!"p", asrt c!"p" c!"sub, dom, obj, act" pTokD (.vector P))]),
   (c!"g", [(c!"g", asrt c!"g" c!"_, _, _" [] (.vector G))]), (c!"e", eDef)]

def gD (G : List Rule) : Assertion := asrt c!"g" c!"_, _, _" [] (.vector G)

omit [IterOrder] in
theorem find_domModel (P G : List Rule) (t : Str) (ht : t ≠ c!"g") :
    (domModel P G).find c!"g" t = none := by
  have ht' : ¬ c!"g" = t := fun e => ht e.symm
  simp [Model.find, domModel, UMap.get, ht']

omit [IterOrder] in
theorem wellDefined_dom (P G : List Rule) : WellDefined (domModel P G) rD
    (asrt c!"p" c!"sub, dom, obj, act" pTokD (.vector P)) :=
  ⟨rfl, rfl, by decide, by decide, by show ∀ t ∈ pTokD, _; decide, by decide,
    by show (pTokD.map polName).Nodup; decide, by
    simp [domModel, Model.secMap, UMap.get, UMap.keys], lower_find (by
      simp [domModel, Model.secMap, UMap.get, UMap.keys, lower])⟩

omit [IterOrder] in
theorem goodRoles_dom (P G : List Rule) :
    GoodRoles (enforcer (domModel P G)).model (enforcer (domModel P G)).heap := by
  have hg : (domModel P G).find c!"g" c!"g" = some (gD G) := rfl
  refine ⟨by simp [enforcer, RM.WF_new], by simp [enforcer, RM.new], ?_⟩
  intro k a i hk hi
  by_cases hkg : k = c!"g"
  · subst hkg
    rw [show (enforcer (domModel P G)).model = domModel P G from rfl, hg] at hk
    cases hk
    cases hi
  · rw [show (enforcer (domModel P G)).model = domModel P G from rfl, find_domModel P G k hkg] at hk
    cases hk

omit [IterOrder] in
theorem groupsOk_dom (P G : List Rule) (hG : ∀ r ∈ G, 3 ≤ r.length) : GroupsOk (domModel P G) := by
  have hg : (domModel P G).find c!"g" c!"g" = some (gD G) := rfl
  intro k a hk
  by_cases hkg : k = c!"g"
  · subst hkg
    rw [hg] at hk
    cases hk
    exact ⟨.inr rfl, hG⟩
  · rw [find_domModel P G k hkg] at hk
    cases hk

theorem linked_dom (lib : ExprLib) (P G : List Rule) (hG : ∀ r ∈ G, 3 ≤ r.length) :
    ∃ p', p'.tokens = pTokD ∧ p'.policy = .vector P ∧
      Linked lib (buildRoleLinks (enforcer (domModel P G))).2 rD p' eA mDom ∧
      (∀ t, ((domModel P G).find c!"g" t).map Assertion.strip =
        ((buildRoleLinks (enforcer (domModel P G))).2.model.find c!"g" t).map Assertion.strip) :=
  linked_rebuilt (E := enforcer (domModel P G))
    (wellDefined_dom P G) (goodRoles_dom P G) rfl
    ⟨RM.new 10, rfl, rfl, rfl⟩ (groupsOk_dom P G hG) rfl rfl rfl (by decide) (by decide) rfl

omit [IterOrder] in
theorem strip_items {o o' : Option Assertion} (h : o.map Assertion.strip = o'.map Assertion.strip) :
    o.map Assertion.policy = o'.map Assertion.policy := by
  cases o with
  | none => cases o' with
    | none => rfl
    | some b => simp at h
  | some a => cases o' with
    | none => simp at h
    | some b =>
      simp only [Option.map_some, Option.some.injEq] at h ⊢
      have h2 := congrArg (fun x : Assertion => x.policy) h
      exact h2

/-- C70 as isolation: two enforcers whose rules and grouping rules of one domain agree give the same
answers in it, whatever the other domains contain. -/
theorem C70_isolation_partial (hL : SoundLib lib) (P G P' G' : List Rule) (d sub obj act : Str)
    (hP : ∀ r ∈ P, r.length = 4) (hP' : ∀ r ∈ P', r.length = 4)
    (hG : ∀ r ∈ G, 3 ≤ r.length) (hG' : ∀ r ∈ G', 3 ≤ r.length)
    (hD : PlainDomains G) (hD' : PlainDomains G') (hd : ':' ∉ d) (hne : d ≠ [])
    (sameP : ∀ s o a, [s, d, o, a] ∈ P ↔ [s, d, o, a] ∈ P')
    (sameG : ∀ x y, GrantsIn G d x y ↔ GrantsIn G' d x y) :
    ((buildRoleLinks (enforcer (domModel P G))).2.enforce lib
        [.str sub, .str d, .str obj, .str act]).1 =
      ((buildRoleLinks (enforcer (domModel P' G'))).2.enforce lib
        [.str sub, .str d, .str obj, .str act]).1 := by
  classical
  have go : ∀ P G : List Rule, (∀ r ∈ P, r.length = 4) → (∀ r ∈ G, 3 ≤ r.length) →
      PlainDomains G →
      ((buildRoleLinks (enforcer (domModel P G))).2.enforce lib
        [.str sub, .str d, .str obj, .str act]).1 =
      .ok (decide (∃ s, [s, d, obj, act] ∈ P ∧ ∃ n ≤ 10, RM.Path (GrantsIn G d) n sub s)) := by
    intro P G hP hG hD
    obtain ⟨p, t1, v1, l1, s1⟩ := linked_dom lib P G hG
    have s2 := s1 c!"g"
    rw [show (domModel P G).find c!"g" c!"g" = some (gD G) from rfl] at s2
    cases hga : (buildRoleLinks (enforcer (domModel P G))).2.model.find c!"g" c!"g" with
    | none => rw [hga] at s2; cases s2
    | some ga =>
      rw [hga] at s2
      have e1 := strip_value s2
      have e2 := strip_items s2
      simp only [Option.map_some, Option.some.injEq] at e1 e2
      have e3 : ga.policy.items = G := by rw [← e2]; rfl
      have := C70_domains_partial hL l1 t1 (by rw [v1]; rfl) (by rw [v1]; exact hP) hga
        (by rw [← e1]; show countChar '_' c!"_, _, _" = 3; decide) (by
          intro t ht
          have s3 := s1 t
          rw [find_domModel P G t ht] at s3
          cases hx : (buildRoleLinks (enforcer (domModel P G))).2.model.find c!"g" t with
          | none => rfl
          | some a => rw [hx] at s3; cases s3) (by rw [e3]; exact hD) sub d obj act hd
        (.inr (.inl hne))
      rw [e3, v1] at this
      exact this
  rw [go P G hP hG hD, go P' G' hP' hG' hD']
  congr 1
  refine decide_eq_decide.mpr ?_
  constructor
  · rintro ⟨s, hs, n, hn, hp⟩; exact ⟨s, (sameP _ _ _).mp hs, n, hn, hp.congr sameG⟩
  · rintro ⟨s, hs, n, hn, hp⟩
    exact ⟨s, (sameP _ _ _).mpr hs, n, hn, hp.congr fun a b => (sameG a b).symm⟩

omit [IterOrder] in
/-- C70 is false when a domain has a colon: a role of domain `a` grants access in domain `a::b`. -/
theorem C70_fails : ¬ ∀ (_ : IterOrder) (lib : ExprLib) (P G : List Rule) (sub d obj act : Str),
    SoundLib lib → (∀ r ∈ P, r.length = 4) → (∀ r ∈ G, r.length = 3) →
    (∀ x y, ¬ GrantsIn G d x y) → (∀ o a, [sub, d, o, a] ∉ P) → P ≠ [] →
    ((buildRoleLinks (enforcer (domModel P G))).2.enforce lib
        [.str sub, .str d, .str obj, .str act]).1 = .ok false := by
  intro h
  have := @h insertionOrder miniLib [[c!"admin", c!"a::b", c!"data1", c!"read"]]
    [[c!"b::alice", c!"b::admin", c!"a"]] c!"alice" c!"a::b" c!"data1" c!"read" miniLib_sound
    (by decide) (by decide) (by rintro x y ⟨rest, hr⟩; simp at hr) (by simp) (by decide)
  exact absurd this (by decide +kernel)

/-- Non-vacuity of C70: a role in the domain asked for, and one in another domain. -/
example : (letI := insertionOrder
    let E := (buildRoleLinks (enforcer (domModel [[c!"admin", c!"d1", c!"data1", c!"read"]]
      [[c!"alice", c!"admin", c!"d1"], [c!"bob", c!"admin", c!"d2"]]))).2
    ((E.enforce miniLib [.str c!"alice", .str c!"d1", .str c!"data1", .str c!"read"]).1,
     (E.enforce miniLib [.str c!"bob", .str c!"d1", .str c!"data1", .str c!"read"]).1)) =
    (.ok true, .ok false) := by
  decide +kernel

/-! ## C72 -/

theorem runAsks {r e : Assertion} {exp : Str} (asks : List (List Str)) :
    ∀ {E : Enforcer} {p : Assertion}, Linked lib E r p e exp →
      ∃ ev, runActs lib (asks.map Act.ask) E = { E with eval := ev } ∧
        Linked lib { E with eval := ev } r p e exp := by
  induction asks with
  | nil => intro E p h; exact ⟨E.eval, rfl, h⟩
  | cons vals asks ih =>
    intro E p h
    obtain ⟨ev, h1, h2⟩ := ask_state h.setup vals
    have hl : Linked lib { E with eval := ev } r p e exp :=
      ⟨⟨⟨h2, h.setup.ready.ptr, h.setup.ready.idx⟩, h.setup.enabled, h.setup.effect,
        h.setup.matcher, h.setup.nonempty, h.setup.noEval⟩,
        ⟨h.mirrors.groups, h.mirrors.links.of_heap rfl rfl⟩, h.auto⟩
    obtain ⟨ev', i1, i2⟩ := ih hl
    refine ⟨ev', ?_, i2⟩
    show runActs lib (asks.map Act.ask) (Act.run lib (.ask vals) E) = _
    rw [h1, i1]

/-- C72: a grouping rule that is added to an enforcer with the RBAC model takes effect in every
later request. The enforcer may have answered any requests before. Missing: enforcers whose role
links were never built (`C72_fails`), or are not those of the rules (see C23). -/
theorem C72_roles_partial (hL : SoundLib lib) (h : Linked lib E rA p eA mRbac)
    (ht : p.tokens = pTok) (hvec : p.policy.hash = false)
    (hlen : ∀ rule ∈ p.policy.items, rule.length = 3)
    {ga : Assertion} (hg : E.model.find c!"g" c!"g" = some ga) (h2 : countChar '_' ga.value = 2)
    (honly : ∀ t, t ≠ c!"g" → E.model.find c!"g" t = none) (a b obj act : Str) (rest : List Str)
    (hf : LinkProps.Faithful E (.add true c!"g" (a :: b :: rest)))
    (hadd : ((Edit.add true c!"g" (a :: b :: rest)).run E).1 = .ok true)
    (hrule : [b, obj, act] ∈ p.policy.items) (asks : List (List Str)) :
    ((runActs lib (asks.map Act.ask) ((Edit.add true c!"g" (a :: b :: rest)).run E).2).enforce lib
      [.str a, .str obj, .str act]).1 = .ok true := by
  classical
  obtain ⟨p1, t1, l1, v1, hv1⟩ := h.acts [.edit (.add true c!"g" (a :: b :: rest))]
    ⟨hf, by rw [hadd]; trivial, trivial⟩
  change Linked lib ((Edit.add true c!"g" (a :: b :: rest)).run E).2 rA p1 eA mRbac at l1
  have hd := Edit.did (.add true c!"g" (a :: b :: rest)) E
  have hrules := hd.rules
  have hres := hd.result _ hadd
  simp only [Edit.onStore, Edit.secOf, if_true] at hrules hres
  rw [Model.addPolicy_run hg] at hrules hres
  by_cases hs : ga.policy.Similar (a :: b :: rest)
  · rw [if_pos hs] at hres; cases hres
  · rw [if_neg hs] at hrules
    generalize hF : ((Edit.add true c!"g" (a :: b :: rest)).run E).2 = F at *
    obtain ⟨q, hq⟩ := hrules.some (Model.find_put_self ..)
    obtain ⟨q', hq'⟩ := hrules.some
      ((Model.find_put_ne E.model _ (by simp)).trans h.setup.ready.state.defs.findP)
    have hp1 := l1.setup.ready.state.defs.findP
    rw [hq'] at hp1
    cases hp1
    obtain ⟨ev, e1, l2⟩ := runAsks asks l1
    rw [e1]
    rw [C69_rbac_partial hL l2 (t1.trans ht) hvec hlen hq h2 ?_ a obj act
      (.inl (List.ne_nil_of_mem hrule))]
    · congr 1
      rw [decide_eq_true_eq]
      refine ⟨b, hrule, 1, by omega, .cons ⟨rest, ?_⟩ (.nil _)⟩
      exact (Policies.mem_emplace _ _ _).mpr (.inr rfl)
    · intro t ht'
      refine hrules.none ?_
      rw [Model.find_put_ne E.model _ (by simpa using fun e => ht' e.symm)]
      exact honly t ht'

omit [IterOrder] in
/-- C72 is false: on an enforcer without adapter, a request made before the first grouping rule
leaves the function `g` without a role manager for good. -/
theorem C72_fails : ¬ ∀ (_ : IterOrder) (lib : ExprLib) (P : List Rule) (a b obj act : Str)
    (asks : List (List Str)), SoundLib lib → (∀ rule ∈ P, rule.length = 3) → [b, obj, act] ∈ P →
    ((Edit.add true c!"g" [a, b]).run (runActs lib (asks.map Act.ask) (rbac P []))).1 = .ok true →
    (((Edit.add true c!"g" [a, b]).run (runActs lib (asks.map Act.ask) (rbac P []))).2.enforce lib
      [.str a, .str obj, .str act]).1 = .ok true := by
  intro h
  have := @h insertionOrder miniLib [[c!"admin", c!"data1", c!"read"]] c!"alice" c!"admin" c!"data1"
    c!"read" [[c!"alice", c!"data1", c!"read"]] miniLib_sound (by decide) (by decide)
    (by decide +kernel)
  exact absurd this (by decide +kernel)

/-- Non-vacuity of C72: without the early request the same grouping rule takes effect, and so it
does after a request when the links have been built at the start. -/
example : (letI := insertionOrder
    let P := [[c!"admin", c!"data1", c!"read"]]
    let ask := [ReqVal.str c!"alice", .str c!"data1", .str c!"read"]
    let add := (Edit.add true c!"g" [c!"alice", c!"admin"]).run
    (((add (rbac P [])).2.enforce miniLib ask).1,
     ((add (runActs miniLib [.ask [c!"alice", c!"data1", c!"read"]]
        (buildRoleLinks (rbac P [])).2)).2.enforce miniLib ask).1)) = (.ok true, .ok true) := by
  decide +kernel

end EndToEnd
end Casbin
