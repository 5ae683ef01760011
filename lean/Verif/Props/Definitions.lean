import Verif.Props.Adapters
import Verif.Props.Config
import Verif.Props.EndToEnd

/-!
# C83, C84: from the texts of a model and a policy to decisions
-/

namespace Casbin
namespace TextProps

open Enforcer AdapterProps EndToEnd DecisionProps Fixtures

/-! ## C83 -/

/-- What is left of a definition when its comment is dropped. -/
def Uncommented (s v : Str) : Prop :=
  ('#' ∉ s ∧ v = s) ∨ ∃ a b, s = a ++ '#' :: b ∧ '#' ∉ a ∧ Trimmed a v

theorem removeComments_spec {s v : Str} (h : Uncommented s v) : removeComments s = v := by
  rcases h with ⟨h, hv⟩ | ⟨a, b, hs, h, ht⟩
  · rw [removeComments, findChar_none.mpr h, hv]
  · rw [removeComments, hs, findChar_append_cons h]
    simpa using trimmed_iff.mp ht

theorem map_trim {names vs : List Str} (h : List.Forall₂ Trimmed names vs) : names.map trim = vs := by
  induction h with
  | nil => rfl
  | cons h _ ih => rw [List.map_cons, trimmed_iff.mp h, ih]

theorem addDef_cases (rx) (m : Model) (sec key value : Str) :
    (∃ b, Model.addDef rx sec key value m =
      (.ok true, (m.ensureSec sec).put sec key (newAssertion sec key value b))) ∨
    ((Model.addDef rx sec key value m).1 ≠ .ok true ∧
      ∀ s t, (Model.addDef rx sec key value m).2.find s t = m.find s t) := by
  unfold Model.addDef
  by_cases hv : value = []
  · right; simp [hv]
  · by_cases hp : sec = c!"p" ∧ ((m.ensureSec sec).has c!"m" = false ∨ (m.ensureSec sec).has c!"r" = false)
    · right
      simp only [if_neg hv, M.bind_run, M.modify_run, M.get_run, if_pos hp, M.pure_run]
      exact ⟨by simp, fun s t => Model.find_ensureSec _ _ _ _⟩
    · cases hh : hashPossible rx (m.ensureSec sec) with
      | ok b =>
        left
        refine ⟨b, ?_⟩
        simp only [if_neg hv, M.bind_run, M.modify_run, M.get_run, if_neg hp, M.lift_run, hh, M.pure_run]
      | throw e =>
        right
        simp only [if_neg hv, M.bind_run, M.modify_run, M.get_run, if_neg hp, M.lift_run, hh]
        exact ⟨by simp, fun s t => Model.find_ensureSec _ _ _ _⟩
      | ub u =>
        right
        simp only [if_neg hv, M.bind_run, M.modify_run, M.get_run, if_neg hp, M.lift_run, hh]
        exact ⟨by simp, fun s t => Model.find_ensureSec _ _ _ _⟩

/-- C83: a definition that is accepted has its key, no rules and no role manager; a request or policy
definition has one token for each name between commas, the key and an underscore before the name; any
other definition keeps its text but for a comment. All other definitions are as before. -/
theorem C83_definition {rx} {m : Model} {sec key value : Str}
    (h : (Model.addDef rx sec key value m).1 = .ok true) (hs : value.length < splitLARGE) :
    ∃ a, (Model.addDef rx sec key value m).2.find sec key = some a ∧
      a.key = key ∧ a.policy.items = [] ∧ a.rm = none ∧
      (sec ∈ [c!"r", c!"p"] → a.value = value ∧ ∀ names vs, Pieces ',' value names →
        List.Forall₂ Trimmed names vs → a.tokens = vs.map fun v => key ++ '_' :: v) ∧
      (sec ∉ [c!"r", c!"p"] → a.tokens = [] ∧ ∀ v, Uncommented value v → a.value = v) ∧
      ∀ s t, ¬ (s = sec ∧ t = key) → (Model.addDef rx sec key value m).2.find s t = m.find s t := by
  rcases addDef_cases rx m sec key value with ⟨b, hb⟩ | ⟨hb, _⟩
  · rw [hb]
    refine ⟨newAssertion sec key value b, by simp, rfl, ?_, rfl, ?_, ?_, ?_⟩
    · cases b <;> rfl
    · intro hsec
      have hsec' : sec = c!"r" ∨ sec = c!"p" := by simpa using hsec
      simp only [newAssertion, if_pos hsec', true_and]
      intro names vs hn hv
      rw [split_pieces hn hs, ← map_trim hv, List.map_map]
      apply List.map_congr_left
      intro t _
      simp
    · intro hsec
      have hsec' : ¬ (sec = c!"r" ∨ sec = c!"p") := by simpa using hsec
      simp only [newAssertion, if_neg hsec', true_and]
      exact fun v hv => removeComments_spec hv
    · intro s t hst
      rw [Model.find_put_ne _ _ (fun hc => hst ⟨hc.1.symm, hc.2.symm⟩), Model.find_ensureSec]
  · exact absurd h hb

/-- A definition that is refused changes nothing but adding an empty section. -/
theorem C83_refused {rx} {m : Model} {sec key value : Str}
    (h : (Model.addDef rx sec key value m).1 ≠ .ok true) (s t : Str) :
    (Model.addDef rx sec key value m).2.find s t = m.find s t := by
  rcases addDef_cases rx m sec key value with ⟨b, hb⟩ | ⟨_, hb⟩
  · rw [hb] at h; exact absurd rfl h
  · exact hb s t

/-- Non-vacuity of C83: a request definition with blanks and a role definition with a comment, and a
policy definition that is refused. -/
example : (Model.addDef (fun _ s => .ok s) c!"r" c!"r2" c!"sub ,  obj" []).1 = .ok true ∧
    Pieces ',' c!"sub ,  obj" [c!"sub ", c!"  obj"] ∧
    List.Forall₂ Trimmed [c!"sub ", c!"  obj"] [c!"sub", c!"obj"] ∧
    (Model.addDef (fun _ s => .ok s) c!"g" c!"g" c!"_, _ # two" []).1 = .ok true ∧
    Uncommented c!"_, _ # two" c!"_, _" ∧
    (Model.addDef (fun _ s => .ok s) c!"p" c!"p" c!"sub" []).1 ≠ .ok true := by
  refine ⟨by decide +kernel, ⟨by decide, by decide, by decide⟩,
    .cons (trimmed_iff.mpr (by decide)) (.cons (trimmed_iff.mpr (by decide)) .nil), by decide +kernel,
    .inr ⟨c!"_, _ ", c!" two", by decide, by decide, trimmed_iff.mpr (by decide)⟩, by decide +kernel⟩

/-! ## C84 -/

/-- examples/basic_model.conf -/
def basicConf : Str :=
  c!"[request_definition]\nr = sub, obj, act\n\n[policy_definition]\np = sub, obj, act\n\n" ++
  c!"[policy_effect]\ne = some(where (p.eft == allow))\n\n" ++
  c!"[matchers]\nm = r.sub == p.sub && r.obj == p.obj && r.act == p.act"

/-- examples/rbac_model.conf -/
def rbacConf : Str :=
  c!"[request_definition]\nr = sub, obj, act\n\n[policy_definition]\np = sub, obj, act\n\n" ++
  c!"[role_definition]\ng = _, _\n\n[policy_effect]\ne = some(where (p.eft == allow))\n\n" ++
  c!"[matchers]\nm = g(r.sub, p.sub) && r.obj == p.obj && r.act == p.act"

/-- examples/rbac_with_domains_model.conf -/
def domConf : Str :=
  c!"[request_definition]\nr = sub, dom, obj, act\n\n[policy_definition]\np = sub, dom, obj, act\n\n" ++
  c!"[role_definition]\ng = _, _, _\n\n[policy_effect]\ne = some(where (p.eft == allow))\n\n" ++
  c!"[matchers]\nm = g(r.sub, p.sub, r.dom) && r.dom == p.dom && r.obj == p.obj && r.act == p.act"

/-- The model of `basicConf`, with rules. -/
def basicModel (P : Policies) : Model :=
  [(c!"m", [(c!"m", asrt c!"m" mAcl [])]), (c!"r", rDef), (c!"p", pDef P),
   (c!"e", [(c!"e", asrt c!"e" c!"some(where (p.eft == allow))" [] .hashset)])]

/-- The same with the empty role section that clearing leaves. -/
def clearedModel (P : Policies) : Model := basicModel P ++ [(c!"g", [])]

theorem basic_ofText (rx) : Model.ofText rx basicConf = .ok (basicModel .hashset) := by
  rfl

theorem rbac_ofText (rx) : Model.ofText rx rbacConf = .ok (rbacModel [] []) := by
  rfl

theorem dom_ofText (rx) : Model.ofText rx domConf = .ok (domModel [] []) := by
  rfl

variable [IterOrder] {lib : ExprLib}

omit [IterOrder] in
theorem rulesOf_cons (x : Str × Rule) (xs : List (Str × Rule)) (pt : Str) :
    rulesOf (x :: xs) pt = (if x.1 = pt then [x.2] else []) ++ rulesOf xs pt := by
  unfold rulesOf
  by_cases h : x.1 = pt
  · simp [h]
  · simp [h]

omit [IterOrder] in
theorem addRule_basic (rules : List (Str × Rule)) : ∀ (P : Policies), (∀ x ∈ rules, x.1 = c!"p") →
    ∃ Q, rules.foldl addRule (clearedModel P) = clearedModel Q ∧ Q.hash = P.hash ∧
      ∀ r, r ∈ Q.items ↔ r ∈ P.items ∨ r ∈ rulesOf rules c!"p" := by
  induction rules with
  | nil => intro P _; exact ⟨P, rfl, rfl, by simp [rulesOf]⟩
  | cons x rules ih =>
    intro P h
    obtain ⟨pt, rule⟩ := x
    have hx := h _ List.mem_cons_self
    simp only at hx
    subst hx
    have hstep : addRule (clearedModel P) (c!"p", rule) = clearedModel (P.emplace rule) := rfl
    obtain ⟨Q, h1, h2, h3⟩ := ih (P.emplace rule) (fun y hy => h y (List.mem_cons_of_mem _ hy))
    refine ⟨Q, by rw [List.foldl_cons, hstep, h1], ?_, ?_⟩
    · rw [h2]; unfold Policies.emplace; split
      · split <;> rfl
      · rfl
    · intro r
      rw [h3, rulesOf_cons]
      unfold Policies.emplace
      split
      · split
        · rename_i hin
          simp only [if_true, List.mem_append, List.mem_singleton]
          constructor
          · rintro (h | h)
            · exact .inl h
            · exact .inr (.inr h)
          · rintro (h | rfl | h)
            · exact .inl h
            · exact .inl hin
            · exact .inr h
        · simp [or_assoc]
      · simp [or_assoc]

omit [IterOrder] in
theorem addRule_rbac (rules : List (Str × Rule)) : ∀ (P G : List Rule),
    (∀ x ∈ rules, x.1 = c!"p" ∨ x.1 = c!"g") →
    rules.foldl addRule (rbacModel P G) =
      rbacModel (P ++ rulesOf rules c!"p") (G ++ rulesOf rules c!"g") := by
  induction rules with
  | nil => intro P G _; simp [rulesOf]
  | cons x rules ih =>
    intro P G h
    obtain ⟨pt, rule⟩ := x
    have hx := h _ List.mem_cons_self
    simp only at hx
    rw [List.foldl_cons]
    rcases hx with rfl | rfl
    · rw [show addRule (rbacModel P G) (c!"p", rule) = rbacModel (P ++ [rule]) G from rfl,
        ih _ _ (fun y hy => h y (List.mem_cons_of_mem _ hy)), rulesOf_cons, rulesOf_cons]
      simp
    · rw [show addRule (rbacModel P G) (c!"g", rule) = rbacModel P (G ++ [rule]) from rfl,
        ih _ _ (fun y hy => h y (List.mem_cons_of_mem _ hy)), rulesOf_cons, rulesOf_cons]
      simp

omit [IterOrder] in
theorem addRule_dom (rules : List (Str × Rule)) : ∀ (P G : List Rule),
    (∀ x ∈ rules, x.1 = c!"p" ∨ x.1 = c!"g") →
    rules.foldl addRule (domModel P G) =
      domModel (P ++ rulesOf rules c!"p") (G ++ rulesOf rules c!"g") := by
  induction rules with
  | nil => intro P G _; simp [rulesOf]
  | cons x rules ih =>
    intro P G h
    obtain ⟨pt, rule⟩ := x
    have hx := h _ List.mem_cons_self
    simp only at hx
    rw [List.foldl_cons]
    rcases hx with rfl | rfl
    · rw [show addRule (domModel P G) (c!"p", rule) = domModel (P ++ [rule]) G from rfl,
        ih _ _ (fun y hy => h y (List.mem_cons_of_mem _ hy)), rulesOf_cons, rulesOf_cons]
      simp
    · rw [show addRule (domModel P G) (c!"g", rule) = domModel P (G ++ [rule]) from rfl,
        ih _ _ (fun y hy => h y (List.mem_cons_of_mem _ hy)), rulesOf_cons, rulesOf_cons]
      simp

/-- An adapter for a file at a path that is not empty, with the given content. -/
def FileAdapter (ad : Adapter) (text : Str) : Prop :=
  ∃ path w b, ad.kind = .file path (some text) w b ∧ path ≠ []

/-- The enforcer the constructor has before building the role links. -/
def loadedEnforcer (m : Model) (ad : Adapter) : Enforcer :=
  { enforcer m with adapter := some { ad with log := ad.log ++ [.load] } }

theorem construct_file {m m₁ : Model} {ad : Adapter} {text : Str} (hf : FileAdapter ad text)
    {rules : List (Str × Rule)} (h : TextSays text rules) (hl : ShortLines text)
    (hc : m.clearPolicy = m₁) (hd : ∀ x ∈ rules, m₁.find (x.1.take 1) x.1 ≠ none) :
    construct m (some ad) = buildRoleLinks (loadedEnforcer (rules.foldl addRule m₁) ad) := by
  obtain ⟨path, w, b, hk, hp⟩ := hf
  have hv : ad.isValid = true := by simp [Adapter.isValid, hk, hp]
  have hload : ad.loadPolicy (enforcer m).model.clearPolicy = (.ok (), rules.foldl addRule m₁) := by
    rw [show (enforcer m).model = m from rfl, hc]
    unfold Adapter.loadPolicy
    rw [hk]
    simp only [if_neg hp]
    exact loadFile_run h hl hd
  have := loadPolicy_ok (E := { enforcer m with adapter := some ad }) rfl hload
  simp only [construct, initObject, M.bind_run, M.modify_run, hv, if_true]
  exact this

/-- C84: an enforcer made from examples/basic_model.conf and a policy file grants a request exactly
when the text says so. All lines must be `p` rules; the request of three empty strings is left out
(`C68_fails`), and those with a NUL character (`C68_nul_fails`). -/
theorem C84_acl_partial (hL : SoundLib lib) (rx) {ad : Adapter} {text : Str} (hf : FileAdapter ad text)
    {rules : List (Str × Rule)} (h : TextSays text rules) (hl : ShortLines text)
    (hp : ∀ x ∈ rules, x.1 = c!"p") :
    ∃ m E, Model.ofText rx basicConf = .ok m ∧ construct m (some ad) = (.ok (), E) ∧
      ∀ a b c, [a, b, c] ≠ [[], [], []] → NoNul [a, b, c] →
        (E.enforce lib [.str a, .str b, .str c]).1 =
          .ok (decide ((c!"p", [a, b, c]) ∈ rules)) := by
  obtain ⟨Q, h1, h2, h3⟩ := addRule_basic rules .hashset hp
  have hcon := construct_file (m := basicModel .hashset) (m₁ := clearedModel .hashset) hf h hl rfl (by
    intro x hx
    rw [hp x hx]
    simp [clearedModel, basicModel, Model.find, UMap.get, pDef])
  rw [h1] at hcon
  have hg : ∀ t, (clearedModel Q).find c!"g" t = none := fun t => rfl
  have hgr : GroupsOk (clearedModel Q) := by
    intro t a ha
    rw [hg] at ha; cases ha
  obtain ⟨E', e1, _, _⟩ := buildRoleLinks_mirrors (E := loadedEnforcer (clearedModel Q) ad)
    ⟨RM.new 10, rfl, rfl, rfl⟩ hgr
  obtain ⟨p', t', v', l', _⟩ := linked_rebuilt (lib := lib) (E := loadedEnforcer (clearedModel Q) ad)
    (r := rA) (p := pA Q) (e := asrt c!"e" c!"some(where (p.eft == allow))" [] .hashset) (exp := mAcl)
    ⟨rfl, rfl, by decide, by decide, by show ∀ t ∈ pTok, _; decide, by decide,
      by show (pTok.map polName).Nodup; decide,
      by simp [loadedEnforcer, enforcer, clearedModel, basicModel, Model.secMap, UMap.get, UMap.keys], lower_find (by
      simp [loadedEnforcer, enforcer, clearedModel, basicModel, Model.secMap, UMap.get, UMap.keys, lower])⟩
    ⟨by simp [loadedEnforcer, enforcer, RM.WF_new], by simp [loadedEnforcer, enforcer, RM.new], by
      intro k a i hk _
      rw [show (loadedEnforcer (clearedModel Q) ad).model = clearedModel Q from rfl, hg] at hk
      cases hk⟩
    rfl ⟨RM.new 10, rfl, rfl, rfl⟩ hgr rfl rfl rfl (by decide) (by decide) rfl
  rw [e1] at l'
  refine ⟨_, E', basic_ofText rx, hcon.trans e1, fun a b c hne hnul => ?_⟩
  have hh : p'.policy.hash = true := by rw [v']; exact h2
  rw [C68_acl_partial hL l'.setup rfl t' (fun h => by rw [hh] at h; cases h) a b c (.inl hne)
    fun _ => hnul]
  congr 1
  rw [decide_eq_decide, v']
  refine (h3 _).trans ?_
  simp only [show (Policies.hashset).items = [] from rfl, List.not_mem_nil, false_or, rulesOf,
    List.mem_map, List.mem_filter, decide_eq_true_eq]
  constructor
  · rintro ⟨⟨pt, r⟩, ⟨hm, ht⟩, hr⟩
    simp only at ht hr
    subst ht hr
    exact hm
  · intro hm
    exact ⟨_, ⟨hm, rfl⟩, rfl⟩

open Classical in
/-- C84: an enforcer made from examples/rbac_model.conf and a policy file grants a request exactly
when a `p` line for object and action names the subject or a role that the `g` lines give it through
at most ten links. All lines must be `p` rules of three values or `g` rules of at least two; requests
with empty object and action are left out when there are no `p` lines (`C69_fails`). -/
theorem C84_rbac_partial (hL : SoundLib lib) (rx) {ad : Adapter} {text : Str} (hf : FileAdapter ad text)
    {rules : List (Str × Rule)} (h : TextSays text rules) (hl : ShortLines text)
    (hp : ∀ x ∈ rules, (x.1 = c!"p" ∧ x.2.length = 3) ∨ (x.1 = c!"g" ∧ 2 ≤ x.2.length)) :
    ∃ m E, Model.ofText rx rbacConf = .ok m ∧ construct m (some ad) = (.ok (), E) ∧
      ∀ sub obj act, (∃ r, (c!"p", r) ∈ rules) ∨ obj ≠ [] ∨ act ≠ [] →
        (E.enforce lib [.str sub, .str obj, .str act]).1 =
          .ok (decide (∃ s, (c!"p", [s, obj, act]) ∈ rules ∧ ∃ n ≤ 10,
            RM.Path (fun x y => ∃ rest, (c!"g", x :: y :: rest) ∈ rules) n sub s)) := by
  have hmem : ∀ pt r, r ∈ rulesOf rules pt ↔ (pt, r) ∈ rules := by
    intro pt r
    simp only [rulesOf, List.mem_map, List.mem_filter, decide_eq_true_eq]
    constructor
    · rintro ⟨⟨pt', r'⟩, ⟨hm, ht⟩, hr⟩
      simp only at ht hr
      subst ht hr
      exact hm
    · intro hm
      exact ⟨_, ⟨hm, rfl⟩, rfl⟩
  have h1 := addRule_rbac rules [] [] (fun x hx => (hp x hx).imp And.left And.left)
  simp only [List.nil_append] at h1
  generalize hP : rulesOf rules c!"p" = P at h1
  generalize hG : rulesOf rules c!"g" = G at h1
  have hG2 : ∀ r ∈ G, 2 ≤ r.length := by
    intro r hr
    rw [← hG, hmem] at hr
    rcases hp _ hr with h | h
    · exact absurd h.1 (by simp)
    · exact h.2
  have hP3 : ∀ r ∈ P, r.length = 3 := by
    intro r hr
    rw [← hP, hmem] at hr
    rcases hp _ hr with h | h
    · exact h.2
    · exact absurd h.1 (by simp)
  have hcon := construct_file (m := rbacModel [] []) (m₁ := rbacModel [] []) hf h hl rfl (by
    intro x hx
    rcases hp x hx with hx | hx
    · rw [hx.1]; simp [rbacModel, Model.find, UMap.get, pDef]
    · rw [hx.1]; simp [rbacModel, Model.find, UMap.get])
  rw [h1] at hcon
  have hgr := LinkProps.groupsOk_rbac P G hG2
  obtain ⟨E', e1, _, _⟩ := buildRoleLinks_mirrors (E := loadedEnforcer (rbacModel P G) ad)
    ⟨RM.new 10, rfl, rfl, rfl⟩ hgr
  obtain ⟨p', t', v', l', s'⟩ := linked_rebuilt (lib := lib) (E := loadedEnforcer (rbacModel P G) ad)
    (r := rA) (e := eA) (exp := mRbac)
    (wellDefined_rbac P G) (goodRoles_rbac P G)
    rfl ⟨RM.new 10, rfl, rfl, rfl⟩ hgr rfl rfl rfl (by decide) (by decide) rfl
  rw [e1] at l' s'
  refine ⟨_, E', rbac_ofText rx, hcon.trans e1, fun sub obj act hne => ?_⟩
  have s1 := s' c!"g"
  rw [show (loadedEnforcer (rbacModel P G) ad).model.find c!"g" c!"g" = some (gA G) from rfl] at s1
  cases hga : E'.model.find c!"g" c!"g" with
  | none => simp only [hga] at s1; cases s1
  | some ga =>
    simp only [hga, Option.map_some, Option.some.injEq] at s1
    have hval : ga.value = c!"_, _" := (congrArg Assertion.value s1).symm
    have hpol : ga.policy = .vector G := (congrArg Assertion.policy s1).symm
    have hhash : p'.policy.hash = false := by rw [v']; rfl
    have hitems : p'.policy.items = P := by rw [v']; rfl
    have hgi : ga.policy.items = G := by rw [hpol]; rfl
    rw [C69_rbac_partial hL l' t' hhash (by rw [hitems]; exact hP3) hga (by rw [hval]; decide) ?_
      sub obj act ?_]
    · congr 1
      rw [decide_eq_decide, hitems, hgi]
      have hgr : Grants G = fun x y => ∃ rest, (c!"g", x :: y :: rest) ∈ rules := by
        funext x y
        apply propext
        unfold Grants
        simp only [← hG, hmem]
      rw [hgr]
      simp only [← hP, hmem]
    · intro t ht
      have := s' t
      rw [show (loadedEnforcer (rbacModel P G) ad).model.find c!"g" t = none by
        simp [loadedEnforcer, enforcer, rbacModel, Model.find, UMap.get, Ne.symm ht]] at this
      cases hh : E'.model.find c!"g" t with
      | none => rfl
      | some a => simp only [hh] at this; cases this
    · rcases hne with ⟨r, hr⟩ | hne
      · left
        rw [hitems, ← hP]
        intro h0
        rw [← hmem, h0] at hr
        cases hr
      · exact .inr hne

open Classical in
/-- C84: an enforcer made from examples/rbac_with_domains_model.conf and a policy file grants a
request exactly when a `p` line for domain, object and action names the subject or a role that the
`g` lines of the domain give it through at most ten links. All lines must be `p` rules of four values
or `g` rules of at least three; domains with a colon are left out (`C70_fails`), and requests of
empty strings when there are no `p` lines. -/
theorem C84_domains_partial (hL : SoundLib lib) (rx) {ad : Adapter} {text : Str} (hf : FileAdapter ad text)
    {rules : List (Str × Rule)} (h : TextSays text rules) (hl : ShortLines text)
    (hp : ∀ x ∈ rules, (x.1 = c!"p" ∧ x.2.length = 4) ∨ (x.1 = c!"g" ∧ 3 ≤ x.2.length))
    (hcol : ∀ x y d rest, (c!"g", x :: y :: d :: rest) ∈ rules → ':' ∉ d) :
    ∃ m E, Model.ofText rx domConf = .ok m ∧ construct m (some ad) = (.ok (), E) ∧
      ∀ sub dom obj act, ':' ∉ dom → (∃ r, (c!"p", r) ∈ rules) ∨ dom ≠ [] ∨ obj ≠ [] ∨ act ≠ [] →
        (E.enforce lib [.str sub, .str dom, .str obj, .str act]).1 =
          .ok (decide (∃ s, (c!"p", [s, dom, obj, act]) ∈ rules ∧ ∃ n ≤ 10,
            RM.Path (fun x y => ∃ rest, (c!"g", x :: y :: dom :: rest) ∈ rules) n sub s)) := by
  have hmem : ∀ pt r, r ∈ rulesOf rules pt ↔ (pt, r) ∈ rules := by
    intro pt r
    simp only [rulesOf, List.mem_map, List.mem_filter, decide_eq_true_eq]
    constructor
    · rintro ⟨⟨pt', r'⟩, ⟨hm, ht⟩, hr⟩
      simp only at ht hr
      subst ht hr
      exact hm
    · intro hm
      exact ⟨_, ⟨hm, rfl⟩, rfl⟩
  have h1 := addRule_dom rules [] [] (fun x hx => (hp x hx).imp And.left And.left)
  simp only [List.nil_append] at h1
  generalize hP : rulesOf rules c!"p" = P at h1
  generalize hG : rulesOf rules c!"g" = G at h1
  have hG2 : ∀ r ∈ G, 3 ≤ r.length := by
    intro r hr
    rw [← hG, hmem] at hr
    rcases hp _ hr with h | h
    · exact absurd h.1 (by simp)
    · exact h.2
  have hP3 : ∀ r ∈ P, r.length = 4 := by
    intro r hr
    rw [← hP, hmem] at hr
    rcases hp _ hr with h | h
    · exact h.2
    · exact absurd h.1 (by simp)
  have hcon := construct_file (m := domModel [] []) (m₁ := domModel [] []) hf h hl rfl (by
    intro x hx
    rcases hp x hx with hx | hx
    · rw [hx.1]; simp [domModel, Model.find, UMap.get]
    · rw [hx.1]; simp [domModel, Model.find, UMap.get])
  rw [h1] at hcon
  have hgr := groupsOk_dom P G hG2
  obtain ⟨E', e1, _, _⟩ := buildRoleLinks_mirrors (E := loadedEnforcer (domModel P G) ad)
    ⟨RM.new 10, rfl, rfl, rfl⟩ hgr
  obtain ⟨p', t', v', l', s'⟩ := linked_rebuilt (lib := lib) (E := loadedEnforcer (domModel P G) ad)
    (r := rD) (e := eA) (exp := mDom)
    (wellDefined_dom P G) (goodRoles_dom P G)
    rfl ⟨RM.new 10, rfl, rfl, rfl⟩ hgr rfl rfl rfl (by decide) (by decide) rfl
  rw [e1] at l' s'
  refine ⟨_, E', dom_ofText rx, hcon.trans e1, fun sub dom obj act hdom hne => ?_⟩
  have s1 := s' c!"g"
  rw [show (loadedEnforcer (domModel P G) ad).model.find c!"g" c!"g" = some (gD G) from rfl] at s1
  cases hga : E'.model.find c!"g" c!"g" with
  | none => simp only [hga] at s1; cases s1
  | some ga =>
    simp only [hga, Option.map_some, Option.some.injEq] at s1
    have hval : ga.value = c!"_, _, _" := (congrArg Assertion.value s1).symm
    have hpol : ga.policy = .vector G := (congrArg Assertion.policy s1).symm
    have hhash : p'.policy.hash = false := by rw [v']; rfl
    have hitems : p'.policy.items = P := by rw [v']; rfl
    have hgi : ga.policy.items = G := by rw [hpol]; rfl
    rw [C70_domains_partial hL l' t' hhash (by rw [hitems]; exact hP3) hga (by rw [hval]; decide) ?_ ?_
      sub dom obj act hdom ?_]
    · congr 1
      rw [decide_eq_decide, hitems, hgi]
      have hgr : GrantsIn G dom = fun x y => ∃ rest, (c!"g", x :: y :: dom :: rest) ∈ rules := by
        funext x y
        apply propext
        unfold GrantsIn
        simp only [← hG, hmem]
      rw [hgr]
      simp only [← hP, hmem]
    · intro t ht
      have := s' t
      rw [show (loadedEnforcer (domModel P G) ad).model = domModel P G from rfl,
        find_domModel P G t ht] at this
      cases hh : E'.model.find c!"g" t with
      | none => rfl
      | some a => simp only [hh] at this; cases this
    · intro x y d rest hr
      rw [hgi, ← hG, hmem] at hr
      exact hcol x y d rest hr
    · rcases hne with ⟨r, hr⟩ | hne
      · left
        rw [hitems, ← hP]
        intro h0
        rw [← hmem, h0] at hr
        cases hr
      · exact .inr hne

omit [IterOrder] in
theorem file_sample (text : Str) : FileAdapter ⟨.file c!"policy.csv" (some text) true false, []⟩ text :=
  ⟨c!"policy.csv", true, false, rfl, by simp⟩

/-- The hypotheses of `C84_acl_partial` can be met. -/
example : ∃ m E, Model.ofText (fun _ s => .ok s) basicConf = .ok m ∧
    construct m (some ⟨.file c!"policy.csv" (some sampleS) true false, []⟩) = (.ok (), E) ∧
    ∀ a b c, [a, b, c] ≠ [[], [], []] → NoNul [a, b, c] → (E.enforce miniLib [.str a, .str b, .str c]).1 =
      .ok (decide ((c!"p", [a, b, c]) ∈ [(c!"p", alice), (c!"p", bob)])) :=
  C84_acl_partial miniLib_sound _ (file_sample sampleS) sampleS_says
    (shortLines_of_length (by decide)) (by decide)

/-- A policy text with a role. -/
def roleSample : Str := c!"p, admin, data1, read\ng, alice, admin\n"

omit [IterOrder] in
theorem roleSample_says : TextSays roleSample
    [(c!"p", [c!"admin", c!"data1", c!"read"]), (c!"g", [c!"alice", c!"admin"])] := by
  refine ⟨[c!"p, admin, data1, read", c!"g, alice, admin", []],
    [some (c!"p", [c!"admin", c!"data1", c!"read"]), some (c!"g", [c!"alice", c!"admin"]), none],
    ⟨by simp, by decide, by decide⟩, ?_, rfl⟩
  refine .cons ?_ (.cons ?_ (.cons (.blank (trimmed_iff.mpr (by decide))) .nil))
  · refine .rule (t := c!"p, admin, data1, read") (f := c!"p")
      (fs := [c!" admin", c!" data1", c!" read"]) (trimmed_iff.mpr (by decide)) (by simp) (by simp)
      ⟨by simp, by decide, by decide⟩ (trimmed_iff.mpr (by decide)) ?_
    exact .cons (trimmed_iff.mpr (by decide)) (.cons (trimmed_iff.mpr (by decide))
      (.cons (trimmed_iff.mpr (by decide)) .nil))
  · refine .rule (t := c!"g, alice, admin") (f := c!"g")
      (fs := [c!" alice", c!" admin"]) (trimmed_iff.mpr (by decide)) (by simp) (by simp)
      ⟨by simp, by decide, by decide⟩ (trimmed_iff.mpr (by decide)) ?_
    exact .cons (trimmed_iff.mpr (by decide)) (.cons (trimmed_iff.mpr (by decide)) .nil)

/-- The hypotheses of `C84_rbac_partial` can be met: alice is granted what the role may do. -/
example : ∃ m E, Model.ofText (fun _ s => .ok s) rbacConf = .ok m ∧
    construct m (some ⟨.file c!"policy.csv" (some roleSample) true false, []⟩) = (.ok (), E) ∧
    (E.enforce miniLib [.str c!"alice", .str c!"data1", .str c!"read"]).1 = .ok true := by
  obtain ⟨m, E, h1, h2, h3⟩ := C84_rbac_partial miniLib_sound (fun _ s => .ok s)
    (file_sample roleSample) roleSample_says (shortLines_of_length (by decide)) (by decide)
  refine ⟨m, E, h1, h2, (h3 _ _ _ (.inr (.inl (by simp)))).trans ?_⟩
  simp only [Outcome.ok.injEq, decide_eq_true_eq]
  exact ⟨c!"admin", by simp, 1, by omega, .cons ⟨[], by simp⟩ (.nil _)⟩

/-- A policy text with a role in a domain. -/
def domSample : Str := c!"p, admin, d1, data1, read\ng, alice, admin, d1"

omit [IterOrder] in
theorem domSample_says : TextSays domSample
    [(c!"p", [c!"admin", c!"d1", c!"data1", c!"read"]), (c!"g", [c!"alice", c!"admin", c!"d1"])] := by
  refine ⟨[c!"p, admin, d1, data1, read", c!"g, alice, admin, d1"],
    [some (c!"p", [c!"admin", c!"d1", c!"data1", c!"read"]),
      some (c!"g", [c!"alice", c!"admin", c!"d1"])], ⟨by simp, by decide, by decide⟩, ?_, rfl⟩
  refine .cons ?_ (.cons ?_ .nil)
  · refine .rule (t := c!"p, admin, d1, data1, read") (f := c!"p")
      (fs := [c!" admin", c!" d1", c!" data1", c!" read"]) (trimmed_iff.mpr (by decide)) (by simp)
      (by simp) ⟨by simp, by decide, by decide⟩ (trimmed_iff.mpr (by decide)) ?_
    exact .cons (trimmed_iff.mpr (by decide)) (.cons (trimmed_iff.mpr (by decide))
      (.cons (trimmed_iff.mpr (by decide)) (.cons (trimmed_iff.mpr (by decide)) .nil)))
  · refine .rule (t := c!"g, alice, admin, d1") (f := c!"g")
      (fs := [c!" alice", c!" admin", c!" d1"]) (trimmed_iff.mpr (by decide)) (by simp) (by simp)
      ⟨by simp, by decide, by decide⟩ (trimmed_iff.mpr (by decide)) ?_
    exact .cons (trimmed_iff.mpr (by decide)) (.cons (trimmed_iff.mpr (by decide))
      (.cons (trimmed_iff.mpr (by decide)) .nil))

/-- The hypotheses of `C84_domains_partial` can be met: alice is granted what the role may do in the
domain. -/
example : ∃ m E, Model.ofText (fun _ s => .ok s) domConf = .ok m ∧
    construct m (some ⟨.file c!"policy.csv" (some domSample) true false, []⟩) = (.ok (), E) ∧
    (E.enforce miniLib [.str c!"alice", .str c!"d1", .str c!"data1", .str c!"read"]).1 = .ok true := by
  obtain ⟨m, E, h1, h2, h3⟩ := C84_domains_partial miniLib_sound (fun _ s => .ok s)
    (file_sample domSample) domSample_says (shortLines_of_length (by decide)) (by decide) (by
      intro x y d rest h
      simp only [List.mem_cons, Prod.mk.injEq, List.not_mem_nil, or_false] at h
      rcases h with h | h
      · exact absurd h.1 (by decide)
      · simp only [List.cons.injEq] at h
        rw [h.2.2.2.1]; decide)
  refine ⟨m, E, h1, h2, (h3 _ _ _ _ (by decide) (.inr (.inl (by simp)))).trans ?_⟩
  simp only [Outcome.ok.injEq, decide_eq_true_eq]
  exact ⟨c!"admin", by simp, 1, by omega, .cons ⟨[], by simp⟩ (.nil _)⟩

end TextProps
end Casbin
