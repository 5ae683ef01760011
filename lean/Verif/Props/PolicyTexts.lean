import Verif.Props.Definitions
import Verif.Props.InOrder

/-!
# C69, C70, C84: policies with lines of any length or type

Props/EndToEnd.lean and Props/Definitions.lean speak of rules that have the declared number of
values. Here the rules are any, in the order in which they are stored or written.
-/

namespace Casbin
namespace TextProps

open Enforcer AdapterProps EndToEnd DecisionProps Fixtures

variable [IterOrder] {lib : ExprLib} {E : Enforcer} {r p e : Assertion} {matcher exp : Str}
  {vals : List Str}

open Classical in
/-- The answer that rules give when they are read from the first to the last: the first that grants
ends it; a rule that does not have `n` values is an error; in the end nothing is granted. -/
noncomputable def readDown (n : Nat) (grants : Rule → Prop) : List Rule → Outcome Bool
  | [] => .ok false
  | rule :: rest =>
    if rule.length ≠ n then .throw .enforcer
    else if grants rule then .ok true
    else readDown n grants rest

omit [IterOrder] in
theorem readDown_append {n : Nat} {grants : Rule → Prop} {pre : List Rule}
    (h : ∀ y ∈ pre, y.length = n ∧ ¬ grants y) (rest : List Rule) :
    readDown n grants (pre ++ rest) = readDown n grants rest := by
  induction pre with
  | nil => rfl
  | cons y pre ih =>
    obtain ⟨h1, h2⟩ := h y (by simp)
    simp only [List.cons_append, readDown, h1, ne_eq, not_true_eq_false, if_false, h2]
    exact ih fun z hz => h z (by simp [hz])

omit [IterOrder] in
theorem readDown_all {n : Nat} {grants : Rule → Prop} {l : List Rule}
    (h : ∀ y ∈ l, y.length = n ∧ ¬ grants y) : readDown n grants l = .ok false := by
  have := readDown_append h []
  simpa [readDown] using this

omit [IterOrder] in
theorem readDown_congr {n : Nat} {grants grants' : Rule → Prop} {l : List Rule}
    (h : ∀ y ∈ l, y.length = n → (grants y ↔ grants' y)) :
    readDown n grants l = readDown n grants' l := by
  induction l with
  | nil => rfl
  | cons y l ih =>
    simp only [readDown]
    rw [ih fun z hz => h z (by simp [hz])]
    by_cases hl : y.length = n
    · have hi := h y (by simp) hl
      by_cases hg : grants y
      · simp [hl, hg, hi.mp hg]
      · have hg' : ¬ grants' y := fun h' => hg (hi.mpr h')
        simp [hl, hg, hg']
    · simp [hl]

open Classical in
omit [IterOrder] in
/-- With rules of the declared length only, reading down is asking whether one of them grants. -/
theorem readDown_plain {n : Nat} {grants : Rule → Prop} {l : List Rule}
    (h : ∀ y ∈ l, y.length = n) : readDown n grants l = .ok (decide (∃ y ∈ l, grants y)) := by
  induction l with
  | nil => simp [readDown]
  | cons y l ih =>
    simp only [readDown, h y (by simp), ne_eq, not_true_eq_false, if_false,
      ih fun z hz => h z (by simp [hz])]
    by_cases hg : grants y
    · simp [hg]
    · simp [hg]

/-- The answer under allow-override without an effect column, for rules of any length. -/
theorem allow_answer_any (hR : Request lib E r p e matcher exp vals)
    (heff : e.value = exprAllowOverride) (hft : c!"p_eft" ∉ p.tokens) (hev : hasEval exp = false)
    (hc : candidates p vals ≠ []) (V : Rule → Bool)
    (hV : ∀ rule, rule.length = p.tokens.length →
      verdict lib E.model E.heap exp r.tokens p.tokens vals rule = .ok (V rule)) :
    (E.enforceWithMatcher lib matcher (vals.map ReqVal.str)).1 =
      readDown p.tokens.length (fun rule => V rule = true) (candidates p vals) := by
  have htext : ∀ rule : Rule, ruleText exp p.tokens rule ≠ .ok [] :=
    fun rule => by simp [ruleText, hev, hR.nonempty]
  have hE : ∀ {o : Outcome (Bool × Rule)},
      (E.enforceEx lib matcher (vals.map ReqVal.str) []).1 = o →
      (E.enforceWithMatcher lib matcher (vals.map ReqVal.str)).1 = o.map Prod.fst := by
    intro o ho
    unfold Enforcer.enforceWithMatcher
    rw [M.bind_run]
    rcases hx : E.enforceEx lib matcher (vals.map ReqVal.str) [] with ⟨o', E'⟩
    rw [hx] at ho
    subst ho
    cases o' <;> rfl
  have hsat : ∀ rule, rule.length = p.tokens.length →
      (Settles lib E exp e.value r p vals rule ↔ V rule = true) := by
    intro rule hl
    have h1 : Satisfies lib E exp r p vals rule ↔ V rule = true := by
      unfold Satisfies; rw [hV rule hl]; simp
    constructor
    · intro h; exact h1.mp h.1
    · intro h; exact ⟨h1.mpr h, Or.inl ⟨heff, Or.inl hft⟩⟩
  have hpass : ∀ {l : List Rule}, (∀ y ∈ l, Passes lib E exp e.value r p vals y) →
      ∀ y ∈ l, y.length = p.tokens.length ∧ ¬ V y = true := by
    intro l h y hy
    exact ⟨(h y hy).1.length, fun hv => (h y hy).2 ((hsat y (h y hy).1.length).mpr hv)⟩
  rcases C125_in_order hR (Or.inl heff) (fun rule _ _ => htext rule) hc [] with
    ⟨pre, rule, post, b, hl, hpre, hevr, hset, ho, hb⟩ | ⟨pre, bad, post, o, hl, hpre, hf, ho⟩ |
    ⟨hall, b, x, ho, hb⟩
  · rw [hE ho, hl, readDown_append (hpass hpre)]
    have hbt : b = true := hb.mpr (Or.inl hft)
    simp [readDown, hevr.length, (hsat rule hevr.length).mp hset, hbt, Outcome.map]
  · rw [hE ho, hl, readDown_append (hpass hpre)]
    cases hf with
    | length hn => simp [readDown, hn, Outcome.map]
    | throws x hn hv => rw [hV bad hn] at hv; cases hv
    | ub u hn hv => rw [hV bad hn] at hv; cases hv
  · rw [hE ho, readDown_all (hpass hall)]
    have : b = false := by
      rw [Bool.eq_false_iff]
      intro h
      rcases hb.mp h with h | h
      · rw [heff] at h; exact absurd h (by decide)
      · rw [heff] at h; exact absurd h.1 (by decide)
    rw [this]; rfl

/-! ## C69, C70 -/

/-- C69: with the RBAC model and rules of any length, the rules are read in the order in which they
are stored: a rule for object and action that names the subject, or a role that the stored grouping
rules give it, grants; a rule that does not have three values throws when it is reached. -/
theorem C69_any_length (hL : SoundLib lib) (h : Linked lib E rA p eA mRbac) (ht : p.tokens = pTok)
    (hvec : p.policy.hash = false)
    {ga : Assertion} (hg : E.model.find c!"g" c!"g" = some ga) (h2 : countChar '_' ga.value = 2)
    (honly : ∀ t, t ≠ c!"g" → E.model.find c!"g" t = none) (sub obj act : Str)
    (hne : p.policy.items ≠ []) :
    (E.enforce lib [.str sub, .str obj, .str act]).1 =
      readDown 3 (fun rule => ∃ s, rule = [s, obj, act] ∧
        ∃ n ≤ 10, RM.Path (Grants ga.policy.items) n sub s) p.policy.items := by
  have hlink : ∀ s, linked E.heap ga.rm sub s = true ↔
      ∃ n ≤ 10, RM.Path (Grants ga.policy.items) n sub s := by
    intro s
    rw [h.setup.ready.ptr _ _ hg, linked_mirrors h.mirrors]
    have := storedLinks_two hg h2 honly
    constructor
    · rintro ⟨n, hn, hp⟩; exact ⟨n, hn, hp.congr this⟩
    · rintro ⟨n, hn, hp⟩; exact ⟨n, hn, hp.congr fun a b => (this a b).symm⟩
  have hcand : candidates p [sub, obj, act] = p.policy.items := by simp [candidates, hvec]
  have key := allow_answer_any (h.setup.request (vals := [sub, obj, act]) rfl) rfl
    (by rw [ht]; decide) h.setup.noEval (by rw [hcand]; exact hne)
    (fun rule => match rule with
      | [x, y, z] => linked E.heap ga.rm sub x && decide (obj = y ∧ act = z)
      | _ => false) (by
      intro rule hr
      rw [ht] at hr ⊢
      obtain ⟨x, y, z, rfl⟩ := length3 hr
      exact verdict_mRbac hL E.model E.heap hg h2 sub obj act x y z)
  refine key.trans ?_
  rw [ht, hcand]
  refine readDown_congr fun y _ hl => ?_
  obtain ⟨x, y, z, rfl⟩ := length3 hl
  simp only [Bool.and_eq_true, decide_eq_true_eq, hlink, List.cons.injEq, and_true]
  constructor
  · rintro ⟨h1, rfl, rfl⟩; exact ⟨x, ⟨rfl, rfl, rfl⟩, h1⟩
  · rintro ⟨s, ⟨rfl, rfl, rfl⟩, h1⟩; exact ⟨h1, rfl, rfl⟩

/-- C70: the same for the model with domains; domains with a colon are left out (`C70_fails`). -/
theorem C70_any_length (hL : SoundLib lib) (h : Linked lib E rD p eA mDom)
    (ht : p.tokens = pTokD) (hvec : p.policy.hash = false)
    {ga : Assertion} (hg : E.model.find c!"g" c!"g" = some ga) (h3 : countChar '_' ga.value = 3)
    (honly : ∀ t, t ≠ c!"g" → E.model.find c!"g" t = none)
    (hG : PlainDomains ga.policy.items) (sub dom obj act : Str) (hd : ':' ∉ dom)
    (hne : p.policy.items ≠ []) :
    (E.enforce lib [.str sub, .str dom, .str obj, .str act]).1 =
      readDown 4 (fun rule => ∃ s, rule = [s, dom, obj, act] ∧
        ∃ n ≤ 10, RM.Path (GrantsIn ga.policy.items dom) n sub s) p.policy.items := by
  have hlink : ∀ s, linked E.heap ga.rm (inDomain dom sub) (inDomain dom s) = true ↔
      ∃ n ≤ 10, RM.Path (GrantsIn ga.policy.items dom) n sub s := by
    intro s
    rw [h.setup.ready.ptr _ _ hg, linked_mirrors h.mirrors]
    simp only [path_domain hg h3 honly hG hd]
  have hcand : candidates p [sub, dom, obj, act] = p.policy.items := by simp [candidates, hvec]
  have key := allow_answer_any (h.setup.request (vals := [sub, dom, obj, act]) rfl) rfl
    (by rw [ht]; decide) h.setup.noEval (by rw [hcand]; exact hne)
    (fun rule => match rule with
      | [x, e, y, z] => linked E.heap ga.rm (inDomain dom sub) (inDomain dom x) &&
          decide (dom = e ∧ obj = y ∧ act = z)
      | _ => false) (by
      intro rule hr
      rw [ht] at hr ⊢
      obtain ⟨x, e, y, z, rfl⟩ := length4 hr
      exact verdict_mDom hL E.model E.heap hg h3 sub dom obj act x e y z)
  refine key.trans ?_
  rw [ht, hcand]
  refine readDown_congr fun y _ hl => ?_
  obtain ⟨x, e, y, z, rfl⟩ := length4 hl
  simp only [Bool.and_eq_true, decide_eq_true_eq, hlink, List.cons.injEq, and_true]
  constructor
  · rintro ⟨h1, rfl, rfl, rfl⟩; exact ⟨x, ⟨rfl, rfl, rfl, rfl⟩, h1⟩
  · rintro ⟨s, ⟨rfl, rfl, rfl, rfl⟩, h1⟩; exact ⟨h1, rfl, rfl, rfl⟩

/-! ## C84 -/

omit [IterOrder] in
/-- A line of a policy type that is not defined. -/
theorem lineSays_undefined {line : Str} {x : Str × Rule} (h : LineSays line (some x))
    (hl : line.length < splitLARGE) {m : Model} (hd : m.find (x.1.take 1) x.1 = none) :
    (loadPolicyLine (trim line) m).1 = .ub .nullDeref := by
  cases h with
  | rule h1 h2 h3 h4 h5 h6 =>
    rename_i t f pt fs vs
    have hs : trimAll (split (trim line) c!",") = pt :: vs := by
      rw [trimAll_split_trim line hl, split_pieces h4 hl, trimAll, List.map_cons,
        trim_of_trimmed h5, forall₂_trimmed h6]
    rw [trim_of_trimmed h1] at hs ⊢
    unfold loadPolicyLine
    rw [if_neg (by simp [h2, h3]), hs]
    simp only [M.bind_run]
    rw [Model.at_none hd]

omit [IterOrder] in
theorem loadLines_undefined {lines : List Str} {meant : List (Option (Str × Rule))}
    (h : List.Forall₂ (fun line o => LineSays line o ∧ line.length < splitLARGE) lines meant) :
    ∀ (m : Model) (x : Str × Rule), x ∈ meant.filterMap id → m.find (x.1.take 1) x.1 = none →
      (loadLines (lines.map trim) m).1 = .ub .nullDeref := by
  induction h with
  | nil => intro m x hx; simp at hx
  | cons h _ ih =>
    rename_i line o lines meant _
    intro m x hx hn
    simp only [List.map_cons, loadLines]
    cases o with
    | none =>
      rw [M.bind_run_ok (lineSays_file h.1 h.2 m (by simp))]
      exact ih _ x (by simpa using hx) hn
    | some y =>
      by_cases hy : m.find (y.1.take 1) y.1 = none
      · have := lineSays_undefined h.1 h.2 hy
        rw [M.bind_run]
        rcases hl : loadPolicyLine (trim line) m with ⟨o, m'⟩
        rw [hl] at this
        cases this
        rfl
      · rw [M.bind_run_ok (lineSays_file h.1 h.2 m (by
          intro z hz; cases hz; exact hy))]
        simp only [List.filterMap_cons, id, List.mem_cons] at hx
        rcases hx with rfl | hx
        · exact absurd hn hy
        · refine ih _ x hx ?_
          show (addRule m y).find _ _ = none
          rw [find_addRule, hn]

omit [IterOrder] in
/-- Loading a text with a line of a type that is not defined. -/
theorem loadFile_undefined {text : Str} {rules : List (Str × Rule)} (h : TextSays text rules)
    (hl : ShortLines text) {m : Model} {x : Str × Rule} (hx : x ∈ rules)
    (hn : m.find (x.1.take 1) x.1 = none) : (loadFile text m).1 = .ub .nullDeref := by
  obtain ⟨lines, meant, hp, hf, rfl⟩ := h
  have hf' : List.Forall₂ (fun line o => LineSays line o ∧ line.length < splitLARGE) lines meant := by
    refine forall₂_mem hf ?_
    intro line hline o _ h
    obtain ⟨a, b, hab⟩ := infix_between (c := '\n') hline
    exact ⟨h, hl a line b (hp.2.2.trans hab) (hp.2.1 line hline)⟩
  have key := loadLines_undefined hf' m x hx hn
  unfold loadFile
  rcases getLines_pieces hp with hg | hg
  · rw [← hg]; exact key
  · rw [hg] at key
    have : ∀ (ls : List Str) (m : Model),
        loadLines ((ls ++ [[]]).map trim) m = loadLines (ls.map trim) m := by
      intro ls
      induction ls with
      | nil =>
        intro m
        simp only [List.nil_append, List.map_cons, List.map_nil, loadLines]
        exact M.bind_run_ok (loadPolicyLine_none (line := trim []) (Or.inl rfl) m)
      | cons l ls ih =>
        intro m
        simp only [List.cons_append, List.map_cons, loadLines, M.bind_run]
        split <;> simp_all
    rw [this] at key
    exact key

/-- C84: a policy file with a line of a policy type that the model does not define makes the
constructor dereference a null pointer, for every model. -/
theorem C84_undefined_type {m : Model} {ad : Adapter} {text : Str} (hf : FileAdapter ad text)
    {rules : List (Str × Rule)} (h : TextSays text rules) (hl : ShortLines text)
    {x : Str × Rule} (hx : x ∈ rules) (hn : m.find (x.1.take 1) x.1 = none) :
    (construct m (some ad)).1 = .ub .nullDeref := by
  obtain ⟨path, w, b, hk, hp⟩ := hf
  have hv : ad.isValid = true := by simp [Adapter.isValid, hk, hp]
  have hn' : m.clearPolicy.find (x.1.take 1) x.1 = none := by
    rw [Model.find_clearPolicy]
    split <;> simp [hn]
  have hload : (ad.loadPolicy (enforcer m).model.clearPolicy).1 = .ub .nullDeref := by
    rw [show (enforcer m).model = m from rfl]
    unfold Adapter.loadPolicy
    rw [hk]
    simp only [if_neg hp]
    exact loadFile_undefined h hl hx hn'
  simp only [construct, initObject, M.bind_run, M.modify_run, hv, if_true]
  change (loadPolicy { enforcer m with adapter := some ad }).1 = _
  unfold loadPolicy
  simp only [clearPolicy, onModel, onAdapter, M.bind_run, M.modify_run, M.get_run]
  rcases hx : ad.loadPolicy (enforcer m).model.clearPolicy with ⟨o, m'⟩
  rw [hx] at hload
  subst hload
  rfl

/-! ### Grouping rules with too few values -/

theorem linkRules_short {n : Nat} (hn : PlacesOk n) (rs : List Rule) (hr : ∃ r ∈ rs, r.length < n) :
    ∀ {rm : RM}, rm.WF → rm.pattern = none →
      (Assertion.linkRules .add n rs rm).1 = .throw .illegalArgument := by
  induction rs with
  | nil => simp at hr
  | cons r rs ih =>
    intro rm hw hp
    by_cases hlen : r.length < n
    · simp only [Assertion.linkRules, hlen, if_true]; rfl
    · obtain ⟨a, b, d, x, y, ht, hx, hy, hl⟩ := linkOf_unique hn (Nat.le_of_not_lt hlen)
      have := ih (by
        obtain ⟨r', h1, h2⟩ := hr
        rcases List.mem_cons.mp h1 with rfl | h1
        · exact absurd h2 hlen
        · exact ⟨r', h1, h2⟩) (RM.WF_addQ hw x y hp) (by rw [RM.addQ_pattern, hp])
      simp only [Assertion.linkRules, hlen, if_false, M.bind_run, ht, vecAt,
        List.getElem?_cons_zero, List.getElem?_cons_succ, M.lift_run, List.drop_succ_cons,
        List.drop_zero, RM.addLink_run rm a b x y d hx hy, this]

/-- The loop over the grouping types stops at a rule with too few values. -/
theorem buildAll_short (ks : List Str) : ∀ {E : Enforcer} {rm : RM}, RmOk E rm →
    (∀ k ∈ ks, ∃ a, E.model.find c!"g" k = some a) →
    (∀ t a, E.model.find c!"g" t = some a → PlacesOk (countChar '_' a.value)) →
    (∃ k ∈ ks, ∃ a, E.model.find c!"g" k = some a ∧
      ∃ r ∈ a.policy.items, r.length < countChar '_' a.value) →
    (buildAll ks E).1 = .throw .illegalArgument := by
  induction ks with
  | nil => intro E rm _ _ _ h; simp at h
  | cons k ks ih =>
    intro E rm hrm hdef hpl hs
    obtain ⟨a, ha⟩ := hdef k (by simp)
    have hn := hpl k a ha
    have h2 : ¬ countChar '_' a.value < 2 := by rcases hn with h | h <;> omega
    simp only [buildAll, M.bind_run, M.get_run, ha, onModel_run, M.modify_run]
    rw [onRm_run (E := { E with model := E.model.put c!"g" k { a with rm := some E.rm } })
      (rm := rm) hrm.here]
    by_cases hshort : ∃ r ∈ a.policy.iterate, r.length < countChar '_' a.value
    · have h1 := linkRules_short hn a.policy.iterate hshort hrm.wf hrm.nopat
      simp only [Assertion.buildLinks, h2, if_false, h1]
    · have hall : ∀ r ∈ a.policy.iterate, countChar '_' a.value ≤ r.length := by
        intro r hr
        by_contra h
        exact hshort ⟨r, hr, by omega⟩
      obtain ⟨rm1, h1, w1, p1, l1, e1, k1⟩ := Assertion.buildLinks_add hn a.policy.iterate hall
        hrm.wf hrm.nopat
      rw [h1]
      have hfind : ∀ t b, (E.model.put c!"g" k { a with rm := some E.rm }).find c!"g" t = some b →
          ∃ b', E.model.find c!"g" t = some b' ∧ b'.value = b.value ∧ b'.policy = b.policy := by
        intro t b hb
        rw [Model.find_put] at hb
        split at hb
        · rename_i he
          cases hb
          exact ⟨a, he.2 ▸ ha, rfl, rfl⟩
        · exact ⟨b, hb, rfl, rfl⟩
      have hfind' : ∀ t b, E.model.find c!"g" t = some b →
          ∃ b', (E.model.put c!"g" k { a with rm := some E.rm }).find c!"g" t = some b' ∧
            b'.value = b.value ∧ b'.policy = b.policy := by
        intro t b hb
        rw [Model.find_put]
        split
        · rename_i he
          have : b = a := by
            have h := he.2 ▸ ha
            rw [hb] at h
            exact Option.some.inj h
          subst this
          exact ⟨_, rfl, rfl, rfl⟩
        · exact ⟨b, hb, rfl, rfl⟩
      refine ih (E := { E with model := E.model.put c!"g" k { a with rm := some E.rm },
                               heap := E.heap.set E.rm rm1 }) (rm := rm1) ⟨getElem?_set_self' hrm.here, w1, p1⟩ ?_ ?_ ?_
      · intro k' hk'
        obtain ⟨b, hb⟩ := hdef k' (by simp [hk'])
        obtain ⟨b', hb', _⟩ := hfind' k' b hb
        exact ⟨b', hb'⟩
      · intro t b hb
        obtain ⟨b', hb', hv, _⟩ := hfind t b hb
        rw [← hv]
        exact hpl t b' hb'
      · obtain ⟨k', hk', b, hb, r, hr, hlt⟩ := hs
        rcases List.mem_cons.mp hk' with rfl | hk'
        · rw [ha] at hb
          cases hb
          exact absurd ⟨r, (Policies.mem_iterate _ _).mpr hr, hlt⟩ hshort
        · obtain ⟨b', hb', hv, hp⟩ := hfind' k' b hb
          exact ⟨k', hk', b', hb', r, by rw [hp]; exact hr, by rw [hv]; exact hlt⟩

/-- `BuildRoleLinks` throws when a stored grouping rule has too few values. -/
theorem buildRoleLinks_short {E : Enforcer} {rm : RM} (h : E.heap[E.rm]? = some rm)
    (hp : rm.pattern = none)
    (hpl : ∀ t a, E.model.find c!"g" t = some a → PlacesOk (countChar '_' a.value))
    {k : Str} {a : Assertion} (ha : E.model.find c!"g" k = some a) {r : Rule}
    (hr : r ∈ a.policy.items) (hlt : r.length < countChar '_' a.value) :
    (buildRoleLinks E).1 = .throw .illegalArgument := by
  have hmem : ∀ t, t ∈ IterOrder.iter ((E.model.ensureSec c!"g").secMap c!"g").keys ↔
      ∃ a, E.model.find c!"g" t = some a := by
    intro t
    rw [IterOrder.mem_iter, ← UMap.get_isSome_iff, Model.find_secMap, Model.find_ensureSec,
      Option.isSome_iff_exists]
  have := buildAll_short (IterOrder.iter ((E.model.ensureSec c!"g").secMap c!"g").keys)
    (E := { E with model := E.model.ensureSec c!"g", heap := E.heap.set E.rm rm.clear })
    (rm := rm.clear) ⟨getElem?_set_self' h, RM.WF_clear rm, hp⟩
    (by intro k hk; simp only [Model.find_ensureSec]; exact (hmem k).mp hk)
    (by intro t b hb; simp only [Model.find_ensureSec] at hb; exact hpl t b hb)
    ⟨k, (hmem k).mpr ⟨a, ha⟩, a, by simp only [Model.find_ensureSec]; exact ha, r, hr, hlt⟩
  simp only [buildRoleLinks, M.bind_run, M.get_run]
  rw [onRm_run (rm := rm) h]
  simp only [M.modify_run, onModel_run, this]

/-- C84: a policy file with a grouping line of too few values makes the constructor throw, for every
model whose grouping definitions have two or three places. -/
theorem C84_short_grouping {m : Model} {ad : Adapter} {text : Str} (hf : FileAdapter ad text)
    {rules : List (Str × Rule)} (h : TextSays text rules) (hl : ShortLines text)
    (hd : ∀ x ∈ rules, m.find (x.1.take 1) x.1 ≠ none)
    (hpl : ∀ t a, m.find c!"g" t = some a → countChar '_' a.value = 2 ∨ countChar '_' a.value = 3)
    {t : Str} {rule : Rule} (hx : (t, rule) ∈ rules) (ht : t.take 1 = c!"g") {a : Assertion}
    (ha : m.find c!"g" t = some a) (hlt : rule.length < countChar '_' a.value) :
    (construct m (some ad)).1 = .throw .illegalArgument := by
  have hfc : ∀ s u, (m.clearPolicy.find s u).map (fun b => (b.value)) =
      (m.find s u).map (fun b => b.value) := by
    intro s u
    rw [Model.find_clearPolicy]
    split
    · cases m.find s u <;> rfl
    · rfl
  rw [construct_file hf h hl rfl (by
    intro x hx
    have := hd x hx
    have h1 := hfc (x.1.take 1) x.1
    intro h0
    rw [h0] at h1
    cases h2 : m.find (x.1.take 1) x.1 with
    | none => exact this h2
    | some b => rw [h2] at h1; cases h1)]
  have hfind : ∀ u, ((rules.foldl addRule m.clearPolicy).find c!"g" u).map (fun b => b.value) =
      (m.find c!"g" u).map (fun b => b.value) := by
    intro u
    rw [← hfc, find_addRules]
    cases m.clearPolicy.find c!"g" u with
    | none => rfl
    | some b => simp only; split <;> rfl
  have h1 := hfind t
  rw [ha] at h1
  cases hb : (rules.foldl addRule m.clearPolicy).find c!"g" t with
  | none => rw [hb] at h1; cases h1
  | some b =>
    rw [hb] at h1
    have hv : b.value = a.value := Option.some.inj h1
    refine buildRoleLinks_short (E := loadedEnforcer (rules.foldl addRule m.clearPolicy) ad)
      (rm := RM.new 10) rfl rfl ?_ hb (r := rule) ?_ (by rw [hv]; exact hlt)
    · intro u c hc
      have := hfind u
      rw [show (loadedEnforcer (rules.foldl addRule m.clearPolicy) ad).model
        = rules.foldl addRule m.clearPolicy from rfl] at hc
      rw [hc] at this
      cases h2 : m.find c!"g" u with
      | none => rw [h2] at this; cases this
      | some c' =>
        rw [h2] at this
        have hv : c.value = c'.value := Option.some.inj this
        rw [hv]
        exact hpl u c' h2
    · rw [find_addRules] at hb
      cases h2 : m.clearPolicy.find c!"g" t with
      | none => simp [h2] at hb
      | some c =>
        simp only [h2, ht, if_true, Option.some.injEq] at hb
        rw [← hb]
        simp only [addTo, Model.mem_emplaceList]
        right
        simp only [rulesOf, List.mem_map, List.mem_filter, decide_eq_true_eq]
        exact ⟨(t, rule), ⟨hx, rfl⟩, rfl⟩

/-! ### Rule lines of any length -/

/-- C84: an enforcer made from examples/rbac_model.conf and a policy file reads the `p` lines from
top to bottom: a line for object and action that names the subject, or a role that the `g` lines
give it through at most ten links, grants; a line without three values makes the request throw when
it is reached. There must be a `p` line; see `C84_rbac_partial` for none. -/
theorem C84_rbac_any_length (hL : SoundLib lib) (rx) {ad : Adapter} {text : Str} (hf : FileAdapter ad text)
    {rules : List (Str × Rule)} (h : TextSays text rules) (hl : ShortLines text)
    (hp : ∀ x ∈ rules, x.1 = c!"p" ∨ (x.1 = c!"g" ∧ 2 ≤ x.2.length))
    (hne : ∃ r, (c!"p", r) ∈ rules) :
    ∃ m E, Model.ofText rx rbacConf = .ok m ∧ construct m (some ad) = (.ok (), E) ∧
      ∀ sub obj act, (E.enforce lib [.str sub, .str obj, .str act]).1 =
        readDown 3 (fun rule => ∃ s, rule = [s, obj, act] ∧ ∃ n ≤ 10,
          RM.Path (fun x y => ∃ rest, (c!"g", x :: y :: rest) ∈ rules) n sub s)
          ((rules.filter fun x => decide (x.1 = c!"p")).map Prod.snd) := by
  have hmem : ∀ pt r, r ∈ rulesOf rules pt ↔ (pt, r) ∈ rules := by
    intro pt r
    simp only [rulesOf, List.mem_map, List.mem_filter, decide_eq_true_eq]
    constructor
    · rintro ⟨⟨pt', r'⟩, ⟨hm, ht⟩, hr⟩
      simp only at ht hr
      subst ht hr
      exact hm
    · intro hm
      exact ⟨_, ⟨hm, rfl⟩, rfl⟩
  have h1 := addRule_rbac rules [] [] (fun x hx => (hp x hx).imp id And.left)
  simp only [List.nil_append] at h1
  generalize hP : rulesOf rules c!"p" = P at h1
  generalize hG : rulesOf rules c!"g" = G at h1
  have hG2 : ∀ r ∈ G, 2 ≤ r.length := by
    intro r hr
    rw [← hG, hmem] at hr
    rcases hp _ hr with h | h
    · exact absurd h (by simp)
    · exact h.2
  have hcon := construct_file (m := rbacModel [] []) (m₁ := rbacModel [] []) hf h hl rfl (by
    intro x hx
    rcases hp x hx with hx | hx
    · rw [hx]; simp [rbacModel, Model.find, UMap.get, pDef]
    · rw [hx.1]; simp [rbacModel, Model.find, UMap.get])
  rw [h1] at hcon
  have hgr := LinkProps.groupsOk_rbac P G hG2
  obtain ⟨E', e1, _, _⟩ := buildRoleLinks_mirrors (E := loadedEnforcer (rbacModel P G) ad)
    ⟨RM.new 10, rfl, rfl, rfl⟩ hgr
  obtain ⟨p', t', v', l', s'⟩ := linked_rebuilt (lib := lib) (E := loadedEnforcer (rbacModel P G) ad)
    (r := rA) (e := eA) (exp := mRbac)
    (wellDefined_rbac P G) (goodRoles_rbac P G)
    rfl ⟨RM.new 10, rfl, rfl, rfl⟩ hgr rfl rfl rfl (by decide) (by decide) rfl
  rw [e1] at l' s'
  refine ⟨_, E', rbac_ofText rx, hcon.trans e1, fun sub obj act => ?_⟩
  have s1 := s' c!"g"
  rw [show (loadedEnforcer (rbacModel P G) ad).model.find c!"g" c!"g" = some (gA G) from rfl] at s1
  cases hga : E'.model.find c!"g" c!"g" with
  | none => simp only [hga] at s1; cases s1
  | some ga =>
    simp only [hga, Option.map_some, Option.some.injEq] at s1
    have hval : ga.value = c!"_, _" := (congrArg Assertion.value s1).symm
    have hpol : ga.policy = .vector G := (congrArg Assertion.policy s1).symm
    have hhash : p'.policy.hash = false := by rw [v']; rfl
    have hitems : p'.policy.items = P := by rw [v']; rfl
    have hgi : ga.policy.items = G := by rw [hpol]; rfl
    rw [C69_any_length hL l' t' hhash hga (by rw [hval]; decide) ?_ sub obj act ?_]
    · rw [hitems, hgi]
      have hgr : Grants G = fun x y => ∃ rest, (c!"g", x :: y :: rest) ∈ rules := by
        funext x y
        apply propext
        unfold Grants
        simp only [← hG, hmem]
      rw [hgr, ← hP]
      rfl
    · intro t ht
      have := s' t
      rw [show (loadedEnforcer (rbacModel P G) ad).model.find c!"g" t = none by
        simp [loadedEnforcer, enforcer, rbacModel, Model.find, UMap.get, Ne.symm ht]] at this
      cases hh : E'.model.find c!"g" t with
      | none => rfl
      | some a => simp only [hh] at this; cases this
    · obtain ⟨r, hr⟩ := hne
      rw [hitems, ← hP]
      intro h0
      rw [← hmem, h0] at hr
      cases hr

/-- C84: the same for examples/rbac_with_domains_model.conf. -/
theorem C84_domains_any_length (hL : SoundLib lib) (rx) {ad : Adapter} {text : Str} (hf : FileAdapter ad text)
    {rules : List (Str × Rule)} (h : TextSays text rules) (hl : ShortLines text)
    (hp : ∀ x ∈ rules, x.1 = c!"p" ∨ (x.1 = c!"g" ∧ 3 ≤ x.2.length))
    (hne : ∃ r, (c!"p", r) ∈ rules)
    (hcol : ∀ x y d rest, (c!"g", x :: y :: d :: rest) ∈ rules → ':' ∉ d) :
    ∃ m E, Model.ofText rx domConf = .ok m ∧ construct m (some ad) = (.ok (), E) ∧
      ∀ sub dom obj act, ':' ∉ dom → (E.enforce lib [.str sub, .str dom, .str obj, .str act]).1 =
        readDown 4 (fun rule => ∃ s, rule = [s, dom, obj, act] ∧ ∃ n ≤ 10,
          RM.Path (fun x y => ∃ rest, (c!"g", x :: y :: dom :: rest) ∈ rules) n sub s)
          ((rules.filter fun x => decide (x.1 = c!"p")).map Prod.snd) := by
  have hmem : ∀ pt r, r ∈ rulesOf rules pt ↔ (pt, r) ∈ rules := by
    intro pt r
    simp only [rulesOf, List.mem_map, List.mem_filter, decide_eq_true_eq]
    constructor
    · rintro ⟨⟨pt', r'⟩, ⟨hm, ht⟩, hr⟩
      simp only at ht hr
      subst ht hr
      exact hm
    · intro hm
      exact ⟨_, ⟨hm, rfl⟩, rfl⟩
  have h1 := addRule_dom rules [] [] (fun x hx => (hp x hx).imp id And.left)
  simp only [List.nil_append] at h1
  generalize hP : rulesOf rules c!"p" = P at h1
  generalize hG : rulesOf rules c!"g" = G at h1
  have hG2 : ∀ r ∈ G, 3 ≤ r.length := by
    intro r hr
    rw [← hG, hmem] at hr
    rcases hp _ hr with h | h
    · exact absurd h (by simp)
    · exact h.2
  have hcon := construct_file (m := domModel [] []) (m₁ := domModel [] []) hf h hl rfl (by
    intro x hx
    rcases hp x hx with hx | hx
    · rw [hx]; simp [domModel, Model.find, UMap.get]
    · rw [hx.1]; simp [domModel, Model.find, UMap.get])
  rw [h1] at hcon
  have hgr := groupsOk_dom P G hG2
  obtain ⟨E', e1, _, _⟩ := buildRoleLinks_mirrors (E := loadedEnforcer (domModel P G) ad)
    ⟨RM.new 10, rfl, rfl, rfl⟩ hgr
  obtain ⟨p', t', v', l', s'⟩ := linked_rebuilt (lib := lib) (E := loadedEnforcer (domModel P G) ad)
    (r := rD) (e := eA) (exp := mDom)
    (wellDefined_dom P G) (goodRoles_dom P G)
    rfl ⟨RM.new 10, rfl, rfl, rfl⟩ hgr rfl rfl rfl (by decide) (by decide) rfl
  rw [e1] at l' s'
  refine ⟨_, E', dom_ofText rx, hcon.trans e1, fun sub dom obj act hdom => ?_⟩
  have s1 := s' c!"g"
  rw [show (loadedEnforcer (domModel P G) ad).model.find c!"g" c!"g" = some (gD G) from rfl] at s1
  cases hga : E'.model.find c!"g" c!"g" with
  | none => simp only [hga] at s1; cases s1
  | some ga =>
    simp only [hga, Option.map_some, Option.some.injEq] at s1
    have hval : ga.value = c!"_, _, _" := (congrArg Assertion.value s1).symm
    have hpol : ga.policy = .vector G := (congrArg Assertion.policy s1).symm
    have hhash : p'.policy.hash = false := by rw [v']; rfl
    have hitems : p'.policy.items = P := by rw [v']; rfl
    have hgi : ga.policy.items = G := by rw [hpol]; rfl
    rw [C70_any_length hL l' t' hhash hga (by rw [hval]; decide) ?_ ?_ sub dom obj act hdom ?_]
    · rw [hitems, hgi]
      have hgr : GrantsIn G dom = fun x y => ∃ rest, (c!"g", x :: y :: dom :: rest) ∈ rules := by
        funext x y
        apply propext
        unfold GrantsIn
        simp only [← hG, hmem]
      rw [hgr, ← hP]
      rfl
    · intro t ht
      have := s' t
      rw [show (loadedEnforcer (domModel P G) ad).model = domModel P G from rfl,
        find_domModel P G t ht] at this
      cases hh : E'.model.find c!"g" t with
      | none => rfl
      | some a => simp only [hh] at this; cases this
    · intro x y d rest hr
      rw [hgi, ← hG, hmem] at hr
      exact hcol x y d rest hr
    · obtain ⟨r, hr⟩ := hne
      rw [hitems, ← hP]
      intro h0
      rw [← hmem, h0] at hr
      cases hr

/-! ### Where C84 fails -/

omit [IterOrder] in
/-- C84 is false for texts with a line of another type: examples/basic_model.conf with a `g` line
dereferences a null pointer. -/
theorem C84_fails : ¬ ∀ (_ : IterOrder) (lib : ExprLib) (rx : Str → Str → Outcome Str) (ad : Adapter)
    (text : Str) (rules : List (Str × Rule)), FileAdapter ad text → TextSays text rules →
    ShortLines text → ∃ m E, Model.ofText rx basicConf = .ok m ∧ construct m (some ad) = (.ok (), E) ∧
      ∀ a b c, (E.enforce lib [.str a, .str b, .str c]).1 =
        .ok (decide ((c!"p", [a, b, c]) ∈ rules)) := by
  intro h
  obtain ⟨m, E, h1, h2, _⟩ := h insertionOrder miniLib (fun _ s => .ok s) _ _ _
    (file_sample roleSample) roleSample_says (shortLines_of_length (by decide))
  rw [basic_ofText] at h1
  cases h1
  let _ := insertionOrder
  have h3 := C84_undefined_type (m := basicModel .hashset) (file_sample roleSample) roleSample_says
    (shortLines_of_length (by decide)) (x := (c!"g", [c!"alice", c!"admin"])) (by simp) rfl
  rw [h2] at h3
  cases h3

omit [IterOrder] in
/-- C84 is false for a text without rules: the request of empty strings is granted. -/
theorem C84_empty_fails : ¬ ∀ (_ : IterOrder) (lib : ExprLib) (rx : Str → Str → Outcome Str)
    (ad : Adapter) (text : Str) (rules : List (Str × Rule)), FileAdapter ad text →
    TextSays text rules → ShortLines text → (∀ x ∈ rules, x.1 = c!"p" ∧ x.2.length = 3) →
    ∃ m E, Model.ofText rx basicConf = .ok m ∧ construct m (some ad) = (.ok (), E) ∧
      ∀ a b c, (E.enforce lib [.str a, .str b, .str c]).1 =
        .ok (decide ((c!"p", [a, b, c]) ∈ rules)) := by
  intro h
  obtain ⟨m, E, h1, h2, h3⟩ := h insertionOrder miniLib (fun _ s => .ok s) _ c!"# none" []
    (file_sample c!"# none") ⟨[c!"# none"], [none], ⟨by simp, by decide, by decide⟩,
      .cons (.comment (t := c!" none") (trimmed_iff.mpr (by decide))) .nil, rfl⟩
    (shortLines_of_length (by decide)) (by simp)
  rw [basic_ofText] at h1
  cases h1
  have h4 := h3 [] [] []
  have h5 : E = (@construct insertionOrder (basicModel .hashset)
      (some ⟨.file c!"policy.csv" (some c!"# none") true false, []⟩)).2 := by rw [h2]
  rw [h5] at h4
  revert h4
  decide +kernel

/-! ### Examples -/

/-- A text with a `p` line of one value between others. -/
def tornSample : Str := c!"p, admin, data1, read\np, bob\ng, alice, admin\n"

omit [IterOrder] in
theorem tornSample_says : TextSays tornSample
    [(c!"p", [c!"admin", c!"data1", c!"read"]), (c!"p", [c!"bob"]), (c!"g", [c!"alice", c!"admin"])] := by
  refine ⟨[c!"p, admin, data1, read", c!"p, bob", c!"g, alice, admin", []],
    [some (c!"p", [c!"admin", c!"data1", c!"read"]), some (c!"p", [c!"bob"]),
      some (c!"g", [c!"alice", c!"admin"]), none], ⟨by simp, by decide, by decide⟩, ?_, rfl⟩
  refine .cons ?_ (.cons ?_ (.cons ?_ (.cons (.blank (trimmed_iff.mpr (by decide))) .nil)))
  · refine .rule (t := c!"p, admin, data1, read") (f := c!"p")
      (fs := [c!" admin", c!" data1", c!" read"]) (trimmed_iff.mpr (by decide)) (by simp) (by simp)
      ⟨by simp, by decide, by decide⟩ (trimmed_iff.mpr (by decide)) ?_
    exact .cons (trimmed_iff.mpr (by decide)) (.cons (trimmed_iff.mpr (by decide))
      (.cons (trimmed_iff.mpr (by decide)) .nil))
  · refine .rule (t := c!"p, bob") (f := c!"p") (fs := [c!" bob"]) (trimmed_iff.mpr (by decide))
      (by simp) (by simp) ⟨by simp, by decide, by decide⟩ (trimmed_iff.mpr (by decide)) ?_
    exact .cons (trimmed_iff.mpr (by decide)) .nil
  · refine .rule (t := c!"g, alice, admin") (f := c!"g")
      (fs := [c!" alice", c!" admin"]) (trimmed_iff.mpr (by decide)) (by simp) (by simp)
      ⟨by simp, by decide, by decide⟩ (trimmed_iff.mpr (by decide)) ?_
    exact .cons (trimmed_iff.mpr (by decide)) (.cons (trimmed_iff.mpr (by decide)) .nil)

/-- The hypotheses of `C84_rbac_any_length`, and with them those of `C69_any_length`, can be met: the
line before the torn one grants, and every other request throws. -/
example : ∃ m E, Model.ofText (fun _ s => .ok s) rbacConf = .ok m ∧
    construct m (some ⟨.file c!"policy.csv" (some tornSample) true false, []⟩) = (.ok (), E) ∧
    (E.enforce miniLib [.str c!"alice", .str c!"data1", .str c!"read"]).1 = .ok true ∧
    (E.enforce miniLib [.str c!"alice", .str c!"data1", .str c!"write"]).1 = .throw .enforcer := by
  obtain ⟨m, E, h1, h2, h3⟩ := C84_rbac_any_length miniLib_sound (fun _ s => .ok s)
    (file_sample tornSample) tornSample_says (shortLines_of_length (by decide)) (by decide)
    ⟨_, List.mem_cons_self⟩
  refine ⟨m, E, h1, h2, (h3 _ _ _).trans ?_, (h3 _ _ _).trans ?_⟩
  · have : ∃ s, [c!"admin", c!"data1", c!"read"] = [s, c!"data1", c!"read"] ∧ ∃ n ≤ 10,
        RM.Path (fun x y => ∃ rest, (c!"g", x :: y :: rest) ∈
          [(c!"p", [c!"admin", c!"data1", c!"read"]), (c!"p", [c!"bob"]),
            (c!"g", [c!"alice", c!"admin"])]) n c!"alice" s :=
      ⟨_, rfl, 1, by omega, .cons ⟨[], by simp⟩ (.nil _)⟩
    show readDown 3 _ ([c!"admin", c!"data1", c!"read"] :: _) = _
    unfold readDown
    rw [if_neg (by decide), if_pos this]
  · show readDown 3 _ ([c!"admin", c!"data1", c!"read"] :: [c!"bob"] :: []) = _
    unfold readDown
    rw [if_neg (by decide), if_neg (by
      rintro ⟨s, h, _⟩
      simp at h)]
    unfold readDown
    rw [if_pos (by decide)]

/-- The hypotheses of `C84_domains_any_length` can be met. -/
example := C84_domains_any_length miniLib_sound (fun _ s => .ok s)
  (file_sample domSample) domSample_says (shortLines_of_length (by decide)) (by decide)
  ⟨_, List.mem_cons_self⟩ (by
    intro x y d rest h
    simp only [List.mem_cons, Prod.mk.injEq, List.not_mem_nil, or_false] at h
    rcases h with h | h
    · exact absurd h.1 (by decide)
    · simp only [List.cons.injEq] at h
      rw [h.2.2.2.1]; decide)

/-- A grouping line of the RBAC text is too short for the model with domains. -/
example : (construct (domModel [] [])
    (some ⟨.file c!"policy.csv" (some roleSample) true false, []⟩)).1 = .throw .illegalArgument :=
  C84_short_grouping (file_sample roleSample) roleSample_says (shortLines_of_length (by decide))
    (by
      intro x hx
      simp only [List.mem_cons, List.not_mem_nil, or_false] at hx
      rcases hx with rfl | rfl <;> simp [domModel, Model.find, UMap.get])
    (by
      intro t a ha
      by_cases ht : t = c!"g"
      · subst ht
        have : a = gD [] := (Option.some.inj ha).symm
        subst this
        right; decide
      · rw [find_domModel _ _ t ht] at ha; cases ha)
    (t := c!"g") (rule := [c!"alice", c!"admin"]) (by simp) (by decide) (a := gD []) rfl (by decide)

end TextProps
end Casbin
