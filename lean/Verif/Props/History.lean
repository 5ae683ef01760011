import Verif.Props.EndToEnd

/-!
# C135: answers depend on the stored rules, not on how they came to be stored
-/

namespace Casbin
namespace HistoryProps

open Enforcer DecisionProps Fixtures EndToEnd

/-! ## Specification -/

/-- Two models store the same rules: the same policy rules, in the same order if they are kept in a
vector, and the same grouping rules, in any order, under the same role definitions. -/
structure SameStore (m m' : Model) : Prop where
  rules : ∀ p p', m.find c!"p" c!"p" = some p → m'.find c!"p" c!"p" = some p' →
    p'.tokens = p.tokens ∧ p'.policy.hash = p.policy.hash ∧
    (p.policy.hash = false → p'.policy.items = p.policy.items) ∧
    ∀ r, r ∈ p'.policy.items ↔ r ∈ p.policy.items
  types : ∀ t, m'.find c!"g" t = none ↔ m.find c!"g" t = none
  grouping : ∀ t a a', m.find c!"g" t = some a → m'.find c!"g" t = some a' →
    a'.value = a.value ∧ ∀ r, r ∈ a'.policy.items ↔ r ∈ a.policy.items

/-! ## Helpers -/

/-- The two functions answer alike. -/
def SameFun (heap heap' : List RM) : Option FunRef → Option FunRef → Prop
  | none, none => True
  | some (.builtin b), some (.builtin b') => b = b'
  | some (.g i n), some (.g i' n') => n = n' ∧ ∀ x y, linked heap i x y = linked heap' i' x y
  | _, _ => False

theorem SameFun.meaning {lib : ExprLib} {heap heap' : List RM} {f f' : FunRef}
    (h : SameFun heap heap' (some f) (some f')) (vs : List Val) :
    f.meaning lib heap vs = f'.meaning lib heap' vs ∧ f.arity = f'.arity := by
  cases f with
  | builtin b =>
    cases f' with
    | builtin b' => cases h; exact ⟨rfl, rfl⟩
    | g i n => exact absurd h (by simp [SameFun])
  | g i n =>
    cases f' with
    | builtin b' => exact absurd h (by simp [SameFun])
    | g i' n' =>
      obtain ⟨rfl, h⟩ := h
      refine ⟨?_, rfl⟩
      unfold FunRef.meaning
      simp only [h]

/-- The names mean the same. -/
def SameNames (heap heap' : List RM) (N N' : Naming) : Prop :=
  N'.var = N.var ∧ ∀ f, SameFun heap heap' (N.fn f) (N'.fn f)

mutual
theorem knows_same {heap heap' : List RM} {N N' : Naming} (h : SameNames heap heap' N N') :
    ∀ e : Expr, N'.Knows e ↔ N.Knows e
  | .str _ => by simp [Naming.Knows]
  | .num _ => by simp [Naming.Knows]
  | .var x => by simp only [Naming.Knows, h.1]
  | .call f args => by
    simp only [Naming.Knows, knowsAll_same h args]
    refine and_congr_left fun _ => ?_
    have hf := h.2 (lower f)
    cases h1 : N.fn (lower f) with
    | none =>
      cases h2 : N'.fn (lower f) with
      | none => simp
      | some g => rw [h1, h2] at hf; exact absurd hf (by simp [SameFun])
    | some g =>
      cases h2 : N'.fn (lower f) with
      | none => rw [h1, h2] at hf; cases g <;> exact absurd hf (by simp [SameFun])
      | some g' =>
        rw [h1, h2] at hf
        have := (hf.meaning (lib := { parse := fun _ => none, prim := fun _ _ => .num 0, builtin := fun _ _ => .ok (.num 0) }) []).2
        simp [this]
  | .op o args => by simp only [Naming.Knows, knowsAll_same h args]
theorem knowsAll_same {heap heap' : List RM} {N N' : Naming} (h : SameNames heap heap' N N') :
    ∀ es : List Expr, N'.KnowsAll es ↔ N.KnowsAll es
  | [] => by simp [Naming.KnowsAll]
  | e :: es => by simp only [Naming.KnowsAll, knows_same h e, knowsAll_same h es]
end

mutual
theorem denote_same {lib : ExprLib} {heap heap' : List RM} {N N' : Naming}
    (h : SameNames heap heap' N N') : ∀ e : Expr, denote lib heap' N' e = denote lib heap N e
  | .str _ => by simp [denote]
  | .num _ => by simp [denote]
  | .var x => by simp only [denote, h.1]
  | .call f args => by
    simp only [denote, denoteAll_same h args]
    cases denoteAll lib heap N args with
    | throw e => rfl
    | ub u => rfl
    | ok vs =>
      have hf := h.2 (lower f)
      cases h1 : N.fn (lower f) with
      | none =>
        cases h2 : N'.fn (lower f) with
        | none => rfl
        | some g => rw [h1, h2] at hf; exact absurd hf (by simp [SameFun])
      | some g =>
        cases h2 : N'.fn (lower f) with
        | none => rw [h1, h2] at hf; cases g <;> exact absurd hf (by simp [SameFun])
        | some g' =>
          rw [h1, h2] at hf
          exact ((hf.meaning vs).1).symm
  | .op o args => by simp only [denote, denoteAll_same h args]
theorem denoteAll_same {lib : ExprLib} {heap heap' : List RM} {N N' : Naming}
    (h : SameNames heap heap' N N') :
    ∀ es : List Expr, denoteAll lib heap' N' es = denoteAll lib heap N es
  | [] => by simp [denoteAll]
  | e :: es => by simp only [denoteAll, denote_same h e, denoteAll_same h es]
end

theorem holds_same {lib : ExprLib} {heap heap' : List RM} {N N' : Naming}
    (h : SameNames heap heap' N N') (text : Str) :
    holds lib heap' N' text = holds lib heap N text ∧ (Compiles lib N' text ↔ Compiles lib N text) := by
  constructor
  · unfold holds
    cases lib.parse text with
    | none => rfl
    | some e =>
      simp only [denote_same h]
      by_cases hk : N.Knows e
      · rw [if_pos hk, if_pos ((knows_same h e).mpr hk)]
      · rw [if_neg hk, if_neg (fun h' => hk ((knows_same h e).mp h'))]
  · unfold Compiles
    simp only [knows_same h]

/-- The functions of two models whose links are the same. -/
theorem functions_same {m m' : Model} {heap heap' : List RM} (h : SameStore m m')
    (hl : ∀ t a a', m.find c!"g" t = some a → m'.find c!"g" t = some a' →
      ∀ x y, linked heap a.rm x y = linked heap' a'.rm x y) (f : Str) :
    SameFun heap heap' (functions m f) (functions m' f) := by
  unfold functions
  cases hb : UMap.get lowBuiltins f with
  | some fr =>
    cases fr with
    | builtin b => rfl
    | g i n =>
      have := UMap.mem_of_get hb
      simp [lowBuiltins, Evaluator.builtins] at this
  | none =>
    simp only
    cases h1 : m.find c!"g" f with
    | none => rw [(h.types f).mpr h1]; trivial
    | some a =>
      cases h2 : m'.find c!"g" f with
      | none => rw [(h.types f).mp h2] at h1; cases h1
      | some a' =>
        simp only [Option.map_some, SameFun]
        exact ⟨by rw [(h.grouping f a a' h1 h2).1], hl f a a' h1 h2⟩

theorem decision_same {lib : ExprLib} {m m' : Model} {heap heap' : List RM} {r p p' : Assertion}
    (h : SameStore m m') (hp : m.find c!"p" c!"p" = some p) (hp' : m'.find c!"p" c!"p" = some p')
    (hl : ∀ t a a', m.find c!"g" t = some a → m'.find c!"g" t = some a' →
      ∀ x y, linked heap a.rm x y = linked heap' a'.rm x y) (exp eff : Str) (vals : List Str) :
    decisionOf lib m' heap' exp eff r p' vals = decisionOf lib m heap exp eff r p vals := by
  obtain ⟨ht, hh, hv, hm⟩ := h.rules p p' hp hp'
  have hf := functions_same h hl
  have hn : ∀ rule, SameNames heap heap' (naming m r.tokens p.tokens vals rule)
      (naming m' r.tokens p.tokens vals rule) := fun rule => ⟨rfl, hf⟩
  have hc : candidates p' vals = candidates p vals := by
    unfold candidates
    rw [hh]
    cases hb : p.policy.hash with
    | true => simp only [if_true, hm]
    | false => simp only [Bool.false_eq_true, if_false]; exact hv hb
  have hj : judge lib m' heap' exp r p' vals = judge lib m heap exp r p vals := by
    funext rule
    unfold judge verdict
    rw [ht]
    simp only [(holds_same (hn rule) _).1]
  have he : emptyDecision lib m' heap' exp eff r p' vals = emptyDecision lib m heap exp eff r p vals := by
    unfold emptyDecision
    rw [ht]
    simp only [(holds_same (hn _) exp).1]
    have hk := (holds_same (lib := lib) (hn (p.tokens.map fun _ => [])) exp).2
    by_cases hcp : Compiles lib (naming m r.tokens p.tokens vals (p.tokens.map fun _ => [])) exp
    · simp only [if_pos hcp, if_pos (hk.mpr hcp)]
    · simp only [if_neg hcp, if_neg (fun h' => hcp (hk.mp h'))]
  unfold decisionOf
  rw [hc, hj, he]

variable [IterOrder] {lib : ExprLib}

omit [IterOrder] in
theorem storedLinks_same {m m' : Model} (h : SameStore m m') (x y : Str) :
    StoredLinks m' x y ↔ StoredLinks m x y := by
  constructor
  · rintro ⟨t, a', ha', r, hr, hl⟩
    cases ha : m.find c!"g" t with
    | none => rw [(h.types t).mpr ha] at ha'; cases ha'
    | some a =>
      obtain ⟨h1, h2⟩ := h.grouping t a a' ha ha'
      exact ⟨t, a, ha, r, (h2 r).mp hr, by rw [← h1]; exact hl⟩
  · rintro ⟨t, a, ha, r, hr, hl⟩
    cases ha' : m'.find c!"g" t with
    | none => rw [(h.types t).mp ha'] at ha; cases ha
    | some a' =>
      obtain ⟨h1, h2⟩ := h.grouping t a a' ha ha'
      exact ⟨t, a', ha', r, (h2 r).mpr hr, by rw [h1]; exact hl⟩

omit [IterOrder] in
theorem linked_same {E E' : Enforcer} {r p p' e : Assertion} {exp : Str} (hL : Linked lib E r p e exp)
    (hL' : Linked lib E' r p' e exp) (h : SameStore E.model E'.model) (t : Str) (a a' : Assertion)
    (ha : E.model.find c!"g" t = some a) (ha' : E'.model.find c!"g" t = some a') (x y : Str) :
    linked E.heap a.rm x y = linked E'.heap a'.rm x y := by
  rw [hL.setup.ready.ptr t a ha, hL'.setup.ready.ptr t a' ha', Bool.eq_iff_iff,
    linked_mirrors hL.mirrors, linked_mirrors hL'.mirrors]
  have := storedLinks_same h
  constructor
  · rintro ⟨n, hn, hp⟩; exact ⟨n, hn, hp.congr fun a b => (this a b).symm⟩
  · rintro ⟨n, hn, hp⟩; exact ⟨n, hn, hp.congr this⟩

/-- C135: two enforcers with the same definitions and the same stored rules give every request the same
answer and the same explanation. -/
theorem C135_determined {E E' : Enforcer} {r p p' e : Assertion} {exp : Str}
    (hL : Linked lib E r p e exp) (hL' : Linked lib E' r p' e exp)
    (h : SameStore E.model E'.model) (vals : List Str) (X : Rule) :
    (E'.enforce lib (vals.map ReqVal.str)).1 = (E.enforce lib (vals.map ReqVal.str)).1 ∧
    (E'.enforceEx lib [] (vals.map ReqVal.str) X).1 = (E.enforceEx lib [] (vals.map ReqVal.str) X).1 := by
  have hd := decision_same (lib := lib) (r := r) h hL.setup.ready.state.defs.findP
    hL'.setup.ready.state.defs.findP (linked_same hL hL' h) exp e.value vals
  by_cases hl : vals.length = r.tokens.length
  · obtain ⟨_, h1, _⟩ := enforceWithMatcher_decision (hL.setup.request hl)
      (fun rule _ _ => by simp [ruleText, hL.setup.noEval, hL.setup.nonempty])
    obtain ⟨_, h2, _⟩ := enforceWithMatcher_decision (hL'.setup.request hl)
      (fun rule _ _ => by simp [ruleText, hL.setup.noEval, hL.setup.nonempty])
    obtain ⟨_, h3, _⟩ := enforceEx_decision (hL.setup.request hl)
      (fun rule _ _ => by simp [ruleText, hL.setup.noEval, hL.setup.nonempty]) X
    obtain ⟨_, h4, _⟩ := enforceEx_decision (hL'.setup.request hl)
      (fun rule _ _ => by simp [ruleText, hL.setup.noEval, hL.setup.nonempty]) X
    constructor
    · show (E'.enforceWithMatcher lib [] _).1 = (E.enforceWithMatcher lib [] _).1
      rw [h1, h2, hd]
    · rw [h3, h4, hd]
  · have h1 := C09_wrong_arity hL.setup.ready.state.defs.findR (lib := lib) (vals.map ReqVal.str) (by simpa using hl) [] X
    have h2 := C09_wrong_arity hL'.setup.ready.state.defs.findR (lib := lib) (vals.map ReqVal.str) (by simpa using hl) [] X
    rw [h1.1, h1.2.2, h2.1, h2.2.2]
    exact ⟨rfl, rfl⟩

/-- C135: two histories of editing calls, requests, loads, saves and the other `Deed`s, on enforcers whose
links were those of their rules at the beginning, that end with the same rules stored: every request gets
the same answer and explanation. Missing: calls that throw or are not faithful (`C135_fails`). -/
theorem C135_history_partial {E E' : Enforcer} {r p p' e : Assertion} {exp : Str}
    (hL : Linked lib E r p e exp) (hL' : Linked lib E' r p' e exp) {ds ds' : List Deed}
    (hf : FaithfulDeeds lib ds E) (hf' : FaithfulDeeds lib ds' E')
    (h : SameStore (runDeeds lib ds E).model (runDeeds lib ds' E').model) (vals : List Str) (X : Rule) :
    ((runDeeds lib ds' E').enforce lib (vals.map ReqVal.str)).1 =
      ((runDeeds lib ds E).enforce lib (vals.map ReqVal.str)).1 ∧
    ((runDeeds lib ds' E').enforceEx lib [] (vals.map ReqVal.str) X).1 =
      ((runDeeds lib ds E).enforceEx lib [] (vals.map ReqVal.str) X).1 := by
  obtain ⟨_, _, h1, _⟩ := hL.deeds ds hf
  obtain ⟨_, _, h2, _⟩ := hL'.deeds ds' hf'
  exact C135_determined h1 h2 h vals X

omit [IterOrder] in
/-- C135 is false for a call that is not faithful: adding a rearrangement of a stored grouping rule stores
nothing and reports `false`, and the same rules grant a request that they did not grant before. -/
theorem C135_fails : ∃ (E E' : Enforcer) (p : Assertion), (let _ := insertionOrder
    Linked miniLib E rA p eA mRbac ∧ (E' = ((Edit.add true c!"g" [c!"admin", c!"alice"]).run E).2 ∧
      ((Edit.add true c!"g" [c!"admin", c!"alice"]).run E).1 = .ok false) ∧
    E'.model = E.model ∧
    (E.enforce miniLib [.str c!"admin", .str c!"data1", .str c!"read"]).1 = .ok false ∧
    (E'.enforce miniLib [.str c!"admin", .str c!"data1", .str c!"read"]).1 = .ok true) := by
  let _ := insertionOrder
  obtain ⟨p, _, _, hl, _⟩ := linked_rbac miniLib [alice] [[c!"alice", c!"admin"]] (by decide)
  exact ⟨(buildRoleLinks (rbac [alice] [[c!"alice", c!"admin"]])).2, _, p, hl, ⟨rfl, by decide +kernel⟩,
    by decide +kernel, by decide +kernel, by decide +kernel⟩

omit [IterOrder] in
theorem sameStore_rbac {m m' : Model} {P : List Rule} {G G' : List Rule} (hG : ∀ r, r ∈ G' ↔ r ∈ G)
    (h : (rbacModel P G).SameRules m) (h' : (rbacModel P G').SameRules m') : SameStore m m' := by
  have hp : ∀ {m : Model} {G : List Rule}, (rbacModel P G).SameRules m → ∀ p, m.find c!"p" c!"p" = some p →
      p.tokens = pTok ∧ p.policy = .vector P := by
    intro m G h p hp
    obtain ⟨x, hx⟩ := h.some (show (rbacModel P G).find c!"p" c!"p" = some (pA (.vector P)) from rfl)
    rw [hx] at hp; cases hp; exact ⟨rfl, rfl⟩
  have hg : ∀ {m : Model} {G : List Rule}, (rbacModel P G).SameRules m → ∀ t a, m.find c!"g" t = some a →
      t = c!"g" ∧ a.value = c!"_, _" ∧ a.policy = .vector G := by
    intro m G h t a ha
    by_cases ht : t = c!"g"
    · subst ht
      obtain ⟨x, hx⟩ := h.some (show (rbacModel P G).find c!"g" c!"g" = some (gA G) from rfl)
      rw [hx] at ha; cases ha; exact ⟨rfl, rfl, rfl⟩
    · have : (rbacModel P G).find c!"g" t = none := by
        simp [rbacModel, Model.find, UMap.get, Ne.symm ht]
      rw [h.none this] at ha; cases ha
  have hn : ∀ {m : Model} {G : List Rule}, (rbacModel P G).SameRules m → ∀ t, m.find c!"g" t = none ↔ t ≠ c!"g" := by
    intro m G h t
    constructor
    · rintro h0 rfl
      obtain ⟨x, hx⟩ := h.some (show (rbacModel P G).find c!"g" c!"g" = some (gA G) from rfl)
      rw [hx] at h0; cases h0
    · intro ht
      exact h.none (by simp [rbacModel, Model.find, UMap.get, Ne.symm ht])
  refine ⟨?_, ?_, ?_⟩
  · intro p p' h1 h2
    obtain ⟨t1, p1⟩ := hp h p h1
    obtain ⟨t2, p2⟩ := hp h' p' h2
    rw [t1, t2, p1, p2]
    exact ⟨rfl, rfl, fun _ => rfl, fun _ => Iff.rfl⟩
  · intro t; rw [hn h, hn h']
  · intro t a a' h1 h2
    obtain ⟨_, v1, g1⟩ := hg h t a h1
    obtain ⟨_, v2, g2⟩ := hg h' t a' h2
    rw [v1, v2, g1, g2]
    exact ⟨rfl, hG⟩

/-- Non-vacuity: the links of the same grouping rules in another order. -/
example (sub obj act : Str) :
    ((buildRoleLinks (rbac [alice, bob] [[c!"x", c!"bob"], [c!"carol", c!"x"]])).2.enforce lib
      [.str sub, .str obj, .str act]).1 =
    ((buildRoleLinks (rbac [alice, bob] [[c!"carol", c!"x"], [c!"x", c!"bob"]])).2.enforce lib
      [.str sub, .str obj, .str act]).1 := by
  obtain ⟨_, _, _, l1, _⟩ := linked_rbac lib [alice, bob] [[c!"carol", c!"x"], [c!"x", c!"bob"]] (by decide)
  obtain ⟨_, _, _, l2, _⟩ := linked_rbac lib [alice, bob] [[c!"x", c!"bob"], [c!"carol", c!"x"]] (by decide)
  exact (C135_determined l1 l2 (sameStore_rbac (by simp [or_comm])
    (buildRoleLinks_linkOnly _).1 (buildRoleLinks_linkOnly _).1) [sub, obj, act] []).1

omit [IterOrder] in
theorem SameStore.of_eq {m m' : Model} (h : m' = m) : SameStore m m' := by
  subst h
  refine ⟨?_, fun _ => Iff.rfl, ?_⟩
  · intro p p' h1 h2; rw [h1] at h2; cases h2; exact ⟨rfl, rfl, fun _ => rfl, fun _ => Iff.rfl⟩
  · intro t a a' h1 h2; rw [h1] at h2; cases h2; exact ⟨rfl, fun _ => Iff.rfl⟩

omit [IterOrder] in
/-- Non-vacuity: a rule that was stored for a while leaves no trace in the answers. -/
example (sub obj act : Str) : letI := insertionOrder
    ((runDeeds miniLib [.act (.edit (.add false c!"p" bob)), .act (.ask [c!"bob", c!"data2", c!"write"]),
        .act (.edit (.remove false c!"p" bob)), .rebuild]
      (buildRoleLinks (rbac [alice] [[c!"alice", c!"admin"]])).2).enforce miniLib
        [.str sub, .str obj, .str act]).1 =
    ((buildRoleLinks (rbac [alice] [[c!"alice", c!"admin"]])).2.enforce miniLib
        [.str sub, .str obj, .str act]).1 := by
  let _ := insertionOrder
  obtain ⟨_, _, _, hl, _⟩ := linked_rbac miniLib [alice] [[c!"alice", c!"admin"]] (by decide)
  exact (C135_history_partial hl hl (ds := [])
    (ds' := [.act (.edit (.add false c!"p" bob)), .act (.ask [c!"bob", c!"data2", c!"write"]),
        .act (.edit (.remove false c!"p" bob)), .rebuild]) trivial
    ⟨⟨trivial, by decide +kernel, trivial⟩, trivial, ⟨trivial, by decide +kernel, trivial⟩, trivial⟩
    (SameStore.of_eq (by decide +kernel)) [sub, obj, act] []).1

end HistoryProps
end Casbin
