import Verif.EditLemmas
import Verif.ImplicitLemmas

/-!
# Building role links from grouping rules
-/

namespace Casbin

open RM (qualify)

/-- The link that grouping rule `r` stands for under a role definition with `n` places: the first
two values, qualified by the third one when there are three places. -/
def LinkOf (n : Nat) (r : Rule) (x y : Str) : Prop :=
  (n = 2 ∧ ∃ a b rest, r = a :: b :: rest ∧ x = a ∧ y = b) ∨
  (n = 3 ∧ ∃ a b d rest, r = a :: b :: d :: rest ∧ x = d ++ c!"::" ++ a ∧ y = d ++ c!"::" ++ b)

/-- The role definition has two or three places. -/
def PlacesOk (n : Nat) : Prop := n = 2 ∨ n = 3

theorem linkOf_unique {n : Nat} {r : Rule} (hn : PlacesOk n) (hr : n ≤ r.length) :
    ∃ a b, ∃ d : List Str, ∃ x y, r.take n = a :: b :: d ∧ qualify d a = .ok x ∧
      qualify d b = .ok y ∧ ∀ x' y', LinkOf n r x' y' ↔ x' = x ∧ y' = y := by
  rcases hn with rfl | rfl
  · match r, hr with
    | a :: b :: rest, _ =>
      refine ⟨a, b, [], a, b, rfl, rfl, rfl, ?_⟩
      intro x' y'
      unfold LinkOf
      constructor
      · rintro (⟨_, a', b', rest', e, rfl, rfl⟩ | ⟨h, _⟩)
        · simp only [List.cons.injEq] at e; exact ⟨e.1.symm, e.2.1.symm⟩
        · omega
      · rintro ⟨rfl, rfl⟩; exact .inl ⟨rfl, _, _, rest, rfl, rfl, rfl⟩
  · match r, hr with
    | a :: b :: d :: rest, _ =>
      refine ⟨a, b, [d], _, _, rfl, rfl, rfl, ?_⟩
      intro x' y'
      unfold LinkOf
      constructor
      · rintro (⟨h, _⟩ | ⟨_, a', b', d', rest', e, rfl, rfl⟩)
        · omega
        · simp only [List.cons.injEq] at e
          obtain ⟨rfl, rfl, rfl, _⟩ := e
          exact ⟨rfl, rfl⟩
      · rintro ⟨rfl, rfl⟩; exact .inr ⟨rfl, _, _, _, rest, rfl, rfl, rfl⟩

namespace Assertion

variable [IterOrder]

/-- Adding the links of well-shaped rules. -/
theorem linkRules_add {n : Nat} (hn : PlacesOk n) (rs : List Rule) (hr : ∀ r ∈ rs, n ≤ r.length) :
    ∀ {rm : RM}, rm.WF → rm.pattern = none →
    ∃ rm', linkRules .add n rs rm = (.ok (), rm') ∧ rm'.WF ∧ rm'.pattern = none ∧
      rm'.maxLevel = rm.maxLevel ∧
      (∀ x y, rm'.Edge x y ↔ rm.Edge x y ∨ ∃ r ∈ rs, LinkOf n r x y) ∧
      (∀ x, x ∈ rm'.roles.keys ↔ x ∈ rm.roles.keys ∨ ∃ r ∈ rs, ∃ y, LinkOf n r x y ∨ LinkOf n r y x) := by
  induction rs with
  | nil => intro rm hw hp; exact ⟨rm, rfl, hw, hp, rfl, by simp, by simp⟩
  | cons r rs ih =>
    intro rm hw hp
    obtain ⟨a, b, d, x, y, ht, hx, hy, hl⟩ := linkOf_unique hn (hr r (by simp))
    obtain ⟨rm', h1, h2, h3, h4, h5, h6⟩ := ih (fun s hs => hr s (List.mem_cons_of_mem _ hs))
      (RM.WF_addQ hw x y hp) (by rw [RM.addQ_pattern, hp])
    refine ⟨rm', ?_, h2, h3, by rw [h4, RM.addQ_maxLevel], ?_, ?_⟩
    · have hlen : ¬ r.length < n := by have := hr r (by simp); omega
      simp only [linkRules, hlen, if_false, M.bind_run, ht, vecAt, List.getElem?_cons_zero,
        List.getElem?_cons_succ, M.lift_run, List.drop_succ_cons, List.drop_zero,
        RM.addLink_run rm a b x y d hx hy, h1]
    · intro x' y'
      rw [h5, RM.edge_addQ _ _ _ _ _ hp]
      simp only [List.mem_cons, exists_eq_or_imp, hl]
      tauto
    · intro x'
      rw [h6, RM.keys_addQ _ _ _ _ hp]
      simp only [List.mem_cons, exists_eq_or_imp, hl]
      constructor
      · rintro ((rfl | rfl | h) | h)
        · exact .inr (.inl ⟨y, .inl ⟨rfl, rfl⟩⟩)
        · exact .inr (.inl ⟨x, .inr ⟨rfl, rfl⟩⟩)
        · exact .inl h
        · exact .inr (.inr h)
      · rintro (h | ⟨z, h | h⟩ | h)
        · exact .inl (.inr (.inr h))
        · exact .inl (.inl h.1)
        · exact .inl (.inr (.inl h.2))
        · exact .inr h

theorem buildLinks_add {value : Str} (hn : PlacesOk (countChar '_' value)) (rs : List Rule)
    (hr : ∀ r ∈ rs, countChar '_' value ≤ r.length) {rm : RM} (hw : rm.WF)
    (hp : rm.pattern = none) :
    ∃ rm', buildLinks value .add rs rm = (.ok (), rm') ∧ rm'.WF ∧ rm'.pattern = none ∧
      rm'.maxLevel = rm.maxLevel ∧
      (∀ x y, rm'.Edge x y ↔ rm.Edge x y ∨ ∃ r ∈ rs, LinkOf (countChar '_' value) r x y) ∧
      (∀ x, x ∈ rm'.roles.keys ↔ x ∈ rm.roles.keys ∨
        ∃ r ∈ rs, ∃ y, LinkOf (countChar '_' value) r x y ∨ LinkOf (countChar '_' value) r y x) := by
  have h2 : ¬ countChar '_' value < 2 := by rcases hn with h | h <;> omega
  simp only [buildLinks, h2, if_false]
  exact linkRules_add hn rs hr hw hp

/-- Removing the links of well-shaped rules whose names are all known. -/
theorem linkRules_remove {n : Nat} (hn : PlacesOk n) (rs : List Rule)
    (hr : ∀ r ∈ rs, n ≤ r.length) :
    ∀ {rm : RM}, rm.WF → rm.pattern = none →
    (∀ r ∈ rs, ∀ x y, LinkOf n r x y → x ∈ rm.roles.keys ∧ y ∈ rm.roles.keys) →
    ∃ rm', linkRules .remove n rs rm = (.ok (), rm') ∧ rm'.WF ∧ rm'.pattern = none ∧
      rm'.maxLevel = rm.maxLevel ∧
      (∀ x y, rm'.Edge x y ↔ rm.Edge x y ∧ ¬ ∃ r ∈ rs, LinkOf n r x y) ∧
      (∀ x, x ∈ rm'.roles.keys ↔ x ∈ rm.roles.keys) := by
  induction rs with
  | nil => intro rm hw hp _; exact ⟨rm, rfl, hw, hp, rfl, by simp, by simp⟩
  | cons r rs ih =>
    intro rm hw hp hk
    obtain ⟨a, b, d, x, y, ht, hx, hy, hl⟩ := linkOf_unique hn (hr r (by simp))
    obtain ⟨kx, ky⟩ := hk r (by simp) x y ((hl x y).mpr ⟨rfl, rfl⟩)
    have hkeys : ∀ z, z ∈ (rm.delQ x y).roles.keys ↔ z ∈ rm.roles.keys := by
      intro z
      have e1 : rm.createRole x = rm := RM.createRole_known rm x hp kx
      have e2 : rm.createRole y = rm := RM.createRole_known rm y hp ky
      simp [RM.delQ, e1, e2, RM.keys_delRole]
    obtain ⟨rm', h1, h2, h3, h4, h5, h6⟩ := ih (fun s hs => hr s (List.mem_cons_of_mem _ hs))
      (RM.WF_delQ hw x y hp) (by rw [RM.delQ_pattern, hp])
      (fun s hs x' y' h => by
        rw [hkeys, hkeys]; exact hk s (List.mem_cons_of_mem _ hs) x' y' h)
    refine ⟨rm', ?_, h2, h3, by rw [h4, RM.delQ_maxLevel], ?_, ?_⟩
    · have hlen : ¬ r.length < n := by have := hr r (by simp); omega
      simp only [linkRules, hlen, if_false, M.bind_run, ht, vecAt, List.getElem?_cons_zero,
        List.getElem?_cons_succ, M.lift_run, List.drop_succ_cons, List.drop_zero,
        RM.deleteLink_run rm a b x y d hx hy, RM.hasRole_none rm _ hp, kx, ky, and_self, if_true,
        h1]
    · intro x' y'
      rw [h5, RM.edge_delQ hw _ _ _ _ hp]
      simp only [List.mem_cons, exists_eq_or_imp, hl, not_or]
      tauto
    · intro z; rw [h6, hkeys]

end Assertion

namespace Enforcer

/-- The role manager object the enforcer points to. -/
def roleManager (E : Enforcer) : Option RM := E.heap[E.rm]?

theorem roleManager_some {E : Enforcer} {rm : RM} (h : E.roleManager = some rm) :
    E.heap[E.rm]? = some rm := h

theorem onRm_run {α : Type} {E : Enforcer} {p : Nat} {rm : RM} (h : E.heap[p]? = some rm)
    (f : M RM α) : onRm p f E = ((f rm).1, { E with heap := E.heap.set p (f rm).2 }) := by
  simp [onRm, onHeap, h]

theorem getElem?_set_self' {α : Type} {l : List α} {p : Nat} {a b : α} (h : l[p]? = some a) :
    (l.set p b)[p]? = some b := by
  have : p < l.length := by
    rw [List.getElem?_eq_some_iff] at h; exact h.1
  simp [this]

/-- The links that the stored grouping rules of all types stand for. -/
def StoredLinks (m : Model) (x y : Str) : Prop :=
  ∃ t a, m.find c!"g" t = some a ∧ ∃ r ∈ a.policy.items, LinkOf (countChar '_' a.value) r x y

/-- Every role definition has two or three places and every grouping rule has enough values. -/
def GroupsOk (m : Model) : Prop :=
  ∀ t a, m.find c!"g" t = some a → PlacesOk (countChar '_' a.value) ∧
    ∀ r ∈ a.policy.items, countChar '_' a.value ≤ r.length

/-- The enforcer's role manager is the default one in a good state: no pattern function. -/
structure RmOk (E : Enforcer) (rm : RM) : Prop where
  here : E.heap[E.rm]? = some rm
  wf : rm.WF
  nopat : rm.pattern = none

theorem storedLinks_congr {m m' : Model} (h : m.SameRules m') (x y : Str) :
    StoredLinks m' x y ↔ StoredLinks m x y := by
  unfold StoredLinks
  constructor
  · rintro ⟨t, a, ha, hr⟩
    cases hb : m.find c!"g" t with
    | none => rw [h.none hb] at ha; simp at ha
    | some b =>
      obtain ⟨p, hp⟩ := h.some hb
      rw [hp] at ha
      cases ha
      exact ⟨t, b, hb, hr⟩
  · rintro ⟨t, a, ha, hr⟩
    obtain ⟨p, hp⟩ := h.some ha
    exact ⟨t, _, hp, hr⟩

theorem groupsOk_congr {m m' : Model} (h : m.SameRules m') (hg : GroupsOk m) : GroupsOk m' := by
  intro t a ha
  cases hb : m.find c!"g" t with
  | none => rw [h.none hb] at ha; simp at ha
  | some b =>
    obtain ⟨p, hp⟩ := h.some hb
    rw [hp] at ha
    cases ha
    exact hg t b hb

variable [IterOrder]

/-- `BuildIncrementalRoleLinks` adding well-shaped rules. -/
theorem buildIncremental_add {E : Enforcer} {rm : RM} (hrm : RmOk E rm) {pt : Str} {a : Assertion}
    (ha : E.model.find c!"g" pt = some a) (hn : PlacesOk (countChar '_' a.value))
    (rs : List Rule) (hr : ∀ r ∈ rs, countChar '_' a.value ≤ r.length) :
    ∃ rm', buildIncremental .add pt rs E =
        (.ok (), { E with model := E.model.put c!"g" pt { a with rm := some E.rm },
                          heap := E.heap.set E.rm rm' }) ∧
      rm'.WF ∧ rm'.pattern = none ∧ rm'.maxLevel = rm.maxLevel ∧
      (∀ x y, rm'.Edge x y ↔ rm.Edge x y ∨ ∃ r ∈ rs, LinkOf (countChar '_' a.value) r x y) ∧
      (∀ x, x ∈ rm'.roles.keys ↔ x ∈ rm.roles.keys ∨
        ∃ r ∈ rs, ∃ y, LinkOf (countChar '_' a.value) r x y ∨ LinkOf (countChar '_' a.value) r y x) := by
  obtain ⟨rm', h1, h2⟩ := Assertion.buildLinks_add hn rs hr hrm.wf hrm.nopat
  refine ⟨rm', ?_, h2⟩
  simp only [buildIncremental, M.bind_run, M.get_run, ha, onModel_run, M.modify_run]
  rw [onRm_run (E := { E with model := E.model.put c!"g" pt { a with rm := some E.rm } })
    (rm := rm) hrm.here, h1]

theorem buildIncremental_remove {E : Enforcer} {rm : RM} (hrm : RmOk E rm) {pt : Str}
    {a : Assertion} (ha : E.model.find c!"g" pt = some a) (hn : PlacesOk (countChar '_' a.value))
    (rs : List Rule) (hr : ∀ r ∈ rs, countChar '_' a.value ≤ r.length)
    (hk : ∀ r ∈ rs, ∀ x y, LinkOf (countChar '_' a.value) r x y →
      x ∈ rm.roles.keys ∧ y ∈ rm.roles.keys) :
    ∃ rm', buildIncremental .remove pt rs E =
        (.ok (), { E with model := E.model.put c!"g" pt { a with rm := some E.rm },
                          heap := E.heap.set E.rm rm' }) ∧
      rm'.WF ∧ rm'.pattern = none ∧ rm'.maxLevel = rm.maxLevel ∧
      (∀ x y, rm'.Edge x y ↔ rm.Edge x y ∧ ¬ ∃ r ∈ rs, LinkOf (countChar '_' a.value) r x y) ∧
      (∀ x, x ∈ rm'.roles.keys ↔ x ∈ rm.roles.keys) := by
  have h2 : ¬ countChar '_' a.value < 2 := by rcases hn with h | h <;> omega
  obtain ⟨rm', h1, h3⟩ := Assertion.linkRules_remove hn rs hr hrm.wf hrm.nopat hk
  refine ⟨rm', ?_, h3⟩
  simp only [buildIncremental, M.bind_run, M.get_run, ha, onModel_run, M.modify_run]
  rw [onRm_run (E := { E with model := E.model.put c!"g" pt { a with rm := some E.rm } })
    (rm := rm) hrm.here]
  simp only [Assertion.buildLinks, h2, if_false, h1]

/-- The loop of `BuildRoleLinks` over policy types. -/
theorem buildAll_run (ks : List Str) : ∀ {E : Enforcer} {rm : RM}, RmOk E rm →
    (∀ k ∈ ks, ∃ a, E.model.find c!"g" k = some a) → GroupsOk E.model →
    ∃ rm' m', buildAll ks E = (.ok (), { E with model := m', heap := E.heap.set E.rm rm' }) ∧
      E.model.SameRules m' ∧ rm'.WF ∧ rm'.pattern = none ∧ rm'.maxLevel = rm.maxLevel ∧
      (∀ x y, rm'.Edge x y ↔ rm.Edge x y ∨ ∃ k ∈ ks, ∃ a, E.model.find c!"g" k = some a ∧
        ∃ r ∈ a.policy.items, LinkOf (countChar '_' a.value) r x y) ∧
      (∀ x, x ∈ rm'.roles.keys ↔ x ∈ rm.roles.keys ∨ ∃ k ∈ ks, ∃ a, E.model.find c!"g" k = some a ∧
        ∃ r ∈ a.policy.items, ∃ y, LinkOf (countChar '_' a.value) r x y ∨
          LinkOf (countChar '_' a.value) r y x) ∧
      (∀ k a, m'.find c!"g" k = some a → k ∈ ks ∨ E.model.find c!"g" k = some a) ∧
      (∀ k ∈ ks, ∃ a, m'.find c!"g" k = some a ∧ a.rm = some E.rm) := by
  induction ks with
  | nil =>
    intro E rm hrm _ _
    refine ⟨rm, E.model, ?_, .refl _, hrm.wf, hrm.nopat, rfl, by simp, by simp,
      fun k a h => .inr h, by simp⟩
    simp only [buildAll, M.pure_run]
    have : E.heap.set E.rm rm = E.heap := by
      obtain ⟨h1, h2⟩ := List.getElem?_eq_some_iff.mp hrm.here
      rw [← h2]; exact List.set_getElem_self h1
    rw [this]
  | cons k ks ih =>
    intro E rm hrm hdef hg
    obtain ⟨a, ha⟩ := hdef k (by simp)
    obtain ⟨hn, hlen⟩ := hg k a ha
    obtain ⟨rm1, h1, w1, p1, l1, e1, k1⟩ := Assertion.buildLinks_add hn a.policy.iterate
      (fun r hr => hlen r ((Policies.mem_iterate _ _).mp hr)) hrm.wf hrm.nopat
    have hsame : E.model.SameRules (E.model.put c!"g" k { a with rm := some E.rm }) :=
      Model.sameRules_putRm ha _
    obtain ⟨rm', m', h2, s2, w2, p2, l2, e2, k2, f2, r2⟩ :=
      ih (E := { E with model := E.model.put c!"g" k { a with rm := some E.rm },
                        heap := E.heap.set E.rm rm1 }) (rm := rm1)
        ⟨getElem?_set_self' hrm.here, w1, p1⟩
        (by
          intro k' hk'
          obtain ⟨b, hb⟩ := hdef k' (List.mem_cons_of_mem _ hk')
          obtain ⟨p, hp⟩ := hsame.some hb
          exact ⟨_, hp⟩)
        (groupsOk_congr hsame hg)
    refine ⟨rm', m', ?_, hsame.trans s2, w2, p2, by rw [l2, l1], ?_, ?_, ?_, ?_⟩
    · simp only [buildAll, M.bind_run, M.get_run, ha, onModel_run, M.modify_run]
      rw [onRm_run (E := { E with model := E.model.put c!"g" k { a with rm := some E.rm } })
        (rm := rm) hrm.here, h1]
      simp only [h2, List.set_set]
    all_goals
      have hiff : ∀ (Q : Nat → Rule → Prop),
          (∃ k' ∈ ks, ∃ b, (E.model.put c!"g" k { a with rm := some E.rm }).find c!"g" k' = some b ∧
            ∃ r ∈ b.policy.items, Q (countChar '_' b.value) r) ↔
          (∃ k' ∈ ks, ∃ b, E.model.find c!"g" k' = some b ∧
            ∃ r ∈ b.policy.items, Q (countChar '_' b.value) r) := by
        intro Q
        constructor
        · rintro ⟨k', hk', b, hb, hr⟩
          refine ⟨k', hk', ?_⟩
          rw [Model.find_put] at hb
          split at hb
          · rename_i he
            cases hb
            exact ⟨a, he.2 ▸ ha, hr⟩
          · exact ⟨b, hb, hr⟩
        · rintro ⟨k', hk', b, hb, hr⟩
          obtain ⟨p, hp⟩ := hsame.some hb
          exact ⟨k', hk', _, hp, hr⟩
    · intro x y
      rw [e2, e1, hiff (fun n r => LinkOf n r x y)]
      simp only [List.mem_cons, exists_eq_or_imp, ha, Option.some.injEq, exists_eq_left',
        Policies.mem_iterate]
      exact or_assoc
    · intro x
      rw [k2, k1, hiff (fun n r => ∃ y, LinkOf n r x y ∨ LinkOf n r y x)]
      simp only [List.mem_cons, exists_eq_or_imp, ha, Option.some.injEq, exists_eq_left',
        Policies.mem_iterate]
      exact or_assoc
    · intro k' b hb
      rcases f2 k' b hb with h | h
      · exact .inl (List.mem_cons_of_mem _ h)
      · simp only [Model.find_put] at h
        split at h
        · rename_i he; exact .inl (by simp [he.2])
        · exact .inr h
    · intro k' hk'
      rcases List.mem_cons.mp hk' with rfl | hk'
      · by_cases hin : k' ∈ ks
        · exact r2 k' hin
        · obtain ⟨p, hp⟩ := (hsame.trans s2).some ha
          rcases f2 k' _ hp with h | h
          · exact absurd h hin
          · rw [Model.find_put_self] at h
            refine ⟨_, hp, ?_⟩
            have := Option.some.inj h
            simpa using congrArg Assertion.rm this.symm
      · exact r2 k' hk'

/-- `BuildRoleLinks` on any previous state of the role manager. -/
theorem buildRoleLinks_run {E : Enforcer} {rm : RM} (h : E.heap[E.rm]? = some rm)
    (hp : rm.pattern = none) (hg : GroupsOk E.model) :
    ∃ rm' m', buildRoleLinks E = (.ok (), { E with model := m', heap := E.heap.set E.rm rm' }) ∧
      E.model.SameRules m' ∧ rm'.WF ∧ rm'.pattern = none ∧ rm'.maxLevel = rm.maxLevel ∧
      (∀ x y, rm'.Edge x y ↔ StoredLinks E.model x y) ∧
      (∀ x, x ∈ rm'.roles.keys ↔ ∃ y, StoredLinks E.model x y ∨ StoredLinks E.model y x) ∧
      (∀ t a, m'.find c!"g" t = some a → a.rm = some E.rm) := by
  have hs0 := Model.sameRules_ensureSec E.model c!"g"
  have hmem : ∀ t, t ∈ IterOrder.iter ((E.model.ensureSec c!"g").secMap c!"g").keys ↔
      ∃ a, E.model.find c!"g" t = some a := by
    intro t
    rw [IterOrder.mem_iter, ← UMap.get_isSome_iff, Model.find_secMap, Model.find_ensureSec,
      Option.isSome_iff_exists]
  obtain ⟨rm', m', h2, s2, w2, p2, l2, e2, k2, f2, r2⟩ :=
    buildAll_run (IterOrder.iter ((E.model.ensureSec c!"g").secMap c!"g").keys)
      (E := { E with model := E.model.ensureSec c!"g", heap := E.heap.set E.rm rm.clear })
      (rm := rm.clear) ⟨getElem?_set_self' h, RM.WF_clear rm, hp⟩
      (by intro k hk; simp only [Model.find_ensureSec]; exact (hmem k).mp hk)
      (groupsOk_congr hs0 hg)
  have hno : ∀ x y, ¬ rm.clear.Edge x y := by intro x y; simp [RM.Edge, RM.clear, RM.direct]
  have hnk : ∀ x, x ∉ rm.clear.roles.keys := by intro x; simp [RM.clear]
  refine ⟨rm', m', ?_, hs0.trans s2, w2, p2, l2, ?_, ?_, ?_⟩
  · simp only [buildRoleLinks, M.bind_run, M.get_run]
    rw [onRm_run (rm := rm) h]
    simp only [M.modify_run, onModel_run, h2, List.set_set]
  · intro x y
    rw [e2]
    simp only [hno, false_or, Model.find_ensureSec]
    unfold StoredLinks
    constructor
    · rintro ⟨k, _, a, ha, hr⟩; exact ⟨k, a, ha, hr⟩
    · rintro ⟨k, a, ha, hr⟩; exact ⟨k, (hmem k).mpr ⟨a, ha⟩, a, ha, hr⟩
  · intro x
    rw [k2]
    simp only [hnk, false_or, Model.find_ensureSec]
    unfold StoredLinks
    constructor
    · rintro ⟨k, _, a, ha, r, hr, y, hy | hy⟩
      · exact ⟨y, .inl ⟨k, a, ha, r, hr, hy⟩⟩
      · exact ⟨y, .inr ⟨k, a, ha, r, hr, hy⟩⟩
    · rintro ⟨y, ⟨k, a, ha, r, hr, hy⟩ | ⟨k, a, ha, r, hr, hy⟩⟩
      · exact ⟨k, (hmem k).mpr ⟨a, ha⟩, a, ha, r, hr, y, .inl hy⟩
      · exact ⟨k, (hmem k).mpr ⟨a, ha⟩, a, ha, r, hr, y, .inr hy⟩
  · intro t a ha
    have : ∃ b, E.model.find c!"g" t = some b := by
      cases hb : E.model.find c!"g" t with
      | some b => exact ⟨b, rfl⟩
      | none => rw [(hs0.trans s2).none hb] at ha; simp at ha
    obtain ⟨b, hb, hrm⟩ := r2 t ((hmem t).mpr this)
    rw [ha] at hb
    cases hb
    exact hrm

end Enforcer
end Casbin
