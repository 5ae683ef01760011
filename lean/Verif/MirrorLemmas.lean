import Verif.LinkLemmas

/-!
# Editing calls and the role links
-/

namespace Casbin

namespace Assertion
variable [IterOrder]

theorem linkRules_pattern (op : PolicyOp) (n : Nat) (rs : List Rule) : ∀ rm : RM,
    (linkRules op n rs rm).2.pattern = rm.pattern ∧
    (linkRules op n rs rm).2.maxLevel = rm.maxLevel := by
  induction rs with
  | nil => intro rm; exact ⟨rfl, rfl⟩
  | cons r rs ih =>
    intro rm
    simp only [linkRules]
    split
    · exact ⟨rfl, rfl⟩
    · simp only [M.bind_run, M.lift_run]
      cases vecAt (List.take n r) 0 with
      | throw e => exact ⟨rfl, rfl⟩
      | ub u => exact ⟨rfl, rfl⟩
      | ok a =>
        cases vecAt (List.take n r) 1 with
        | throw e => exact ⟨rfl, rfl⟩
        | ub u => exact ⟨rfl, rfl⟩
        | ok b =>
          simp only []
          have key : ∀ d, ((RM.addLink a b d rm).2.pattern = rm.pattern ∧
              (RM.addLink a b d rm).2.maxLevel = rm.maxLevel) ∧
              ((RM.deleteLink a b d rm).2.pattern = rm.pattern ∧
              (RM.deleteLink a b d rm).2.maxLevel = rm.maxLevel) := by
            intro d
            rcases RoleProps.qualify_cases d with ⟨q, hq⟩ | ⟨hd, hq⟩
            · rw [RM.addLink_run rm a b _ _ d (hq a) (hq b),
                RM.deleteLink_run rm a b _ _ d (hq a) (hq b)]
              refine ⟨⟨RM.addQ_pattern .., RM.addQ_maxLevel ..⟩, ?_⟩
              split
              · exact ⟨RM.delQ_pattern .., RM.delQ_maxLevel ..⟩
              · exact ⟨rfl, rfl⟩
            · rw [RM.addLink_bad rm a b d hd, RM.deleteLink_bad rm a b d hd]
              exact ⟨⟨rfl, rfl⟩, ⟨rfl, rfl⟩⟩
          have key := key ((List.take n r).drop 2)
          cases op with
          | add =>
            simp only [M.bind_run]
            rcases hx : RM.addLink a b ((List.take n r).drop 2) rm with ⟨o, rm1⟩
            rw [hx] at key
            cases o with
            | ok _ =>
              have := ih rm1
              simp only []
              exact ⟨this.1.trans key.1.1, this.2.trans key.1.2⟩
            | throw e => exact key.1
            | ub u => exact key.1
          | remove =>
            simp only [M.bind_run]
            rcases hx : RM.deleteLink a b ((List.take n r).drop 2) rm with ⟨o, rm1⟩
            rw [hx] at key
            cases o with
            | ok _ =>
              have := ih rm1
              simp only []
              exact ⟨this.1.trans key.2.1, this.2.trans key.2.2⟩
            | throw e => exact key.2
            | ub u => exact key.2

theorem buildLinks_pattern (v : Str) (op : PolicyOp) (rs : List Rule) (rm : RM) :
    (buildLinks v op rs rm).2.pattern = rm.pattern ∧
    (buildLinks v op rs rm).2.maxLevel = rm.maxLevel := by
  unfold buildLinks
  split
  · exact ⟨rfl, rfl⟩
  · exact linkRules_pattern ..

end Assertion

namespace Enforcer

/-- The enforcer's role manager exists, has no pattern function and hierarchy bound `lvl`. -/
def NoPat (lvl : Nat) (E : Enforcer) : Prop :=
  ∃ rm, E.heap[E.rm]? = some rm ∧ rm.pattern = none ∧ rm.maxLevel = lvl

/-- The enforcer's role manager holds exactly the links `S`. -/
def RmIs (lvl : Nat) (E : Enforcer) (S : Str → Str → Prop) : Prop :=
  ∃ rm, RmOk E rm ∧ rm.maxLevel = lvl ∧ ∀ x y, rm.Edge x y ↔ S x y

/-- The role links are exactly those of the stored grouping rules, which are well shaped. -/
structure Mirrors (lvl : Nat) (E : Enforcer) : Prop where
  groups : GroupsOk E.model
  links : RmIs lvl E (StoredLinks E.model)

theorem RmIs.noPat {lvl : Nat} {E : Enforcer} {S : Str → Str → Prop} (h : RmIs lvl E S) :
    NoPat lvl E := by
  obtain ⟨rm, h1, h2, _⟩ := h
  exact ⟨rm, h1.here, h1.nopat, h2⟩

theorem RmIs.congr {lvl : Nat} {E : Enforcer} {S T : Str → Str → Prop} (h : RmIs lvl E S)
    (hst : ∀ x y, S x y ↔ T x y) : RmIs lvl E T := by
  obtain ⟨rm, h1, h2, h3⟩ := h
  exact ⟨rm, h1, h2, fun x y => (h3 x y).trans (hst x y)⟩

theorem RmIs.of_heap {lvl : Nat} {E E' : Enforcer} {S : Str → Str → Prop} (h : RmIs lvl E S)
    (hh : E'.heap = E.heap) (hr : E'.rm = E.rm) : RmIs lvl E' S := by
  obtain ⟨rm, h1, h2, h3⟩ := h
  exact ⟨rm, ⟨by rw [hh, hr]; exact h1.here, h1.wf, h1.nopat⟩, h2, h3⟩

theorem NoPat.of_heap {lvl : Nat} {E E' : Enforcer} (h : NoPat lvl E)
    (hh : E'.heap = E.heap) (hr : E'.rm = E.rm) : NoPat lvl E' := by
  obtain ⟨rm, h1, h2⟩ := h
  exact ⟨rm, by rw [hh, hr]; exact h1, h2⟩

theorem mirrors_core {lvl : Nat} {E E' : Enforcer} (h : Mirrors lvl E) (hc : SameCore E E') :
    Mirrors lvl E' := by
  obtain ⟨h1, h2, h3, _⟩ := hc
  exact ⟨by rw [h1]; exact h.groups, by rw [h1]; exact h.links.of_heap h2 h3⟩

variable [IterOrder]

theorem buildIncremental_rmIs {lvl : Nat} {E : Enforcer} {S : Str → Str → Prop}
    (h : RmIs lvl E S) {pt : Str} {a : Assertion} (ha : E.model.find c!"g" pt = some a)
    (hn : PlacesOk (countChar '_' a.value)) (rs : List Rule)
    (hr : ∀ r ∈ rs, countChar '_' a.value ≤ r.length) :
    ∃ E', buildIncremental .add pt rs E = (.ok (), E') ∧ LinkOnly E E' ∧
      RmIs lvl E' (fun x y => S x y ∨ ∃ r ∈ rs, LinkOf (countChar '_' a.value) r x y) := by
  obtain ⟨rm, hrm, hl, he⟩ := h
  obtain ⟨rm', h1, h2, h3, h4, h5, _⟩ := buildIncremental_add hrm ha hn rs hr
  have hlo := buildIncremental_linkOnly .add pt rs E
  rw [h1] at hlo
  refine ⟨_, h1, hlo, rm', ⟨getElem?_set_self' hrm.here, h2, h3⟩, by rw [h4, hl], ?_⟩
  intro x y
  rw [h5, he]

theorem buildIncremental_rmIs_remove {lvl : Nat} {E : Enforcer} {S : Str → Str → Prop}
    (h : RmIs lvl E S) {pt : Str} {a : Assertion} (ha : E.model.find c!"g" pt = some a)
    (hn : PlacesOk (countChar '_' a.value)) (rs : List Rule)
    (hr : ∀ r ∈ rs, countChar '_' a.value ≤ r.length)
    (hS : ∀ r ∈ rs, ∀ x y, LinkOf (countChar '_' a.value) r x y → S x y) :
    ∃ E', buildIncremental .remove pt rs E = (.ok (), E') ∧ LinkOnly E E' ∧
      RmIs lvl E' (fun x y => S x y ∧ ¬ ∃ r ∈ rs, LinkOf (countChar '_' a.value) r x y) := by
  obtain ⟨rm, hrm, hl, he⟩ := h
  obtain ⟨rm', h1, h2, h3, h4, h5, _⟩ := buildIncremental_remove hrm ha hn rs hr (by
    intro r hr x y hxy
    have hedge := (he x y).mpr (hS r hr x y hxy)
    refine ⟨?_, hrm.wf.closed x y hedge⟩
    unfold RM.Edge RM.direct at hedge
    cases hg : rm.roles.get x with
    | none => rw [hg] at hedge; simp at hedge
    | some l => exact UMap.mem_keys_of_get hg)
  have hlo := buildIncremental_linkOnly .remove pt rs E
  rw [h1] at hlo
  refine ⟨_, h1, hlo, rm', ⟨getElem?_set_self' hrm.here, h2, h3⟩, by rw [h4, hl], ?_⟩
  intro x y
  rw [h5, he]

theorem buildIncremental_noPat {lvl : Nat} {E : Enforcer} (h : NoPat lvl E) (op : PolicyOp)
    (pt : Str) (rs : List Rule) : NoPat lvl (buildIncremental op pt rs E).2 := by
  obtain ⟨rm, h1, h2, h3⟩ := h
  simp only [buildIncremental, M.bind_run, M.get_run]
  cases ha : E.model.find c!"g" pt with
  | none => exact ⟨rm, h1, h2, h3⟩
  | some a =>
    simp only [M.bind_run, onModel_run, M.modify_run]
    rw [onRm_run (E := { E with model := E.model.put c!"g" pt { a with rm := some E.rm } })
      (rm := rm) h1]
    have hb := Assertion.buildLinks_pattern a.value op rs rm
    exact ⟨_, getElem?_set_self' h1, hb.1.trans h2, hb.2.trans h3⟩

/-- After a rebuild the links mirror the rules, whatever they were before. -/
theorem buildRoleLinks_mirrors {lvl : Nat} {E : Enforcer} (h : NoPat lvl E)
    (hg : GroupsOk E.model) :
    ∃ E', buildRoleLinks E = (.ok (), E') ∧ LinkOnly E E' ∧ Mirrors lvl E' := by
  obtain ⟨rm, h1, h2, h3⟩ := h
  obtain ⟨rm', m', e1, s1, w1, p1, l1, ed, _, _⟩ := buildRoleLinks_run h1 h2 hg
  have hlo := buildRoleLinks_linkOnly E
  rw [e1] at hlo
  refine ⟨_, e1, hlo, groupsOk_congr s1 hg, rm', ⟨getElem?_set_self' h1, w1, p1⟩,
    by rw [l1, h3], ?_⟩
  intro x y
  rw [ed, storedLinks_congr s1]

/-! ### The shape of an editing call -/

omit [IterOrder] in
theorem edit_shape {α : Type} (op : M Model α) (test : α → Bool) (link : α → M Enforcer Unit)
    (save : M Enforcer Unit) (c : Option AdapterCall) (hs : SaveStep save c) (E : Enforcer)
    (b : Bool) (R : Enforcer)
    (h : (do
        let a ← onModel op
        if !(test a) then pure false
        else do
          link a
          save
          notify
          pure true : M Enforcer Bool) E = (.ok b, R)) :
    ∃ a m', op E.model = (.ok a, m') ∧ b = test a ∧
      (test a = false → R = { E with model := m' }) ∧
      (test a = true → ∃ E1, link a { E with model := m' } = (.ok (), E1) ∧ SameCore E1 R) := by
  simp only [M.bind_run, onModel_run] at h
  rcases ho : op E.model with ⟨o, m'⟩
  rw [ho] at h
  cases o with
  | throw e => simp at h
  | ub u => simp at h
  | ok a =>
    refine ⟨a, m', rfl, ?_⟩
    simp only [] at h
    cases ht : test a with
    | false =>
      rw [ht] at h
      simp only [Bool.not_false, if_true, M.pure_run, Prod.mk.injEq, Outcome.ok.injEq] at h
      exact ⟨h.1.symm, fun _ => h.2.symm, by simp⟩
    | true =>
      rw [ht] at h
      simp only [Bool.not_true, Bool.false_eq_true, if_false, M.bind_run] at h
      rcases hl : link a { E with model := m' } with ⟨o1, E1⟩
      rw [hl] at h
      cases o1 with
      | throw e => simp at h
      | ub u => simp at h
      | ok u =>
        simp only [] at h
        obtain ⟨hc, _, _⟩ := hs E1
        rcases hsv : save E1 with ⟨o2, E2⟩
        rw [hsv] at h hc
        cases o2 with
        | throw e => simp at h
        | ub u => simp at h
        | ok u =>
          simp only [notify_run, M.pure_run, Prod.mk.injEq, Outcome.ok.injEq] at h
          refine ⟨h.1.symm, by simp, fun _ => ⟨E1, rfl, ?_⟩⟩
          rw [← h.2]
          exact hc.trans (afterNotify_core E2)

omit [IterOrder] in
theorem edit_shape_bool (op : M Model Bool) (link : M Enforcer Unit)
    (save : M Enforcer Unit) (c : Option AdapterCall) (hs : SaveStep save c) (E : Enforcer)
    (b : Bool) (R : Enforcer)
    (h : (do
        let a ← onModel op
        if !a then pure false
        else do
          link
          save
          notify
          pure true : M Enforcer Bool) E = (.ok b, R)) :
    ∃ m', op E.model = (.ok b, m') ∧ (b = false → R = { E with model := m' }) ∧
      (b = true → ∃ E1, link { E with model := m' } = (.ok (), E1) ∧ SameCore E1 R) := by
  obtain ⟨a, m', h1, h2, h3, h4⟩ := edit_shape op (fun b => b) (fun _ => link) save c hs E b R h
  subst h2
  exact ⟨m', h1, h3, h4⟩

omit [IterOrder] in
theorem then_shape {x : M Enforcer Bool} {link : M Enforcer Unit} {E R : Enforcer} {b : Bool}
    (h : (do
      let b ← x
      let E' ← M.get
      if E'.autoBuild then link else pure ()
      pure b : M Enforcer Bool) E = (.ok b, R)) :
    ∃ E1, x E = (.ok b, E1) ∧ (E1.autoBuild = true → link E1 = (.ok (), R)) ∧
      (E1.autoBuild = false → R = E1) := by
  simp only [M.bind_run, M.get_run] at h
  rcases hx : x E with ⟨o, E1⟩
  rw [hx] at h
  cases o with
  | throw e => simp at h
  | ub u => simp at h
  | ok b' =>
    simp only [] at h
    cases ha : E1.autoBuild with
    | false =>
      rw [ha] at h
      simp only [Bool.false_eq_true, if_false, M.pure_run, Prod.mk.injEq,
        Outcome.ok.injEq] at h
      exact ⟨E1, by rw [h.1], by simp [ha], fun _ => h.2.symm⟩
    | true =>
      rw [ha] at h
      simp only [if_true, M.bind_run] at h
      rcases hl : link E1 with ⟨o1, E2⟩
      rw [hl] at h
      cases o1 with
      | throw e => simp at h
      | ub u => simp at h
      | ok u =>
        simp only [M.pure_run, Prod.mk.injEq, Outcome.ok.injEq] at h
        exact ⟨E1, by rw [h.1], fun _ => by rw [hl, h.2], by simp [ha]⟩

/-! ### Stored links after an edit of one policy type -/

/-- The links of the rules of one policy type. -/
def TypeLinks (m : Model) (t : Str) (x y : Str) : Prop :=
  ∃ a, m.find c!"g" t = some a ∧ ∃ r ∈ a.policy.items, LinkOf (countChar '_' a.value) r x y

omit [IterOrder] in
theorem storedLinks_put {m : Model} {pt : Str} {a : Assertion} (P : Policies) (x y : Str) :
    StoredLinks (m.put c!"g" pt { a with policy := P }) x y ↔
      (∃ r ∈ P.items, LinkOf (countChar '_' a.value) r x y) ∨
      ∃ t, t ≠ pt ∧ TypeLinks m t x y := by
  unfold StoredLinks TypeLinks
  constructor
  · rintro ⟨t, b, hb, hr⟩
    rw [Model.find_put] at hb
    split at hb
    · cases hb; exact .inl hr
    · rename_i hne
      exact .inr ⟨t, fun e => hne ⟨rfl, e.symm⟩, b, hb, hr⟩
  · rintro (hr | ⟨t, hne, b, hb, hr⟩)
    · exact ⟨pt, _, Model.find_put_self .., hr⟩
    · exact ⟨t, b, by rw [Model.find_put_ne _ _ (fun e => hne e.2.symm)]; exact hb, hr⟩

omit [IterOrder] in
theorem storedLinks_split {m : Model} {pt : Str} {a : Assertion} (ha : m.find c!"g" pt = some a)
    (x y : Str) : StoredLinks m x y ↔
      (∃ r ∈ a.policy.items, LinkOf (countChar '_' a.value) r x y) ∨
      ∃ t, t ≠ pt ∧ TypeLinks m t x y := by
  have := storedLinks_put (m := m) (pt := pt) (a := a) a.policy x y
  rwa [show ({ a with policy := a.policy } : Assertion) = a from rfl,
    Model.put_self _ _ _ _ ha] at this

omit [IterOrder] in
theorem groupsOk_put {m : Model} {pt : Str} {a : Assertion} (hg : GroupsOk m)
    (ha : m.find c!"g" pt = some a) {P : Policies}
    (hP : ∀ r ∈ P.items, r ∈ a.policy.items ∨ countChar '_' a.value ≤ r.length) :
    GroupsOk (m.put c!"g" pt { a with policy := P }) := by
  intro t b hb
  rw [Model.find_put] at hb
  split at hb
  · cases hb
    refine ⟨(hg pt a ha).1, ?_⟩
    intro r hr
    rcases hP r hr with h | h
    · exact (hg pt a ha).2 r h
    · exact h
  · exact hg t b hb

end Enforcer
end Casbin
