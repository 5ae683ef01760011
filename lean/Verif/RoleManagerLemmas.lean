import Verif.RoleManager

/-! # Lemmas about the role manager (without a matching function) -/

namespace Casbin
namespace RM

variable [IterOrder]

/-- `b` is a direct role of `a`. -/
def Edge (rm : RM) (a b : Str) : Prop := b ∈ direct rm.roles a

/-- Well-formed: names are stored once, direct roles are themselves stored, and listed once. -/
structure WF (rm : RM) : Prop where
  nodup : rm.roles.keys.Nodup
  closed : ∀ a b, b ∈ direct rm.roles a → b ∈ rm.roles.keys
  edgesNodup : ∀ a, (direct rm.roles a).Nodup

omit [IterOrder] in
theorem direct_set (m : UMap Str (List Str)) (a x : Str) (l : List Str) :
    direct (m.set a l) x = if a = x then l else direct m x := by
  unfold direct
  rw [UMap.get_set]
  by_cases h : a = x <;> simp [h]

omit [IterOrder] in
theorem direct_addRole (m : UMap Str (List Str)) (a b x y : Str) (ha : a ∈ m.keys) :
    y ∈ direct (addRole m a b) x ↔ y ∈ direct m x ∨ (x = a ∧ y = b) := by
  obtain ⟨l, hl⟩ := Option.isSome_iff_exists.mp ((UMap.get_isSome_iff m a).mpr ha)
  have hd : direct m a = l := by simp [direct, hl]
  simp only [addRole, hl]
  by_cases hb : b ∈ l
  · rw [if_pos hb]
    constructor
    · exact Or.inl
    · rintro (h | ⟨rfl, rfl⟩)
      · exact h
      · rw [hd]; exact hb
  · rw [if_neg hb, direct_set]
    by_cases hx : a = x
    · subst hx
      simp [hd]
    · simp only [hx, if_false]
      constructor
      · exact Or.inl
      · rintro (h | ⟨h, _⟩)
        · exact h
        · exact absurd h.symm hx

omit [IterOrder] in
theorem keys_addRole (m : UMap Str (List Str)) (a b : Str) : (addRole m a b).keys = m.keys := by
  unfold addRole
  cases h : m.get a with
  | none => rfl
  | some l =>
    simp only
    split
    · rfl
    · rw [UMap.keys_set, if_pos (UMap.mem_keys_of_get h)]

omit [IterOrder] in
theorem keys_delRole (m : UMap Str (List Str)) (a b : Str) : (delRole m a b).keys = m.keys := by
  unfold delRole
  cases h : m.get a with
  | none => rfl
  | some l => simp only; rw [UMap.keys_set, if_pos (UMap.mem_keys_of_get h)]

omit [IterOrder] in
theorem eraseLoop_eq_erase (b : Str) (l : List Str) (hn : l.Nodup) :
    eraseLoop b l = l.erase b := by
  induction l with
  | nil => simp [eraseLoop]
  | cons x xs ih =>
    rw [List.nodup_cons] at hn
    unfold eraseLoop
    by_cases hx : x = b
    · subst hx
      simp only [if_true, List.erase_cons_head]
      have hx := hn.1
      cases xs with
      | nil => rfl
      | cons y ys =>
        simp only
        have : ∀ (l : List Str), x ∉ l → eraseLoop x l = l := by
          intro l
          induction l with
          | nil => intro _; simp [eraseLoop]
          | cons z zs ih2 =>
            intro h
            simp only [List.mem_cons, not_or] at h
            unfold eraseLoop
            rw [if_neg (fun e => h.1 e.symm), ih2 h.2]
        rw [this ys (fun h => hx (List.mem_cons_of_mem _ h))]
    · rw [if_neg hx, ih hn.2, List.erase_cons_tail]
      simpa using hx

omit [IterOrder] in
theorem direct_delRole (m : UMap Str (List Str)) (a b x y : Str)
    (hn : ∀ a, (direct m a).Nodup) :
    y ∈ direct (delRole m a b) x ↔ y ∈ direct m x ∧ ¬ (x = a ∧ y = b) := by
  unfold delRole
  cases h : m.get a with
  | none =>
    simp only
    constructor
    · intro hy
      refine ⟨hy, ?_⟩
      rintro ⟨rfl, _⟩
      simp [direct, h] at hy
    · exact And.left
  | some l =>
    have hd : direct m a = l := by simp [direct, h]
    have hl : l.Nodup := hd ▸ hn a
    simp only
    rw [direct_set]
    by_cases hx : a = x
    · subst hx
      simp only [if_true, eraseLoop_eq_erase b l hl, hl.mem_erase_iff, hd, true_and]
      tauto
    · simp only [hx, if_false]
      constructor
      · intro hy; exact ⟨hy, fun h => hx h.1.symm⟩
      · exact And.left

theorem createRole_pattern (rm : RM) (n : Str) : (rm.createRole n).pattern = rm.pattern := by
  unfold createRole; cases h : rm.pattern <;> simp

theorem createRole_maxLevel (rm : RM) (n : Str) : (rm.createRole n).maxLevel = rm.maxLevel := by
  unfold createRole; cases h : rm.pattern <;> simp

theorem createRole_none (rm : RM) (n : Str) (hp : rm.pattern = none) :
    rm.createRole n = { rm with roles := if rm.roles.has n then rm.roles else rm.roles.set n [] } := by
  unfold createRole; simp [hp]

theorem createRole_known (rm : RM) (n : Str) (hp : rm.pattern = none) (h : n ∈ rm.roles.keys) :
    rm.createRole n = rm := by
  rw [createRole_none rm n hp, if_pos ((UMap.has_iff _ _).mpr h)]

theorem mem_keys_createRole (rm : RM) (n x : Str) (hp : rm.pattern = none) :
    x ∈ (rm.createRole n).roles.keys ↔ x = n ∨ x ∈ rm.roles.keys := by
  rw [createRole_none rm n hp]
  simp only
  split
  · rename_i h
    have := (UMap.has_iff _ _).mp h
    constructor
    · exact Or.inr
    · rintro (rfl | h)
      · exact this
      · exact h
  · exact UMap.mem_keys_set _ _ _ _

theorem direct_createRole (rm : RM) (n x : Str) (hp : rm.pattern = none) :
    direct (rm.createRole n).roles x = direct rm.roles x := by
  rw [createRole_none rm n hp]
  simp only
  split
  · rfl
  · rename_i h
    rw [direct_set]
    split
    · rename_i hx
      subst hx
      have : rm.roles.get n = none := by
        rw [UMap.get_eq_none_iff]
        intro hk; exact h ((UMap.has_iff _ _).mpr hk)
      simp [direct, this]
    · rfl

theorem WF_createRole {rm : RM} (h : rm.WF) (n : Str) (hp : rm.pattern = none) :
    (rm.createRole n).WF := by
  refine ⟨?_, ?_, ?_⟩
  · rw [createRole_none rm n hp]
    simp only
    split
    · exact h.nodup
    · exact UMap.nodup_keys_set h.nodup _ _
  · intro a b hb
    rw [direct_createRole rm n a hp] at hb
    rw [mem_keys_createRole rm n b hp]
    exact Or.inr (h.closed a b hb)
  · intro a
    rw [direct_createRole rm n a hp]
    exact h.edgesNodup a

omit [IterOrder] in
theorem nodup_addRole {m : UMap Str (List Str)} (a b : Str) (hn : ∀ a, (direct m a).Nodup) :
    ∀ x, (direct (addRole m a b) x).Nodup := by
  intro x
  unfold addRole
  cases h : m.get a with
  | none => exact hn x
  | some l =>
    simp only
    split
    · exact hn x
    · rename_i hb
      rw [direct_set]
      split
      · have : l.Nodup := by have := hn a; simpa [direct, h] using this
        rw [List.nodup_append]
        refine ⟨this, by simp, ?_⟩
        intro y hy z hz
        simp at hz; subst hz
        rintro rfl; exact hb hy
      · exact hn x

/-- The state after `AddLink` on qualified names. -/
def addQ (rm : RM) (n1 n2 : Str) : RM :=
  let rm2 := (rm.createRole n1).createRole n2
  { rm2 with roles := addRole rm2.roles n1 n2 }

/-- The state after a successful `DeleteLink` on qualified names. -/
def delQ (rm : RM) (n1 n2 : Str) : RM :=
  let rm2 := (rm.createRole n1).createRole n2
  { rm2 with roles := delRole rm2.roles n1 n2 }

theorem addLink_run (rm : RM) (a b n1 n2 : Str) (d : List Str)
    (h1 : qualify d a = .ok n1) (h2 : qualify d b = .ok n2) :
    addLink a b d rm = (.ok (), addQ rm n1 n2) := by
  simp [addLink, M.bind_run, h1, h2, addQ]

theorem addLink_bad (rm : RM) (a b : Str) (d : List Str) (h : 2 ≤ d.length) :
    addLink a b d rm = (.throw .rbac, rm) := by
  match d, h with
  | _ :: _ :: _, _ => simp [addLink, M.bind_run, qualify]

theorem deleteLink_run (rm : RM) (a b n1 n2 : Str) (d : List Str)
    (h1 : qualify d a = .ok n1) (h2 : qualify d b = .ok n2) :
    deleteLink a b d rm =
      if rm.hasRole n1 = true ∧ rm.hasRole n2 = true then (.ok (), delQ rm n1 n2)
      else (.throw .rbac, rm) := by
  simp only [deleteLink, M.bind_run, h1, h2, M.lift_run, M.get_run]
  cases hr1 : rm.hasRole n1 <;> cases hr2 : rm.hasRole n2 <;> simp [M.bind_run, delQ]

theorem deleteLink_bad (rm : RM) (a b : Str) (d : List Str) (h : 2 ≤ d.length) :
    deleteLink a b d rm = (.throw .rbac, rm) := by
  match d, h with
  | _ :: _ :: _, _ => simp [deleteLink, M.bind_run, qualify]

omit [IterOrder] in
theorem hasRole_none (rm : RM) (n : Str) (hp : rm.pattern = none) :
    rm.hasRole n = true ↔ n ∈ rm.roles.keys := by
  unfold hasRole; rw [hp]; exact UMap.has_iff _ _

theorem addQ_pattern (rm : RM) (a b : Str) : (rm.addQ a b).pattern = rm.pattern := by
  simp [addQ, createRole_pattern]
theorem delQ_pattern (rm : RM) (a b : Str) : (rm.delQ a b).pattern = rm.pattern := by
  simp [delQ, createRole_pattern]
theorem addQ_maxLevel (rm : RM) (a b : Str) : (rm.addQ a b).maxLevel = rm.maxLevel := by
  simp [addQ, createRole_maxLevel]
theorem delQ_maxLevel (rm : RM) (a b : Str) : (rm.delQ a b).maxLevel = rm.maxLevel := by
  simp [delQ, createRole_maxLevel]

theorem edge_addQ (rm : RM) (a b x y : Str) (hp : rm.pattern = none) :
    (rm.addQ a b).Edge x y ↔ rm.Edge x y ∨ (x = a ∧ y = b) := by
  have hp1 : (rm.createRole a).pattern = none := by rw [createRole_pattern, hp]
  unfold Edge addQ
  simp only
  rw [direct_addRole, direct_createRole _ _ _ hp1, direct_createRole _ _ _ hp]
  rw [mem_keys_createRole _ _ _ hp1, mem_keys_createRole _ _ _ hp]
  simp

theorem keys_addQ (rm : RM) (a b x : Str) (hp : rm.pattern = none) :
    x ∈ (rm.addQ a b).roles.keys ↔ x = a ∨ x = b ∨ x ∈ rm.roles.keys := by
  have hp1 : (rm.createRole a).pattern = none := by rw [createRole_pattern, hp]
  unfold addQ
  simp only
  rw [keys_addRole, mem_keys_createRole _ _ _ hp1, mem_keys_createRole _ _ _ hp]
  tauto

theorem WF_addQ {rm : RM} (h : rm.WF) (a b : Str) (hp : rm.pattern = none) : (rm.addQ a b).WF := by
  have hp1 : (rm.createRole a).pattern = none := by rw [createRole_pattern, hp]
  have h2 := WF_createRole (WF_createRole h a hp) b hp1
  refine ⟨?_, ?_, ?_⟩
  · unfold addQ; simp only [keys_addRole]; exact h2.nodup
  · intro x y hy
    have hy' : (rm.addQ a b).Edge x y := hy
    rw [edge_addQ _ _ _ _ _ hp] at hy'
    rw [keys_addQ _ _ _ _ hp]
    rcases hy' with h' | ⟨_, rfl⟩
    · exact Or.inr (Or.inr (h.closed x y h'))
    · simp
  · intro x
    unfold addQ; simp only
    exact nodup_addRole a b h2.edgesNodup x

theorem edge_delQ {rm : RM} (h : rm.WF) (a b x y : Str) (hp : rm.pattern = none) :
    (rm.delQ a b).Edge x y ↔ rm.Edge x y ∧ ¬ (x = a ∧ y = b) := by
  have hp1 : (rm.createRole a).pattern = none := by rw [createRole_pattern, hp]
  have h2 := WF_createRole (WF_createRole h a hp) b hp1
  unfold Edge delQ
  simp only
  rw [direct_delRole _ _ _ _ _ h2.edgesNodup, direct_createRole _ _ _ hp1,
    direct_createRole _ _ _ hp]

theorem WF_delQ {rm : RM} (h : rm.WF) (a b : Str) (hp : rm.pattern = none) : (rm.delQ a b).WF := by
  have hp1 : (rm.createRole a).pattern = none := by rw [createRole_pattern, hp]
  have h2 := WF_createRole (WF_createRole h a hp) b hp1
  have hk : ∀ x, x ∈ (rm.delQ a b).roles.keys ↔ x = a ∨ x = b ∨ x ∈ rm.roles.keys := by
    intro x
    unfold delQ
    simp only
    rw [keys_delRole, mem_keys_createRole _ _ _ hp1, mem_keys_createRole _ _ _ hp]
    tauto
  refine ⟨?_, ?_, ?_⟩
  · unfold delQ; simp only [keys_delRole]; exact h2.nodup
  · intro x y hy
    have hy' : (rm.delQ a b).Edge x y := hy
    rw [edge_delQ h _ _ _ _ hp] at hy'
    rw [hk]
    exact Or.inr (Or.inr (h.closed x y hy'.1))
  · intro x
    unfold delQ delRole; simp only
    have := h2.edgesNodup
    cases hg : (createRole (createRole rm a) b).roles.get a with
    | none => exact this x
    | some l =>
      simp only
      rw [direct_set]
      split
      · have hl : l.Nodup := by have := this a; simpa [direct, hg] using this
        rw [eraseLoop_eq_erase _ _ hl]
        exact hl.erase _
      · exact this x

omit [IterOrder] in
theorem WF_new (n : Nat) : (RM.new n).WF := by
  refine ⟨by simp [new], ?_, ?_⟩ <;> intro a <;> simp [new, direct]

omit [IterOrder] in
theorem WF_clear (rm : RM) : rm.clear.WF := by
  refine ⟨by simp [clear], ?_, ?_⟩ <;> intro a <;> simp [clear, direct]

/-! ### Reachability -/

/-- There is a path of exactly `n` edges. -/
inductive Path (E : Str → Str → Prop) : Nat → Str → Str → Prop
  | nil (a : Str) : Path E 0 a a
  | cons {a b c : Str} {n : Nat} : E a b → Path E n b c → Path E (n + 1) a c

omit [IterOrder] in
theorem roleHasRole_iff (rm : RM) (name : Str) (level : Nat) (cur : Str) :
    roleHasRole rm.roles name level cur = true ↔ ∃ n ≤ level, Path rm.Edge n cur name := by
  induction level generalizing cur with
  | zero =>
    simp only [roleHasRole, decide_eq_true_eq]
    constructor
    · rintro rfl; exact ⟨0, Nat.le_refl _, .nil _⟩
    · rintro ⟨n, hn, hp⟩
      have : n = 0 := by omega
      subst this
      cases hp; rfl
  | succ level ih =>
    simp only [roleHasRole, Bool.or_eq_true, decide_eq_true_eq, List.any_eq_true]
    constructor
    · rintro (rfl | ⟨r, hr, hrr⟩)
      · exact ⟨0, Nat.zero_le _, .nil _⟩
      · obtain ⟨n, hn, hp⟩ := (ih r).mp hrr
        exact ⟨n + 1, by omega, .cons hr hp⟩
    · rintro ⟨n, hn, hp⟩
      cases hp with
      | nil => exact Or.inl rfl
      | cons he hp' =>
        rename_i b m
        exact Or.inr ⟨b, he, (ih b).mpr ⟨m, by omega, hp'⟩⟩

omit [IterOrder] in
theorem path_mem_keys {rm : RM} (h : rm.WF) {n : Nat} {a b : Str} (hp : Path rm.Edge n a b)
    (hne : a ≠ b) : a ∈ rm.roles.keys ∧ b ∈ rm.roles.keys := by
  have hlast : ∀ {n a b}, Path rm.Edge n a b → a ≠ b → b ∈ rm.roles.keys := by
    intro n a b hp
    induction hp with
    | nil => intro h; exact absurd rfl h
    | cons he hp ih =>
      rename_i a b c n
      intro _
      by_cases hbc : b = c
      · subst hbc; exact h.closed _ _ he
      · exact ih hbc
  refine ⟨?_, hlast hp hne⟩
  cases hp with
  | nil => exact absurd rfl hne
  | cons he _ =>
    unfold Edge direct at he
    cases hg : rm.roles.get a with
    | none => rw [hg] at he; simp at he
    | some l => exact UMap.mem_keys_of_get hg

/-- `HasLink` on qualified names: the answer and the (unchanged) state. -/
theorem hasLink_run {rm : RM} (h : rm.WF) (hp : rm.pattern = none) (a b n1 n2 : Str)
    (d : List Str) (h1 : qualify d a = .ok n1) (h2 : qualify d b = .ok n2) :
    ∃ r, hasLink a b d rm = (.ok r, rm) ∧
      (r = true ↔ ∃ n ≤ rm.maxLevel, Path rm.Edge n n1 n2) := by
  simp only [hasLink, M.bind_run, h1, h2, M.lift_run]
  by_cases he : n1 = n2
  · subst he
    simp only [if_true, M.pure_run]
    exact ⟨true, rfl, by simp only [true_iff]; exact ⟨0, Nat.zero_le _, .nil _⟩⟩
  · simp only [he, if_false, M.bind_run, M.get_run]
    by_cases hk : n1 ∈ rm.roles.keys ∧ n2 ∈ rm.roles.keys
    · have e1 := (hasRole_none rm n1 hp).mpr hk.1
      have e2 := (hasRole_none rm n2 hp).mpr hk.2
      simp only [e1, e2, Bool.not_true, Bool.or_self, Bool.false_eq_true, if_false, M.bind_run,
        M.modify_run, createRole_known rm n1 hp hk.1, M.get_run, M.pure_run]
      exact ⟨_, rfl, roleHasRole_iff rm n2 rm.maxLevel n1⟩
    · have : (!rm.hasRole n1 || !rm.hasRole n2) = true := by
        rw [← hasRole_none rm n1 hp, ← hasRole_none rm n2 hp] at hk
        cases h1' : rm.hasRole n1 <;> cases h2' : rm.hasRole n2 <;> simp_all
      simp only [this, if_true, M.pure_run]
      refine ⟨false, rfl, ?_⟩
      simp only [Bool.false_eq_true, false_iff]
      rintro ⟨n, _, hpath⟩
      exact hk (path_mem_keys h hpath he)

omit [IterOrder] in
theorem Path.congr {E E' : Str → Str → Prop} (h : ∀ a b, E a b ↔ E' a b) {n : Nat} {a b : Str}
    (hp : Path E n a b) : Path E' n a b := by
  induction hp with
  | nil => exact .nil _
  | cons he _ ih => exact .cons ((h _ _).mp he) ih

end RM
end Casbin
