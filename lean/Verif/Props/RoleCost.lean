import Verif.RoleCostLemmas
import Verif.Props.Roles

/-!
# C142: how often a search for a role looks at a role

A walk is given by the roles after its first one (`Walk`); the links are those the history of
calls stands for (`LinkSet` of `Props/Roles`). The number of calls of `Role::HasRole` is compared
with the number of walks and with the number of names, neither of which mentions the search.
-/

namespace Casbin
namespace RoleProps

open RM (Path qualify hasLink hasLinkCalls walks direct)

/-- `w` lists the roles after `a` on a walk along links. -/
def Walk (E : Str → Str → Prop) : Str → List Str → Prop
  | _, [] => True
  | a, b :: w => E a b ∧ Walk E b w

/-- The role a walk from `a` ends at. -/
def endOf : Str → List Str → Str
  | a, [] => a
  | _, b :: w => endOf b w

theorem mem_walks (rm : RM) (level : Nat) (cur : Str) (w : List Str) :
    w ∈ walks rm.roles level cur ↔ w.length ≤ level ∧ Walk rm.Edge cur w := by
  induction level generalizing cur w with
  | zero => cases w <;> simp [walks, Walk]
  | succ level ih =>
    cases w with
    | nil => simp [walks, Walk]
    | cons b w =>
      simp only [walks, List.mem_cons, reduceCtorEq, false_or, List.mem_flatMap, List.mem_map,
        List.cons.injEq, Walk, List.length_cons, Nat.add_le_add_iff_right]
      constructor
      · rintro ⟨r, hr, u, hu, rfl, rfl⟩
        have := (ih r u).mp hu
        exact ⟨this.1, hr, this.2⟩
      · rintro ⟨h1, h2, h3⟩
        exact ⟨b, h2, w, (ih b w).mpr ⟨h1, h3⟩, rfl, rfl⟩

theorem Walk.congr {E E' : Str → Str → Prop} (h : ∀ x y, E x y ↔ E' x y) (a : Str)
    (w : List Str) : Walk E a w ↔ Walk E' a w := by
  induction w generalizing a with
  | nil => simp [Walk]
  | cons b w ih => simp [Walk, h, ih]

theorem good_runCalls_nodup [IterOrder] (lvl : Nat) (cs : List Call) (a : Str) :
    (direct (runCalls (RM.new lvl) cs).roles a).Nodup :=
  (good_runCalls lvl cs).wf.edgesNodup a

theorem hasLinkCalls_run [IterOrder] {rm : RM} (hp : rm.pattern = none) (a b n1 n2 : Str)
    (d : List Str) (h1 : qualify d a = .ok n1) (h2 : qualify d b = .ok n2) :
    hasLinkCalls a b d rm = (.ok (if n1 = n2 then (true, 0)
      else if n1 ∈ rm.roles.keys ∧ n2 ∈ rm.roles.keys then
        RM.roleHasRoleCalls rm.roles n2 rm.maxLevel n1
      else (false, 0)), rm) := by
  simp only [hasLinkCalls, M.bind_run, h1, h2, M.lift_run]
  by_cases he : n1 = n2
  · simp [he, M.pure_run]
  · simp only [he, if_false, M.bind_run, M.get_run]
    by_cases hk : n1 ∈ rm.roles.keys ∧ n2 ∈ rm.roles.keys
    · have e1 := (RM.hasRole_none rm n1 hp).mpr hk.1
      have e2 := (RM.hasRole_none rm n2 hp).mpr hk.2
      simp only [e1, e2, Bool.not_true, Bool.or_self, Bool.false_eq_true, if_false, M.bind_run,
        M.modify_run, RM.createRole_known rm n1 hp hk.1, M.get_run, M.pure_run, hk, and_self,
        if_true]
    · have : (!rm.hasRole n1 || !rm.hasRole n2) = true := by
        have hk' := hk
        rw [← RM.hasRole_none rm n1 hp, ← RM.hasRole_none rm n2 hp] at hk'
        cases h1' : rm.hasRole n1 <;> cases h2' : rm.hasRole n2 <;> simp_all
      simp only [this, if_true, M.pure_run, hk, if_false]

/-- **C142 (counting).** Counting the calls does not change what `HasLink` does: for every state
and arguments the answer or exception and the state left are those of `HasLink`. -/
theorem C142_same [IterOrder] (rm : RM) (a b : Str) (d : List Str) :
    hasLink a b d rm = (Prod.fst <$> (hasLinkCalls a b d rm).1, (hasLinkCalls a b d rm).2) := by
  rcases qualify_cases d with ⟨q, hq⟩ | ⟨_, hq⟩
  · simp only [hasLink, hasLinkCalls, M.bind_run, hq, M.lift_run]
    split
    · rfl
    · simp only [M.bind_run, M.get_run]
      split
      · rfl
      · simp only [M.bind_run, M.modify_run, M.get_run, M.pure_run, ← RM.roleHasRoleCalls_fst]
        rfl
  · simp only [hasLink, hasLinkCalls, M.bind_run, hq, M.lift_run]
    rfl

/-- **C142 (partial: one call for each walk).** After any history, a search makes at most one call
of `Role::HasRole` for each walk of at most `lvl` links from the first name, and when it answers
no for two different names that exist it makes exactly that many. No call is made when a name does
not exist. The property as stated asks for at most one call for each role. -/
theorem C142_walks_partial [IterOrder] (lvl : Nat) (cs : List Call) (a b n1 n2 : Str)
    (d : List Str) (h1 : qualify d a = .ok n1) (h2 : qualify d b = .ok n2) :
    ∃ ws : List (List Str), ws.Nodup ∧
      (∀ w, w ∈ ws ↔ w.length ≤ lvl ∧ Walk (LinkSet cs.reverse) n1 w) ∧
      ∃ r k, (hasLinkCalls a b d (runCalls (RM.new lvl) cs)).1 = .ok (r, k) ∧ k ≤ ws.length ∧
        (r = false → Known cs.reverse n1 → Known cs.reverse n2 → k = ws.length) ∧
        (¬ (Known cs.reverse n1 ∧ Known cs.reverse n2) → k = 0) := by
  have hg := good_runCalls lvl cs
  refine ⟨walks (runCalls (RM.new lvl) cs).roles lvl n1,
    RM.nodup_walks _ (good_runCalls_nodup lvl cs) _ _, ?_, ?_⟩
  · intro w
    rw [mem_walks, Walk.congr hg.edges]
  · rw [hasLinkCalls_run hg.nopat a b n1 n2 d h1 h2]
    simp only [hg.level]
    split
    · exact ⟨true, 0, rfl, Nat.zero_le _, by simp, fun _ => rfl⟩
    · split
      · rename_i hk
        refine ⟨_, _, rfl, RM.calls_le _ _ _ _, ?_, fun h => absurd (by simpa only [known_iff] using hk) h⟩
        intro hr _ _
        exact RM.calls_eq _ _ _ _ (by rw [← RM.roleHasRoleCalls_fst]; exact hr)
      · rename_i hk
        exact ⟨false, 0, rfl, Nat.zero_le _, fun _ x y => absurd (by simpa only [known_iff] using ⟨x, y⟩) hk,
          fun _ => rfl⟩

theorem known_of_link [IterOrder] (lvl : Nat) (cs : List Call) {x y : Str}
    (h : LinkSet cs.reverse x y) : Known cs.reverse y := by
  have hg := good_runCalls lvl cs
  rw [← known_iff lvl]
  exact hg.wf.closed _ _ ((hg.edges x y).mpr h)

theorem known_endOf [IterOrder] (lvl : Nat) (cs : List Call) (w : List Str) (a : Str)
    (ha : Known cs.reverse a) (hw : Walk (LinkSet cs.reverse) a w) :
    Known cs.reverse (endOf a w) := by
  induction w generalizing a with
  | nil => exact ha
  | cons b w ih => exact ih b (known_of_link lvl cs hw.1) hw.2

/-- **C142 (partial: when no role is reached twice).** If no two walks of at most `lvl` links from
the first name end at the same role — a tree of roles, for one — then a search looks at each role
at most once: it makes no more calls of `Role::HasRole` than there are names. -/
theorem C142_once_partial [IterOrder] (lvl : Nat) (cs : List Call) (a b n1 n2 : Str)
    (d : List Str) (h1 : qualify d a = .ok n1) (h2 : qualify d b = .ok n2)
    (huniq : ∀ u v, u.length ≤ lvl → v.length ≤ lvl → Walk (LinkSet cs.reverse) n1 u →
      Walk (LinkSet cs.reverse) n1 v → endOf n1 u = endOf n1 v → u = v)
    (names : List Str) (hnames : ∀ x, Known cs.reverse x → x ∈ names) :
    ∃ r k, (hasLinkCalls a b d (runCalls (RM.new lvl) cs)).1 = .ok (r, k) ∧
      k ≤ names.length := by
  obtain ⟨ws, hnd, hmem, r, k, hr, hle, _, hz⟩ := C142_walks_partial lvl cs a b n1 n2 d h1 h2
  refine ⟨r, k, hr, ?_⟩
  by_cases hk : Known cs.reverse n1 ∧ Known cs.reverse n2
  · have hnd' : (ws.map (endOf n1)).Nodup := by
      refine hnd.map_on ?_
      intro u hu v hv he
      exact huniq u v ((hmem u).mp hu).1 ((hmem v).mp hv).1 ((hmem u).mp hu).2 ((hmem v).mp hv).2 he
    have hsub : ws.map (endOf n1) ⊆ names := by
      intro x hx
      obtain ⟨w, hw, rfl⟩ := List.mem_map.mp hx
      exact hnames _ (known_endOf lvl cs w n1 hk.1 ((hmem w).mp hw).2)
    have := (List.subperm_of_subset hnd' hsub).length_le
    simp only [List.length_map] at this
    omega
  · rw [hz hk]; exact Nat.zero_le _

theorem sum_le (l : List Str) (f : Str → Nat) (c : Nat) (h : ∀ x ∈ l, f x ≤ c) :
    (l.map f).sum ≤ l.length * c := by
  induction l with
  | nil => simp
  | cons x l ih =>
    have h1 := h x (by simp)
    have h2 := ih (fun y hy => h y (by simp [hy]))
    simp only [List.map_cons, List.sum_cons, List.length_cons, Nat.add_mul, Nat.one_mul]
    omega

theorem sum_pow_succ (D : Nat) (l : List Nat) :
    (l.map ((D ^ ·) ∘ Nat.succ)).sum = D * (l.map (D ^ ·)).sum := by
  induction l with
  | nil => simp
  | cons x l ih =>
    simp only [List.map_cons, List.sum_cons, ih, Function.comp_apply, Nat.mul_add, Nat.pow_succ,
      Nat.succ_eq_add_one]
    rw [Nat.mul_comm D (D ^ x)]

theorem length_walks_le (m : UMap Str (List Str)) (D : Nat) (hD : ∀ x, (direct m x).length ≤ D)
    (level : Nat) (cur : Str) :
    (walks m level cur).length ≤ ((List.range (level + 1)).map (D ^ ·)).sum := by
  induction level generalizing cur with
  | zero => simp [walks]
  | succ level ih =>
    rw [RM.length_walks_succ, List.range_succ_eq_map, List.map_cons, List.sum_cons, List.map_map]
    rw [sum_pow_succ, Nat.pow_zero]
    have := sum_le (direct m cur) (fun r => (walks m level r).length)
      (((List.range (level + 1)).map (D ^ ·)).sum) (fun r _ => ih r)
    have h2 := Nat.mul_le_mul_right (((List.range (level + 1)).map (D ^ ·)).sum) (hD cur)
    omega

/-- **C142 (partial: a bound for all).** Whatever the history, if no role inherits directly from
more than `D` others, a search makes at most `1 + D + D² + … + D^lvl` calls of `Role::HasRole`. -/
theorem C142_bound_partial [IterOrder] (lvl D : Nat) (cs : List Call) (a b n1 n2 : Str)
    (d : List Str) (h1 : qualify d a = .ok n1) (h2 : qualify d b = .ok n2)
    (hD : ∀ x (l : List Str), l.Nodup → (∀ y ∈ l, LinkSet cs.reverse x y) → l.length ≤ D) :
    ∃ r k, (hasLinkCalls a b d (runCalls (RM.new lvl) cs)).1 = .ok (r, k) ∧
      k ≤ ((List.range (lvl + 1)).map (D ^ ·)).sum := by
  obtain ⟨ws, hnd, hmem, r, k, hr, hle, _, _⟩ := C142_walks_partial lvl cs a b n1 n2 d h1 h2
  have hg := good_runCalls lvl cs
  refine ⟨r, k, hr, Nat.le_trans hle (Nat.le_trans ?_ (length_walks_le
    (runCalls (RM.new lvl) cs).roles D ?_ lvl n1))⟩
  · refine (List.subperm_of_subset hnd ?_).length_le
    intro w hw
    rw [mem_walks, Walk.congr hg.edges]
    exact (hmem w).mp hw
  · intro x
    exact hD x _ (hg.wf.edgesNodup x) (fun y hy => (hg.edges x y).mp hy)

/-! ### The ladder: few roles, many walks -/

/-- A name for place `j` of layer `i`. -/
def rung (i j : Nat) : Str := List.replicate i 'a' ++ 'b' :: List.replicate j 'c'

theorem rung_inj {i j i' j' : Nat} (h : rung i j = rung i' j') : i = i' ∧ j = j' := by
  have hc := congrArg (List.count 'a') h
  have hd := congrArg (List.count 'c') h
  simp [rung, List.count_append, List.count_replicate] at hc hd
  exact ⟨hc, hd⟩

/-- The names of a layer. -/
def layer (w i : Nat) : List Str := (List.range w).map (rung i)

/-- The links of the ladder: the user `s` has every role of the first layer, every role of a
layer has every role of the next, and another user `t` has `s`. -/
def ladder (L w : Nat) : List (Str × Str) :=
  [(c!"t", c!"s")] ++ (if L = 0 then [] else (layer w 0).map (fun y => (c!"s", y))) ++
    (List.range (L - 1)).flatMap (fun i => (layer w i).flatMap (fun x =>
      (layer w (i + 1)).map (fun y => (x, y))))

/-- The names of the ladder. -/
def ladderNames (L w : Nat) : List Str :=
  c!"s" :: c!"t" :: (List.range L).flatMap (layer w)

/-- The calls that make the ladder. -/
def ladderCalls (L w : Nat) : List Call := (ladder L w).map (fun e => .add e.1 e.2 [])

theorem linkSet_adds (es : List (Str × Str)) (x y : Str) :
    LinkSet (es.map (fun e => Call.add e.1 e.2 [])) x y ↔ (x, y) ∈ es := by
  induction es with
  | nil => simp [LinkSet]
  | cons e es ih =>
    obtain ⟨p, q⟩ := e
    simp only [List.map_cons, LinkSet, qualify, Outcome.ok.injEq, ih, List.mem_cons,
      Prod.mk.injEq]
    rw [@eq_comm _ x, @eq_comm _ y]

theorem known_adds (es : List (Str × Str)) (x : Str) :
    Known (es.map (fun e => Call.add e.1 e.2 [])) x ↔ ∃ e ∈ es, x = e.1 ∨ x = e.2 := by
  induction es with
  | nil => simp [Known]
  | cons e es ih =>
    simp only [List.map_cons, Known, qualify, Outcome.ok.injEq, ih, List.mem_cons,
      exists_eq_or_imp]
    rw [@eq_comm _ x e.1, @eq_comm _ x e.2, or_assoc]

theorem mem_ladder (L w : Nat) (x y : Str) : (x, y) ∈ ladder L w ↔
    (x = c!"t" ∧ y = c!"s") ∨ (0 < L ∧ x = c!"s" ∧ ∃ j < w, y = rung 0 j) ∨
    ∃ i j j', i + 1 < L ∧ j < w ∧ j' < w ∧ x = rung i j ∧ y = rung (i + 1) j' := by
  simp only [ladder, layer, List.mem_append, List.mem_singleton, Prod.mk.injEq, or_assoc]
  refine or_congr Iff.rfl (or_congr ?_ ?_)
  · split
    · rename_i h; simp [h]
    · rename_i h
      simp only [List.mem_map, List.mem_range, Prod.mk.injEq]
      constructor
      · rintro ⟨_, ⟨j, hj, rfl⟩, rfl, rfl⟩; exact ⟨by omega, rfl, j, hj, rfl⟩
      · rintro ⟨_, rfl, j, hj, rfl⟩; exact ⟨_, ⟨j, hj, rfl⟩, rfl, rfl⟩
  · simp only [List.mem_flatMap, List.mem_map, List.mem_range, Prod.mk.injEq]
    constructor
    · rintro ⟨i, hi, _, ⟨j, hj, rfl⟩, _, ⟨j', hj', rfl⟩, rfl, rfl⟩
      exact ⟨i, j, j', by omega, hj, hj', rfl, rfl⟩
    · rintro ⟨i, j, j', hi, hj, hj', rfl, rfl⟩
      exact ⟨i, by omega, _, ⟨j, hj, rfl⟩, _, ⟨j', hj', rfl⟩, rfl, rfl⟩

theorem length_ladderNames (L w : Nat) : (ladderNames L w).length = L * w + 2 := by
  simp [ladderNames, layer, List.length_flatMap]

theorem mem_ladderNames (L w : Nat) (x : Str) : x ∈ ladderNames L w ↔
    x = c!"s" ∨ x = c!"t" ∨ ∃ i j, i < L ∧ j < w ∧ x = rung i j := by
  simp only [ladderNames, List.mem_cons, List.mem_flatMap, layer, List.mem_map, List.mem_range]
  refine or_congr Iff.rfl (or_congr Iff.rfl ?_)
  constructor
  · rintro ⟨i, hi, j, hj, rfl⟩; exact ⟨i, j, hi, hj, rfl⟩
  · rintro ⟨i, j, hi, hj, rfl⟩; exact ⟨i, hi, j, hj, rfl⟩

theorem sum_ge (l l' : List Str) (f : Str → Nat) (c : Nat) (hn : l.Nodup) (hs : l ⊆ l')
    (h : ∀ x ∈ l, c ≤ f x) : l.length * c ≤ (l'.map f).sum := by
  have h1 : ∀ l : List Str, (∀ x ∈ l, c ≤ f x) → l.length * c ≤ (l.map f).sum := by
    intro l
    induction l with
    | nil => simp
    | cons x l ih =>
      intro h
      have h1 := h x (by simp)
      have h2 := ih (fun y hy => h y (by simp [hy]))
      simp only [List.map_cons, List.sum_cons, List.length_cons, Nat.add_mul, Nat.one_mul]
      omega
  have h3 : ∀ {l l' : List Str}, l.Sublist l' → (l.map f).sum ≤ (l'.map f).sum := by
    intro l l' hs
    induction hs with
    | slnil => simp
    | cons a _ ih => simp only [List.map_cons, List.sum_cons]; omega
    | cons_cons a _ ih => simp only [List.map_cons, List.sum_cons]; omega
  obtain ⟨l'', hp, hsub⟩ := List.subperm_of_subset hn hs
  have h2 : (l''.map f).sum = (l.map f).sum := (hp.map f).sum_nat
  have := h3 hsub
  have := h1 l h
  omega

theorem nodup_layer (w i : Nat) : (layer w i).Nodup :=
  List.nodup_range.map (fun _ _ h => (rung_inj h).2)

theorem ladder_walks [IterOrder] (L w lvl : Nat) :
    ∀ n i j level, i + n + 1 = L → j < w → n ≤ level →
    w ^ n ≤ (walks (runCalls (RM.new lvl) (ladderCalls L w)).roles level (rung i j)).length := by
  have hg := good_runCalls lvl (ladderCalls L w)
  have he : ∀ x y, y ∈ direct (runCalls (RM.new lvl) (ladderCalls L w)).roles x ↔
      (x, y) ∈ ladder L w := by
    intro x y
    have := hg.edges x y
    rw [ladderCalls, ← List.map_reverse, linkSet_adds, List.mem_reverse] at this
    exact this
  intro n
  induction n with
  | zero =>
    intro i j level _ _ _
    cases level <;> simp [walks]
  | succ n ih =>
    intro i j level hi hj hl
    obtain ⟨level, rfl⟩ : ∃ k, level = k + 1 := ⟨level - 1, by omega⟩
    rw [RM.length_walks_succ]
    have := sum_ge (layer w (i + 1))
      (direct (runCalls (RM.new lvl) (ladderCalls L w)).roles (rung i j))
      (fun r => (walks (runCalls (RM.new lvl) (ladderCalls L w)).roles level r).length) (w ^ n)
      (nodup_layer w (i + 1)) (by
        intro y hy
        obtain ⟨j', hj', rfl⟩ := List.mem_map.mp hy
        rw [he, mem_ladder]
        exact Or.inr (Or.inr ⟨i, j, j', by omega, hj, List.mem_range.mp hj', rfl, rfl⟩)) (by
        intro y hy
        obtain ⟨j', hj', rfl⟩ := List.mem_map.mp hy
        exact ih (i + 1) j' level (by omega) (List.mem_range.mp hj') (by omega))
    simp only [layer, List.length_map, List.length_range] at this
    rw [Nat.pow_succ, Nat.mul_comm]
    omega

theorem ladder_direct (L w : Nat) (x y : Str) :
    LinkSet (ladderCalls L w).reverse x y ↔ (x, y) ∈ ladder L w := by
  rw [ladderCalls, ← List.map_reverse, linkSet_adds, List.mem_reverse]

/-- **C142 fails.** For every number of layers `L` and width `w` there is a history of `AddLink`
calls over `L·w + 2` names after which one `HasLink` between two of those names, with a hierarchy
bound of `L` or more, answers no after at least `w ^ L` calls of `Role::HasRole`: 2 to the power of
`L` for `2·L + 2` names, and with the default bound of 10 the tenth power of a tenth of the number
of roles. -/
theorem C142_fails [IterOrder] (L w lvl : Nat) (hL : L ≤ lvl) :
    ∃ (cs : List Call) (names : List Str) (a b : Str) (k : Nat),
      (∀ x, Known cs.reverse x → x ∈ names) ∧ names.length = L * w + 2 ∧
      Known cs.reverse a ∧ Known cs.reverse b ∧
      (hasLinkCalls a b [] (runCalls (RM.new lvl) cs)).1 = .ok (false, k) ∧ w ^ L ≤ k := by
  have hknown : ∀ x, Known (ladderCalls L w).reverse x ↔ ∃ e ∈ ladder L w, x = e.1 ∨ x = e.2 := by
    intro x
    rw [ladderCalls, ← List.map_reverse, known_adds]
    simp
  have hts : (c!"t", c!"s") ∈ ladder L w := (mem_ladder L w _ _).mpr (Or.inl ⟨rfl, rfl⟩)
  have hks : Known (ladderCalls L w).reverse c!"s" := (hknown _).mpr ⟨_, hts, Or.inr rfl⟩
  have hkt : Known (ladderCalls L w).reverse c!"t" := (hknown _).mpr ⟨_, hts, Or.inl rfl⟩
  have hne : (c!"s" : Str) ≠ c!"t" := by decide
  have hg := good_runCalls lvl (ladderCalls L w)
  have hno : RM.roleHasRole (runCalls (RM.new lvl) (ladderCalls L w)).roles c!"t" lvl c!"s" =
      false := by
    rw [← Bool.not_eq_true, RM.roleHasRole_iff]
    rintro ⟨n, _, hp⟩
    have hlast : ∀ {n a b}, Path (runCalls (RM.new lvl) (ladderCalls L w)).Edge n a b → a ≠ b →
        b ≠ c!"t" := by
      intro n a b hp
      induction hp with
      | nil => intro h; exact absurd rfl h
      | cons he hp ih =>
        rename_i a b c n
        intro _
        by_cases hbc : b = c
        · subst hbc
          rw [hg.edges, ladder_direct L w, mem_ladder] at he
          rcases he with ⟨_, rfl⟩ | ⟨_, _, j, _, rfl⟩ | ⟨i, j, j', _, _, _, _, rfl⟩
          · exact hne
          · intro h
            have := congrArg (List.count 'b') h
            simp [rung] at this
          · intro h
            have := congrArg (List.count 'b') h
            simp [rung, List.count_append, List.count_replicate] at this
        · exact ih hbc
    exact hlast hp hne rfl
  refine ⟨ladderCalls L w, ladderNames L w, c!"s", c!"t",
    (walks (runCalls (RM.new lvl) (ladderCalls L w)).roles lvl c!"s").length, ?_,
    length_ladderNames L w, hks, hkt, ?_, ?_⟩
  · intro x hx
    obtain ⟨⟨p, q⟩, he, hx⟩ := (hknown x).mp hx
    rw [mem_ladderNames]
    rcases (mem_ladder L w p q).mp he with ⟨rfl, rfl⟩ | ⟨h0, rfl, j, hj, rfl⟩ |
      ⟨i, j, j', hi, hj, hj', rfl, rfl⟩
    · rcases hx with rfl | rfl <;> simp
    · rcases hx with rfl | rfl
      · simp
      · exact Or.inr (Or.inr ⟨0, j, h0, hj, rfl⟩)
    · rcases hx with rfl | rfl
      · exact Or.inr (Or.inr ⟨i, j, by omega, hj, rfl⟩)
      · exact Or.inr (Or.inr ⟨i + 1, j', hi, hj', rfl⟩)
  · rw [hasLinkCalls_run hg.nopat c!"s" c!"t" _ _ [] rfl rfl]
    have hm : c!"s" ∈ (runCalls (RM.new lvl) (ladderCalls L w)).roles.keys ∧
        c!"t" ∈ (runCalls (RM.new lvl) (ladderCalls L w)).roles.keys := by
      rw [known_iff, known_iff]; exact ⟨hks, hkt⟩
    rw [if_neg hne, if_pos hm, hg.level]
    exact congrArg Outcome.ok (Prod.ext (by rw [RM.roleHasRoleCalls_fst, hno])
      (RM.calls_eq _ _ _ _ hno))
  · rcases Nat.eq_zero_or_pos L with rfl | h0
    · cases lvl <;> simp [walks]
    · obtain ⟨level, rfl⟩ : ∃ k, lvl = k + 1 := ⟨lvl - 1, by omega⟩
      rw [RM.length_walks_succ]
      have := sum_ge (layer w 0)
        (direct (runCalls (RM.new (level + 1)) (ladderCalls L w)).roles c!"s")
        (fun r => (walks (runCalls (RM.new (level + 1)) (ladderCalls L w)).roles level r).length)
        (w ^ (L - 1)) (nodup_layer w 0) (by
          intro y hy
          obtain ⟨j, hj, rfl⟩ := List.mem_map.mp hy
          have := (hg.edges c!"s" (rung 0 j)).mpr (by
            rw [ladder_direct L w, mem_ladder]
            exact Or.inr (Or.inl ⟨h0, rfl, j, List.mem_range.mp hj, rfl⟩))
          exact this) (by
          intro y hy
          obtain ⟨j, hj, rfl⟩ := List.mem_map.mp hy
          exact ladder_walks L w (level + 1) (L - 1) 0 j level (by omega) (List.mem_range.mp hj)
            (by omega))
      simp only [layer, List.length_map, List.length_range] at this
      have hpow : w ^ L = w * w ^ (L - 1) := by
        conv_lhs => rw [show L = L - 1 + 1 by omega, Nat.pow_succ, Nat.mul_comm]
      omega

/-- The hypotheses of `C142_once_partial` and `C142_bound_partial` are met by alice with one role
and bob with another: no call looks at a role twice, and no role inherits from more than one. -/
example [IterOrder] : ∃ r k, (hasLinkCalls c!"alice" c!"bob" [] (runCalls (RM.new 10)
      [.add c!"alice" c!"reader" [], .add c!"bob" c!"owner" []])).1 = .ok (r, k) ∧ k ≤ 4 := by
  have hl : ∀ x y, LinkSet [Call.add c!"alice" c!"reader" [], .add c!"bob" c!"owner" []].reverse
      x y ↔ (x = c!"bob" ∧ y = c!"owner") ∨ (x = c!"alice" ∧ y = c!"reader") := by
    intro x y
    simp only [List.reverse_cons, List.reverse_nil, List.nil_append, List.cons_append, LinkSet,
      qualify, Outcome.ok.injEq, or_false]
    rw [@eq_comm _ x c!"bob", @eq_comm _ y c!"owner", @eq_comm _ x c!"alice",
      @eq_comm _ y c!"reader"]
  have hw : ∀ u, Walk (LinkSet [Call.add c!"alice" c!"reader" [],
      .add c!"bob" c!"owner" []].reverse) c!"alice" u → u = [] ∨ u = [c!"reader"] := by
    rintro (_ | ⟨x, _ | ⟨y, u⟩⟩) h
    · exact Or.inl rfl
    · simp only [Walk, hl] at h
      rcases h.1 with ⟨h, _⟩ | ⟨_, rfl⟩
      · exact absurd h (by decide)
      · exact Or.inr rfl
    · simp only [Walk, hl] at h
      rcases h.1 with ⟨h, _⟩ | ⟨_, rfl⟩
      · exact absurd h (by decide)
      · rcases h.2.1 with ⟨h, _⟩ | ⟨h, _⟩
        · exact absurd h (by decide)
        · exact absurd h (by decide)
  refine C142_once_partial 10 _ c!"alice" c!"bob" _ _ [] rfl rfl ?_
    [c!"alice", c!"reader", c!"bob", c!"owner"] ?_
  · intro u v _ _ hu hv he
    rcases hw u hu with rfl | rfl <;> rcases hw v hv with rfl | rfl
    · rfl
    · exact absurd he (by decide)
    · exact absurd he (by decide)
    · rfl
  · intro x hx
    simp only [List.reverse_cons, List.reverse_nil, List.nil_append, List.cons_append, Known,
      qualify, Outcome.ok.injEq, or_false] at hx
    rcases hx with rfl | rfl | rfl | rfl <;> simp

/-- A small tree of roles: alice has two roles, one of which has a third; asking for a fourth
name looks at each role of the tree once. -/
example : (let _ := insertionOrder
    (hasLinkCalls c!"alice" c!"bob" [] (runCalls (RM.new 10)
      [.add c!"alice" c!"reader" [], .add c!"alice" c!"writer" [],
       .add c!"writer" c!"owner" [], .add c!"bob" c!"reader" []])).1) = .ok (false, 4) := by
  decide +kernel

/-- Three layers of two roles each: eight names, and the search makes 15 calls. -/
example : (let _ := insertionOrder
    (hasLinkCalls c!"s" c!"t" [] (runCalls (RM.new 10) (ladderCalls 3 2))).1) =
    .ok (false, 15) := by
  decide +kernel

end RoleProps
end Casbin
