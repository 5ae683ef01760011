import Verif.PatternLemmas
import Verif.Props.Links
import Verif.Builtins

/-!
# C153: roles with a matching function
-/

namespace Casbin
namespace PatternRoles

open RM (Path qualify)
open Enforcer

/-! ## Any history of calls -/

/-- C153: after any history of calls on a role manager with a matching function, `HasLink` returns whether the
names are the same, or both match some known name and the second can be reached from the first by at most as
many links as the role manager allows; the links are those added and those that a name got, whenever it was
looked up, to the names known by then that it matches. -/
theorem C153_history [IterOrder] (f : Str → Str → Bool) (lvl : Nat) (cs : List Call) (a b : Str)
    (d : List Str) {n1 n2 : Str} (h1 : qualify d a = .ok n1) (h2 : qualify d b = .ok n2) :
    let g := Graph.empty.run f cs
    ∃ r, (RM.hasLink a b d (runCalls ((RM.new lvl).addMatchingFunc f) cs)).1 = .ok r ∧
      (r = true ↔ n1 = n2 ∨ (g.Knows f n1 ∧ g.Knows f n2 ∧
        ∃ n ≤ lvl, Path (g.meet f n1).links n n1 n2)) := by
  obtain ⟨r, e1, e2, -⟩ := ask_run (draws_runCalls cs (draws_new f lvl)) a b n1 n2 d h1 h2
  exact ⟨r, e1, e2⟩

/-- C153: in whatever order the container is walked through. -/
theorem C153_order (o o' : IterOrder) (f : Str → Str → Bool) (lvl : Nat) (cs : List Call) (a b : Str)
    (d : List Str) :
    (@RM.hasLink o a b d (@runCalls o ((RM.new lvl).addMatchingFunc f) cs)).1 =
      (@RM.hasLink o' a b d (@runCalls o' ((RM.new lvl).addMatchingFunc f) cs)).1 := by
  rcases qualify_cases d with ⟨q, hq⟩ | ⟨hd, hq⟩
  · obtain ⟨r, e1, e2⟩ := @C153_history o f lvl cs a b d _ _ (hq a) (hq b)
    obtain ⟨r', e1', e2'⟩ := @C153_history o' f lvl cs a b d _ _ (hq a) (hq b)
    rw [e1, e1', Bool.eq_iff_iff.mpr (e2.trans e2'.symm)]
  · simp [RM.hasLink, M.bind_run, hq]

/-! ## The links of rules -/

/-- The names of the links in the order in which they are entered. -/
def entered (pairs : List (Str × Str)) : List Str := pairs.flatMap fun p => [p.1, p.2]

/-- `y` is entered before `x` is entered for the last time. -/
def Before (pairs : List (Str × Str)) (y x : Str) : Prop :=
  ∃ pre post, entered pairs = pre ++ x :: post ∧ y ∈ pre

theorem before_snoc (pairs : List (Str × Str)) (a b y x : Str) (hne : x ≠ y) :
    Before (pairs ++ [(a, b)]) y x ↔ Before pairs y x ∨ (x = a ∧ y ∈ entered pairs) ∨
      (x = b ∧ (y = a ∨ y ∈ entered pairs)) := by
  have he : entered (pairs ++ [(a, b)]) = entered pairs ++ [a, b] := by simp [entered]
  unfold Before
  rw [he]
  constructor
  · rintro ⟨pre, post, h, hy⟩
    rcases List.append_eq_append_iff.mp h.symm with ⟨t, h1, h2⟩ | ⟨t, h1, h2⟩
    · cases t with
      | nil =>
        simp only [List.append_nil, List.nil_append] at h1 h2
        obtain ⟨rfl, -⟩ := List.cons.inj h2
        exact .inr (.inl ⟨rfl, h1 ▸ hy⟩)
      | cons z t =>
        obtain ⟨rfl, h2⟩ := List.cons.inj h2
        exact .inl ⟨pre, t, h1, hy⟩
    · match t, h2 with
      | [], h2 =>
        simp only [List.nil_append, List.append_nil] at h1 h2
        obtain ⟨rfl, -⟩ := List.cons.inj h2
        exact .inr (.inl ⟨rfl, h1 ▸ hy⟩)
      | [c], h2 =>
        simp only [List.cons_append, List.nil_append, List.cons.injEq] at h2
        obtain ⟨rfl, rfl, -⟩ := h2
        rw [h1] at hy
        simp only [List.mem_append, List.mem_singleton] at hy
        exact .inr (.inr ⟨rfl, hy.symm⟩)
      | c :: c' :: t, h2 =>
        have := congrArg List.length h2
        simp at this
  · rintro (⟨pre, post, h, hy⟩ | ⟨rfl, hy⟩ | ⟨rfl, hy⟩)
    · exact ⟨pre, post ++ [a, b], by rw [h]; simp, hy⟩
    · exact ⟨entered pairs, [b], rfl, hy⟩
    · refine ⟨entered pairs ++ [a], [], by simp, ?_⟩
      rcases hy with rfl | hy
      · simp
      · simp [hy]

/-- The graph of rules. -/
theorem addAll_graph (f : Str → Str → Bool) (pairs : List (Str × Str)) :
    (∀ x, (Graph.empty.addAll f pairs).names x ↔ x ∈ entered pairs) ∧
    ∀ x y, (Graph.empty.addAll f pairs).links x y ↔
      (x, y) ∈ pairs ∨ (x ≠ y ∧ f x y = true ∧ Before pairs y x) := by
  induction pairs using List.reverseRecOn with
  | nil => simp [Graph.addAll, Graph.empty, entered, Before]
  | append_singleton pairs p ih =>
    obtain ⟨a, b⟩ := p
    obtain ⟨ih1, ih2⟩ := ih
    have hfold : Graph.empty.addAll f (pairs ++ [(a, b)]) =
        (((Graph.empty.addAll f pairs).meet f a).meet f b).link a b := by
      simp [Graph.addAll]
    rw [hfold]
    constructor
    · intro x
      simp only [Graph.link, Graph.meet, ih1, entered, List.flatMap_append, List.flatMap_cons,
        List.flatMap_nil, List.append_nil, List.mem_append, List.mem_cons, List.not_mem_nil, or_false]
      tauto
    · intro x y
      simp only [Graph.link, Graph.meet, ih1, ih2, List.mem_append, List.mem_singleton, Prod.mk.injEq]
      by_cases hne : x = y
      · subst hne
        simp only [ne_eq, not_true_eq_false, false_and, or_false]
        constructor
        · rintro (((h | ⟨rfl, h, -⟩) | ⟨rfl, h, -⟩) | h)
          · exact .inl h
          · exact absurd rfl h
          · exact absurd rfl h
          · exact .inr h
        · rintro (h | h)
          · exact .inl (.inl (.inl h))
          · exact .inr h
      · rw [before_snoc pairs a b y x hne]
        constructor
        · rintro ((((h | h) | ⟨rfl, h1, h2, h3⟩) | ⟨rfl, h1, h2, h3⟩) | h)
          · exact .inl (.inl h)
          · exact .inr ⟨h.1, h.2.1, .inl h.2.2⟩
          · exact .inr ⟨hne, h3, .inr (.inl ⟨rfl, h2⟩)⟩
          · exact .inr ⟨hne, h3, .inr (.inr ⟨rfl, h2⟩)⟩
          · exact .inl (.inr h)
        · rintro ((h | h) | ⟨h1, h2, h3 | ⟨rfl, h3⟩ | ⟨rfl, h3⟩⟩)
          · exact .inl (.inl (.inl (.inl h)))
          · exact .inr h
          · exact .inl (.inl (.inl (.inr ⟨h1, h2, h3⟩)))
          · exact .inl (.inl (.inr ⟨rfl, fun e => hne e.symm, h3, h2⟩))
          · exact .inl (.inr ⟨rfl, fun e => hne e.symm, h3, h2⟩)

/-- A step from one name to another for the question about `u`: a link of a rule; or a match with a name of a
rule, which counts for `u`, and for another name when it is entered before that name for the last time. -/
def Step (f : Str → Str → Bool) (pairs : List (Str × Str)) (u x y : Str) : Prop :=
  (x, y) ∈ pairs ∨ (x ≠ y ∧ f x y = true ∧ (Before pairs y x ∨ (x = u ∧ y ∈ entered pairs)))

/-- The name matches a name of a rule. -/
def Matched (f : Str → Str → Bool) (pairs : List (Str × Str)) (n : Str) : Prop :=
  ∃ k ∈ entered pairs, f n k = true

/-- The enforcer's role manager has a matching function, and its model one role definition, with two or three
places, whose rules have at least as many values and stand for these links, in this order. -/
structure PatternSetup [IterOrder] (E : Enforcer) (f : Str → Str → Bool) (lvl : Nat) (t : Str)
    (a : Assertion) (pairs : List (Str × Str)) : Prop where
  here : ∃ rm, E.heap[E.rm]? = some rm ∧ rm.pattern = some f ∧ rm.maxLevel = lvl
  sec : E.model.get c!"g" = some [(t, a)]
  places : PlacesOk (countChar '_' a.value)
  links : List.Forall₂ (fun r p => LinkOf (countChar '_' a.value) r p.1 p.2) a.policy.iterate pairs

theorem build_draws [IterOrder] {E : Enforcer} {f : Str → Str → Bool} {lvl : Nat} {t : Str} {a : Assertion}
    {pairs : List (Str × Str)} (h : PatternSetup E f lvl t a pairs) :
    ∃ E' rm', buildRoleLinks E = (.ok (), E') ∧ E'.heap[E'.rm]? = some rm' ∧ E'.rm = E.rm ∧
      Draws rm' f lvl (Graph.empty.addAll f pairs) := by
  obtain ⟨rm, hrm, hp, hl⟩ := h.here
  have hens : E.model.ensureSec c!"g" = E.model := by
    unfold Model.ensureSec
    rw [if_pos ((UMap.has_iff _ _).mpr (UMap.mem_keys_of_get h.sec))]
  have hkeys : IterOrder.iter (E.model.secMap c!"g").keys = [t] := by
    have : (E.model.secMap c!"g").keys = [t] := by simp [Model.secMap, h.sec, UMap.keys]
    rw [this]
    exact List.perm_singleton.mp (IterOrder.iter_perm _)
  have hfind : E.model.find c!"g" t = some a := by
    simp [Model.find, h.sec, UMap.get]
  have hclear : Draws rm.clear f lvl .empty := by
    refine ⟨RM.WF_clear rm, hp, hl, ?_, ?_⟩
    · intro x; simp [RM.clear, Graph.empty]
    · intro x y; simp [RM.clear, RM.Edge, RM.direct, Graph.empty]
  have h2 : ¬ countChar '_' a.value < 2 := by rcases h.places with h | h <;> omega
  have hbl : Assertion.buildLinks a.value .add a.policy.iterate rm.clear =
      (.ok (), addAll rm.clear pairs) := by
    simp only [Assertion.buildLinks, h2, if_false]
    exact linkRules_pairs h.places h.links _
  refine ⟨{ E with model := E.model.put c!"g" t { a with rm := some E.rm },
                   heap := E.heap.set E.rm (addAll rm.clear pairs) }, _, ?_, getElem?_set_self' hrm, rfl,
    draws_addAll pairs hclear⟩
  simp only [buildRoleLinks, M.bind_run, M.get_run]
  rw [onRm_run (rm := rm) hrm]
  simp only [M.modify_run, onModel_run, hens, hkeys, buildAll, M.bind_run, M.get_run, hfind]
  rw [onRm_run (rm := rm.clear) (getElem?_set_self' hrm), hbl]
  simp [List.set_set]

/-- C153: what `g(u, r)` in a matcher, or `HasLink`, answers after `BuildRoleLinks` with a matching function,
exactly. -/
theorem C153_rules [IterOrder] (lib : ExprLib) {E : Enforcer} {f : Str → Str → Bool} {lvl : Nat} {t : Str}
    {a : Assertion} {pairs : List (Str × Str)} (h : PatternSetup E f lvl t a pairs) (u r : Str) :
    ∃ E' b, buildRoleLinks E = (.ok (), E') ∧ LinkProps.gHolds lib E' u r = .ok (Val.ofBool b) ∧
      (b = true ↔ u = r ∨ (Matched f pairs u ∧ Matched f pairs r ∧
        ∃ n ≤ lvl, Path (Step f pairs u) n u r)) := by
  obtain ⟨E', rm', h1, h2, -, h4⟩ := build_draws h
  obtain ⟨b, e1, e2, -⟩ := ask_run h4 u r u r [] rfl rfl
  obtain ⟨g1, g2⟩ := addAll_graph f pairs
  refine ⟨E', b, h1, ?_, ?_⟩
  · simp [LinkProps.gHolds, callFun, allStrs, M.bind_run, onHeap, h2, e1]
  · rw [e2]
    simp only [Graph.Knows, g1, Matched]
    have hs : ∀ x y, (Graph.meet f u (Graph.empty.addAll f pairs)).links x y ↔ Step f pairs u x y := by
      intro x y
      simp only [Graph.meet, g1, g2, Step]
      constructor
      · rintro ((h | ⟨h, h', h''⟩) | ⟨rfl, h, h', h''⟩)
        · exact .inl h
        · exact .inr ⟨h, h', .inl h''⟩
        · exact .inr ⟨fun e => h e.symm, h'', .inr ⟨rfl, h'⟩⟩
      · rintro (h | ⟨h, h', h'' | ⟨rfl, h''⟩⟩)
        · exact .inl (.inl h)
        · exact .inl (.inr ⟨h, h', h''⟩)
        · exact .inr ⟨rfl, fun e => h e.symm, h'', h'⟩
    constructor
    · rintro (h | ⟨h, h', n, hn, hp⟩)
      · exact .inl h
      · exact .inr ⟨h, h', n, hn, hp.congr hs⟩
    · rintro (h | ⟨h, h', n, hn, hp⟩)
      · exact .inl h
      · exact .inr ⟨h, h', n, hn, hp.congr fun x y => (hs x y).symm⟩

/-- C153 for roles in domains: what `g(u, r, d)` answers after `BuildRoleLinks`, exactly. The function is
given the names with their domain in front. -/
theorem C153_domains [IterOrder] (lib : ExprLib) {E : Enforcer} {f : Str → Str → Bool} {lvl : Nat} {t : Str}
    {a : Assertion} {pairs : List (Str × Str)} (h : PatternSetup E f lvl t a pairs) (u r d : Str) :
    let n (x : Str) := d ++ c!"::" ++ x
    ∃ E' b, buildRoleLinks E = (.ok (), E') ∧
      (callFun lib (.g (some E'.rm) 3) [.str u, .str r, .str d] E'.heap).1 = .ok (Val.ofBool b) ∧
      (b = true ↔ n u = n r ∨ (Matched f pairs (n u) ∧ Matched f pairs (n r) ∧
        ∃ k ≤ lvl, Path (Step f pairs (n u)) k (n u) (n r))) := by
  intro n
  obtain ⟨E', rm', h1, h2, -, h4⟩ := build_draws h
  obtain ⟨b, e1, e2, -⟩ := ask_run h4 u r (n u) (n r) [d] rfl rfl
  obtain ⟨E1, b1, g1, g2, g3⟩ := C153_rules lib h (n u) (n r)
  rw [h1] at g1
  cases g1
  obtain ⟨b', e1', e2', -⟩ := ask_run h4 (n u) (n r) (n u) (n r) [] rfl rfl
  have hbb : b = b1 := by
    have h5 : LinkProps.gHolds lib E' (n u) (n r) = .ok (Val.ofBool b') := by
      simp [LinkProps.gHolds, callFun, allStrs, M.bind_run, onHeap, h2, e1']
    have h6 : Val.ofBool b' = Val.ofBool b1 := Outcome.ok.inj (h5.symm.trans g2)
    have h7 : b' = b1 := by
      revert h6
      cases b' <;> cases b1 <;> decide
    rw [← h7]
    exact Bool.eq_iff_iff.mpr (e2.trans e2'.symm)
  refine ⟨E', b, h1, ?_, by rw [hbb]; exact g3⟩
  simp [callFun, allStrs, M.bind_run, onHeap, h2, e1]

/-- What one would expect: a step is a link of a rule, or a match with a name of a rule. -/
def Expected (f : Str → Str → Bool) (pairs : List (Str × Str)) (x y : Str) : Prop :=
  (x, y) ∈ pairs ∨ (x ≠ y ∧ f x y = true ∧ y ∈ entered pairs)

theorem path_mono {R S : Str → Str → Prop} (h : ∀ x y, R x y → S x y) {n : Nat} {a b : Str}
    (hp : Path R n a b) : Path S n a b := by
  induction hp with
  | nil => exact .nil _
  | cons he _ ih => exact .cons (h _ _ he) ih

theorem step_expected {f : Str → Str → Bool} {pairs : List (Str × Str)} {u : Str} (x y : Str) :
    Step f pairs u x y → Expected f pairs x y := by
  rintro (he | ⟨h1, h2, ⟨pre, post, h3, h4⟩ | ⟨-, h3⟩⟩)
  · exact .inl he
  · exact .inr ⟨h1, h2, by rw [h3]; simp [h4]⟩
  · exact .inr ⟨h1, h2, h3⟩

/-- C153 when every name matches itself and the names that others match come first. Missing: other orders of
the rules, for which a match on the way is lost (`C153_fails`), and functions for which a name of a rule does
not match itself (`C153_itself_fails`). -/
theorem C153_expected_partial [IterOrder] (lib : ExprLib) {E : Enforcer} {f : Str → Str → Bool} {lvl : Nat}
    {t : Str} {a : Assertion} {pairs : List (Str × Str)} (h : PatternSetup E f lvl t a pairs)
    (hrefl : ∀ x ∈ entered pairs, f x x = true)
    (hfirst : ∀ x ∈ entered pairs, ∀ y ∈ entered pairs, x ≠ y → f x y = true → Before pairs y x)
    (u r : Str) :
    ∃ E' b, buildRoleLinks E = (.ok (), E') ∧ LinkProps.gHolds lib E' u r = .ok (Val.ofBool b) ∧
      (b = true ↔ ∃ n ≤ lvl, Path (Expected f pairs) n u r) := by
  obtain ⟨E', b, h1, h2, h3⟩ := C153_rules lib h u r
  have hmem : ∀ {x y}, (x, y) ∈ pairs → x ∈ entered pairs ∧ y ∈ entered pairs := by
    intro x y hxy
    exact ⟨List.mem_flatMap.mpr ⟨_, hxy, by simp⟩, List.mem_flatMap.mpr ⟨_, hxy, by simp⟩⟩
  have hto : ∀ {x y}, Expected f pairs x y → y ∈ entered pairs ∧ Matched f pairs x := by
    rintro x y (he | ⟨-, he, hy⟩)
    · exact ⟨(hmem he).2, x, (hmem he).1, hrefl x (hmem he).1⟩
    · exact ⟨hy, y, hy, he⟩
  have key : ∀ {n x z}, Path (Expected f pairs) n x z → (x = u ∨ x ∈ entered pairs) →
      Path (Step f pairs u) n x z ∧ (x ≠ z → z ∈ entered pairs ∧ Matched f pairs x) := by
    clear h2 h3
    intro n x z hp
    induction hp with
    | nil => exact fun _ => ⟨.nil _, fun h => absurd rfl h⟩
    | @cons x y z n he _ ih =>
      intro hx
      obtain ⟨hy, hm⟩ := hto he
      obtain ⟨p1, p2⟩ := ih (.inr hy)
      refine ⟨.cons ?_ p1, fun _ => ⟨?_, hm⟩⟩
      · rcases he with he | ⟨h1, h2, h3⟩
        · exact .inl he
        · rcases hx with rfl | hx
          · exact .inr ⟨h1, h2, .inr ⟨rfl, h3⟩⟩
          · exact .inr ⟨h1, h2, .inl (hfirst _ hx _ h3 h1 h2)⟩
      · by_cases hyz : y = z
        · exact hyz ▸ hy
        · exact (p2 hyz).1
  refine ⟨E', b, h1, h2, ?_⟩
  rw [h3]
  constructor
  · rintro (rfl | ⟨-, -, n, hn, hp⟩)
    · exact ⟨0, Nat.zero_le _, .nil _⟩
    · exact ⟨n, hn, path_mono step_expected hp⟩
  · rintro ⟨n, hn, hp⟩
    by_cases hur : u = r
    · exact .inl hur
    · obtain ⟨p1, p2⟩ := key hp (.inl rfl)
      obtain ⟨p3, p4⟩ := p2 hur
      exact .inr ⟨p4, ⟨r, p3, hrefl r p3⟩, n, hn, p1⟩

/-- The example model with two rules and the function that knows `b*` and equality. -/
def books (f : Str → Str → Bool) (G : List Rule) : Enforcer :=
  { Fixtures.rbac [] G with heap := [(RM.new 10).addMatchingFunc f] }

theorem books_setup [IterOrder] (f : Str → Str → Bool) (pairs : List (Str × Str)) :
    PatternSetup (books f (pairs.map fun p => [p.1, p.2])) f 10 c!"g"
      (Fixtures.asrt c!"g" c!"_, _" [] (.vector (pairs.map fun p => [p.1, p.2]))) pairs := by
  refine ⟨⟨_, rfl, rfl, rfl⟩, rfl, .inl rfl, ?_⟩
  show List.Forall₂ _ (pairs.map fun p => [p.1, p.2]) pairs
  induction pairs with
  | nil => exact .nil
  | cons p pairs ih => exact .cons (.inl ⟨rfl, _, _, [], rfl, rfl, rfl⟩) ih

/-- Roles in domains, with a matching function. -/
def tenants (f : Str → Str → Bool) (G : List Rule) : Enforcer :=
  { Fixtures.enforcer [(c!"g", [(c!"g", Fixtures.asrt c!"g" c!"_, _, _" [] (.vector G))])] with
    heap := [(RM.new 10).addMatchingFunc f] }

theorem tenants_setup [IterOrder] (f : Str → Str → Bool) (G : List (Str × Str × Str)) :
    PatternSetup (tenants f (G.map fun q => [q.1, q.2.1, q.2.2])) f 10 c!"g"
      (Fixtures.asrt c!"g" c!"_, _, _" [] (.vector (G.map fun q => [q.1, q.2.1, q.2.2])))
      (G.map fun q => (q.2.2 ++ c!"::" ++ q.1, q.2.2 ++ c!"::" ++ q.2.1)) := by
  refine ⟨⟨_, rfl, rfl, rfl⟩, rfl, .inr rfl, ?_⟩
  show List.Forall₂ _ (G.map fun q => [q.1, q.2.1, q.2.2]) _
  induction G with
  | nil => exact .nil
  | cons q G ih => exact .cons (.inr ⟨rfl, _, _, _, [], rfl, rfl, rfl⟩) ih

/-- A pattern for users within a domain: `a*` in `dom1` stands for `alice` there, and gives its role. -/
example : letI := insertionOrder
    (callFun LinkProps.noLib (.g (some (buildRoleLinks (tenants keyMatch
      [[c!"a*", c!"admin", c!"dom1"]])).2.rm) 3) [.str c!"alice", .str c!"admin", .str c!"dom1"]
      (buildRoleLinks (tenants keyMatch [[c!"a*", c!"admin", c!"dom1"]])).2.heap).1 =
    .ok (.num 1) := by decide +kernel

/-- C153 is false for patterns in the place of the domain: the rule `g, alice, admin, *` gives `alice` no role
in `dom1`, since the name asked for is `dom1::admin` and that of the rule
`*::admin`. So for every matching function. -/
theorem C153_anyDomain_fails [IterOrder] (lib : ExprLib) (f : Str → Str → Bool) {u r d : Str} (hur : u ≠ r)
    (hds : '*' ∉ d) :
    ∃ E', buildRoleLinks (tenants f [[u, r, c!"*"]]) = (.ok (), E') ∧
      (callFun lib (.g (some E'.rm) 3) [.str u, .str r, .str d] E'.heap).1 = .ok (.num 0) := by
  obtain ⟨E', b, h1, h2, h3⟩ := C153_domains lib (tenants_setup f [(u, r, c!"*")]) u r d
  refine ⟨E', h1, ?_⟩
  rw [h2]
  cases b with
  | false => rfl
  | true =>
    exfalso
    rcases h3.mp rfl with h | ⟨-, -, k, -, hp⟩
    · exact hur (List.append_cancel_left h)
    · -- the last step would lead to a name in `d`, but all names of the rule are in `*`
      have hent : ∀ y, y ∈ entered [(c!"*" ++ c!"::" ++ u, c!"*" ++ c!"::" ++ r)] →
          y.head? = some '*' := by
        intro y hy
        simp [entered] at hy
        rcases hy with rfl | rfl <;> rfl
      have hto : ∀ x y, Step f [(c!"*" ++ c!"::" ++ u, c!"*" ++ c!"::" ++ r)]
          (d ++ c!"::" ++ u) x y → y.head? = some '*' := by
        rintro x y (h | ⟨-, -, ⟨pre, post, h, hy⟩ | ⟨-, hy⟩⟩)
        · simp at h; rw [h.2]; rfl
        · exact hent y (by rw [h]; simp [hy])
        · exact hent y hy
      have hhead : (d ++ c!"::" ++ r).head? ≠ some '*' := by
        cases d with
        | nil => simp
        | cons c d =>
          intro h
          simp at h
          exact hds (by simp [h])
      have hlast : ∀ {n x z}, Path (Step f
          [(c!"*" ++ c!"::" ++ u, c!"*" ++ c!"::" ++ r)] (d ++ c!"::" ++ u)) n x z →
          x = z ∨ z.head? = some '*' := by
        intro n x z hp
        induction hp with
        | nil => exact .inl rfl
        | cons he _ ih =>
          rcases ih with rfl | ih
          · exact .inr (hto _ _ he)
          · exact .inr ih
      rcases hlast hp with h | h
      · exact hur (List.append_cancel_left h)
      · exact hhead h

/-- C153 from the call of the user: `AddNamedMatchingFunc` answers yes, whatever function was there before, and
after `BuildRoleLinks` the answers are those for this function. -/
theorem C153_call [IterOrder] (lib : ExprLib) {E : Enforcer} {rm : RM}
    (hrm : E.heap[E.rm]? = some rm) {t : Str} {a : Assertion}
    {pairs : List (Str × Str)} (hsec : E.model.get c!"g" = some [(t, a)])
    (hpl : PlacesOk (countChar '_' a.value))
    (hl : List.Forall₂ (fun r p => LinkOf (countChar '_' a.value) r p.1 p.2) a.policy.iterate pairs)
    (f : Str → Str → Bool) :
    (addNamedMatchingFunc f E).1 = .ok true ∧ ∀ u r,
      ∃ E' b, buildRoleLinks (addNamedMatchingFunc f E).2 = (.ok (), E') ∧
        LinkProps.gHolds lib E' u r = .ok (Val.ofBool b) ∧
        (b = true ↔ u = r ∨ (Matched f pairs u ∧ Matched f pairs r ∧
          ∃ n ≤ rm.maxLevel, Path (Step f pairs u) n u r)) := by
  have h : addNamedMatchingFunc f E =
      (.ok true, { E with heap := E.heap.set E.rm (rm.addMatchingFunc f) }) := by
    simp [addNamedMatchingFunc, onRm, M.bind_run, M.get_run, M.modify_run, M.pure_run, onHeap, hrm]
  have hlt : E.rm < E.heap.length := (List.getElem?_eq_some_iff.mp hrm).1
  rw [h]
  have hs : PatternSetup { E with heap := E.heap.set E.rm (rm.addMatchingFunc f) } f rm.maxLevel t a pairs :=
    ⟨⟨rm.addMatchingFunc f, by simp [hlt], rfl, rfl⟩, hsec, hpl, hl⟩
  exact ⟨rfl, fun u r => C153_rules lib hs u r⟩

example : letI := insertionOrder
    (addNamedMatchingFunc LinkProps.bStar (Fixtures.rbac [] [[c!"b*", c!"library"], [c!"alice", c!"b1"]])).1 =
      .ok true :=
  letI := insertionOrder
  (C153_call LinkProps.noLib (E := Fixtures.rbac [] [[c!"b*", c!"library"], [c!"alice", c!"b1"]]) rfl
    (pairs := [(c!"b*", c!"library"), (c!"alice", c!"b1")]) rfl (.inl rfl)
    (.cons (.inl ⟨rfl, _, _, [], rfl, rfl, rfl⟩) (.cons (.inl ⟨rfl, _, _, [], rfl, rfl, rfl⟩) .nil)) _).1

/-- C153 is false: `alice` is given `b1`, which matches `b*`, which is given `library`; but when the rule about
`b*` comes second `g` does not find `library` from `alice`. -/
theorem C153_fails : ¬ ∀ (_ : IterOrder) (lib : ExprLib) (E : Enforcer) (f : Str → Str → Bool) (lvl : Nat)
    (t : Str) (a : Assertion) (pairs : List (Str × Str)), PatternSetup E f lvl t a pairs →
    ∀ u r, LinkProps.gHolds lib (buildRoleLinks E).2 u r = .ok (.num 1) ↔
      ∃ n ≤ lvl, Path (Expected f pairs) n u r := by
  intro h
  let _ := insertionOrder
  have h1 := (h insertionOrder LinkProps.noLib _ _ _ _ _ _
    (books_setup LinkProps.bStar [(c!"alice", c!"b1"), (c!"b*", c!"library")]) c!"alice" c!"library").mpr
    ⟨3, by decide, .cons (b := c!"b1") (.inl (by decide)) (.cons (b := c!"b*") (.inr ⟨by decide, by decide, by decide⟩)
      (.cons (.inl (by decide)) (.nil _)))⟩
  have h2 : (letI := insertionOrder; LinkProps.gHolds LinkProps.noLib
      (buildRoleLinks (books LinkProps.bStar [[c!"alice", c!"b1"], [c!"b*", c!"library"]])).2
        c!"alice" c!"library") = .ok (.num 0) := by decide +kernel
  have h3 := h1.symm.trans h2
  simp at h3

/-- The rules the other way round: they are found. -/
example : (letI := insertionOrder; LinkProps.gHolds LinkProps.noLib
      (buildRoleLinks (books LinkProps.bStar [[c!"b*", c!"library"], [c!"alice", c!"b1"]])).2
        c!"alice" c!"library") = .ok (.num 1) ∧
    (∀ x ∈ entered [(c!"b*", c!"library"), (c!"alice", c!"b1")], LinkProps.bStar x x = true) ∧
    ∀ x ∈ entered [(c!"b*", c!"library"), (c!"alice", c!"b1")],
      ∀ y ∈ entered [(c!"b*", c!"library"), (c!"alice", c!"b1")], x ≠ y → LinkProps.bStar x y = true →
      y = c!"b*" ∧ x = c!"b1" := by
  decide +kernel

example : Before [(c!"b*", c!"library"), (c!"alice", c!"b1")] c!"b*" c!"b1" :=
  ⟨[c!"b*", c!"library", c!"alice"], [], rfl, by decide⟩

/-- A name that no name of a rule is a pattern for has no users, and is no user but of itself. -/
theorem C153_itself [IterOrder] (lib : ExprLib) {E : Enforcer} {f : Str → Str → Bool} {lvl : Nat} {t : Str}
    {a : Assertion} {pairs : List (Str × Str)} (h : PatternSetup E f lvl t a pairs) {n : Str}
    (hn : ¬ Matched f pairs n) {m : Str} (hne : m ≠ n) :
    LinkProps.gHolds lib (buildRoleLinks E).2 m n = .ok (.num 0) ∧
      LinkProps.gHolds lib (buildRoleLinks E).2 n m = .ok (.num 0) := by
  constructor
  · obtain ⟨E', b, h1, h2, h3⟩ := C153_rules lib h m n
    rw [h1, h2]
    cases b with
    | false => rfl
    | true =>
      rcases h3.mp rfl with h | ⟨-, h, -⟩
      · exact absurd h hne
      · exact absurd h hn
  · obtain ⟨E', b, h1, h2, h3⟩ := C153_rules lib h n m
    rw [h1, h2]
    cases b with
    | false => rfl
    | true =>
      rcases h3.mp rfl with h | ⟨h, -, -⟩
      · exact absurd h.symm hne
      · exact absurd h hn

/-- A matching function that knows wildcards only. -/
def onlyStar (name pat : Str) : Bool := decide (pat = c!"b*") && decide (name.head? = some 'b')

/-- C153 is false for such a function: `library` is no pattern for itself, so not even the rule that gives it
to `bob` counts. -/
theorem C153_itself_fails : ¬ ∀ (_ : IterOrder) (lib : ExprLib) (E : Enforcer) (f : Str → Str → Bool)
    (lvl : Nat) (t : Str) (a : Assertion) (pairs : List (Str × Str)), PatternSetup E f lvl t a pairs →
    1 ≤ lvl → ∀ u r, (u, r) ∈ pairs →
    LinkProps.gHolds lib (buildRoleLinks E).2 u r = .ok (.num 1) := by
  intro h
  let _ := insertionOrder
  have h0 := books_setup onlyStar [(c!"b*", c!"library"), (c!"bob", c!"library")]
  have h1 := h insertionOrder LinkProps.noLib _ _ _ _ _ _ h0 (by decide) c!"bob" c!"library" (by decide)
  have h2 := (C153_itself LinkProps.noLib h0 (n := c!"library") (by
    unfold Matched; decide) (m := c!"bob") (by decide)).1
  have h3 := h1.symm.trans h2
  simp at h3

/-- A question about a name that matches some name enters it (see C146). -/
example : (letI := insertionOrder
    (runCalls ((RM.new 10).addMatchingFunc LinkProps.bStar)
      [.add c!"b*" c!"library" [], .ask c!"b7" c!"library" []]).roles) =
    [(c!"b*", [c!"library"]), (c!"library", []), (c!"b7", [c!"b*"])] := by decide +kernel

end PatternRoles
end Casbin
