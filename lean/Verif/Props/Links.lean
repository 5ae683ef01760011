import Verif.MirrorLemmas
import Verif.Fixtures
import Verif.Evaluator

/-!
# C21–C25: implicit roles, and role links built from grouping rules

The specification of "the links of the stored grouping rules" is `StoredLinks`: for every grouping
rule the pair of its first two values, put into the domain given by its third value when the role
definition has three places.
-/

namespace Casbin
namespace LinkProps

open RM (Path qualify)
open RoleProps (Call runCalls LinkSet Tidy domOk)
open Enforcer

/-! ## C21 -/

theorem reach_iff {R : Str → Str → Prop} {a b : Str} :
    Reach R a b ↔ ∃ n, Path R (n + 1) a b := by
  constructor
  · intro h
    induction h with
    | one h => exact ⟨0, .cons h (.nil _)⟩
    | step h _ ih => obtain ⟨n, hn⟩ := ih; exact ⟨n + 1, .cons h hn⟩
  · rintro ⟨n, h⟩
    induction n generalizing a with
    | zero =>
      cases h with
      | cons h h' => cases h'; exact .one h
    | succ n ih =>
      cases h with
      | cons h h' => exact .step h (ih h')

/-- C21 for any state of a role manager without a pattern function: `GetImplicitRolesForUser`
terminates (it does not run out of rounds), changes nothing, and lists each name other than `u`
that is reachable from `u` by one or more links exactly once. -/
theorem C21_any_state [IterOrder] (E : Enforcer) (rm : RM) (h : RmOk E rm) (u : Str) :
    ∃ res, getImplicitRolesForUser u [] E = (.ok res, E) ∧ res.Nodup ∧
      ∀ r, r ∈ res ↔ r ≠ u ∧ ∃ n, Path rm.Edge (n + 1) u r := by
  obtain ⟨res, h1, h2, h3⟩ := implicitLoop_closure (D := []) (s := rm) (R := rm.Edge) (q := id)
    Function.injective_id (by
      intro n
      obtain ⟨rs, e1, e2⟩ := RM.getRoles_plain h.nopat n
      exact ⟨rs, e1, e2, fun r hr => h.wf.closed n r ((e2 r).mp hr)⟩) u
  refine ⟨res, ?_, h2, ?_⟩
  · simp only [getImplicitRolesForUser, M.bind_run, M.get_run]
    rw [onRm_run h.here]
    simp only [M.bind_run, M.get_run, h1]
    have : E.heap.set E.rm rm = E.heap := by
      obtain ⟨g1, g2⟩ := List.getElem?_eq_some_iff.mp h.here
      rw [← g2]; exact List.set_getElem_self g1
    rw [this]
  · intro r; rw [h3, reach_iff]

/-- C21 for every role graph that calls of the role manager can build, stated with the links the
history stands for. -/
theorem C21_implicitRoles [IterOrder] (lvl : Nat) (cs : List Call) (E : Enforcer)
    (h : E.heap[E.rm]? = some (runCalls (RM.new lvl) cs)) (u : Str) :
    ∃ res, getImplicitRolesForUser u [] E = (.ok res, E) ∧ res.Nodup ∧
      ∀ r, r ∈ res ↔ r ≠ u ∧ ∃ n, Path (LinkSet cs.reverse) (n + 1) u r := by
  have g := RoleProps.good_runCalls lvl cs
  obtain ⟨res, h1, h2, h3⟩ := C21_any_state E _ ⟨h, g.wf, g.nopat⟩ u
  refine ⟨res, h1, h2, ?_⟩
  intro r
  rw [h3]
  constructor
  · rintro ⟨hne, n, hp⟩; exact ⟨hne, n, hp.congr g.edges⟩
  · rintro ⟨hne, n, hp⟩; exact ⟨hne, n, hp.congr fun a b => (g.edges a b).symm⟩

/-- C21 within a domain, for tidy histories (see C19): reachability through the links of that
domain. -/
theorem C21_domain_partial [IterOrder] (lvl : Nat) (cs : List Call) (ht : Tidy cs) (E : Enforcer)
    (h : E.heap[E.rm]? = some (runCalls (RM.new lvl) cs)) (d u : Str) (hd : ':' ∉ d) :
    ∃ res, getImplicitRolesForUser u [d] E = (.ok res, E) ∧ res.Nodup ∧
      ∀ r, r ∈ res ↔ r ≠ u ∧
        ∃ n, Path (fun a b => LinkSet cs.reverse (d ++ c!"::" ++ a) (d ++ c!"::" ++ b)) (n + 1) u r := by
  have g := RoleProps.good_runCalls lvl cs
  have hq : ∀ n, qualify [d] n = .ok (d ++ c!"::" ++ n) := fun n => rfl
  obtain ⟨res, h1, h2, h3⟩ := implicitLoop_closure (D := [d]) (s := runCalls (RM.new lvl) cs)
    (R := fun a b => LinkSet cs.reverse (d ++ c!"::" ++ a) (d ++ c!"::" ++ b))
    (q := fun n => d ++ c!"::" ++ n) (RoleProps.qualify_fun_inj hq) (by
      intro n
      obtain ⟨rs, e1, e2⟩ := RoleProps.getRoles_tidy lvl cs ht [d] hd _ hq n trivial
      exact ⟨rs, e1, e2, fun r hr => g.wf.closed _ _ ((g.edges _ _).mpr ((e2 r).mp hr))⟩) u
  refine ⟨res, ?_, h2, ?_⟩
  · simp only [getImplicitRolesForUser, M.bind_run, M.get_run]
    rw [onRm_run h]
    simp only [M.bind_run, M.get_run, h1]
    have : E.heap.set E.rm (runCalls (RM.new lvl) cs) = E.heap := by
      obtain ⟨g1, g2⟩ := List.getElem?_eq_some_iff.mp h
      rw [← g2]; exact List.set_getElem_self g1
    rw [this]
  · intro r; rw [h3, reach_iff]

/-- An enforcer whose role manager has a given history. -/
def withCalls [IterOrder] (lvl : Nat) (cs : List Call) : Enforcer :=
  { Fixtures.rbac [] [] with heap := [runCalls (RM.new lvl) cs] }

/-- A cyclic graph with a branch: the loop terminates, and the user is not its own role. -/
example : (letI := insertionOrder
    (getImplicitRolesForUser c!"alice" [] (withCalls 10 (RoleProps.cyclic ++
      [.add c!"admin" c!"staff" [], .add c!"bob" c!"guest" []]))).1)
    = .ok [c!"admin", c!"root", c!"staff"] := by decide +kernel

/-- Within a domain. -/
example : (letI := insertionOrder
    (getImplicitRolesForUser c!"alice" [c!"d"] (withCalls 10
      [.add c!"alice" c!"admin" [c!"d"], .add c!"admin" c!"root" [c!"d"],
       .add c!"admin" c!"guest" [c!"e"]])).1)
    = .ok [c!"admin", c!"root"] := by decide +kernel

/-! ## C22 -/

/-- What the matcher function `g(u, r)` answers: the value computed by the registered grouping
function on the enforcer's own role manager. -/
def gHolds [IterOrder] (lib : ExprLib) (E : Enforcer) (u r : Str) : Outcome Val :=
  (callFun lib (.g (some E.rm) 2) [.str u, .str r] E.heap).1

theorem gHolds_eq [IterOrder] (lib : ExprLib) (E : Enforcer) (rm : RM) (h : RmOk E rm)
    (u r : Str) : ∃ b, gHolds lib E u r = .ok (Val.ofBool b) ∧
      (b = true ↔ ∃ n ≤ rm.maxLevel, Path rm.Edge n u r) := by
  obtain ⟨b, h1, h2⟩ := RM.hasLink_run h.wf h.nopat u r u r [] rfl rfl
  refine ⟨b, ?_, h2⟩
  simp [gHolds, callFun, allStrs, M.bind_run, onHeap, h.here, h1]

/-- C22, the direction that holds: whatever `g(u, r)` accepts for `r ≠ u` is an implicit role; and
an implicit role within the hierarchy bound is accepted. Missing: implicit roles farther away than
the bound of ten links, which `g` rejects (`C22_fails`). -/
theorem C22_agree_partial [IterOrder] (lib : ExprLib) (E : Enforcer) (rm : RM) (h : RmOk E rm)
    (u : Str) : ∃ res, getImplicitRolesForUser u [] E = (.ok res, E) ∧ ∀ r, r ≠ u →
      (gHolds lib E u r = .ok (.num 1) → r ∈ res) ∧
      (r ∈ res → (∃ n, n < rm.maxLevel ∧ Path rm.Edge (n + 1) u r) →
        gHolds lib E u r = .ok (.num 1)) ∧
      (r ∉ res → gHolds lib E u r = .ok (.num 0)) := by
  obtain ⟨res, h1, _, h3⟩ := C21_any_state E rm h u
  refine ⟨res, h1, ?_⟩
  intro r hne
  obtain ⟨b, e1, e2⟩ := gHolds_eq lib E rm h u r
  have pos : ∀ {n}, Path rm.Edge n u r → ∃ k, n = k + 1 := by
    intro n hp
    cases hp with
    | nil => exact absurd rfl hne
    | cons _ _ => exact ⟨_, rfl⟩
  refine ⟨?_, ?_, ?_⟩
  · intro hg
    rw [e1] at hg
    cases b with
    | false => simp [Val.ofBool] at hg
    | true =>
      obtain ⟨n, _, hp⟩ := e2.mp rfl
      obtain ⟨k, rfl⟩ := pos hp
      exact (h3 r).mpr ⟨hne, k, hp⟩
  · rintro _ ⟨n, hn, hp⟩
    rw [e1, e2.mpr ⟨n + 1, hn, hp⟩]; rfl
  · intro hr
    rw [e1]
    cases b with
    | false => rfl
    | true =>
      obtain ⟨n, _, hp⟩ := e2.mp rfl
      obtain ⟨k, rfl⟩ := pos hp
      exact absurd ((h3 r).mpr ⟨hne, k, hp⟩) hr

/-- A chain of eleven links from `a` to `l`. -/
def chain : List Call :=
  [.add c!"a" c!"b" [], .add c!"b" c!"c" [], .add c!"c" c!"d" [], .add c!"d" c!"e" [],
   .add c!"e" c!"f" [], .add c!"f" c!"g" [], .add c!"g" c!"h" [], .add c!"h" c!"i" [],
   .add c!"i" c!"j" [], .add c!"j" c!"k" [], .add c!"k" c!"l" []]

/-- A library in which nothing parses; `g` does not depend on it. -/
def noLib : ExprLib := { parse := fun _ => none, prim := fun _ _ => .nan, builtin := fun _ _ => .ok .nan }

/-- C22 is false: with the hierarchy bound 10 that every enforcer uses (enforcer.cpp 341), the end
of a chain of eleven links is an implicit role but `g` rejects it. -/
theorem C22_fails : ¬ ∀ (_ : IterOrder) (lib : ExprLib) (cs : List Call) (u r : Str)
    (res : List Str), r ≠ u →
    (getImplicitRolesForUser u [] (withCalls 10 cs)).1 = .ok res →
    (r ∈ res ↔ gHolds lib (withCalls 10 cs) u r = .ok (.num 1)) := by
  intro h
  have h1 := @h insertionOrder noLib chain c!"a" c!"l"
    [c!"b", c!"c", c!"d", c!"e", c!"f", c!"g", c!"h", c!"i", c!"j", c!"k", c!"l"] (by decide)
    (by decide +kernel)
  have h2 : (letI := insertionOrder; gHolds noLib (withCalls 10 chain) c!"a" c!"l")
      = .ok (.num 0) := by decide +kernel
  have h3 := h1.mp (by decide)
  rw [h2] at h3
  simp at h3

/-- Ten links are still accepted. -/
example : (letI := insertionOrder; gHolds noLib (withCalls 10 chain) c!"a" c!"k")
    = .ok (.num 1) := by decide +kernel

/-! ## C24 -/

/-- C24: the result of `BuildRoleLinks` (outcome, model, role manager and everything else) does not
depend on the links that were there before, for every enforcer state. -/
theorem C24_forgets [IterOrder] (E : Enforcer) (rm : RM) (h : E.heap[E.rm]? = some rm)
    (old : UMap Str (List Str)) :
    buildRoleLinks { E with heap := E.heap.set E.rm { rm with roles := old } } =
      buildRoleLinks E := by
  simp only [buildRoleLinks, M.bind_run, M.get_run]
  rw [onRm_run (rm := rm) h, onRm_run (E := { E with heap := E.heap.set E.rm { rm with roles := old } })
    (rm := { rm with roles := old }) (getElem?_set_self' h)]
  simp only [M.modify_run, List.set_set, RM.clear]

/-- C24: after `BuildRoleLinks` the links are exactly those of the stored rules. Missing: role
managers with a pattern function, for which the links depend on the order of the rules
(`C24_order_fails`), and rules that are too short, on which `BuildRoleLinks` throws. -/
theorem C24_rebuild_partial [IterOrder] (E : Enforcer) (rm : RM) (h : E.heap[E.rm]? = some rm)
    (hp : rm.pattern = none) (hg : GroupsOk E.model) :
    ∃ E' rm', buildRoleLinks E = (.ok (), E') ∧ RmOk E' rm' ∧ rm'.maxLevel = rm.maxLevel ∧
      (∀ x y, rm'.Edge x y ↔ StoredLinks E.model x y) ∧
      (∀ t a, E'.model.find c!"g" t = some a → a.rm = some E'.rm) := by
  obtain ⟨rm', m', h1, _, h3, h4, h5, h6, _, h8⟩ := buildRoleLinks_run h hp hg
  exact ⟨_, rm', h1, ⟨getElem?_set_self' h, h3, h4⟩, h5, h6, h8⟩

/-- Two models with the same grouping rules up to their order within each type. -/
def SameGroups (m m' : Model) : Prop :=
  ∀ t, (m.find c!"g" t = none ∧ m'.find c!"g" t = none) ∨
    ∃ a a', m.find c!"g" t = some a ∧ m'.find c!"g" t = some a' ∧ a'.value = a.value ∧
      a.policy.items.Perm a'.policy.items

/-- C24: two enforcers, with whatever links before, whose stored grouping rules are the same up to
order answer every role query the same way after `BuildRoleLinks`. Missing as above. -/
theorem C24_order_partial [IterOrder] (E E' : Enforcer) (rm rm' : RM)
    (h : E.heap[E.rm]? = some rm) (h' : E'.heap[E'.rm]? = some rm') (hp : rm.pattern = none)
    (hp' : rm'.pattern = none) (hl : rm.maxLevel = rm'.maxLevel) (hg : GroupsOk E.model)
    (hg' : GroupsOk E'.model) (hs : SameGroups E.model E'.model) (lib : ExprLib) (u r : Str) :
    gHolds lib (buildRoleLinks E).2 u r = gHolds lib (buildRoleLinks E').2 u r := by
  have hiff : ∀ x y, StoredLinks E.model x y ↔ StoredLinks E'.model x y := by
    intro x y
    unfold StoredLinks
    constructor
    · rintro ⟨t, a, ha, s, hs1, hs2⟩
      rcases hs t with ⟨n1, _⟩ | ⟨b, b', e1, e2, e3, e4⟩
      · rw [n1] at ha; simp at ha
      · rw [e1] at ha; cases ha
        exact ⟨t, b', e2, s, e4.mem_iff.mp hs1, by rw [e3]; exact hs2⟩
    · rintro ⟨t, a, ha, s, hs1, hs2⟩
      rcases hs t with ⟨_, n1⟩ | ⟨b, b', e1, e2, e3, e4⟩
      · rw [n1] at ha; simp at ha
      · rw [e2] at ha; cases ha
        exact ⟨t, b, e1, s, e4.mem_iff.mpr hs1, by rw [← e3]; exact hs2⟩
  obtain ⟨F, s, f1, f2, f3, f4, _⟩ := C24_rebuild_partial E rm h hp hg
  obtain ⟨F', s', f1', f2', f3', f4', _⟩ := C24_rebuild_partial E' rm' h' hp' hg'
  rw [f1, f1']
  obtain ⟨b, e1, e2⟩ := gHolds_eq lib F s f2 u r
  obtain ⟨b', e1', e2'⟩ := gHolds_eq lib F' s' f2' u r
  rw [e1, e1']
  have : b = b' := by
    rw [Bool.eq_iff_iff, e2, e2', f3, f3', hl]
    constructor
    · rintro ⟨n, hn, hpth⟩
      exact ⟨n, hn, hpth.congr fun x y => by rw [f4, f4', hiff]⟩
    · rintro ⟨n, hn, hpth⟩
      exact ⟨n, hn, hpth.congr fun x y => by rw [f4, f4', hiff]⟩
  rw [this]

/-- A pattern function: a name matches itself, and everything starting with `b` matches `b*`. -/
def bStar (name pat : Str) : Bool :=
  decide (name = pat) || (decide (pat = c!"b*") && decide (name.head? = some 'b'))

/-- C24 is false with a pattern function: the answer depends on the order of the rules. -/
theorem C24_order_fails : ¬ ∀ (_ : IterOrder) (lib : ExprLib) (E E' : Enforcer) (rm : RM)
    (u r : Str), E.heap[E.rm]? = some rm → E'.heap[E'.rm]? = some rm →
    SameGroups E.model E'.model →
    gHolds lib (buildRoleLinks E).2 u r = gHolds lib (buildRoleLinks E').2 u r := by
  intro h
  have h1 := @h insertionOrder noLib
    { Fixtures.rbac [] [[c!"alice", c!"b1"], [c!"b*", c!"library"]] with heap := [(RM.new 10).addMatchingFunc bStar] }
    { Fixtures.rbac [] [[c!"b*", c!"library"], [c!"alice", c!"b1"]] with heap := [(RM.new 10).addMatchingFunc bStar] }
    _ c!"alice" c!"library" rfl rfl (by
      intro t
      by_cases ht : t = c!"g"
      · subst ht
        exact .inr ⟨_, _, rfl, rfl, rfl, List.Perm.swap ..⟩
      · have ht' : ¬ ['g'] = t := fun e => ht e.symm
        left
        constructor <;> simp [Model.find, Fixtures.rbac, Fixtures.enforcer, Fixtures.rbacModel,
          UMap.get, ht'])
  exact absurd h1 (by decide +kernel)

/-- Non-vacuity of C24: a role manager with a stale link, two stored rules. -/
example : (letI := insertionOrder
    (buildRoleLinks { Fixtures.rbac [] [[c!"alice", c!"admin"], [c!"admin", c!"root"]] with heap := [runCalls (RM.new 10) [.add c!"eve" c!"root" []]] }).2.heap.map RM.roles)
    = [[(c!"alice", [c!"admin"]), (c!"admin", [c!"root"]), (c!"root", [])]] := by decide +kernel

theorem groupsOk_rbac (P G : List Rule) (hG : ∀ r ∈ G, 2 ≤ r.length) :
    GroupsOk (Fixtures.rbacModel P G) := by
  intro t a ha
  by_cases ht : c!"g" = t
  · subst ht
    have : a = Fixtures.asrt c!"g" c!"_, _" [] (.vector G) := by
      have h : (Fixtures.rbacModel P G).find c!"g" c!"g" =
        some (Fixtures.asrt c!"g" c!"_, _" [] (.vector G)) := rfl
      rw [h] at ha; exact (Option.some.inj ha).symm
    subst this
    exact ⟨.inl rfl, hG⟩
  · exfalso
    simp [Model.find, Fixtures.rbacModel, UMap.get, ht] at ha

example : GroupsOk (Fixtures.rbac [] [[c!"alice", c!"admin"], [c!"admin", c!"root"]]).model :=
  groupsOk_rbac _ _ (by decide)

/-! ## C23 -/

/-- The circumstances under which a grouping call keeps rules and links together. Adding: every
rule has enough values and is not a rearrangement of a stored rule (other than being stored).
Updating: both rules have enough values, no stored rule is a rearrangement of one of them other than
the old rule itself, which is stored once and is the only rule giving its link. -/
def Faithful (E : Enforcer) : Edit → Prop
  | .add true pt r => ∀ a, E.model.find c!"g" pt = some a →
      countChar '_' a.value ≤ r.length ∧ (a.policy.Similar r → r ∈ a.policy.items)
  | .addMany true pt rs | .removeMany true pt rs => ∀ a, E.model.find c!"g" pt = some a →
      ∀ r ∈ rs, countChar '_' a.value ≤ r.length
  | .update true pt o n => ∀ a, E.model.find c!"g" pt = some a →
      countChar '_' a.value ≤ o.length ∧ countChar '_' a.value ≤ n.length ∧
      (∀ s ∈ a.policy.items, o.Perm s ∨ n.Perm s → s = o) ∧ a.policy.items.count o ≤ 1 ∧
      ∀ x y, LinkOf (countChar '_' a.value) o x y →
        (∀ t, t ≠ pt → ¬ TypeLinks E.model t x y) ∧
        ∀ s ∈ a.policy.items, LinkOf (countChar '_' a.value) s x y → s = o
  | _ => True

theorem sameG_mirrors {lvl : Nat} {E E' : Enforcer} (h : Mirrors lvl E)
    (hf : ∀ t, E'.model.find c!"g" t = E.model.find c!"g" t) (hh : E'.heap = E.heap)
    (hr : E'.rm = E.rm) : Mirrors lvl E' := by
  refine ⟨?_, ?_⟩
  · intro t a ha; rw [hf] at ha; exact h.groups t a ha
  · refine (h.links.of_heap hh hr).congr ?_
    intro x y
    unfold StoredLinks
    simp only [hf]

theorem editedAt_p {pt : Str} {m m' : Model} (h : m.EditedAt c!"p" pt m') (t : Str) :
    m'.find c!"g" t = m.find c!"g" t := by
  rcases h with rfl | ⟨a, P, ha, rfl⟩
  · rfl
  · exact Model.find_put_ne _ _ (by simp)

theorem p_step {α : Type} (op : M Model α) (test : α → Bool) (link : α → M Enforcer Unit)
    (save : M Enforcer Unit) (c : Option AdapterCall) (hs : SaveStep save c)
    (hlink : ∀ a E, link a E = (.ok (), E)) {pt : Str}
    (hop : ∀ m : Model, m.EditedAt c!"p" pt (op m).2) {lvl : Nat} {E : Enforcer} (hm : Mirrors lvl E)
    {b : Bool} {R : Enforcer}
    (h : (do
        let a ← onModel op
        if !(test a) then pure false
        else do
          link a
          save
          notify
          pure true : M Enforcer Bool) E = (.ok b, R)) : Mirrors lvl R := by
  obtain ⟨a, m', h1, h2, h3, h4⟩ := edit_shape op test link save c hs E b R h
  have hg := editedAt_p (hop E.model)
  rw [h1] at hg
  cases ht : test a with
  | false => rw [h3 ht]; exact sameG_mirrors hm hg rfl rfl
  | true =>
    obtain ⟨E1, e1, hc⟩ := h4 ht
    rw [hlink] at e1
    simp only [Prod.mk.injEq, true_and] at e1
    subst e1
    exact mirrors_core (E := { E with model := m' }) (sameG_mirrors hm hg rfl rfl) hc

variable [IterOrder]

theorem linkIfG_g (op : PolicyOp) (pt : Str) (rs : List Rule) (E : Enforcer) :
    linkIfG c!"g" op pt rs E = buildIncremental op pt rs E := by simp [linkIfG]

omit [IterOrder] in
theorem find_of_ok {α : Type} {m : Model} {pt : Str} {op : M Model α} {b : α} {m' : Model}
    (h : op m = (.ok b, m')) (hn : m.find c!"g" pt = none → ∀ b, (op m).1 ≠ .ok b) :
    ∃ a, m.find c!"g" pt = some a := by
  cases ha : m.find c!"g" pt with
  | none => exact absurd (by rw [h]) (hn ha b)
  | some a => exact ⟨a, rfl⟩

theorem addPolicy_none {m : Model} {s t : Str} (h : m.find s t = none) (r : Rule) :
    ∀ b, (Model.addPolicy s t r m).1 ≠ .ok b := by
  simp [Model.addPolicy, M.bind_run, Model.hasPolicy_none h]

/-- Adding one grouping rule. -/
theorem add_step {lvl : Nat} {E : Enforcer} (hm : Mirrors lvl E) {pt : Str} {r : Rule}
    (hf : Faithful E (.add true pt r)) {b : Bool} {R : Enforcer}
    (h : addNamedGroupingPolicy pt r E = (.ok b, R)) : Mirrors lvl R := by
  obtain ⟨E1, h1, h2, h3⟩ := then_shape h
  obtain ⟨m', e1, e2, e3⟩ := edit_shape_bool _ _ _ _ (saveStep_call _) E b E1 h1
  obtain ⟨a, ha⟩ := find_of_ok e1 (fun hn => addPolicy_none hn r)
  obtain ⟨hlen, hsim⟩ := hf a ha
  have hn := (hm.groups pt a ha).1
  have hlens : ∀ s ∈ [r], countChar '_' a.value ≤ s.length := by simpa using hlen
  rw [Model.addPolicy_run ha] at e1
  by_cases hs : a.policy.Similar r
  · rw [if_pos hs] at e1
    simp only [Prod.mk.injEq, Outcome.ok.injEq] at e1
    obtain ⟨rfl, rfl⟩ := e1
    have := e2 rfl
    subst this
    cases hb : E.autoBuild with
    | false => rw [h3 hb]; exact hm
    | true =>
      obtain ⟨E2, g1, g2, g3⟩ := buildIncremental_rmIs hm.links ha hn [r] hlens
      have h2' := h2 hb
      rw [show ({ E with model := E.model } : Enforcer) = E from rfl, g1] at h2'
      cases h2'
      refine ⟨groupsOk_congr g2.1 hm.groups, g3.congr ?_⟩
      intro x y
      rw [storedLinks_congr g2.1]
      constructor
      · rintro (h | ⟨s, hs1, hl⟩)
        · exact h
        · simp only [List.mem_singleton] at hs1
          subst hs1
          exact ⟨pt, a, ha, s, hsim hs, hl⟩
      · exact .inl
  · rw [if_neg hs] at e1
    simp only [Prod.mk.injEq, Outcome.ok.injEq] at e1
    obtain ⟨rfl, rfl⟩ := e1
    obtain ⟨E2, g1, hc⟩ := e3 rfl
    rw [linkIfG_g] at g1
    generalize hm' : E.model.put c!"g" pt { a with policy := a.policy.emplace r } = m' at *
    have ha' : m'.find c!"g" pt = some { a with policy := a.policy.emplace r } := by
      rw [← hm']; exact Model.find_put_self ..
    have hg' : GroupsOk m' := by
      rw [← hm']
      refine groupsOk_put hm.groups ha ?_
      intro s hs'
      rcases (Policies.mem_emplace _ _ _).mp hs' with h | rfl
      · exact .inl h
      · exact .inr hlen
    have hlinks : ∀ x y, StoredLinks m' x y ↔ StoredLinks E.model x y ∨
        ∃ s ∈ [r], LinkOf (countChar '_' a.value) s x y := by
      intro x y
      rw [← hm', storedLinks_put, storedLinks_split ha]
      simp only [Policies.mem_emplace, List.mem_singleton, exists_eq_left]
      constructor
      · rintro (⟨s, h | rfl, hl⟩ | h)
        · exact .inl (.inl ⟨s, h, hl⟩)
        · exact .inr hl
        · exact .inl (.inr h)
      · rintro ((⟨s, h, hl⟩ | h) | h)
        · exact .inl ⟨s, .inl h, hl⟩
        · exact .inr h
        · exact .inl ⟨r, .inr rfl, h⟩
    obtain ⟨E3, k1, k2, k3⟩ := buildIncremental_rmIs (E := { E with model := m' })
      (hm.links.of_heap rfl rfl) ha' hn [r] hlens
    rw [k1] at g1
    cases g1
    have hmir : Mirrors lvl E2 := by
      refine ⟨groupsOk_congr k2.1 hg', k3.congr ?_⟩
      intro x y
      rw [storedLinks_congr k2.1, hlinks]
    have hmir1 := mirrors_core hmir hc
    cases hb : E1.autoBuild with
    | false => rw [h3 hb]; exact hmir1
    | true =>
      have hrules : m'.SameRules E1.model := by rw [hc.1]; exact k2.1
      obtain ⟨p, hp⟩ := hrules.some ha'
      obtain ⟨E4, q1, q2, q3⟩ := buildIncremental_rmIs hmir1.links hp hn [r] hlens
      have h2' := h2 hb
      rw [q1] at h2'
      cases h2'
      refine ⟨groupsOk_congr q2.1 hmir1.groups, q3.congr ?_⟩
      intro x y
      rw [storedLinks_congr q2.1, storedLinks_congr hrules, hlinks]
      tauto

theorem addPolicies_nil (s t : Str) (m : Model) : Model.addPolicies s t [] m = (.ok true, m) := rfl

/-- Adding several rules (also what `RemoveGroupingPolicies` does). -/
theorem addMany_step {lvl : Nat} {E : Enforcer} (hm : Mirrors lvl E) {pt : Str} {rs : List Rule}
    (hf : Faithful E (.addMany true pt rs)) (save : M Enforcer Unit) {c : Option AdapterCall}
    (hs : SaveStep save c) {b : Bool} {R : Enforcer}
    (h : (do
        let a ← onModel (Model.addPolicies c!"g" pt rs)
        if !a then pure false
        else do
          linkIfG c!"g" .add pt rs
          save
          notify
          pure true : M Enforcer Bool) E = (.ok b, R)) : Mirrors lvl R := by
  obtain ⟨m', e1, e2, e3⟩ := edit_shape_bool _ _ _ _ hs E b R h
  by_cases hr : E.model.find c!"g" pt = none
  · -- nothing is defined: only the empty list gets past the presence check, and then the link
    -- building dereferences null
    exfalso
    cases rs with
    | nil =>
      rw [addPolicies_nil] at e1
      simp only [Prod.mk.injEq, Outcome.ok.injEq] at e1
      obtain ⟨rfl, rfl⟩ := e1
      obtain ⟨E1, g1, _⟩ := e3 rfl
      rw [linkIfG_g] at g1
      simp [buildIncremental, M.bind_run, hr] at g1
    | cons r rs =>
      simp [Model.addPolicies, Model.anyPresent, M.bind_run, Model.hasPolicy_none hr] at e1
  obtain ⟨a, ha⟩ := Option.ne_none_iff_exists'.mp hr
  have hlens := hf a ha
  have hn := (hm.groups pt a ha).1
  rw [Model.addPolicies_run ha] at e1
  by_cases hsim : ∃ r ∈ rs, a.policy.Similar r
  · rw [if_pos hsim] at e1
    simp only [Prod.mk.injEq, Outcome.ok.injEq] at e1
    obtain ⟨rfl, rfl⟩ := e1
    rw [e2 rfl]
    exact hm
  · rw [if_neg hsim] at e1
    simp only [Prod.mk.injEq, Outcome.ok.injEq] at e1
    obtain ⟨rfl, rfl⟩ := e1
    obtain ⟨E2, g1, hc⟩ := e3 rfl
    rw [linkIfG_g] at g1
    generalize hm' : E.model.put c!"g" pt { a with policy := Model.emplaceList a.policy rs } = m' at *
    have ha' : m'.find c!"g" pt = some { a with policy := Model.emplaceList a.policy rs } := by
      rw [← hm']; exact Model.find_put_self ..
    have hg' : GroupsOk m' := by
      rw [← hm']
      refine groupsOk_put hm.groups ha ?_
      intro s hs'
      rcases (Model.mem_emplaceList _ _ _).mp hs' with h | h
      · exact .inl h
      · exact .inr (hlens s h)
    obtain ⟨E3, k1, k2, k3⟩ := buildIncremental_rmIs (E := { E with model := m' })
      (hm.links.of_heap rfl rfl) ha' hn rs hlens
    rw [k1] at g1
    cases g1
    refine mirrors_core ⟨groupsOk_congr k2.1 hg', k3.congr ?_⟩ hc
    intro x y
    rw [storedLinks_congr k2.1, ← hm', storedLinks_put, storedLinks_split ha]
    simp only [Model.mem_emplaceList]
    constructor
    · rintro ((⟨s, h, hl⟩ | h) | ⟨s, h, hl⟩)
      · exact .inl ⟨s, .inl h, hl⟩
      · exact .inr h
      · exact .inl ⟨s, .inr h, hl⟩
    · rintro (⟨s, h | h, hl⟩ | h)
      · exact .inl (.inl ⟨s, h, hl⟩)
      · exact .inr ⟨s, h, hl⟩
      · exact .inl (.inr h)

omit [IterOrder] in
theorem groupsOk_edited {pt : Str} {m m' : Model} (hg : GroupsOk m)
    (h : m' = m ∨ ∃ a P, m.find c!"g" pt = some a ∧ m' = m.put c!"g" pt { a with policy := P } ∧
      ∀ r ∈ P.items, r ∈ a.policy.items) : GroupsOk m' := by
  rcases h with rfl | ⟨a, P, ha, rfl, hP⟩
  · exact hg
  · exact groupsOk_put hg ha fun r hr => .inl (hP r hr)

theorem rebuild_step {lvl : Nat} {E1 R : Enforcer} (hp : NoPat lvl E1) (hg : GroupsOk E1.model)
    (h : buildRoleLinks E1 = (.ok (), R)) : Mirrors lvl R := by
  obtain ⟨E', e1, _, e3⟩ := buildRoleLinks_mirrors hp hg
  rw [e1] at h
  cases h
  exact e3

omit [IterOrder] in
theorem noPat_core {lvl : Nat} {E E' : Enforcer} (h : NoPat lvl E) (hc : SameCore E E') :
    NoPat lvl E' := h.of_heap hc.2.1 hc.2.2.1

theorem remove_step {lvl : Nat} {E : Enforcer} (hm : Mirrors lvl E) (hauto : E.autoBuild = true)
    {pt : Str} {r : Rule} {b : Bool} {R : Enforcer}
    (h : removeNamedGroupingPolicy pt r E = (.ok b, R)) : Mirrors lvl R := by
  obtain ⟨E1, h1, h2, _⟩ := then_shape h
  have hdid := removePolicyI_did c!"g" pt r E
  rw [h1] at hdid
  have hauto1 : E1.autoBuild = true := hdid.rest.2.2.2.2.1.trans hauto
  obtain ⟨m', e1, e2, e3⟩ := edit_shape_bool _ _ _ _ (saveStep_call _) E b E1 h1
  refine rebuild_step ?_ ?_ (h2 hauto1)
  · cases b with
    | false => rw [e2 rfl]; exact hm.links.noPat.of_heap rfl rfl
    | true =>
      obtain ⟨E2, g1, hc⟩ := e3 rfl
      rw [linkIfG_g] at g1
      have := buildIncremental_noPat (E := { E with model := m' })
        (hm.links.noPat.of_heap rfl rfl) .add pt [r]
      rw [g1] at this
      exact noPat_core this hc
  · refine groupsOk_congr hdid.rules ?_
    refine groupsOk_edited (pt := pt) hm.groups ?_
    cases ha : E.model.find c!"g" pt with
    | none => left; simp [Model.removePolicy, Model.eraseRule, M.bind_run, Model.at_none ha]
    | some a =>
      rw [Model.removePolicy, Model.eraseRule_run ha]
      cases hx : a.policy.eraseFirst (fun x => arrayEquals r x) with
      | none => exact .inl rfl
      | some P =>
        obtain ⟨pre, s, post, q1, q2, _⟩ := Policies.eraseFirst_some hx
        refine .inr ⟨a, P, rfl, rfl, ?_⟩
        intro t ht
        rw [q2] at ht
        rw [q1]
        simp only [List.mem_append, List.mem_cons] at ht ⊢
        tauto

theorem removeFiltered_step {lvl : Nat} {E : Enforcer} (hm : Mirrors lvl E)
    (hauto : E.autoBuild = true) {pt : Str} {i : Nat} {vs : List Str} {b : Bool} {R : Enforcer}
    (h : removeFilteredNamedGroupingPolicy pt i vs E = (.ok b, R)) : Mirrors lvl R := by
  obtain ⟨E1, h1, h2, _⟩ := then_shape h
  have hdid := removeFilteredI_did true pt i vs E
  rw [show Edit.secOf true = c!"g" from rfl, h1] at hdid
  have hauto1 : E1.autoBuild = true := hdid.rest.2.2.2.2.1.trans hauto
  obtain ⟨x, m', e1, e0, e2, e3⟩ := edit_shape (Model.removeFilteredPolicy c!"g" pt i vs) Prod.fst
    (fun a => linkIfG c!"g" .remove pt a.2) _ _ (saveStep_call (.removeFiltered c!"g" pt i vs)) E b
    E1 h1
  refine rebuild_step ?_ ?_ (h2 hauto1)
  · cases ht : x.1 with
    | false => rw [e2 ht]; exact hm.links.noPat.of_heap rfl rfl
    | true =>
      obtain ⟨E2, g1, hc⟩ := e3 ht
      rw [linkIfG_g] at g1
      have := buildIncremental_noPat (E := { E with model := m' })
        (hm.links.noPat.of_heap rfl rfl) .remove pt x.2
      rw [g1] at this
      exact noPat_core this hc
  · refine groupsOk_congr hdid.rules ?_
    rw [onStore_removeFiltered, show Edit.secOf true = c!"g" from rfl]
    refine groupsOk_edited (pt := pt) hm.groups ?_
    cases ha : E.model.find c!"g" pt with
    | none => left; simp [Model.removeFilteredPolicy, M.bind_run, Model.at_none ha]
    | some a =>
      simp only [Model.removeFilteredPolicy, M.bind_run, Model.at_run ha, M.lift_run]
      cases hx : Model.partitionFilter i vs a.policy.iterate with
      | throw e => exact .inl rfl
      | ub u => exact .inl rfl
      | ok yn =>
        obtain ⟨yes, no⟩ := yn
        simp only [Model.setPolicy_run ha, M.pure_run]
        refine .inr ⟨a, _, rfl, rfl, ?_⟩
        intro t ht
        exact (Policies.mem_iterate _ _).mp
          ((Model.partitionFilter_split i vs _ _ _ hx).2.subset ht)

/-- Updating a rule. -/
theorem update_step {lvl : Nat} {E : Enforcer} (hm : Mirrors lvl E) {pt : Str} {o n : Rule}
    (hf : Faithful E (.update true pt o n)) {b : Bool} {R : Enforcer}
    (h : updateNamedGroupingPolicy pt o n E = (.ok b, R)) : Mirrors lvl R := by
  unfold updateNamedGroupingPolicy updatePolicyI at h
  rw [updateShape] at h
  obtain ⟨m', e1, e2, e3⟩ := edit_shape_bool _ _ _ _ saveStep_none E b R h
  obtain ⟨a, ha⟩ := find_of_ok (pt := pt) e1 (fun hn => by
    simp [Model.updatePolicy, Model.eraseRule, M.bind_run, Model.at_none hn])
  obtain ⟨ho, hnl, hperm, hcount, huniq⟩ := hf a ha
  have hn := (hm.groups pt a ha).1
  simp only [Model.updatePolicy, M.bind_run, Model.eraseRule_run ha] at e1
  cases hx : a.policy.eraseFirst (fun x => arrayEquals o x) with
  | none =>
    simp only [hx, Bool.not_false, if_true, M.pure_run, Prod.mk.injEq, Outcome.ok.injEq] at e1
    obtain ⟨rfl, rfl⟩ := e1
    rw [e2 rfl]
    exact hm
  | some P =>
    obtain ⟨pre, s, post, q1, q2, q3, _⟩ := Policies.eraseFirst_some hx
    have hso : s = o := hperm s (by rw [q1]; simp) (.inl ((arrayEquals_iff o s).mp q3))
    subst hso
    have hnot : s ∉ pre ++ post := by
      intro hin
      rw [q1] at hcount
      have h1 : 0 < (pre ++ post).count s := List.count_pos_iff.mpr hin
      rw [List.count_append] at h1 hcount
      rw [List.count_cons_self] at hcount
      omega
    have hPitems : P.items = pre ++ post := by rw [q2]
    have hsub : ∀ r ∈ P.items, r ∈ a.policy.items := by
      intro r hr
      rw [hPitems] at hr
      rw [q1]
      simp only [List.mem_append, List.mem_cons] at hr ⊢
      tauto
    have hfind1 : (E.model.put c!"g" pt { a with policy := P }).find c!"g" pt =
        some { a with policy := P } := Model.find_put_self ..
    have hns : ¬ P.Similar n := by
      rintro ⟨t, ht, hp⟩
      have := hperm t (hsub t ht) (.inr hp)
      subst this
      exact hnot (hPitems ▸ ht)
    simp only [hx, Bool.not_true, Bool.false_eq_true, if_false, M.bind_run,
      Model.hasPolicy_run hfind1, hns, decide_false, Model.at_run hfind1,
      Model.setPolicy_run hfind1, M.pure_run, Prod.mk.injEq, Outcome.ok.injEq, Model.put_put] at e1
    obtain ⟨rfl, rfl⟩ := e1
    obtain ⟨E1, g1, hc⟩ := e3 rfl
    simp only [M.bind_run, linkIfG_g] at g1
    generalize hm' : E.model.put c!"g" pt { a with policy := P.emplace n } = m' at *
    have ha' : m'.find c!"g" pt = some { a with policy := P.emplace n } := by
      rw [← hm']; exact Model.find_put_self ..
    have hg' : GroupsOk m' := by
      rw [← hm']
      refine groupsOk_put hm.groups ha ?_
      intro r hr
      rcases (Policies.mem_emplace _ _ _).mp hr with h | rfl
      · exact .inl (hsub r h)
      · exact .inr hnl
    have hstored : s ∈ a.policy.items := by rw [q1]; simp
    obtain ⟨E2, k1, k2, k3⟩ := buildIncremental_rmIs_remove (E := { E with model := m' })
      (hm.links.of_heap rfl rfl) ha' hn [s] (by simpa using ho) (by
        intro r hr x y hl
        simp only [List.mem_singleton] at hr
        subst hr
        exact ⟨pt, a, ha, r, hstored, hl⟩)
    rw [k1] at g1
    simp only [] at g1
    obtain ⟨p, hp⟩ := k2.1.some ha'
    obtain ⟨E3, l1, l2, l3⟩ := buildIncremental_rmIs k3 hp hn [n] (by simpa using hnl)
    rw [l1] at g1
    cases g1
    have hrules := k2.1.trans l2.1
    refine mirrors_core ⟨groupsOk_congr hrules hg', l3.congr ?_⟩ hc
    intro x y
    rw [storedLinks_congr hrules, ← hm', storedLinks_put, storedLinks_split ha]
    simp only [Policies.mem_emplace, List.mem_singleton, exists_eq_left]
    constructor
    · rintro (⟨⟨t, ht, hl⟩ | ⟨t, hne, hl⟩, hno⟩ | hl)
      · refine .inl ⟨t, .inl ?_, hl⟩
        rw [q1] at ht
        rw [hPitems]
        simp only [List.mem_append, List.mem_cons] at ht ⊢
        rcases ht with h | rfl | h
        · exact .inl h
        · exact absurd hl hno
        · exact .inr h
      · exact .inr ⟨t, hne, hl⟩
      · exact .inl ⟨n, .inr rfl, hl⟩
    · rintro (⟨t, ht | rfl, hl⟩ | ⟨t, hne, hl⟩)
      · refine .inl ⟨.inl ⟨t, hsub t ht, hl⟩, fun hno => ?_⟩
        have := (huniq x y hno).2 t (hsub t ht) hl
        subst this
        exact hnot (hPitems ▸ ht)
      · exact .inr hl
      · exact .inl ⟨.inr ⟨t, hne, hl⟩, fun hno => (huniq x y hno).1 t hne hl⟩

/-- One call that returns keeps links and rules together. -/
theorem mirror_step {lvl : Nat} {E : Enforcer} (hm : Mirrors lvl E) (hauto : E.autoBuild = true)
    (e : Edit) (hf : Faithful E e) {b : Bool} {R : Enforcer} (h : e.run E = (.ok b, R)) :
    Mirrors lvl R := by
  cases e with
  | add g pt r =>
    cases g with
    | true => exact add_step hm hf h
    | false =>
      exact p_step _ (fun b => b) (fun _ => linkIfG c!"p" .add pt [r]) _ _
        (saveStep_call (.add c!"p" pt r)) (fun _ _ => linkIfG_p ..)
        (fun m => Model.addPolicy_edited ..) hm h
  | addMany g pt rs =>
    cases g with
    | true => exact addMany_step hm hf _ (saveStep_batch (.addMany c!"g" pt rs)) h
    | false =>
      exact p_step _ (fun b => b) (fun _ => linkIfG c!"p" .add pt rs) _ _
        (saveStep_batch (.addMany c!"p" pt rs)) (fun _ _ => linkIfG_p ..)
        (fun m => Model.addPolicies_edited ..) hm h
  | remove g pt r =>
    cases g with
    | true => exact remove_step hm hauto h
    | false =>
      exact p_step _ (fun b => b) (fun _ => linkIfG c!"p" .add pt [r]) _ _
        (saveStep_call (.remove c!"p" pt r)) (fun _ _ => linkIfG_p ..)
        (fun m => Model.eraseRule_edited ..) hm h
  | removeMany g pt rs =>
    cases g with
    | true => exact addMany_step (rs := rs) hm hf _ (saveStep_batch (.removeMany c!"g" pt rs)) h
    | false =>
      exact p_step _ (fun b => b) (fun _ => linkIfG c!"p" .add pt rs) _ _
        (saveStep_batch (.removeMany c!"p" pt rs)) (fun _ _ => linkIfG_p ..)
        (fun m => Model.addPolicies_edited ..) hm h
  | removeFiltered g pt i vs =>
    cases g with
    | true => exact removeFiltered_step hm hauto h
    | false =>
      exact p_step (Model.removeFilteredPolicy c!"p" pt i vs) Prod.fst
        (fun a => linkIfG c!"p" .remove pt a.2) _ _
        (saveStep_call (.removeFiltered c!"p" pt i vs)) (fun _ _ => linkIfG_p ..)
        (fun m => Model.removeFilteredPolicy_edited ..) hm h
  | update g pt o n =>
    cases g with
    | true => exact update_step hm hf h
    | false =>
      have h' : updatePolicyI c!"p" pt o n E = (.ok b, R) := h
      unfold updatePolicyI at h'
      rw [updateShape] at h'
      exact p_step _ (fun b => b) (fun _ => _) _ _ saveStep_none
        (fun _ E => by simp only [M.bind_run, linkIfG_p])
        (fun m => Model.updatePolicy_edited ..) hm h'
  | updateMany pt o n =>
    have h' : updatePoliciesI c!"p" pt o n E = (.ok b, R) := h
    unfold updatePoliciesI at h'
    rw [updateShape] at h'
    exact p_step _ (fun b => b) (fun _ => _) _ _ saveStep_none
      (fun _ E => by simp only [M.bind_run, linkIfG_p])
      (fun m => Model.updatePolicies_edited ..) hm h'

/-- Run a sequence of editing calls, keeping the state also when a call throws. -/
def runEdits : List Edit → Enforcer → Enforcer
  | [], E => E
  | e :: es, E => runEdits es (e.run E).2

/-- Every call of the sequence returns (does not throw) and is faithful in the state it meets. -/
def AllFaithful : List Edit → Enforcer → Prop
  | [], _ => True
  | e :: es, E => Faithful E e ∧ (e.run E).1.IsOk ∧ AllFaithful es (e.run E).2

/-- C23: with automatic building, after any sequence of calls that return and are faithful, the
links are exactly those of the stored grouping rules. Missing: calls that are not faithful or
throw, for which links and rules come apart (`C23_add_fails`, `C23_update_fails`). -/
theorem C23_mirror_partial (lvl : Nat) (es : List Edit) : ∀ (E : Enforcer), Mirrors lvl E →
    E.autoBuild = true → AllFaithful es E → Mirrors lvl (runEdits es E) := by
  induction es with
  | nil => intro E h _ _; exact h
  | cons e es ih =>
    intro E hm hauto ⟨hf, hok, hrest⟩
    have hdid := Edit.did e E
    rcases hx : e.run E with ⟨o, R⟩
    rw [hx] at hok hrest hdid
    cases o with
    | throw _ => exact absurd hok (by simp [Outcome.IsOk])
    | ub _ => exact absurd hok (by simp [Outcome.IsOk])
    | ok b =>
      simp only [runEdits, hx]
      exact ih R (mirror_step hm hauto e hf hx) (hdid.rest.2.2.2.2.1.trans hauto) hrest

/-- C23, what enforcement sees: `g(u, r)` after such a sequence is reachability through at most
`lvl` stored grouping rules. -/
theorem C23_membership_partial (lvl : Nat) (es : List Edit) (E : Enforcer) (hm : Mirrors lvl E)
    (hauto : E.autoBuild = true) (hf : AllFaithful es E) (lib : ExprLib) (u r : Str) :
    ∃ b, gHolds lib (runEdits es E) u r = .ok (Val.ofBool b) ∧
      (b = true ↔ ∃ n ≤ lvl, Path (StoredLinks (runEdits es E).model) n u r) := by
  obtain ⟨rm, h1, h2, h3⟩ := (C23_mirror_partial lvl es E hm hauto hf).links
  obtain ⟨b, e1, e2⟩ := gHolds_eq lib _ rm h1 u r
  refine ⟨b, e1, ?_⟩
  rw [e2, h2]
  constructor
  · rintro ⟨n, hn, hp⟩; exact ⟨n, hn, hp.congr h3⟩
  · rintro ⟨n, hn, hp⟩; exact ⟨n, hn, hp.congr fun a b => (h3 a b).symm⟩

omit [IterOrder] in
/-- A new enforcer without grouping rules starts in a mirrored state. -/
theorem mirrors_new (m : Model) (hg : GroupsOk m) (hempty : ∀ x y, ¬ StoredLinks m x y) :
    Mirrors 10 (Fixtures.enforcer m) :=
  ⟨hg, RM.new 10, ⟨rfl, RM.WF_new 10, rfl⟩, rfl, fun x y => by
    simp only [RM.Edge, RM.new, RM.direct, UMap.get_nil, List.not_mem_nil, false_iff]
    exact hempty x y⟩

/-- A mirrored state is also what a rebuild leaves. -/
theorem mirrors_rebuilt (E : Enforcer) (h : NoPat 10 E) (hg : GroupsOk E.model) :
    Mirrors 10 (buildRoleLinks E).2 := by
  obtain ⟨E', e1, _, e3⟩ := buildRoleLinks_mirrors h hg
  rw [e1]; exact e3

omit [IterOrder] in
/-- The grouping rules `[[a, b]]` of a two-place type `g` give the one link. -/
theorem storedLinks_rbac (P G : List Rule) (x y : Str) :
    StoredLinks (Fixtures.rbacModel P G) x y ↔ ∃ r ∈ G, ∃ rest, r = x :: y :: rest := by
  constructor
  · rintro ⟨t, a, ha, r, hr, hl⟩
    by_cases ht : c!"g" = t
    · subst ht
      have : a = Fixtures.asrt c!"g" c!"_, _" [] (.vector G) := by
        have h : (Fixtures.rbacModel P G).find c!"g" c!"g" =
          some (Fixtures.asrt c!"g" c!"_, _" [] (.vector G)) := rfl
        rw [h] at ha; exact (Option.some.inj ha).symm
      subst this
      rcases hl with ⟨_, a, b, rest, rfl, rfl, rfl⟩ | ⟨h3, _⟩
      · exact ⟨_, hr, rest, rfl⟩
      · exact absurd (show (2 : Nat) = 3 from h3) (by simp)
    · exfalso
      simp [Model.find, Fixtures.rbacModel, UMap.get, ht] at ha
  · rintro ⟨r, hr, rest, rfl⟩
    exact ⟨c!"g", _, rfl, _, hr, .inl ⟨rfl, x, y, rest, rfl, rfl, rfl⟩⟩

omit [IterOrder] in
theorem sameRules_rbac (P G : List Rule) :
    (Fixtures.rbacModel P G).SameRules ((Fixtures.rbacModel P G).put c!"g" c!"g"
      { Fixtures.asrt c!"g" c!"_, _" [] (.vector G) with rm := some 0 }) :=
  Model.sameRules_putRm (show _ = some (Fixtures.asrt c!"g" c!"_, _" [] (.vector G)) from rfl) _

/-- C23 as stated, for the model of examples/rbac_model.conf: the links of a new enforcer with
grouping rules `G` are built, then a grouping call returns; membership is what the rules say. -/
def C23Full : Prop := ∀ (_ : IterOrder) (lib : ExprLib) (P G : List Rule) (e : Edit) (u v : Str)
    (b : Bool), (∀ r ∈ G, 2 ≤ r.length) → (e.run (buildRoleLinks (Fixtures.rbac P G)).2).1 = .ok b →
    gHolds lib (e.run (buildRoleLinks (Fixtures.rbac P G)).2).2 u v = .ok (.num 1) →
    ∃ n, Path (StoredLinks (e.run (buildRoleLinks (Fixtures.rbac P G)).2).2.model) n u v

omit [IterOrder] in
/-- C23 is false, adding: `AddGroupingPolicy(admin, alice)` on a store with `(alice, admin)` stores
nothing and reports `false`, yet it makes `alice` a role of `admin` (management_api.cpp 230–236
build the link without looking at the answer). -/
theorem C23_add_fails : ¬ C23Full := by
  intro h
  have h1 := @h insertionOrder noLib [] [[c!"alice", c!"admin"]]
    (.add true c!"g" [c!"admin", c!"alice"]) c!"admin" c!"alice" false (by decide)
    (by decide +kernel) (by decide +kernel)
  have hs : (letI := insertionOrder; ((Edit.add true c!"g" [c!"admin", c!"alice"]).run
      (buildRoleLinks (Fixtures.rbac [] [[c!"alice", c!"admin"]])).2).2.model) =
      (Fixtures.rbacModel [] [[c!"alice", c!"admin"]]).put c!"g" c!"g"
        { Fixtures.asrt c!"g" c!"_, _" [] (.vector [[c!"alice", c!"admin"]]) with rm := some 0 } := by
    decide +kernel
  rw [hs] at h1
  obtain ⟨n, hp⟩ := h1
  cases hp with
  | cons h _ =>
    rw [storedLinks_congr (sameRules_rbac _ _), storedLinks_rbac] at h
    obtain ⟨r, hr, rest, rfl⟩ := h
    simp at hr

omit [IterOrder] in
/-- C23 is false, updating: `UpdateGroupingPolicy((alice, admin), (root, bob))` on a store with
`(bob, root)` erases the old rule, finds a rearrangement of the new one, stores nothing and
reports `false`; `alice` keeps the role (model.cpp 298–323, internal_api.cpp 161–163). -/
theorem C23_update_fails : ¬ C23Full := by
  intro h
  have h1 := @h insertionOrder noLib [] [[c!"alice", c!"admin"], [c!"bob", c!"root"]]
    (.update true c!"g" [c!"alice", c!"admin"] [c!"root", c!"bob"]) c!"alice" c!"admin" false
    (by decide) (by decide +kernel) (by decide +kernel)
  have hs : (letI := insertionOrder; ((Edit.update true c!"g" [c!"alice", c!"admin"]
      [c!"root", c!"bob"]).run (buildRoleLinks
        (Fixtures.rbac [] [[c!"alice", c!"admin"], [c!"bob", c!"root"]])).2).2.model) =
      (Fixtures.rbacModel [] [[c!"bob", c!"root"]]).put c!"g" c!"g"
        { Fixtures.asrt c!"g" c!"_, _" [] (.vector [[c!"bob", c!"root"]]) with rm := some 0 } := by
    decide +kernel
  rw [hs] at h1
  obtain ⟨n, hp⟩ := h1
  cases hp with
  | cons h _ =>
    rw [storedLinks_congr (sameRules_rbac _ _), storedLinks_rbac] at h
    obtain ⟨r, hr, rest, rfl⟩ := h
    simp at hr

/-- Non-vacuity of C23: a sequence of faithful calls (the second adds a stored rule again). -/
example : letI := insertionOrder
    AllFaithful [.add true c!"g" [c!"alice", c!"admin"], .add true c!"g" [c!"alice", c!"admin"],
      .remove true c!"g" [c!"alice", c!"admin"]] (Fixtures.rbac [Fixtures.alice] []) := by
  let _ := insertionOrder
  refine ⟨?_, by decide +kernel, ?_, by decide +kernel, trivial, by decide +kernel, trivial⟩
  · intro a ha
    cases ha
    exact ⟨by decide, by intro h; exact absurd h (by decide)⟩
  · intro a ha
    have : a = { Fixtures.asrt c!"g" c!"_, _" [] (.vector [[c!"alice", c!"admin"]]) with rm := some 0 } := by
      have h : (Edit.run (.add true c!"g" [c!"alice", c!"admin"])
          (Fixtures.rbac [Fixtures.alice] [])).2.model.find c!"g" c!"g" =
        some { Fixtures.asrt c!"g" c!"_, _" [] (.vector [[c!"alice", c!"admin"]]) with rm := some 0 } := by
        decide +kernel
      rw [h] at ha; exact (Option.some.inj ha).symm
    subst this
    exact ⟨by decide, fun _ => by decide⟩

example : Mirrors 10 (Fixtures.rbac [Fixtures.alice] []) :=
  mirrors_new _ (groupsOk_rbac _ _ (by simp)) (by simp [storedLinks_rbac])

/-! ## C25 -/

/-- What the matcher function named after grouping type `t` answers when it is registered now
(`LoadGFunction` in enforcer.cpp 56–63): it asks the role manager of the type's definition. The
domain list `ds` is empty or has one element. -/
def typeHolds (lib : ExprLib) (E : Enforcer) (t u r : Str) (ds : List Str) : Outcome Val :=
  match E.model.find c!"g" t with
  | none => .throw .parse
  | some a => (callFun lib (.g a.rm (countChar '_' a.value)) ((u :: r :: ds).map .str) E.heap).1

/-- The names occurring in the links of a type. -/
def TypeNames (m : Model) (t : Str) (x : Str) : Prop := ∃ y, TypeLinks m t x y ∨ TypeLinks m t y x

omit [IterOrder] in
theorem path_mono {R S : Str → Str → Prop} (h : ∀ x y, R x y → S x y) {n : Nat} {x y : Str}
    (hp : Path R n x y) : Path S n x y := by
  induction hp with
  | nil => exact .nil _
  | cons he _ ih => exact .cons (h _ _ he) ih

omit [IterOrder] in
theorem path_separate {m : Model} {t : Str}
    (hsep : ∀ t', t' ≠ t → ∀ x, TypeNames m t' x → ¬ TypeNames m t x) {n : Nat} {x y : Str}
    (hx : ∀ t', t' ≠ t → ¬ TypeNames m t' x) (h : Path (StoredLinks m) n x y) :
    Path (TypeLinks m t) n x y := by
  induction h with
  | nil a => exact .nil a
  | cons hab _ ih =>
    obtain ⟨t', a, ha, r, hr, hl⟩ := hab
    by_cases ht : t' = t
    · subst ht
      have hlink : TypeLinks m t' _ _ := ⟨a, ha, r, hr, hl⟩
      exact .cons hlink (ih fun t'' hne hn => hsep t'' hne _ hn ⟨_, .inr hlink⟩)
    · exact absurd ⟨_, .inl ⟨a, ha, r, hr, hl⟩⟩ (hx t' ht)

/-- C25, the part that holds: after the role links have been built, the function of type `t`
follows only the rules of type `t`, provided the names in its rules (qualified by domain where
there is one) occur in no rule of another type, nor does the asked name. Missing: names shared
between the types (`C25_fails`). -/
theorem C25_independent_partial (lib : ExprLib) (lvl : Nat) (E : Enforcer) (hp : NoPat lvl E)
    (hg : GroupsOk E.model) (t : Str) (a : Assertion) (ht : E.model.find c!"g" t = some a)
    (hsep : ∀ t', t' ≠ t → ∀ x, TypeNames E.model t' x → ¬ TypeNames E.model t x)
    (u r x y : Str) (ds : List Str) (hu : RM.qualify ds u = .ok x) (hr : RM.qualify ds r = .ok y)
    (hx : ∀ t', t' ≠ t → ¬ TypeNames E.model t' x) :
    ∃ b, typeHolds lib (buildRoleLinks E).2 t u r ds = .ok (Val.ofBool b) ∧
      (b = true ↔ ∃ n ≤ lvl, Path (TypeLinks E.model t) n x y) := by
  obtain ⟨rm, h1, h2, rfl⟩ := hp
  obtain ⟨rm', m', e1, s1, w1, p1, l1, ed, _, f1⟩ := buildRoleLinks_run h1 h2 hg
  obtain ⟨p, hfind⟩ := s1.some ht
  have hrm := f1 t _ hfind
  simp only at hrm
  subst hrm
  obtain ⟨b, hb1, hb2⟩ := RM.hasLink_run w1 p1 u r x y ds hu hr
  have hheap : (E.heap.set E.rm rm')[E.rm]? = some rm' := getElem?_set_self' h1
  refine ⟨b, ?_, ?_⟩
  · rw [e1]
    simp only [typeHolds, hfind]
    rcases ds with _ | ⟨d, _ | ⟨d', ds⟩⟩
    · simp [callFun, allStrs, M.bind_run, onHeap, hheap, hb1]
    · simp [callFun, allStrs, M.bind_run, onHeap, hheap, hb1]
    · simp [RM.qualify] at hu
  · rw [hb2, l1]
    constructor
    · rintro ⟨n, hn, hpath⟩
      exact ⟨n, hn, path_separate hsep hx (hpath.congr ed)⟩
    · rintro ⟨n, hn, hpath⟩
      refine ⟨n, hn, path_mono (fun x y hl => (ed x y).mpr ?_) hpath⟩
      obtain ⟨a, ha, r, hr, hl⟩ := hl
      exact ⟨t, a, ha, r, hr, hl⟩

/-- A model with two role definitions, for users (`g`) and for resources (`g2`). -/
def twoTypes (G G2 : List Rule) : Model :=
  [(c!"g", [(c!"g", Fixtures.asrt c!"g" c!"_, _" [] (.vector G)),
    (c!"g2", Fixtures.asrt c!"g2" c!"_, _" [] (.vector G2))])]

omit [IterOrder] in
/-- C25 is false: all types share one role manager (model.cpp 201–204 hands the same one to every
assertion), so a resource rule `g2, reports, admin` makes `reports` a role holder for `g`. -/
theorem C25_fails : ¬ ∀ (_ : IterOrder) (lib : ExprLib) (G G2 G2' : List Rule) (u r : Str),
    typeHolds lib (buildRoleLinks (Fixtures.enforcer (twoTypes G G2))).2 c!"g" u r [] =
    typeHolds lib (buildRoleLinks (Fixtures.enforcer (twoTypes G G2'))).2 c!"g" u r [] := by
  intro h
  have h1 := @h insertionOrder noLib [[c!"alice", c!"staff"]] [] [[c!"staff", c!"admin"]] c!"alice"
    c!"admin"
  exact absurd h1 (by decide +kernel)

omit [IterOrder] in
theorem find_twoTypes (G G2 : List Rule) {t : Str} {a : Assertion}
    (h : (twoTypes G G2).find c!"g" t = some a) :
    (t = c!"g" ∧ a = Fixtures.asrt c!"g" c!"_, _" [] (.vector G)) ∨
    (t = c!"g2" ∧ a = Fixtures.asrt c!"g2" c!"_, _" [] (.vector G2)) := by
  by_cases h1 : c!"g" = t
  · subst h1
    cases h
    exact .inl ⟨rfl, rfl⟩
  · by_cases h2 : c!"g2" = t
    · subst h2
      cases h
      exact .inr ⟨rfl, rfl⟩
    · exfalso
      simp [Model.find, twoTypes, UMap.get, h1, h2] at h

/-- Non-vacuity of C25: user names and resource names are different. -/
example : let m := twoTypes [[c!"alice", c!"admin"]] [[c!"report", c!"reports"]]
    ∀ t', t' ≠ c!"g" → ∀ x, TypeNames m t' x → ¬ TypeNames m c!"g" x := by
  intro m t' ht x hx hx'
  have h1 : x = c!"alice" ∨ x = c!"admin" := by
    obtain ⟨y, ⟨a, ha, r, hr, hl⟩ | ⟨a, ha, r, hr, hl⟩⟩ := hx' <;>
    · cases ha
      simp only [Fixtures.asrt, Policies.vector, List.mem_singleton] at hr
      subst hr
      rcases hl with ⟨_, a, b, rest, h, rfl, rfl⟩ | ⟨h, _⟩
      · simp_all
      · exact absurd h (by decide)
  have h2 : x = c!"report" ∨ x = c!"reports" := by
    obtain ⟨y, ⟨a, ha, r, hr, hl⟩ | ⟨a, ha, r, hr, hl⟩⟩ := hx <;>
    · rcases find_twoTypes _ _ ha with ⟨h, _⟩ | ⟨_, rfl⟩
      · exact absurd h ht
      simp only [Fixtures.asrt, Policies.vector, List.mem_singleton] at hr
      subst hr
      rcases hl with ⟨_, a, b, rest, h, rfl, rfl⟩ | ⟨h, _⟩
      · simp_all
      · exact absurd h (by decide)
  rcases h1 with rfl | rfl <;> simp at h2

end LinkProps
end Casbin
