import Verif.RoleManagerLemmas

/-!
# C17–C20: the default role manager

The specification is a plain set of directed edges between qualified names, computed from the
history of calls (`LinkSet`); it does not mention the data structures of the role manager.
-/

namespace Casbin
namespace RoleProps

open RM (Path qualify)

/-- One call on the role manager. -/
inductive Call
  | add (a b : Str) (domain : List Str)
  | del (a b : Str) (domain : List Str)
  | clear

/-- Run one call, keeping the state left behind also when it throws. -/
def runCall [IterOrder] (rm : RM) : Call → RM
  | .add a b d => (RM.addLink a b d rm).2
  | .del a b d => (RM.deleteLink a b d rm).2
  | .clear => rm.clear

def runCalls [IterOrder] (rm : RM) (cs : List Call) : RM := cs.foldl runCall rm

/-- The edges a call history stands for: the last event about an edge decides. -/
def LinkSet : List Call → Str → Str → Prop
  | [], _, _ => False
  | .add a b d :: older, x, y =>
    (qualify d a = .ok x ∧ qualify d b = .ok y) ∨ LinkSet older x y
  | .del a b d :: older, x, y =>
    ¬ (qualify d a = .ok x ∧ qualify d b = .ok y) ∧ LinkSet older x y
  | .clear :: _, _, _ => False

theorem qualify_cases (d : List Str) : (∃ q : Str → Str, ∀ n, qualify d n = .ok (q n)) ∨
    (2 ≤ d.length ∧ ∀ n, qualify d n = .throw .rbac) := by
  match d with
  | [] => exact Or.inl ⟨id, fun n => rfl⟩
  | [d] => exact Or.inl ⟨_, fun n => rfl⟩
  | _ :: _ :: _ => exact Or.inr ⟨by simp, fun n => rfl⟩

/-- What a state reached by a history satisfies. -/
structure Good (rm : RM) (lvl : Nat) (E : Str → Str → Prop) : Prop where
  wf : rm.WF
  nopat : rm.pattern = none
  level : rm.maxLevel = lvl
  edges : ∀ x y, rm.Edge x y ↔ E x y

theorem good_runCall [IterOrder] {rm : RM} {lvl : Nat} {hist : List Call} (c : Call)
    (h : Good rm lvl (LinkSet hist)) : Good (runCall rm c) lvl (LinkSet (c :: hist)) := by
  cases c with
  | clear =>
    refine ⟨RM.WF_clear rm, h.nopat, h.level, ?_⟩
    intro x y
    simp [runCall, RM.clear, RM.Edge, RM.direct, LinkSet]
  | add a b d =>
    rcases qualify_cases d with ⟨q, hq⟩ | ⟨hd, hq⟩
    · simp only [runCall, RM.addLink_run rm a b _ _ d (hq a) (hq b)]
      refine ⟨RM.WF_addQ h.wf _ _ h.nopat, by rw [RM.addQ_pattern, h.nopat],
        by rw [RM.addQ_maxLevel, h.level], ?_⟩
      intro x y
      rw [RM.edge_addQ _ _ _ _ _ h.nopat, h.edges]
      simp only [LinkSet, hq, Outcome.ok.injEq]
      constructor
      · rintro (h | ⟨rfl, rfl⟩)
        · exact Or.inr h
        · exact Or.inl ⟨rfl, rfl⟩
      · rintro (⟨rfl, rfl⟩ | h)
        · exact Or.inr ⟨rfl, rfl⟩
        · exact Or.inl h
    · simp only [runCall, RM.addLink_bad rm a b d hd]
      refine ⟨h.wf, h.nopat, h.level, ?_⟩
      intro x y
      simp [LinkSet, hq, h.edges]
  | del a b d =>
    rcases qualify_cases d with ⟨q, hq⟩ | ⟨hd, hq⟩
    · simp only [runCall, RM.deleteLink_run rm a b _ _ d (hq a) (hq b)]
      split
      · refine ⟨RM.WF_delQ h.wf _ _ h.nopat, by rw [RM.delQ_pattern, h.nopat],
          by rw [RM.delQ_maxLevel, h.level], ?_⟩
        intro x y
        rw [RM.edge_delQ h.wf _ _ _ _ h.nopat, h.edges]
        simp only [LinkSet, hq, Outcome.ok.injEq]
        constructor
        · rintro ⟨h1, h2⟩; exact ⟨fun h => h2 ⟨h.1.symm, h.2.symm⟩, h1⟩
        · rintro ⟨h1, h2⟩; exact ⟨h2, fun h => h1 ⟨h.1.symm, h.2.symm⟩⟩
      · rename_i hno
        refine ⟨h.wf, h.nopat, h.level, ?_⟩
        intro x y
        simp only [LinkSet, hq, Outcome.ok.injEq]
        rw [h.edges]
        constructor
        · intro hE
          refine ⟨?_, hE⟩
          rintro ⟨rfl, rfl⟩
          apply hno
          have he := (h.edges _ _).mpr hE
          rw [RM.hasRole_none _ _ h.nopat, RM.hasRole_none _ _ h.nopat]
          refine ⟨?_, h.wf.closed _ _ he⟩
          unfold RM.Edge RM.direct at he
          cases hg : rm.roles.get (q a) with
          | none => rw [hg] at he; simp at he
          | some l => exact UMap.mem_keys_of_get hg
        · exact And.right
    · simp only [runCall, RM.deleteLink_bad rm a b d hd]
      refine ⟨h.wf, h.nopat, h.level, ?_⟩
      intro x y
      simp [LinkSet, hq, h.edges]

theorem good_runCalls [IterOrder] (lvl : Nat) (cs : List Call) :
    Good (runCalls (RM.new lvl) cs) lvl (LinkSet cs.reverse) := by
  suffices H : ∀ (cs : List Call) (rm : RM) (hist : List Call),
      Good rm lvl (LinkSet hist) → Good (runCalls rm cs) lvl (LinkSet (cs.reverse ++ hist)) by
    have := H cs (RM.new lvl) [] ⟨RM.WF_new lvl, rfl, rfl, by
      intro x y; simp [RM.new, RM.Edge, RM.direct, LinkSet]⟩
    simpa using this
  intro cs
  induction cs with
  | nil => intro rm hist h; simpa [runCalls] using h
  | cons c cs ih =>
    intro rm hist h
    have := ih (runCall rm c) (c :: hist) (good_runCall c h)
    simpa [runCalls] using this

/-! ## C17 -/

/-- C17: after any history of calls, `HasLink` answers bounded reachability over the edges the
history stands for, never throws (at most one domain), and changes nothing. -/
theorem C17_hasLink [IterOrder] (lvl : Nat) (cs : List Call) (a b : Str) (d : List Str)
    (n1 n2 : Str) (h1 : qualify d a = .ok n1) (h2 : qualify d b = .ok n2) :
    ∃ r, RM.hasLink a b d (runCalls (RM.new lvl) cs) = (.ok r, runCalls (RM.new lvl) cs) ∧
      (r = true ↔ ∃ n ≤ lvl, Path (LinkSet cs.reverse) n n1 n2) := by
  have g := good_runCalls lvl cs
  obtain ⟨r, hr, hiff⟩ := RM.hasLink_run g.wf g.nopat a b n1 n2 d h1 h2
  refine ⟨r, hr, ?_⟩
  rw [hiff, g.level]
  constructor
  · rintro ⟨n, hn, hp⟩; exact ⟨n, hn, hp.congr g.edges⟩
  · rintro ⟨n, hn, hp⟩; exact ⟨n, hn, hp.congr (fun a b => (g.edges a b).symm)⟩

/-- C17: more than one domain value is refused. -/
theorem C17_hasLink_domains [IterOrder] (rm : RM) (a b : Str) (d : List Str) (h : 2 ≤ d.length) :
    RM.hasLink a b d rm = (.throw .rbac, rm) := by
  match d, h with
  | _ :: _ :: _, _ => simp [RM.hasLink, M.bind_run, qualify]

/-- A cyclic graph: alice → admin → root → alice. With bound 1 root is not reached from alice,
with bound 2 it is. -/
def cyclic : List Call :=
  [.add c!"alice" c!"admin" [], .add c!"admin" c!"root" [], .add c!"root" c!"alice" []]

example :
    (letI := insertionOrder; (RM.hasLink c!"alice" c!"root" [] (runCalls (RM.new 1) cyclic)).1)
      = .ok false ∧
    (letI := insertionOrder; (RM.hasLink c!"alice" c!"root" [] (runCalls (RM.new 2) cyclic)).1)
      = .ok true := by
  constructor <;> rfl

example : Path (LinkSet cyclic.reverse) 2 c!"alice" c!"root" :=
  .cons (b := c!"admin") (by simp [LinkSet, cyclic, qualify])
    (.cons (b := c!"root") (by simp [LinkSet, cyclic, qualify]) (.nil _))

/-! ## C18 -/

/-- C18: `AddLink` adds exactly one edge. -/
theorem C18_addLink_edges [IterOrder] (lvl : Nat) (cs : List Call) (a b : Str) (d : List Str)
    (n1 n2 : Str) (h1 : qualify d a = .ok n1) (h2 : qualify d b = .ok n2) (x y : Str) :
    (runCalls (RM.new lvl) (cs ++ [.add a b d])).Edge x y ↔
      (runCalls (RM.new lvl) cs).Edge x y ∨ (x = n1 ∧ y = n2) := by
  have g := good_runCalls lvl cs
  have g' := good_runCalls lvl (cs ++ [.add a b d])
  rw [g'.edges, g.edges]
  simp only [List.reverse_append, List.reverse_cons, List.reverse_nil, List.nil_append,
    List.singleton_append, LinkSet, h1, h2, Outcome.ok.injEq]
  constructor
  · rintro (⟨rfl, rfl⟩ | h)
    · exact Or.inr ⟨rfl, rfl⟩
    · exact Or.inl h
  · rintro (h | ⟨rfl, rfl⟩)
    · exact Or.inr h
    · exact Or.inl ⟨rfl, rfl⟩

/-- C18: `AddLink` is idempotent on the whole state (for every state, reachable or not). -/
theorem C18_addLink_idem [IterOrder] (rm : RM) (a b : Str) (d : List Str)
    (hp : rm.pattern = none) :
    (RM.addLink a b d (RM.addLink a b d rm).2).2 = (RM.addLink a b d rm).2 := by
  rcases qualify_cases d with ⟨q, hq⟩ | ⟨hd, hq⟩
  · simp only [RM.addLink_run _ a b _ _ d (hq a) (hq b)]
    generalize q a = n1
    generalize q b = n2
    have hp' : (rm.addQ n1 n2).pattern = none := by rw [RM.addQ_pattern, hp]
    have k1 : n1 ∈ (rm.addQ n1 n2).roles.keys := by rw [RM.keys_addQ _ _ _ _ hp]; simp
    have k2 : n2 ∈ (rm.addQ n1 n2).roles.keys := by rw [RM.keys_addQ _ _ _ _ hp]; simp
    have he : n2 ∈ RM.direct (rm.addQ n1 n2).roles n1 :=
      (RM.edge_addQ rm n1 n2 n1 n2 hp).mpr (Or.inr ⟨rfl, rfl⟩)
    generalize hg : rm.addQ n1 n2 = s at *
    unfold RM.addQ
    simp only [RM.createRole_known s n1 hp' k1, RM.createRole_known s n2 hp' k2]
    have : RM.addRole s.roles n1 n2 = s.roles := by
      unfold RM.addRole
      unfold RM.direct at he
      cases hgt : s.roles.get n1 with
      | none => rfl
      | some l => rw [hgt] at he; simp only at he ⊢; rw [if_pos he]
    rw [this]
  · simp only [RM.addLink_bad _ a b d hd]

/-- C18: `DeleteLink` of two known names removes exactly that edge. -/
theorem C18_deleteLink_edges [IterOrder] (lvl : Nat) (cs : List Call) (a b : Str) (d : List Str)
    (n1 n2 : Str) (h1 : qualify d a = .ok n1) (h2 : qualify d b = .ok n2) (x y : Str) :
    (runCalls (RM.new lvl) (cs ++ [.del a b d])).Edge x y ↔
      (runCalls (RM.new lvl) cs).Edge x y ∧ ¬ (x = n1 ∧ y = n2) := by
  have g := good_runCalls lvl cs
  have g' := good_runCalls lvl (cs ++ [.del a b d])
  rw [g'.edges, g.edges]
  simp only [List.reverse_append, List.reverse_cons, List.reverse_nil, List.nil_append,
    List.singleton_append, LinkSet, h1, h2, Outcome.ok.injEq]
  constructor
  · rintro ⟨h1, h2⟩; exact ⟨h2, fun h => h1 ⟨h.1.symm, h.2.symm⟩⟩
  · rintro ⟨h1, h2⟩; exact ⟨fun h => h2 ⟨h.1.symm, h.2.symm⟩, h1⟩

/-- A name is known when some earlier call (since the last clear) added a link with it. -/
def Known : List Call → Str → Prop
  | [], _ => False
  | .add a b d :: older, x => qualify d a = .ok x ∨ qualify d b = .ok x ∨ Known older x
  | .del _ _ _ :: older, x => Known older x
  | .clear :: _, _ => False

theorem known_iff [IterOrder] (lvl : Nat) (cs : List Call) (x : Str) :
    x ∈ (runCalls (RM.new lvl) cs).roles.keys ↔ Known cs.reverse x := by
  suffices H : ∀ (cs : List Call) (rm : RM) (hist : List Call), rm.pattern = none →
      (∀ x, x ∈ rm.roles.keys ↔ Known hist x) →
      (∀ x, x ∈ (runCalls rm cs).roles.keys ↔ Known (cs.reverse ++ hist) x) by
    have := H cs (RM.new lvl) [] rfl (by intro x; simp [RM.new, Known]) x
    simpa using this
  intro cs
  induction cs with
  | nil => intro rm hist _ h x; simpa [runCalls] using h x
  | cons c cs ih =>
    intro rm hist hp h x
    have key : (runCall rm c).pattern = none ∧
        ∀ x, x ∈ (runCall rm c).roles.keys ↔ Known (c :: hist) x := by
      cases c with
      | clear => exact ⟨hp, by intro x; simp [runCall, RM.clear, Known]⟩
      | add a b d =>
        rcases qualify_cases d with ⟨q, hq⟩ | ⟨hd, hq⟩
        · simp only [runCall, RM.addLink_run rm a b _ _ d (hq a) (hq b)]
          refine ⟨by rw [RM.addQ_pattern, hp], ?_⟩
          intro x
          rw [RM.keys_addQ _ _ _ _ hp, h]
          simp only [Known, hq, Outcome.ok.injEq]
          rw [eq_comm (a := x), eq_comm (a := x)]
        · simp only [runCall, RM.addLink_bad rm a b d hd]
          exact ⟨hp, by intro x; simp [Known, hq, h]⟩
      | del a b d =>
        rcases qualify_cases d with ⟨q, hq⟩ | ⟨hd, hq⟩
        · simp only [runCall, RM.deleteLink_run rm a b _ _ d (hq a) (hq b)]
          split
          · rename_i hk
            rw [RM.hasRole_none _ _ hp, RM.hasRole_none _ _ hp] at hk
            refine ⟨by rw [RM.delQ_pattern, hp], ?_⟩
            intro x
            unfold RM.delQ
            simp only [RM.keys_delRole, RM.createRole_known rm _ hp hk.1,
              RM.createRole_known rm _ hp hk.2, h, Known]
          · exact ⟨hp, by intro x; simp [Known, h]⟩
        · simp only [runCall, RM.deleteLink_bad rm a b d hd]
          exact ⟨hp, by intro x; simp [Known, h]⟩
    have := ih (runCall rm c) (c :: hist) key.1 key.2 x
    simpa [runCalls] using this

/-- C18: `DeleteLink` throws, changing nothing, exactly when one of the two names is unknown. -/
theorem C18_deleteLink_unknown [IterOrder] (lvl : Nat) (cs : List Call) (a b : Str) (d : List Str)
    (n1 n2 : Str) (h1 : qualify d a = .ok n1) (h2 : qualify d b = .ok n2) :
    let s := runCalls (RM.new lvl) cs
    (¬ (Known cs.reverse n1 ∧ Known cs.reverse n2) → RM.deleteLink a b d s = (.throw .rbac, s)) ∧
    (Known cs.reverse n1 ∧ Known cs.reverse n2 → (RM.deleteLink a b d s).1 = .ok ()) := by
  intro s
  have g := good_runCalls lvl cs
  rw [RM.deleteLink_run s a b n1 n2 d h1 h2]
  simp only [RM.hasRole_none s _ g.nopat]
  rw [← known_iff lvl, ← known_iff lvl]
  constructor
  · intro h; rw [if_neg h]
  · intro h; rw [if_pos h]

/-- C18: the direct roles after a sequence of `AddLink` calls do not depend on the order. -/
theorem C18_addLink_order [IterOrder] (lvl : Nat) (ls ls' : List (Str × Str × List Str))
    (hperm : ls.Perm ls') (x y : Str) :
    (runCalls (RM.new lvl) (ls.map fun l => .add l.1 l.2.1 l.2.2)).Edge x y ↔
    (runCalls (RM.new lvl) (ls'.map fun l => .add l.1 l.2.1 l.2.2)).Edge x y := by
  have key : ∀ ls : List (Str × Str × List Str),
      LinkSet (ls.map fun l => Call.add l.1 l.2.1 l.2.2) x y ↔
        ∃ l ∈ ls, qualify l.2.2 l.1 = .ok x ∧ qualify l.2.2 l.2.1 = .ok y := by
    intro ls
    induction ls with
    | nil => simp [LinkSet]
    | cons l ls ih => simp [LinkSet, ih]
  rw [(good_runCalls lvl _).edges, (good_runCalls lvl _).edges, ← List.map_reverse,
    ← List.map_reverse, key, key]
  constructor
  · rintro ⟨l, hl, h⟩; exact ⟨l, by simpa using hperm.mem_iff.mp (by simpa using hl), h⟩
  · rintro ⟨l, hl, h⟩; exact ⟨l, by simpa using hperm.mem_iff.mpr (by simpa using hl), h⟩

/-- Non-vacuity: a state in which a delete has something to remove and something to keep. -/
example :
    (letI := insertionOrder
     (runCalls (RM.new 10) [.add c!"u" c!"r" [c!"d"], .add c!"u" c!"s" [c!"d"],
        .del c!"u" c!"r" [c!"d"]]).roles)
      = [(c!"d::u", [c!"d::s"]), (c!"d::r", []), (c!"d::s", [])] := by rfl

/-! ## C19 and C20: domains

A name qualified by a domain is `domain::name`, which other names can collide with. The
properties hold for histories in which domains contain no `:` and names used without a domain
contain no `::` (`Tidy`), and fail without that restriction. -/

def domOk : List Str → Prop
  | [] => True
  | [d] => ':' ∉ d
  | _ => True

def nameOk : List Str → Str → Prop
  | [], n => ¬ c!"::" <:+: n
  | _, _ => True

def callOk : Call → Prop
  | .add a b d => domOk d ∧ nameOk d a ∧ nameOk d b
  | .del a b d => domOk d ∧ nameOk d a ∧ nameOk d b
  | .clear => True

/-- Every call of the history uses tidy domains and names. -/
def Tidy (cs : List Call) : Prop := ∀ c ∈ cs, callOk c

/-- The calls of a history that concern domain `D` (and the clears). -/
def sameDomain (D : List Str) : Call → Bool
  | .add _ _ d => decide (d = D)
  | .del _ _ d => decide (d = D)
  | .clear => true

/-- `x` is a name of domain `D`. -/
def InDom (D : List Str) (x : Str) : Prop := ∃ n, nameOk D n ∧ qualify D n = .ok x

theorem colon_split {d d' x x' : Str} (h : ':' ∉ d) (h' : ':' ∉ d')
    (e : d ++ ':' :: x = d' ++ ':' :: x') : d = d' ∧ x = x' := by
  have l := findChar_append_cons (post := x) h
  have l' := findChar_append_cons (post := x') h'
  rw [e, l'] at l
  have hl : d'.length = d.length := by simpa using l
  have := List.append_inj e hl.symm
  exact ⟨this.1, by simpa using this.2⟩

/-- Tidy qualified names determine their domain and name. -/
theorem qualify_inj {D D' : List Str} {n n' x : Str} (hD : domOk D) (hD' : domOk D')
    (hn : nameOk D n) (hn' : nameOk D' n') (h : qualify D n = .ok x) (h' : qualify D' n' = .ok x) :
    D = D' ∧ n = n' := by
  match D, D' with
  | [], [] =>
    simp only [qualify, Outcome.ok.injEq] at h h'
    exact ⟨rfl, h.trans h'.symm⟩
  | [], [d'] =>
    simp only [qualify, Outcome.ok.injEq] at h h'
    exfalso
    apply hn
    rw [h, ← h']
    exact ⟨d', n', by simp⟩
  | [d], [] =>
    simp only [qualify, Outcome.ok.injEq] at h h'
    exfalso
    apply hn'
    rw [h', ← h]
    exact ⟨d, n, by simp⟩
  | [d], [d'] =>
    simp only [qualify, Outcome.ok.injEq] at h h'
    have e : d ++ ':' :: (':' :: n) = d' ++ ':' :: (':' :: n') := by
      simpa using h.trans h'.symm
    have := colon_split hD hD' e
    refine ⟨by rw [this.1], by simpa using this.2⟩
  | _ :: _ :: _, _ => simp [qualify] at h
  | [], _ :: _ :: _ => simp [qualify] at h'
  | [_], _ :: _ :: _ => simp [qualify] at h'

/-- Restricting a tidy history to one domain keeps the links of that domain. -/
theorem linkSet_filter {cs : List Call} (ht : Tidy cs) {D : List Str} (hD : domOk D) {x : Str}
    (hx : InDom D x) (y : Str) :
    (LinkSet cs x y ↔ LinkSet (cs.filter (sameDomain D)) x y) ∧ (LinkSet cs x y → InDom D y) := by
  obtain ⟨n, hn, hq⟩ := hx
  induction cs with
  | nil => simp [LinkSet]
  | cons c cs ih =>
    have ih := ih (fun c' hc' => ht c' (List.mem_cons_of_mem _ hc'))
    have hc := ht c (by simp)
    cases c with
    | clear =>
      have hf : (Call.clear :: cs).filter (sameDomain D) = .clear :: cs.filter (sameDomain D) := by
        simp [List.filter_cons, sameDomain]
      rw [hf]; simp [LinkSet]
    | add a b d =>
      by_cases hd : d = D
      · subst hd
        simp only [sameDomain, decide_true, List.filter_cons_of_pos, LinkSet]
        refine ⟨by rw [ih.1], ?_⟩
        rintro (⟨_, h2⟩ | h)
        · exact ⟨b, hc.2.2, h2⟩
        · exact ih.2 h
      · have hf : (Call.add a b d :: cs).filter (sameDomain D) = cs.filter (sameDomain D) := by
          simp [sameDomain, hd]
        rw [hf]
        have hno : ¬ (qualify d a = .ok x ∧ qualify d b = .ok y) := by
          rintro ⟨h1, _⟩
          exact hd (qualify_inj hc.1 hD hc.2.1 hn h1 hq).1
        simp only [LinkSet, hno, false_or]
        exact ih
    | del a b d =>
      by_cases hd : d = D
      · subst hd
        simp only [sameDomain, decide_true, List.filter_cons_of_pos, LinkSet]
        exact ⟨by rw [ih.1], fun h => ih.2 h.2⟩
      · have hf : (Call.del a b d :: cs).filter (sameDomain D) = cs.filter (sameDomain D) := by
          simp [sameDomain, hd]
        rw [hf]
        have hno : ¬ (qualify d a = .ok x ∧ qualify d b = .ok y) := by
          rintro ⟨h1, _⟩
          exact hd (qualify_inj hc.1 hD hc.2.1 hn h1 hq).1
        simp only [LinkSet, hno, not_false_eq_true, true_and]
        exact ih

theorem linkSet_source {cs : List Call} (ht : Tidy cs) {D : List Str} (hD : domOk D) {x y : Str}
    (hy : InDom D y) (h : LinkSet cs x y) : InDom D x := by
  obtain ⟨n, hn, hq⟩ := hy
  induction cs with
  | nil => exact h.elim
  | cons c cs ih =>
    have ih := ih (fun c' hc' => ht c' (List.mem_cons_of_mem _ hc'))
    have hc := ht c (by simp)
    cases c with
    | clear => exact h.elim
    | add a b d =>
      rcases h with ⟨h1, h2⟩ | h
      · have := (qualify_inj hc.1 hD hc.2.2 hn h2 hq).1
        subst this
        exact ⟨a, hc.2.1, h1⟩
      · exact ih h
    | del a b d => exact ih h.2

theorem known_filter {cs : List Call} (ht : Tidy cs) {D : List Str} (hD : domOk D) {x : Str}
    (hx : InDom D x) : Known cs x ↔ Known (cs.filter (sameDomain D)) x := by
  obtain ⟨n, hn, hq⟩ := hx
  induction cs with
  | nil => simp
  | cons c cs ih =>
    have ih := ih (fun c' hc' => ht c' (List.mem_cons_of_mem _ hc'))
    have hc := ht c (by simp)
    cases c with
    | clear =>
      have hf : (Call.clear :: cs).filter (sameDomain D) = .clear :: cs.filter (sameDomain D) := by
        simp [List.filter_cons, sameDomain]
      rw [hf]; simp [Known]
    | add a b d =>
      by_cases hd : d = D
      · subst hd
        simp only [sameDomain, decide_true, List.filter_cons_of_pos, Known, ih]
      · have hf : (Call.add a b d :: cs).filter (sameDomain D) = cs.filter (sameDomain D) := by
          simp [sameDomain, hd]
        rw [hf, ← ih]
        simp only [Known]
        have h1 : ¬ qualify d a = .ok x := fun h1 => hd (qualify_inj hc.1 hD hc.2.1 hn h1 hq).1
        have h2 : ¬ qualify d b = .ok x := fun h1 => hd (qualify_inj hc.1 hD hc.2.2 hn h1 hq).1
        simp [h1, h2]
    | del a b d =>
      by_cases hd : d = D
      · subst hd
        simp only [sameDomain, decide_true, List.filter_cons_of_pos, Known, ih]
      · have hf : (Call.del a b d :: cs).filter (sameDomain D) = cs.filter (sameDomain D) := by
          simp [sameDomain, hd]
        rw [hf, ← ih]
        simp only [Known]

theorem path_filter {cs : List Call} (ht : Tidy cs) {D : List Str} (hD : domOk D) {x y : Str}
    {n : Nat} (hx : InDom D x) :
    Path (LinkSet cs) n x y ↔ Path (LinkSet (cs.filter (sameDomain D))) n x y := by
  constructor
  · intro hp
    induction hp with
    | nil => exact .nil _
    | cons he _ ih =>
      have := linkSet_filter ht hD hx
      exact .cons ((this _).1.mp he) (ih ((this _).2 he))
  · intro hp
    induction hp with
    | nil => exact .nil _
    | cons he _ ih =>
      have := linkSet_filter ht hD hx
      have he' := (this _).1.mpr he
      exact .cons he' (ih ((this _).2 he'))

theorem tidy_reverse {cs : List Call} (h : Tidy cs) : Tidy cs.reverse :=
  fun c hc => h c (by simpa using hc)

/-- C19, `HasLink`: in a tidy history only the calls of the queried domain matter. Missing:
untidy names, for which the property is false (`C19_fails`). -/
theorem C19_hasLink_partial [IterOrder] (lvl : Nat) (cs : List Call) (ht : Tidy cs)
    (D : List Str) (hlen : D.length ≤ 1) (hD : domOk D) (a b : Str) (ha : nameOk D a) :
    (RM.hasLink a b D (runCalls (RM.new lvl) cs)).1 =
    (RM.hasLink a b D (runCalls (RM.new lvl) (cs.filter (sameDomain D)))).1 := by
  obtain ⟨q, hq⟩ : ∃ q : Str → Str, ∀ n, qualify D n = .ok (q n) := by
    rcases qualify_cases D with h | ⟨h, _⟩
    · exact h
    · omega
  obtain ⟨r, hr, hiff⟩ := C17_hasLink lvl cs a b D _ _ (hq a) (hq b)
  obtain ⟨r', hr', hiff'⟩ := C17_hasLink lvl (cs.filter (sameDomain D)) a b D _ _ (hq a) (hq b)
  rw [hr, hr']
  have hx : InDom D (q a) := ⟨a, ha, hq a⟩
  have : r = true ↔ r' = true := by
    rw [hiff, hiff', ← List.filter_reverse]
    constructor
    · rintro ⟨n, hn, hp⟩; exact ⟨n, hn, (path_filter (tidy_reverse ht) hD hx).mp hp⟩
    · rintro ⟨n, hn, hp⟩; exact ⟨n, hn, (path_filter (tidy_reverse ht) hD hx).mpr hp⟩
  simp only [Outcome.ok.injEq]
  exact Bool.eq_iff_iff.mpr this

theorem stripAll_qualified (D : List Str) (q : Str → Str) (hq : ∀ n, qualify D n = .ok (q n))
    (l : List Str) (hl : ∀ x ∈ l, ∃ n, x = q n) :
    ∃ ns, RM.stripAll D l = .ok ns ∧ l = ns.map q := by
  have hstrip : ∀ n, RM.stripDomain D (q n) = .ok n := by
    intro n
    have h := hq n
    match D with
    | [] => simp only [qualify, Outcome.ok.injEq] at h; simp [RM.stripDomain, ← h]
    | [d] =>
      simp only [qualify, Outcome.ok.injEq] at h
      have e : (d ++ c!"::" ++ n).drop (d.length + 2) = n := by
        rw [List.drop_append]
        simp
      simp only [RM.stripDomain, ← h, e]
      rw [if_neg (by simp)]
    | _ :: _ :: _ => simp [qualify] at h
  induction l with
  | nil => exact ⟨[], rfl, rfl⟩
  | cons x xs ih =>
    obtain ⟨ns, h1, h2⟩ := ih (fun y hy => hl y (List.mem_cons_of_mem _ hy))
    obtain ⟨n, rfl⟩ := hl x (by simp)
    exact ⟨n :: ns, by simp [RM.stripAll, hstrip, h1], by simp [h2]⟩

theorem qualify_fun_inj {D : List Str} {q : Str → Str} (hq : ∀ n, qualify D n = .ok (q n)) :
    Function.Injective q := by
  intro n n' e
  have h := hq n; have h' := hq n'
  match D with
  | [] => simp only [qualify, Outcome.ok.injEq] at h h'; rw [h, h', e]
  | [d] =>
    simp only [qualify, Outcome.ok.injEq] at h h'
    rw [← h, ← h'] at e
    simpa using e
  | _ :: _ :: _ => simp [qualify] at h

/-- `GetRoles` in a tidy history: the direct roles in that domain, without the prefix. -/
theorem getRoles_tidy [IterOrder] (lvl : Nat) (cs : List Call) (ht : Tidy cs) (D : List Str)
    (hD : domOk D) (q : Str → Str) (hq : ∀ n, qualify D n = .ok (q n)) (u : Str)
    (hu : nameOk D u) :
    ∃ rs, RM.getRoles u D (runCalls (RM.new lvl) cs) = (.ok rs, runCalls (RM.new lvl) cs) ∧
      ∀ r, r ∈ rs ↔ LinkSet cs.reverse (q u) (q r) := by
  have g := good_runCalls lvl cs
  generalize hs : runCalls (RM.new lvl) cs = s at g ⊢
  have hx : InDom D (q u) := ⟨u, hu, hq u⟩
  simp only [RM.getRoles, M.bind_run, M.lift_run, hq, M.get_run]
  by_cases hk : q u ∈ s.roles.keys
  · have e1 := (RM.hasRole_none s (q u) g.nopat).mpr hk
    simp only [e1, Bool.not_true, Bool.false_eq_true, if_false, M.bind_run, M.modify_run,
      RM.createRole_known s _ g.nopat hk, M.get_run, M.lift_run]
    obtain ⟨ns, h1, h2⟩ := stripAll_qualified D q hq (RM.direct s.roles (q u)) (by
      intro x hxm
      have := (linkSet_filter (tidy_reverse ht) hD hx x).2 ((g.edges _ _).mp hxm)
      obtain ⟨n, _, hn⟩ := this
      rw [hq] at hn
      exact ⟨n, by simpa using hn.symm⟩)
    refine ⟨ns, by rw [h1], ?_⟩
    intro r
    rw [← g.edges]
    unfold RM.Edge
    rw [h2, List.mem_map]
    constructor
    · intro h; exact ⟨r, h, rfl⟩
    · rintro ⟨r', h, e⟩; rwa [← qualify_fun_inj hq e]
  · have e1 : s.hasRole (q u) = false := by
      have := mt (RM.hasRole_none s (q u) g.nopat).mp hk
      simpa using this
    simp only [e1, Bool.not_false, if_true, M.pure_run]
    refine ⟨[], rfl, ?_⟩
    intro r
    simp only [List.not_mem_nil, false_iff]
    rw [← g.edges]
    intro he
    unfold RM.Edge RM.direct at he
    cases hg : s.roles.get (q u) with
    | none => rw [hg] at he; simp at he
    | some l => exact hk (UMap.mem_keys_of_get hg)

/-- `GetUsers` in a tidy history. -/
theorem getUsers_tidy [IterOrder] (lvl : Nat) (cs : List Call) (ht : Tidy cs) (D : List Str)
    (hD : domOk D) (q : Str → Str) (hq : ∀ n, qualify D n = .ok (q n)) (r : Str)
    (hr : nameOk D r) :
    (Known cs.reverse (q r) →
      ∃ us, RM.getUsers r D (runCalls (RM.new lvl) cs) = (.ok us, runCalls (RM.new lvl) cs) ∧
        ∀ u, u ∈ us ↔ LinkSet cs.reverse (q u) (q r)) ∧
    (¬ Known cs.reverse (q r) →
      RM.getUsers r D (runCalls (RM.new lvl) cs) = (.throw .rbac, runCalls (RM.new lvl) cs) ∧
        ∀ u, ¬ LinkSet cs.reverse (q u) (q r)) := by
  have g := good_runCalls lvl cs
  rw [← known_iff lvl]
  generalize hs : runCalls (RM.new lvl) cs = s at g ⊢
  have hx : InDom D (q r) := ⟨r, hr, hq r⟩
  simp only [RM.getUsers, M.bind_run, M.lift_run, hq, M.get_run]
  constructor
  · intro hk
    have e1 := (RM.hasRole_none s (q r) g.nopat).mpr hk
    simp only [e1, Bool.not_true, Bool.false_eq_true, if_false, M.lift_run]
    have key : ∀ x, x ∈ (IterOrder.iter s.roles.keys).filter
        (fun u => decide (q r ∈ RM.direct s.roles u)) ↔ s.Edge x (q r) := by
      intro x
      simp only [List.mem_filter, decide_eq_true_eq, IterOrder.mem_iter]
      constructor
      · exact And.right
      · intro he
        refine ⟨?_, he⟩
        unfold RM.Edge RM.direct at he
        cases hg : s.roles.get x with
        | none => rw [hg] at he; simp at he
        | some l => exact UMap.mem_keys_of_get hg
    obtain ⟨ns, h1, h2⟩ := stripAll_qualified D q hq _ (by
      intro x hxm
      rw [key, g.edges] at hxm
      obtain ⟨n, _, hn⟩ := linkSet_source (tidy_reverse ht) hD hx hxm
      rw [hq] at hn
      exact ⟨n, by simpa using hn.symm⟩)
    refine ⟨ns, by rw [h1], ?_⟩
    intro u
    rw [← g.edges, ← key, h2, List.mem_map]
    constructor
    · intro h; exact ⟨u, h, rfl⟩
    · rintro ⟨r', h, e⟩; rwa [← qualify_fun_inj hq e]
  · intro hk
    have e1 : s.hasRole (q r) = false := by
      have := mt (RM.hasRole_none s (q r) g.nopat).mp hk
      simpa using this
    simp only [e1, Bool.not_false, if_true, M.throw_run, true_and]
    intro u hl
    rw [← g.edges] at hl
    exact hk (g.wf.closed _ _ hl)

/-- C19, `GetRoles`: same answer (as a set) as on the calls of that domain only. Missing: untidy
names. -/
theorem C19_getRoles_partial [IterOrder] (lvl : Nat) (cs : List Call) (ht : Tidy cs)
    (D : List Str) (hlen : D.length ≤ 1) (hD : domOk D) (u : Str) (hu : nameOk D u) :
    ∃ rs rs', (RM.getRoles u D (runCalls (RM.new lvl) cs)).1 = .ok rs ∧
      (RM.getRoles u D (runCalls (RM.new lvl) (cs.filter (sameDomain D)))).1 = .ok rs' ∧
      ∀ r, r ∈ rs ↔ r ∈ rs' := by
  obtain ⟨q, hq⟩ : ∃ q : Str → Str, ∀ n, qualify D n = .ok (q n) := by
    rcases qualify_cases D with h | ⟨h, _⟩
    · exact h
    · omega
  have ht' : Tidy (cs.filter (sameDomain D)) := fun c hc => ht c (List.mem_filter.mp hc).1
  obtain ⟨rs, h1, h2⟩ := getRoles_tidy lvl cs ht D hD q hq u hu
  obtain ⟨rs', h1', h2'⟩ := getRoles_tidy lvl _ ht' D hD q hq u hu
  refine ⟨rs, rs', by rw [h1], by rw [h1'], ?_⟩
  intro r
  rw [h2, h2', ← List.filter_reverse]
  exact (linkSet_filter (tidy_reverse ht) hD ⟨u, hu, hq u⟩ _).1

/-- C19, `GetUsers`: same answer (as a set, or the same exception) as on the calls of that domain
only. Missing: untidy names. -/
theorem C19_getUsers_partial [IterOrder] (lvl : Nat) (cs : List Call) (ht : Tidy cs)
    (D : List Str) (hlen : D.length ≤ 1) (hD : domOk D) (r : Str) (hr : nameOk D r) :
    (∃ us us', (RM.getUsers r D (runCalls (RM.new lvl) cs)).1 = .ok us ∧
      (RM.getUsers r D (runCalls (RM.new lvl) (cs.filter (sameDomain D)))).1 = .ok us' ∧
      ∀ u, nameOk D u → (u ∈ us ↔ u ∈ us')) ∨
    ((RM.getUsers r D (runCalls (RM.new lvl) cs)).1 = .throw .rbac ∧
      (RM.getUsers r D (runCalls (RM.new lvl) (cs.filter (sameDomain D)))).1 = .throw .rbac) := by
  obtain ⟨q, hq⟩ : ∃ q : Str → Str, ∀ n, qualify D n = .ok (q n) := by
    rcases qualify_cases D with h | ⟨h, _⟩
    · exact h
    · omega
  have ht' : Tidy (cs.filter (sameDomain D)) := fun c hc => ht c (List.mem_filter.mp hc).1
  have h1 := getUsers_tidy lvl cs ht D hD q hq r hr
  have h2 := getUsers_tidy lvl _ ht' D hD q hq r hr
  have hk := known_filter (tidy_reverse ht) hD ⟨r, hr, hq r⟩
  rw [List.filter_reverse] at hk
  by_cases h : Known cs.reverse (q r)
  · left
    obtain ⟨us, e1, m1⟩ := h1.1 h
    obtain ⟨us', e2, m2⟩ := h2.1 (hk.mp h)
    refine ⟨us, us', by rw [e1], by rw [e2], ?_⟩
    intro u hu
    rw [m1, m2, ← List.filter_reverse]
    exact (linkSet_filter (tidy_reverse ht) hD ⟨u, hu, hq u⟩ _).1
  · right
    exact ⟨by rw [(h1.2 h).1], by rw [(h2.2 (fun h' => h (hk.mpr h'))).1]⟩

/-- Non-vacuity of the hypotheses of C19: two domains and an undomained link. -/
example : Tidy [.add c!"alice" c!"admin" [c!"d1"], .add c!"alice" c!"root" [c!"d2"],
    .add c!"alice" c!"staff" []] := by
  intro c hc
  simp only [List.mem_cons, List.not_mem_nil, or_false] at hc
  rcases hc with rfl | rfl | rfl
  · simp [callOk, domOk, nameOk]
  · simp [callOk, domOk, nameOk]
  · refine ⟨trivial, ?_, ?_⟩ <;> (show ¬ _; rw [← findSub_none]; rfl)

/-- C19 is false in general: a link added without a domain is seen in domain `d`. -/
theorem C19_fails : ¬ ∀ (_ : IterOrder) (lvl : Nat) (cs : List Call) (D : List Str) (a b : Str),
    D.length ≤ 1 →
    (RM.hasLink a b D (runCalls (RM.new lvl) cs)).1 =
    (RM.hasLink a b D (runCalls (RM.new lvl) (cs.filter (sameDomain D)))).1 := by
  intro h
  have := h insertionOrder 10 [.add c!"d::alice" c!"d::admin" []] [c!"d"] c!"alice" c!"admin"
    (by decide)
  exact absurd this (by decide)

/-- C20 without a domain, for every history: `GetUsers(r)` lists exactly the names whose
`GetRoles` contains `r`; when `r` is unknown it throws and nobody has the role. -/
theorem C20_getUsers_getRoles [IterOrder] (lvl : Nat) (cs : List Call) (r : Str) :
    (∃ us, RM.getUsers r [] (runCalls (RM.new lvl) cs) = (.ok us, runCalls (RM.new lvl) cs) ∧
      ∀ u, ∃ rs, RM.getRoles u [] (runCalls (RM.new lvl) cs) = (.ok rs, runCalls (RM.new lvl) cs) ∧
        (u ∈ us ↔ r ∈ rs)) ∨
    (RM.getUsers r [] (runCalls (RM.new lvl) cs) = (.throw .rbac, runCalls (RM.new lvl) cs) ∧
      ∀ u, ∃ rs, RM.getRoles u [] (runCalls (RM.new lvl) cs) = (.ok rs, runCalls (RM.new lvl) cs) ∧
        r ∉ rs) := by
  have g := good_runCalls lvl cs
  generalize hs : runCalls (RM.new lvl) cs = s at g ⊢
  have hstrip : ∀ l : List Str, RM.stripAll [] l = .ok l := by
    intro l
    induction l with
    | nil => rfl
    | cons x xs ih => simp [RM.stripAll, RM.stripDomain, ih]
  have hroles : ∀ u, ∃ rs, RM.getRoles u [] s = (.ok rs, s) ∧ ∀ r, r ∈ rs ↔ s.Edge u r := by
    intro u
    simp only [RM.getRoles, M.bind_run, M.lift_run, qualify, M.get_run]
    by_cases hk : u ∈ s.roles.keys
    · have e1 := (RM.hasRole_none s u g.nopat).mpr hk
      simp only [e1, Bool.not_true, Bool.false_eq_true, if_false, M.bind_run, M.modify_run,
        RM.createRole_known s _ g.nopat hk, M.get_run, M.lift_run, hstrip]
      exact ⟨_, rfl, fun r => Iff.rfl⟩
    · have e1 : s.hasRole u = false := by
        have := mt (RM.hasRole_none s u g.nopat).mp hk
        simpa using this
      simp only [e1, Bool.not_false, if_true, M.pure_run]
      refine ⟨[], rfl, ?_⟩
      intro r
      simp only [List.not_mem_nil, false_iff]
      intro he
      unfold RM.Edge RM.direct at he
      cases hg : s.roles.get u with
      | none => rw [hg] at he; simp at he
      | some l => exact hk (UMap.mem_keys_of_get hg)
  simp only [RM.getUsers, M.bind_run, M.lift_run, qualify, M.get_run]
  by_cases hk : r ∈ s.roles.keys
  · left
    have e1 := (RM.hasRole_none s r g.nopat).mpr hk
    simp only [e1, Bool.not_true, Bool.false_eq_true, if_false, M.lift_run, hstrip]
    refine ⟨_, rfl, ?_⟩
    intro u
    obtain ⟨rs, h1, h2⟩ := hroles u
    refine ⟨rs, h1, ?_⟩
    rw [h2]
    simp only [List.mem_filter, decide_eq_true_eq, IterOrder.mem_iter]
    constructor
    · exact And.right
    · intro he
      refine ⟨?_, he⟩
      unfold RM.Edge RM.direct at he
      cases hg : s.roles.get u with
      | none => rw [hg] at he; simp at he
      | some l => exact UMap.mem_keys_of_get hg
  · right
    have e1 : s.hasRole r = false := by
      have := mt (RM.hasRole_none s r g.nopat).mp hk
      simpa using this
    simp only [e1, Bool.not_false, if_true, M.throw_run, true_and]
    intro u
    obtain ⟨rs, h1, h2⟩ := hroles u
    refine ⟨rs, h1, ?_⟩
    rw [h2]
    exact fun he => hk (g.wf.closed _ _ he)

/-- C20 with a domain, for tidy histories. Missing: untidy names, for which the property is
false (`C20_domain_fails`). -/
theorem C20_domain_partial [IterOrder] (lvl : Nat) (cs : List Call) (ht : Tidy cs) (d : Str)
    (hd : ':' ∉ d) (r u : Str) (us : List Str)
    (hus : (RM.getUsers r [d] (runCalls (RM.new lvl) cs)).1 = .ok us) :
    ∃ rs, (RM.getRoles u [d] (runCalls (RM.new lvl) cs)).1 = .ok rs ∧ (u ∈ us ↔ r ∈ rs) := by
  have hq : ∀ n, qualify [d] n = .ok (d ++ c!"::" ++ n) := fun n => rfl
  have h1 := getUsers_tidy lvl cs ht [d] hd _ hq r trivial
  obtain ⟨rs, e2, m2⟩ := getRoles_tidy lvl cs ht [d] hd _ hq u trivial
  refine ⟨rs, by rw [e2], ?_⟩
  by_cases h : Known cs.reverse (d ++ c!"::" ++ r)
  · obtain ⟨us', e1, m1⟩ := h1.1 h
    rw [e1] at hus
    cases hus
    rw [m1, m2]
  · have := (h1.2 h).1
    rw [this] at hus
    cases hus

/-- C20 with a domain is false in general: `GetUsers` reports a name that does not have the role
in that domain. -/
theorem C20_domain_fails : ¬ ∀ (_ : IterOrder) (lvl : Nat) (cs : List Call) (d r u : Str)
    (us rs : List Str),
    (RM.getUsers r [d] (runCalls (RM.new lvl) cs)).1 = .ok us →
    (RM.getRoles u [d] (runCalls (RM.new lvl) cs)).1 = .ok rs → (u ∈ us ↔ r ∈ rs) := by
  intro h
  have := h insertionOrder 10 [.add c!"xyzbob" c!"d::admin" []] c!"d" c!"admin" c!"bob"
    [c!"bob"] [] (by rfl) (by rfl)
  exact absurd this (by decide)

example : (letI := insertionOrder
    (RM.getUsers c!"admin" [c!"d"] (runCalls (RM.new 10)
      [.add c!"alice" c!"admin" [c!"d"], .add c!"bob" c!"admin" [c!"e"]])).1)
    = .ok [c!"alice"] := by rfl

end RoleProps
end Casbin
