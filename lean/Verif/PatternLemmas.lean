import Verif.LinkLemmas

/-!
# The role manager with a matching function: specification and lemmas for `Verif.Props.PatternRoles`
-/

namespace Casbin
namespace PatternRoles

open RM (Path qualify)

/-! ## Specification -/

/-- Names and links between them. -/
structure Graph where
  names : Str → Prop
  links : Str → Str → Prop

namespace Graph

/-- No names. -/
def empty : Graph := ⟨fun _ => False, fun _ _ => False⟩

/-- A name is met: it is a name from now on, with a link to every other name it matches by now. -/
def meet (f : Str → Str → Bool) (n : Str) (g : Graph) : Graph :=
  ⟨fun x => x = n ∨ g.names x, fun x y => g.links x y ∨ (x = n ∧ y ≠ n ∧ g.names y ∧ f n y = true)⟩

/-- One more link. -/
def link (a b : Str) (g : Graph) : Graph := ⟨g.names, fun x y => g.links x y ∨ (x = a ∧ y = b)⟩

/-- One link less. -/
def unlink (a b : Str) (g : Graph) : Graph := ⟨g.names, fun x y => g.links x y ∧ ¬ (x = a ∧ y = b)⟩

/-- The name matches some name. -/
def Knows (f : Str → Str → Bool) (n : Str) (g : Graph) : Prop := ∃ k, g.names k ∧ f n k = true

end Graph

/-- A call on the role manager. -/
inductive Call
  | add (a b : Str) (domain : List Str)
  | del (a b : Str) (domain : List Str)
  | ask (a b : Str) (domain : List Str)
  | roles (a : Str) (domain : List Str)
  | users (a : Str) (domain : List Str)
  | clear

open Classical in
/-- What a call does to the graph; nothing when there are two or more domains. -/
noncomputable def Graph.after (f : Str → Str → Bool) (g : Graph) : Call → Graph
  | .add a b d =>
    match qualify d a, qualify d b with
    | .ok a, .ok b => ((g.meet f a).meet f b).link a b
    | _, _ => g
  | .del a b d =>
    match qualify d a, qualify d b with
    | .ok a, .ok b =>
      if g.Knows f a ∧ g.Knows f b then ((g.meet f a).meet f b).unlink a b else g
    | _, _ => g
  | .ask a b d =>
    match qualify d a, qualify d b with
    | .ok a, .ok b => if a ≠ b ∧ g.Knows f a ∧ g.Knows f b then g.meet f a else g
    | _, _ => g
  | .roles a d =>
    match qualify d a with
    | .ok a => if g.Knows f a then g.meet f a else g
    | _ => g
  | .users _ _ => g
  | .clear => .empty

/-- What a history of calls does. -/
noncomputable def Graph.run (f : Str → Str → Bool) (g : Graph) (cs : List Call) : Graph :=
  cs.foldl (Graph.after f) g

/-! ## The role manager -/

variable [IterOrder]

/-- The state after a call, also when it throws. -/
def runCall (rm : RM) : Call → RM
  | .add a b d => (RM.addLink a b d rm).2
  | .del a b d => (RM.deleteLink a b d rm).2
  | .ask a b d => (RM.hasLink a b d rm).2
  | .roles a d => (RM.getRoles a d rm).2
  | .users a d => (RM.getUsers a d rm).2
  | .clear => rm.clear

/-- The state after a history of calls. -/
def runCalls (rm : RM) (cs : List Call) : RM := cs.foldl runCall rm

/-- The role manager holds the graph. -/
structure Draws (rm : RM) (f : Str → Str → Bool) (lvl : Nat) (g : Graph) : Prop where
  wf : rm.WF
  pattern : rm.pattern = some f
  level : rm.maxLevel = lvl
  names : ∀ x, x ∈ rm.roles.keys ↔ g.names x
  links : ∀ x y, rm.Edge x y ↔ g.links x y

variable {rm : RM} {f : Str → Str → Bool} {lvl : Nat} {g : Graph}

omit [IterOrder] in
theorem fold_direct (n : Str) (ks : List Str) : ∀ m : UMap Str (List Str), n ∈ m.keys →
    let m' := ks.foldl (fun m k => if f n k = true ∧ n ≠ k then RM.addRole m n k else m) m
    m'.keys = m.keys ∧ ((∀ a, (RM.direct m a).Nodup) → ∀ a, (RM.direct m' a).Nodup) ∧
      ∀ x y, y ∈ RM.direct m' x ↔ y ∈ RM.direct m x ∨ (x = n ∧ y ∈ ks ∧ f n y = true ∧ n ≠ y) := by
  induction ks with
  | nil => intro m _; simp
  | cons k ks ih =>
    intro m hn
    simp only [List.foldl_cons]
    by_cases hk : f n k = true ∧ n ≠ k
    · rw [if_pos hk]
      obtain ⟨h1, h2, h3⟩ := ih (RM.addRole m n k) (by rw [RM.keys_addRole]; exact hn)
      refine ⟨by rw [h1, RM.keys_addRole], fun hd => h2 (RM.nodup_addRole n k hd), ?_⟩
      intro x y
      rw [h3, RM.direct_addRole m n k x y hn]
      constructor
      · rintro ((h | ⟨rfl, rfl⟩) | ⟨h, h', h''⟩)
        · exact .inl h
        · exact .inr ⟨rfl, by simp, hk⟩
        · exact .inr ⟨h, by simp [h'], h''⟩
      · rintro (h | ⟨h, h', h''⟩)
        · exact .inl (.inl h)
        · rcases List.mem_cons.mp h' with rfl | h'
          · exact .inl (.inr ⟨h, rfl⟩)
          · exact .inr ⟨h, h', h''⟩
    · rw [if_neg hk]
      obtain ⟨h1, h2, h3⟩ := ih m hn
      refine ⟨h1, h2, fun x y => ?_⟩
      rw [h3]
      constructor
      · rintro (h | ⟨h, h', h''⟩)
        · exact .inl h
        · exact .inr ⟨h, by simp [h'], h''⟩
      · rintro (h | ⟨h, h', h''⟩)
        · exact .inl h
        · rcases List.mem_cons.mp h' with rfl | h'
          · exact absurd h'' hk
          · exact .inr ⟨h, h', h''⟩

theorem draws_createRole (h : Draws rm f lvl g) (n : Str) : Draws (rm.createRole n) f lvl (g.meet f n) := by
  have hp := h.pattern
  -- the map once the name is in it
  obtain ⟨m, hm⟩ : ∃ m, m = if rm.roles.has n then rm.roles else rm.roles.set n [] := ⟨_, rfl⟩
  have hkeys : ∀ x, x ∈ m.keys ↔ x = n ∨ x ∈ rm.roles.keys := by
    intro x
    rw [hm]
    split
    · rename_i hh
      have := (UMap.has_iff _ _).mp hh
      exact ⟨.inr, by rintro (rfl | hx); exacts [this, hx]⟩
    · exact UMap.mem_keys_set _ _ _ _
  have hdir : ∀ x, RM.direct m x = RM.direct rm.roles x := by
    intro x
    rw [hm]
    split
    · rfl
    · rename_i hh
      rw [RM.direct_set]
      split
      · rename_i hx
        subst hx
        have : rm.roles.get n = none := by
          rw [UMap.get_eq_none_iff]
          intro hk; exact hh ((UMap.has_iff _ _).mpr hk)
        simp [RM.direct, this]
      · rfl
  have hnd : m.keys.Nodup := by
    rw [hm]
    split
    · exact h.wf.nodup
    · exact UMap.nodup_keys_set h.wf.nodup _ _
  obtain ⟨f1, f2, f3⟩ := fold_direct (f := f) n (IterOrder.iter m.keys) m ((hkeys n).mpr (.inl rfl))
  have hroles : (rm.createRole n).roles = (IterOrder.iter m.keys).foldl
      (fun m k => if f n k = true ∧ n ≠ k then RM.addRole m n k else m) m := by
    rw [hm]; unfold RM.createRole; rw [hp]
  have hiter : ∀ x, x ∈ IterOrder.iter m.keys ↔ x ∈ m.keys := fun x => (IterOrder.iter_perm _).mem_iff
  refine ⟨⟨by rw [hroles, f1]; exact hnd, ?_, ?_⟩, by rw [RM.createRole_pattern, hp],
    by rw [RM.createRole_maxLevel, h.level], ?_, ?_⟩
  · intro a b hb
    rw [hroles, f3] at hb
    rw [hroles, f1]
    rcases hb with hb | ⟨_, hb, _⟩
    · rw [hdir] at hb; exact (hkeys b).mpr (.inr (h.wf.closed a b hb))
    · exact (hiter b).mp hb
  · rw [hroles]; exact f2 (fun a => by rw [hdir]; exact h.wf.edgesNodup a)
  · intro x
    rw [hroles, f1, hkeys, h.names]; rfl
  · intro x y
    show y ∈ RM.direct (rm.createRole n).roles x ↔ _
    rw [hroles, f3, hdir, hiter, hkeys, h.names]
    have := h.links x y
    simp only [RM.Edge] at this
    rw [this]
    simp only [Graph.meet]
    constructor
    · rintro (h | ⟨h, h1 | h1, h2, h3⟩)
      · exact .inl h
      · exact absurd h1.symm h3
      · exact .inr ⟨h, fun e => h3 e.symm, h1, h2⟩
    · rintro (h | ⟨h, h1, h2, h3⟩)
      · exact .inl h
      · exact .inr ⟨h, .inr h2, h3, fun e => h1 e.symm⟩

omit [IterOrder] in
theorem draws_hasRole (h : Draws rm f lvl g) (n : Str) : rm.hasRole n = true ↔ g.Knows f n := by
  unfold RM.hasRole
  rw [h.pattern]
  simp only [List.any_eq_true, Graph.Knows, h.names]

theorem draws_addQ (h : Draws rm f lvl g) (a b : Str) :
    Draws (rm.addQ a b) f lvl (((g.meet f a).meet f b).link a b) := by
  have h2 := draws_createRole (draws_createRole h a) b
  have hka : a ∈ ((rm.createRole a).createRole b).roles.keys := (h2.names a).mpr (.inr (.inl rfl))
  have hkb : b ∈ ((rm.createRole a).createRole b).roles.keys := (h2.names b).mpr (.inl rfl)
  have hedge : ∀ x y, (rm.addQ a b).Edge x y ↔ (((g.meet f a).meet f b).link a b).links x y := by
    intro x y
    show y ∈ RM.direct (RM.addRole _ a b) x ↔ _
    rw [RM.direct_addRole _ _ _ _ _ hka]
    have := h2.links x y
    simp only [RM.Edge] at this
    rw [this]; rfl
  refine ⟨⟨?_, ?_, ?_⟩, by rw [RM.addQ_pattern, h.pattern], by rw [RM.addQ_maxLevel, h.level], ?_, hedge⟩
  · show (RM.addRole _ a b).keys.Nodup
    rw [RM.keys_addRole]; exact h2.wf.nodup
  · intro x y hy
    show y ∈ (RM.addRole _ a b).keys
    rw [RM.keys_addRole]
    have hy' : y ∈ RM.direct (RM.addRole _ a b) x := hy
    rw [RM.direct_addRole _ _ _ _ _ hka] at hy'
    rcases hy' with h' | ⟨_, rfl⟩
    · exact h2.wf.closed x y h'
    · exact hkb
  · exact RM.nodup_addRole a b h2.wf.edgesNodup
  · intro x
    show x ∈ (RM.addRole _ a b).keys ↔ _
    rw [RM.keys_addRole, h2.names]; rfl

theorem draws_delQ (h : Draws rm f lvl g) (a b : Str) :
    Draws (rm.delQ a b) f lvl (((g.meet f a).meet f b).unlink a b) := by
  have h2 := draws_createRole (draws_createRole h a) b
  have hdir : ∀ x y, y ∈ RM.direct (rm.delQ a b).roles x ↔
      y ∈ RM.direct ((rm.createRole a).createRole b).roles x ∧ ¬ (x = a ∧ y = b) :=
    fun x y => RM.direct_delRole _ a b x y h2.wf.edgesNodup
  have hkeys : (rm.delQ a b).roles.keys = ((rm.createRole a).createRole b).roles.keys :=
    RM.keys_delRole _ a b
  refine ⟨⟨by rw [hkeys]; exact h2.wf.nodup, ?_, ?_⟩, by rw [RM.delQ_pattern, h.pattern],
    by rw [RM.delQ_maxLevel, h.level], ?_, ?_⟩
  · intro x y hy
    rw [hkeys]
    exact h2.wf.closed x y ((hdir x y).mp hy).1
  · intro x
    show (RM.direct (RM.delRole ((rm.createRole a).createRole b).roles a b) x).Nodup
    unfold RM.delRole
    have := h2.wf.edgesNodup
    cases hg : ((rm.createRole a).createRole b).roles.get a with
    | none => exact this x
    | some l =>
      simp only
      rw [RM.direct_set]
      split
      · have hl : l.Nodup := by have := this a; simpa [RM.direct, hg] using this
        rw [RM.eraseLoop_eq_erase _ _ hl]
        exact hl.erase _
      · exact this x
  · intro x
    rw [hkeys, h2.names]; rfl
  · intro x y
    have e : (rm.delQ a b).Edge x y ↔ y ∈ RM.direct (rm.delQ a b).roles x := Iff.rfl
    rw [e, hdir]
    have := h2.links x y
    simp only [RM.Edge] at this
    rw [this]; rfl

/-- The answer of `HasLink` on qualified names, and the state after it. -/
theorem ask_run (h : Draws rm f lvl g) (a b n1 n2 : Str) (d : List Str) (h1 : qualify d a = .ok n1)
    (h2 : qualify d b = .ok n2) :
    ∃ r, (RM.hasLink a b d rm).1 = .ok r ∧
      (r = true ↔ n1 = n2 ∨ (g.Knows f n1 ∧ g.Knows f n2 ∧
        ∃ n ≤ lvl, Path (g.meet f n1).links n n1 n2)) ∧
      Draws (RM.hasLink a b d rm).2 f lvl (g.after f (.ask a b d)) := by
  simp only [RM.hasLink, M.bind_run, h1, h2, M.lift_run, Graph.after]
  by_cases he : n1 = n2
  · subst he
    simp only [if_true, M.pure_run]
    exact ⟨true, rfl, by simp, by simpa using h⟩
  · simp only [he, if_false, M.bind_run, M.get_run]
    by_cases hk : g.Knows f n1 ∧ g.Knows f n2
    · have e1 := (draws_hasRole h n1).mpr hk.1
      have e2 := (draws_hasRole h n2).mpr hk.2
      have hc := draws_createRole h n1
      simp only [e1, e2, Bool.not_true, Bool.or_self, Bool.false_eq_true, if_false, M.bind_run,
        M.modify_run, M.get_run, M.pure_run]
      refine ⟨_, rfl, ?_, by rw [if_pos ⟨he, hk⟩]; exact hc⟩
      rw [RM.roleHasRole_iff, hc.level]
      simp only [hk.1, hk.2, true_and, false_or]
      constructor
      · rintro ⟨n, hn, hp⟩; exact ⟨n, hn, hp.congr hc.links⟩
      · rintro ⟨n, hn, hp⟩; exact ⟨n, hn, hp.congr fun a b => (hc.links a b).symm⟩
    · have : (!rm.hasRole n1 || !rm.hasRole n2) = true := by
        rw [← draws_hasRole h n1, ← draws_hasRole h n2] at hk
        cases h1' : rm.hasRole n1 <;> cases h2' : rm.hasRole n2 <;> simp_all
      simp only [this, if_true, M.pure_run]
      refine ⟨false, rfl, ?_, by rw [if_neg (fun h => hk h.2)]; exact h⟩
      simp only [Bool.false_eq_true, false_iff, false_or]
      exact fun h => hk ⟨h.1, h.2.1⟩

omit [IterOrder] in
theorem qualify_cases (d : List Str) : (∃ q : Str → Str, ∀ n, qualify d n = .ok (q n)) ∨
    (2 ≤ d.length ∧ ∀ n, qualify d n = .throw .rbac) := by
  match d with
  | [] => exact Or.inl ⟨id, fun n => rfl⟩
  | [d] => exact Or.inl ⟨_, fun n => rfl⟩
  | _ :: _ :: _ => exact Or.inr ⟨by simp, fun n => rfl⟩

theorem draws_runCall (h : Draws rm f lvl g) (c : Call) : Draws (runCall rm c) f lvl (g.after f c) := by
  cases c with
  | clear =>
    refine ⟨RM.WF_clear rm, h.pattern, h.level, ?_, ?_⟩
    · intro x; simp [runCall, RM.clear, Graph.after, Graph.empty]
    · intro x y; simp [runCall, RM.clear, RM.Edge, RM.direct, Graph.after, Graph.empty]
  | add a b d =>
    rcases qualify_cases d with ⟨q, hq⟩ | ⟨hd, hq⟩
    · simp only [runCall, RM.addLink_run rm a b _ _ d (hq a) (hq b), Graph.after, hq]
      exact draws_addQ h _ _
    · simp only [runCall, RM.addLink_bad rm a b d hd, Graph.after, hq]
      exact h
  | del a b d =>
    rcases qualify_cases d with ⟨q, hq⟩ | ⟨hd, hq⟩
    · simp only [runCall, RM.deleteLink_run rm a b _ _ d (hq a) (hq b), Graph.after, hq]
      by_cases hk : g.Knows f (q a) ∧ g.Knows f (q b)
      · rw [if_pos hk, if_pos (by rw [draws_hasRole h, draws_hasRole h]; exact hk)]
        exact draws_delQ h _ _
      · rw [if_neg hk, if_neg (by rw [draws_hasRole h, draws_hasRole h]; exact hk)]
        exact h
    · simp only [runCall, RM.deleteLink_bad rm a b d hd, Graph.after, hq]
      exact h
  | ask a b d =>
    rcases qualify_cases d with ⟨q, hq⟩ | ⟨hd, hq⟩
    · obtain ⟨r, -, -, h3⟩ := ask_run h a b _ _ d (hq a) (hq b)
      exact h3
    · have : RM.hasLink a b d rm = (.throw .rbac, rm) := by simp [RM.hasLink, M.bind_run, hq]
      simp only [runCall, this, Graph.after, hq]
      exact h
  | roles a d =>
    rcases qualify_cases d with ⟨q, hq⟩ | ⟨hd, hq⟩
    · simp only [runCall, RM.getRoles, M.bind_run, hq, M.lift_run, M.get_run, Graph.after]
      by_cases hk : g.Knows f (q a)
      · simp only [(draws_hasRole h _).mpr hk, Bool.not_true, Bool.false_eq_true, if_false, M.bind_run,
          M.modify_run, M.get_run, M.lift_run, if_pos hk]
        exact draws_createRole h _
      · have : rm.hasRole (q a) = false := by
          rw [← draws_hasRole h] at hk; simpa using hk
        simp only [this, Bool.not_false, if_true, M.pure_run, if_neg hk]
        exact h
    · simp only [runCall, RM.getRoles, M.bind_run, hq, M.lift_run, Graph.after]
      exact h
  | users a d =>
    have : (RM.getUsers a d rm).2 = rm := by
      unfold RM.getUsers
      simp only [M.bind_run, M.lift_run]
      cases qualify d a with
      | ok n =>
        simp only [M.get_run]
        split <;> rfl
      | throw e => rfl
      | ub u => rfl
    simp only [runCall, this, Graph.after]
    exact h

theorem draws_runCalls (cs : List Call) : ∀ {rm : RM} {g : Graph}, Draws rm f lvl g →
    Draws (runCalls rm cs) f lvl (g.run f cs) := by
  induction cs with
  | nil => exact fun h => h
  | cons c cs ih => exact fun h => ih (draws_runCall h c)

omit [IterOrder] in
theorem draws_new (f : Str → Str → Bool) (lvl : Nat) :
    Draws ((RM.new lvl).addMatchingFunc f) f lvl .empty := by
  refine ⟨⟨by simp [RM.addMatchingFunc, RM.new], ?_, ?_⟩, rfl, rfl, ?_, ?_⟩
  · intro a b; simp [RM.addMatchingFunc, RM.new, RM.direct]
  · intro a; simp [RM.addMatchingFunc, RM.new, RM.direct]
  · intro x; simp [RM.addMatchingFunc, RM.new, Graph.empty]
  · intro x y; simp [RM.addMatchingFunc, RM.new, RM.Edge, RM.direct, Graph.empty]

/-! ## Links of rules -/

/-- The links are added one by one. -/
def addAll (rm : RM) (pairs : List (Str × Str)) : RM := pairs.foldl (fun rm p => rm.addQ p.1 p.2) rm

/-- What that does to the graph. -/
def Graph.addAll (f : Str → Str → Bool) (g : Graph) (pairs : List (Str × Str)) : Graph :=
  pairs.foldl (fun g p => ((g.meet f p.1).meet f p.2).link p.1 p.2) g

theorem draws_addAll (pairs : List (Str × Str)) : ∀ {rm : RM} {g : Graph}, Draws rm f lvl g →
    Draws (addAll rm pairs) f lvl (g.addAll f pairs) := by
  induction pairs with
  | nil => exact fun h => h
  | cons p pairs ih => exact fun h => ih (draws_addQ h p.1 p.2)

theorem linkRules_pairs {n : Nat} (hn : PlacesOk n) {rs : List Rule} {pairs : List (Str × Str)}
    (h : List.Forall₂ (fun r p => LinkOf n r p.1 p.2) rs pairs) : ∀ rm : RM,
    Assertion.linkRules .add n rs rm = (.ok (), addAll rm pairs) := by
  induction h with
  | nil => intro rm; rfl
  | @cons r p _ _ hl _ ih =>
    intro rm
    have hle : n ≤ r.length := by
      rcases hl with ⟨rfl, a, b, rest, rfl, -, -⟩ | ⟨rfl, a, b, d, rest, rfl, -, -⟩ <;> simp
    obtain ⟨a, b, d, x, y, ht, hx, hy, hu⟩ := linkOf_unique hn hle
    obtain ⟨e1, e2⟩ := (hu _ _).mp hl
    have hlen : ¬ r.length < n := by omega
    simp only [Assertion.linkRules, hlen, if_false, M.bind_run, ht, vecAt, List.getElem?_cons_zero,
      List.getElem?_cons_succ, M.lift_run, List.drop_succ_cons, List.drop_zero,
      RM.addLink_run rm a b x y d hx hy, ih]
    rw [← e1, ← e2]; rfl

end PatternRoles
end Casbin
