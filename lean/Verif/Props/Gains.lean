import Verif.Props.Commute

/-!
# C178: what a new role or a new permission gives

Giving a user a role gives nobody more than the role has; giving a role a permission gives it to exactly those
who have the role.
-/

set_option linter.unusedSectionVars false

namespace Casbin
namespace Gains

open Enforcer Fixtures EndToEnd StoreProps Locality Tenants PolicyProps Commute

variable [IterOrder] {lib : ExprLib} {E : Enforcer} {P G : List Rule}

/-! ## Helpers -/

omit [IterOrder] in
/-- A path with one more edge is one without it, or goes on from the end of the edge. -/
theorem path_new {R R' : Str → Str → Prop} {u r : Str} (h : ∀ x y, R' x y → R x y ∨ x = u ∧ y = r) :
    ∀ {n : Nat} {s x : Str}, RM.Path R' n s x → RM.Path R n s x ∨ ∃ m < n, RM.Path R m r x := by
  intro n s x hp
  induction hp with
  | nil a => exact .inl (.nil a)
  | cons he _ ih =>
    rcases ih with ih | ⟨m, hm, ih⟩
    · rcases h _ _ he with he | ⟨_, rfl⟩
      · exact .inl (.cons he ih)
      · exact .inr ⟨_, Nat.lt_succ_self _, ih⟩
    · exact .inr ⟨m, Nat.lt_succ_of_lt hm, ih⟩

omit [IterOrder] in
theorem path_mono {R R' : Str → Str → Prop} (h : ∀ x y, R x y → R' x y) :
    ∀ {n : Nat} {s x : Str}, RM.Path R n s x → RM.Path R' n s x := by
  intro n s x hp
  induction hp with
  | nil a => exact .nil a
  | cons he _ ih => exact .cons (h _ _ he) ih

omit [IterOrder] in
theorem mem_add {g : Bool} {pt : Str} {n r : Rule} {t : Str × Str} {rs : List Rule}
    (h : r ∈ after (.add g pt n) t rs) : r ∈ rs ∨ (Edit.add g pt n).target = t ∧ r = n := by
  unfold after at h
  split at h
  · next ht =>
    simp only [reference, appendNew] at h
    split at h
    · exact .inl h
    · rcases List.mem_append.mp h with h | h
      · exact .inl h
      · exact .inr ⟨ht, List.mem_singleton.mp h⟩
  · exact .inl h

omit [IterOrder] in
theorem mem_kept {g : Bool} {pt : Str} {n r : Rule} {t : Str × Str} {rs : List Rule} (h : r ∈ rs) :
    r ∈ after (.add g pt n) t rs := by
  unfold after
  split
  · simp only [reference, appendNew]
    split
    · exact h
    · exact List.mem_append_left _ h
  · exact h

/-- A rule whose addition was answered with true is stored. -/
theorem mem_added {g : Bool} {pt : Str} {n : Rule} {rs : List Rule}
    (hr : Holds E (Edit.add g pt n).target rs) (ok : ((Edit.add g pt n).run E).1 = .ok true) :
    n ∈ after (.add g pt n) (Edit.add g pt n).target rs := by
  have := (C150_call (.add g pt n) hr).2 true ok
  unfold after
  rw [if_pos rfl]
  simp only [reference, appendNew] at this ⊢
  split at this
  · cases this
  · next h => rw [if_neg h]; exact List.mem_append_right _ (List.mem_singleton.mpr rfl)

/-! ## C178 -/

open Classical in
/-- C178, a new role, upper bound: whoever is granted a request afterwards was granted it before, or the role
was. -/
theorem C178_role_bound (hL : SoundLib lib) (h : InStep lib E P G) {u r : Str}
    (hf : LinkProps.Faithful E (.add true c!"g" [u, r])) (hok : ((Edit.add true c!"g" [u, r]).run E).1.IsOk)
    (hlen : ∀ x ∈ P, x.length = 3) (s obj act : Str) (hne : obj ≠ [] ∨ act ≠ [])
    (hg : (((Edit.add true c!"g" [u, r]).run E).2.enforce lib [.str s, .str obj, .str act]).1 = .ok true) :
    (E.enforce lib [.str s, .str obj, .str act]).1 = .ok true ∨
    (E.enforce lib [.str r, .str obj, .str act]).1 = .ok true := by
  have s1 := h.edit hf hok
  have e0 : after (.add true c!"g" [u, r]) (c!"p", c!"p") P = P := by
    exact if_neg (show ¬ (c!"g", c!"g") = (c!"p", c!"p") by decide)
  rw [e0] at s1
  rw [s1.answer hL hlen s obj act hne] at hg
  rw [h.answer hL hlen s obj act hne, h.answer hL hlen r obj act hne]
  simp only [Outcome.ok.injEq, decide_eq_true_eq] at hg ⊢
  obtain ⟨x, hx, n, hn, hp⟩ := hg
  have hR : ∀ a b, Grants (after (.add true c!"g" [u, r]) (c!"g", c!"g") G) a b → Grants G a b ∨ a = u ∧ b = r := by
    rintro a b ⟨rest, hm⟩
    rcases mem_add hm with hm | ⟨_, hm⟩
    · exact .inl ⟨rest, hm⟩
    · simp only [List.cons.injEq] at hm
      exact .inr ⟨hm.1, hm.2.1⟩
  rcases path_new hR hp with hp | ⟨m, hm, hp⟩
  · exact .inl ⟨x, hx, n, hn, hp⟩
  · exact .inr ⟨x, hx, m, by omega, hp⟩

open Classical in
/-- C178, a new role, lower bound: what the role has through at most nine further roles, the user is granted
afterwards. -/
theorem C178_role_partial (hL : SoundLib lib) (h : InStep lib E P G) {u r : Str}
    (hf : LinkProps.Faithful E (.add true c!"g" [u, r])) (hok : ((Edit.add true c!"g" [u, r]).run E).1 = .ok true)
    (hlen : ∀ x ∈ P, x.length = 3) (obj act : Str) (hne : obj ≠ [] ∨ act ≠ [])
    {x : Str} (hx : [x, obj, act] ∈ P) {n : Nat} (hn : n ≤ 9) (hp : RM.Path (Grants G) n r x) :
    (((Edit.add true c!"g" [u, r]).run E).2.enforce lib [.str u, .str obj, .str act]).1 = .ok true := by
  have s1 := h.edit hf (by rw [hok]; trivial)
  have e0 : after (.add true c!"g" [u, r]) (c!"p", c!"p") P = P := by
    exact if_neg (show ¬ (c!"g", c!"g") = (c!"p", c!"p") by decide)
  rw [e0] at s1
  rw [s1.answer hL hlen u obj act hne]
  simp only [Outcome.ok.injEq, decide_eq_true_eq]
  refine ⟨x, hx, n + 1, by omega, .cons ⟨[], mem_added h.holds.2 hok⟩ (path_mono ?_ hp)⟩
  rintro a b ⟨rest, hm⟩
  exact ⟨rest, mem_kept hm⟩

open Classical in
/-- C178, a new permission: exactly those are granted a request afterwards who were granted it before, or,
if it is the request the permission is about, who have the role. -/
theorem C178_permission (hL : SoundLib lib) (h : InStep lib E P G) {r o a : Str}
    (hf : LinkProps.Faithful E (.add false c!"p" [r, o, a]))
    (hok : ((Edit.add false c!"p" [r, o, a]).run E).1 = .ok true)
    (hlen : ∀ x ∈ P, x.length = 3) (s obj act : Str) (hne : obj ≠ [] ∨ act ≠ []) :
    (((Edit.add false c!"p" [r, o, a]).run E).2.enforce lib [.str s, .str obj, .str act]).1 = .ok true ↔
    (E.enforce lib [.str s, .str obj, .str act]).1 = .ok true ∨
      obj = o ∧ act = a ∧ ∃ n ≤ 10, RM.Path (Grants G) n s r := by
  have s1 := h.edit hf (by rw [hok]; trivial)
  have e0 : after (.add false c!"p" [r, o, a]) (c!"g", c!"g") G = G := by
    exact if_neg (show ¬ (c!"p", c!"p") = (c!"g", c!"g") by decide)
  rw [e0] at s1
  have hlen' : ∀ x ∈ after (.add false c!"p" [r, o, a]) (c!"p", c!"p") P, x.length = 3 := by
    intro x hx
    rcases mem_add hx with hx | ⟨_, rfl⟩
    · exact hlen x hx
    · rfl
  rw [s1.answer hL hlen' s obj act hne, h.answer hL hlen s obj act hne]
  simp only [Outcome.ok.injEq, decide_eq_true_eq]
  constructor
  · rintro ⟨x, hx, hp⟩
    rcases mem_add hx with hx | ⟨_, hx⟩
    · exact .inl ⟨x, hx, hp⟩
    · simp only [List.cons.injEq, and_true] at hx
      obtain ⟨rfl, rfl, rfl⟩ := hx
      exact .inr ⟨rfl, rfl, hp⟩
  · rintro (⟨x, hx, hp⟩ | ⟨rfl, rfl, hp⟩)
    · exact ⟨x, mem_kept hx, hp⟩
    · exact ⟨r, mem_added h.holds.1 hok, hp⟩

open Classical in
/-- C178, a new role in a domain: whoever is granted a request afterwards was granted it before, or the request
is in this domain and the role was granted it. -/
theorem C178_domain_bound_partial (hL : SoundLib lib) (h : InStepD lib E P G) {u r d : Str}
    (hf : LinkProps.Faithful E (.add true c!"g" [u, r, d]))
    (hok : ((Edit.add true c!"g" [u, r, d]).run E).1.IsOk) (hlen : ∀ x ∈ P, x.length = 4) (hD : PlainDomains G)
    (hd : ':' ∉ d) (s d' obj act : Str) (hd' : ':' ∉ d') (hne : d' ≠ [])
    (hg : (((Edit.add true c!"g" [u, r, d]).run E).2.enforce lib [.str s, .str d', .str obj, .str act]).1 = .ok true) :
    (E.enforce lib [.str s, .str d', .str obj, .str act]).1 = .ok true ∨
    d' = d ∧ (E.enforce lib [.str r, .str d', .str obj, .str act]).1 = .ok true := by
  have s1 := h.edit hf hok
  have e0 : after (.add true c!"g" [u, r, d]) (c!"p", c!"p") P = P := by
    exact if_neg (show ¬ (c!"g", c!"g") = (c!"p", c!"p") by decide)
  rw [e0] at s1
  have hD' : PlainDomains (after (.add true c!"g" [u, r, d]) (c!"g", c!"g") G) := by
    intro x y z rest hm
    rcases mem_add hm with hm | ⟨_, hm⟩
    · exact hD x y z rest hm
    · simp only [List.cons.injEq] at hm
      rw [hm.2.2.1]; exact hd
  rw [s1.answer hL hlen hD' s d' obj act hd' hne] at hg
  rw [h.answer hL hlen hD s d' obj act hd' hne, h.answer hL hlen hD r d' obj act hd' hne]
  simp only [Outcome.ok.injEq, decide_eq_true_eq] at hg ⊢
  obtain ⟨x, hx, n, hn, hp⟩ := hg
  have hR : ∀ a b, GrantsIn (after (.add true c!"g" [u, r, d]) (c!"g", c!"g") G) d' a b →
      GrantsIn G d' a b ∨ d' = d ∧ a = u ∧ b = r := by
    rintro a b ⟨rest, hm⟩
    rcases mem_add hm with hm | ⟨_, hm⟩
    · exact .inl ⟨rest, hm⟩
    · simp only [List.cons.injEq] at hm
      exact .inr ⟨hm.2.2.1, hm.1, hm.2.1⟩
  by_cases hdd : d' = d
  · rcases path_new (fun a b hab => (hR a b hab).imp id (·.2)) hp with hp | ⟨m, hm, hp⟩
    · exact .inl ⟨x, hx, n, hn, hp⟩
    · exact .inr ⟨hdd, x, hx, m, by omega, hp⟩
  · refine .inl ⟨x, hx, n, hn, path_mono (fun a b hab => ?_) hp⟩
    exact (hR a b hab).resolve_right fun h => hdd h.1

open Classical in
/-- C178, a new role in a domain, lower bound. -/
theorem C178_domain_role_partial (hL : SoundLib lib) (h : InStepD lib E P G) {u r d : Str}
    (hf : LinkProps.Faithful E (.add true c!"g" [u, r, d]))
    (hok : ((Edit.add true c!"g" [u, r, d]).run E).1 = .ok true) (hlen : ∀ x ∈ P, x.length = 4)
    (hD : PlainDomains G) (hd : ':' ∉ d) (hne : d ≠ []) (obj act : Str)
    {x : Str} (hx : [x, d, obj, act] ∈ P) {n : Nat} (hn : n ≤ 9) (hp : RM.Path (GrantsIn G d) n r x) :
    (((Edit.add true c!"g" [u, r, d]).run E).2.enforce lib [.str u, .str d, .str obj, .str act]).1 = .ok true := by
  have s1 := h.edit hf (by rw [hok]; trivial)
  have e0 : after (.add true c!"g" [u, r, d]) (c!"p", c!"p") P = P := by
    exact if_neg (show ¬ (c!"g", c!"g") = (c!"p", c!"p") by decide)
  rw [e0] at s1
  have hD' : PlainDomains (after (.add true c!"g" [u, r, d]) (c!"g", c!"g") G) := by
    intro x y z rest hm
    rcases mem_add hm with hm | ⟨_, hm⟩
    · exact hD x y z rest hm
    · simp only [List.cons.injEq] at hm
      rw [hm.2.2.1]; exact hd
  rw [s1.answer hL hlen hD' u d obj act hd hne]
  simp only [Outcome.ok.injEq, decide_eq_true_eq]
  refine ⟨x, hx, n + 1, by omega, .cons ⟨[], mem_added h.holds.2 hok⟩ (path_mono ?_ hp)⟩
  rintro a b ⟨rest, hm⟩
  exact ⟨rest, mem_kept hm⟩

open Classical in
/-- C178, a new permission in a domain. -/
theorem C178_domain_permission_partial (hL : SoundLib lib) (h : InStepD lib E P G) {r d o a : Str}
    (hf : LinkProps.Faithful E (.add false c!"p" [r, d, o, a]))
    (hok : ((Edit.add false c!"p" [r, d, o, a]).run E).1 = .ok true) (hlen : ∀ x ∈ P, x.length = 4)
    (hD : PlainDomains G) (s d' obj act : Str) (hd' : ':' ∉ d') (hne : d' ≠ []) :
    (((Edit.add false c!"p" [r, d, o, a]).run E).2.enforce lib [.str s, .str d', .str obj, .str act]).1 = .ok true ↔
    (E.enforce lib [.str s, .str d', .str obj, .str act]).1 = .ok true ∨
      d' = d ∧ obj = o ∧ act = a ∧ ∃ n ≤ 10, RM.Path (GrantsIn G d') n s r := by
  have s1 := h.edit hf (by rw [hok]; trivial)
  have e0 : after (.add false c!"p" [r, d, o, a]) (c!"g", c!"g") G = G := by
    exact if_neg (show ¬ (c!"p", c!"p") = (c!"g", c!"g") by decide)
  rw [e0] at s1
  have hlen' : ∀ x ∈ after (.add false c!"p" [r, d, o, a]) (c!"p", c!"p") P, x.length = 4 := by
    intro x hx
    rcases mem_add hx with hx | ⟨_, rfl⟩
    · exact hlen x hx
    · rfl
  rw [s1.answer hL hlen' hD s d' obj act hd' hne, h.answer hL hlen hD s d' obj act hd' hne]
  simp only [Outcome.ok.injEq, decide_eq_true_eq]
  constructor
  · rintro ⟨x, hx, hp⟩
    rcases mem_add hx with hx | ⟨_, hx⟩
    · exact .inl ⟨x, hx, hp⟩
    · simp only [List.cons.injEq, and_true] at hx
      obtain ⟨rfl, rfl, rfl, rfl⟩ := hx
      exact .inr ⟨rfl, rfl, rfl, hp⟩
  · rintro (⟨x, hx, hp⟩ | ⟨rfl, rfl, rfl, hp⟩)
    · exact ⟨x, mem_kept hx, hp⟩
    · exact ⟨r, mem_added h.holds.1 hok, hp⟩

/-- Ten roles, each with the next. -/
def chain : List Rule :=
  [[c!"a", c!"b"], [c!"b", c!"c"], [c!"c", c!"d"], [c!"d", c!"e"], [c!"e", c!"f"], [c!"f", c!"h"], [c!"h", c!"i"],
   [c!"i", c!"j"], [c!"j", c!"k"], [c!"k", c!"alice"]]

omit [IterOrder] in
/-- C178 is false at the limit of the search: a role that is granted a request through ten others is given to
a user, who is not granted it. -/
theorem C178_depth_fails : letI := insertionOrder
    let E := { (buildRoleLinks (rbac [alice] chain)).2 with autoSave := false }
    let e : Edit := .add true c!"g" [c!"u", c!"a"]
    (e.run E).1 = .ok true ∧
    (E.enforce miniLib [.str c!"a", .str c!"data1", .str c!"read"]).1 = .ok true ∧
    ((e.run E).2.enforce miniLib [.str c!"u", .str c!"data1", .str c!"read"]).1 = .ok false := by
  decide +kernel

theorem faithful_role (h : InStep lib E P G) {r : Rule} (hl : 2 ≤ r.length) (hs : ∀ s ∈ G, ¬ r.Perm s) :
    LinkProps.Faithful E (.add true c!"g" r) := by
  intro a ha
  obtain ⟨ga, hg, h2, hG⟩ := h.groups
  rw [hg] at ha
  cases ha
  refine ⟨by rw [h2]; exact hl, fun hsim => ?_⟩
  rw [hG] at hsim
  obtain ⟨s, hs1, hs2⟩ := hsim
  exact absurd hs2 (hs s hs1)

/-- Bob is given the role Alice: nobody gets more than Alice has, and Bob gets Alice's rule. -/
example (s obj act : Str) (hne : obj ≠ []) :
    letI := insertionOrder
    let E := (buildRoleLinks (rbac [alice] [[c!"carol", c!"bob"]])).2
    let e : Edit := .add true c!"g" [c!"bob", c!"alice"]
    (((e.run E).2.enforce miniLib [.str s, .str obj, .str act]).1 = .ok true →
      (E.enforce miniLib [.str s, .str obj, .str act]).1 = .ok true ∨
      (E.enforce miniLib [.str c!"alice", .str obj, .str act]).1 = .ok true) ∧
    ((e.run E).2.enforce miniLib [.str c!"bob", .str c!"data1", .str c!"read"]).1 = .ok true := by
  let := insertionOrder
  have h := inStep_new miniLib [alice] (G := [[c!"carol", c!"bob"]]) (by decide)
  have ok : ((Edit.add true c!"g" [c!"bob", c!"alice"]).run (buildRoleLinks (rbac [alice] [[c!"carol", c!"bob"]])).2).1
      = .ok true := by decide +kernel
  have hf := faithful_role h (r := [c!"bob", c!"alice"]) (by decide) (by decide)
  exact ⟨C178_role_bound miniLib_sound h hf (by rw [ok]; trivial) (by decide) s obj act (.inl hne),
    C178_role_partial miniLib_sound h hf ok (by decide) _ _ (.inl (by decide)) (x := c!"alice") (by decide)
      (n := 0) (by decide) (.nil _)⟩

/-- Bob's role is given a permission: exactly Bob and those who have Bob's role get it. -/
example (s obj act : Str) (hne : obj ≠ []) :
    letI := insertionOrder
    let G : List Rule := [[c!"carol", c!"bob"]]
    let E := (buildRoleLinks (rbac [alice] G)).2
    ((((Edit.add false c!"p" [c!"bob", c!"data2", c!"write"]).run E).2.enforce miniLib
        [.str s, .str obj, .str act]).1 = .ok true ↔
      (E.enforce miniLib [.str s, .str obj, .str act]).1 = .ok true ∨
      obj = c!"data2" ∧ act = c!"write" ∧ ∃ n ≤ 10, RM.Path (Grants G) n s c!"bob") := by
  let := insertionOrder
  exact C178_permission miniLib_sound (inStep_new miniLib [alice] (G := [[c!"carol", c!"bob"]]) (by decide)) trivial
    (by decide +kernel) (by decide) s obj act (.inl hne)

/-- Alice is given the role of an administrator in one domain. -/
example (s d' obj act : Str) (hd' : ':' ∉ d') (hne : d' ≠ []) :
    letI := insertionOrder
    let E := (buildRoleLinks (enforcer (domModel [[c!"admin", c!"d1", c!"data1", c!"read"]] []))).2
    (((Edit.add true c!"g" [c!"alice", c!"admin", c!"d1"]).run E).2.enforce miniLib
        [.str s, .str d', .str obj, .str act]).1 = .ok true →
      (E.enforce miniLib [.str s, .str d', .str obj, .str act]).1 = .ok true ∨
      d' = c!"d1" ∧ (E.enforce miniLib [.str c!"admin", .str d', .str obj, .str act]).1 = .ok true := by
  let := insertionOrder
  have h := inStepD_new miniLib [[c!"admin", c!"d1", c!"data1", c!"read"]] (G := []) (by decide)
  exact C178_domain_bound_partial miniLib_sound h
    (faithful_add h (r := [c!"alice", c!"admin", c!"d1"]) (by decide) (by simp)) (by decide +kernel) (by decide)
    (fun _ _ _ _ hm => by cases hm) (by decide) s d' obj act hd' hne

/-- In that domain Alice then has the administrator's permission; a new permission of the administrator is that
of those who have the role there. -/
example (s d' obj act : Str) (hd' : ':' ∉ d') (hne : d' ≠ []) :
    letI := insertionOrder
    let P : List Rule := [[c!"admin", c!"d1", c!"data1", c!"read"]]
    let E := (buildRoleLinks (enforcer (domModel P []))).2
    (((Edit.add true c!"g" [c!"alice", c!"admin", c!"d1"]).run E).2.enforce miniLib
        [.str c!"alice", .str c!"d1", .str c!"data1", .str c!"read"]).1 = .ok true ∧
    ((((Edit.add false c!"p" [c!"admin", c!"d2", c!"data2", c!"write"]).run E).2.enforce miniLib
        [.str s, .str d', .str obj, .str act]).1 = .ok true ↔
      (E.enforce miniLib [.str s, .str d', .str obj, .str act]).1 = .ok true ∨
      d' = c!"d2" ∧ obj = c!"data2" ∧ act = c!"write" ∧ ∃ n ≤ 10, RM.Path (GrantsIn [] d') n s c!"admin") := by
  let := insertionOrder
  have h := inStepD_new miniLib [[c!"admin", c!"d1", c!"data1", c!"read"]] (G := []) (by decide)
  exact ⟨C178_domain_role_partial miniLib_sound h
      (faithful_add h (r := [c!"alice", c!"admin", c!"d1"]) (by decide) (by simp)) (by decide +kernel) (by decide)
      (fun _ _ _ _ hm => by cases hm) (by decide) (by decide) _ _ (x := c!"admin") (by decide) (n := 0) (by decide)
      (.nil _),
    C178_domain_permission_partial miniLib_sound h trivial (by decide +kernel) (by decide)
      (fun _ _ _ _ hm => by cases hm) s d' obj act hd' hne⟩

end Gains
end Casbin
