import Verif.FactoryThreads
import Verif.MiniLib
import Verif.Props.EndToEnd

/-!
# C162: enforcers used by different threads get functions of their own role managers
-/

set_option linter.unusedSectionVars false

namespace Casbin
namespace Factory

open Fixtures

/-! ## Helpers -/

theorem number_digits (k : Kind) : ∀ x ∈ k.number, x ≠ 'S' := by cases k <;> decide

theorem number_inj {k k' : Kind} (h : k.number = k'.number) : k = k' := by
  cases k <;> cases k' <;> first | rfl | exact absurd h (by decide)

theorem takeWhile_key (c : Call) : c.key.takeWhile (fun x => decide (x ≠ 'S')) = c.kind.number := by
  unfold Call.key
  rw [List.takeWhile_append_of_pos (fun x hx => by simpa using number_digits _ x hx)]
  cases c.narg <;> simp [List.replicate_succ]

/-- The key says which kind of function it is, and how many parameters it has. -/
theorem key_inj {c d : Call} (h : c.key = d.key) : c.kind = d.kind ∧ c.narg = d.narg := by
  have h1 : c.kind.number = d.kind.number := by rw [← takeWhile_key, ← takeWhile_key, h]
  refine ⟨number_inj h1, ?_⟩
  have := congrArg List.length h
  simp only [Call.key, List.length_append, List.length_replicate, h1] at this
  omega

/-- The object was made for a call of some thread with the kind and number of parameters of `c`. -/
def MadeFor (program : Nat → List Call) (c : Call) (f : Made) : Prop :=
  ∃ i, ∃ d ∈ program i, d.kind = c.kind ∧ d.narg = c.narg ∧ d.made = some f

/-- The invariant of all schedules. -/
structure Inv (program : Nat → List Call) (s : Shared) : Prop where
  pool : ∀ k f, s.pool.get k = some (some f) → ∃ i, ∃ d ∈ program i, d.key = k ∧ d.made = some f
  todo : ∀ i, ∀ c ∈ (s.thread i).todo, c ∈ program i
  now : ∀ i c, (s.thread i).at_ = .enter c ∨ (s.thread i).at_ = .empty c → c ∈ program i
  got : ∀ i c f, (c, some f) ∈ (s.thread i).got → MadeFor program c f

theorem inv_start (program : Nat → List Call) : Inv program (start program) where
  pool := by intro k f h; simp [start] at h
  todo := fun i c h => h
  now := by intro i c h; simp [start] at h
  got := by intro i c f h; simp [start] at h

/-- Replacing a thread. -/
theorem inv_put {program : Nat → List Call} {s : Shared} (h : Inv program s) (i : Nat) (t : Thread)
    (h1 : ∀ c ∈ t.todo, c ∈ program i)
    (h2 : ∀ c, t.at_ = .enter c ∨ t.at_ = .empty c → c ∈ program i)
    (h3 : ∀ c f, (c, some f) ∈ t.got → MadeFor program c f) : Inv program (s.put i t) where
  pool := h.pool
  todo := by
    intro j c hc
    by_cases hj : j = i
    · subst hj; simp only [Shared.put, if_true] at hc; exact h1 c hc
    · simp only [Shared.put, if_neg hj] at hc; exact h.todo j c hc
  now := by
    intro j c hc
    by_cases hj : j = i
    · subst hj; simp only [Shared.put, if_true] at hc; exact h2 c hc
    · simp only [Shared.put, if_neg hj] at hc; exact h.now j c hc
  got := by
    intro j c f hc
    by_cases hj : j = i
    · subst hj; simp only [Shared.put, if_true] at hc; exact h3 c f hc
    · simp only [Shared.put, if_neg hj] at hc; exact h.got j c f hc

theorem inv_step {program : Nat → List Call} {s : Shared} (h : Inv program s) (i : Nat) :
    Inv program (step s i) := by
  have htodo := h.todo i
  have hnow := h.now i
  have hgot := h.got i
  unfold step
  simp only
  cases hat : (s.thread i).at_ with
  | idle =>
    simp only
    cases htd : (s.thread i).todo with
    | nil => exact h
    | cons c cs =>
      rw [htd] at htodo
      simp only
      cases s.pool.get c.key with
      | some f =>
        exact inv_put h i _ (fun d hd => htodo d (List.mem_cons_of_mem _ hd)) (by simp) hgot
      | none =>
        exact inv_put h i _ (fun d hd => htodo d (List.mem_cons_of_mem _ hd))
          (by rintro d (hd | hd) <;> simp only [At.enter.injEq, reduceCtorEq] at hd
              subst hd; exact htodo _ (List.mem_cons_self ..)) hgot
  | take c =>
    simp only
    cases hp : s.pool.get c.key with
    | some f =>
      refine inv_put h i _ htodo (by simp) ?_
      intro d g hd
      rcases List.mem_append.mp hd with hd | hd
      · exact hgot d g hd
      · simp only [List.mem_singleton, Prod.mk.injEq] at hd
        obtain ⟨rfl, rfl⟩ := hd
        obtain ⟨j, e, he, hk, hm⟩ := h.pool _ _ hp
        obtain ⟨h1, h2⟩ := key_inj hk
        exact ⟨j, e, he, h1, h2, hm⟩
    | none =>
      have h' : Inv program { s with pool := s.pool.set c.key none } :=
        ⟨fun k f hk => by
          rw [UMap.get_set] at hk
          split at hk
          · simp at hk
          · exact h.pool k f hk, h.todo, h.now, h.got⟩
      refine inv_put h' i _ htodo (by simp) ?_
      intro d g hd
      rcases List.mem_append.mp hd with hd | hd
      · exact hgot d g hd
      · simp at hd
  | enter c =>
    have hc : c ∈ program i := hnow c (.inl hat)
    simp only
    cases hm : c.made with
    | some f =>
      have h' : Inv program { s with pool := s.pool.set c.key (some f) } :=
        ⟨fun k g hk => by
          rw [UMap.get_set] at hk
          split at hk
          · rename_i hkk
            simp only [Option.some.injEq] at hk
            subst hk
            exact ⟨i, c, hc, hkk, hm⟩
          · exact h.pool k g hk, h.todo, h.now, h.got⟩
      exact inv_put h' i _ htodo
        (by rintro d (hd | hd) <;> simp only [At.empty.injEq, reduceCtorEq] at hd
            subst hd; exact hc) hgot
    | none =>
      exact inv_put h i _ htodo
        (by rintro d (hd | hd) <;> simp only [At.empty.injEq, reduceCtorEq] at hd
            subst hd; exact hc) hgot
  | empty c =>
    have hc : c ∈ program i := hnow c (.inr hat)
    have h' : Inv program { s with pool := [] } :=
      ⟨fun k g hk => by simp [UMap.get] at hk, h.todo, h.now, h.got⟩
    refine inv_put h' i _ htodo (by simp) ?_
    intro d g hd
    rcases List.mem_append.mp hd with hd | hd
    · exact hgot d g hd
    · simp only [List.mem_singleton, Prod.mk.injEq] at hd
      obtain ⟨rfl, hm⟩ := hd
      exact ⟨i, d, hc, rfl, rfl, hm.symm⟩

theorem inv_run {program : Nat → List Call} (schedule : List Nat) : ∀ {s : Shared}, Inv program s →
    Inv program (run s schedule) := by
  induction schedule with
  | nil => intro s h; exact h
  | cons i is ih => intro s h; exact ih (inv_step h i)

/-! ## C162 -/

/-- C162, what holds of every schedule, with any number of threads and any programs: an object that is
handed out has the kind and the number of parameters of the call, and is the one made for a call of some
thread. Missing: it may be one of another thread (`C162_fails`), or null (`C162_null_fails`). -/
theorem C162_any_partial (program : Nat → List Call) (schedule : List Nat) (i : Nat) (c : Call) (f : Made)
    (h : (c, some f) ∈ ((run (start program) schedule).thread i).got) :
    ∃ j, ∃ d ∈ program j, d.kind = c.kind ∧ d.narg = c.narg ∧ make c.kind c.narg d.rm = some f := by
  obtain ⟨j, d, hd, h1, h2, h3⟩ := (inv_run schedule (inv_start program)).got i c f h
  exact ⟨j, d, hd, h1, h2, by rw [← h1, ← h2]; exact h3⟩

example : ((⟨.gfunction, 2, some 0⟩ : Call), some (⟨.g (some 1) 2, 2⟩ : Made)) ∈
    ((run (start fun i => if i = 0 then [⟨.gfunction, 2, some 1⟩] else [⟨.gfunction, 2, some 0⟩])
      [0, 0, 1, 1]).thread 1).got := by
  have : ((run (start fun i => if i = 0 then [⟨.gfunction, 2, some 1⟩] else [⟨.gfunction, 2, some 0⟩])
      [0, 0, 1, 1]).thread 1).got = [(⟨.gfunction, 2, some 0⟩, some ⟨.g (some 1) 2, 2⟩)] := rfl
  rw [this]; exact List.mem_singleton.mpr rfl

/-- C162 for the functions without a role manager, and for the grouping functions when all threads use one
role manager for the same number of parameters: what is handed out is null or as it should be. -/
theorem C162_same_partial (program : Nat → List Call) (schedule : List Nat) (i : Nat) (c : Call)
    (f : Option Made)
    (hrm : c.kind = .gfunction →
      ∀ j, ∀ d ∈ program j, d.kind = .gfunction → d.narg = c.narg → d.rm = c.rm)
    (h : (c, f) ∈ ((run (start program) schedule).thread i).got) :
    f = none ∨ f = make c.kind c.narg c.rm := by
  cases f with
  | none => exact .inl rfl
  | some f =>
    obtain ⟨j, d, hd, h1, h2, h3⟩ := C162_any_partial program schedule i c f h
    refine .inr (h3.symm.trans ?_)
    by_cases hk : c.kind = .gfunction
    · rw [hrm hk j d hd (h1.trans hk) h2]
    · cases hc : c.kind <;> first | exact absurd hc hk | rfl

example : ∀ f, (⟨.keyMatch, 2, none⟩, f) ∈
      ((run (start fun _ => [⟨.keyMatch, 2, none⟩]) [0, 0, 1, 1]).thread 1).got →
    f = none ∨ f = some ⟨.builtin .keyMatch, 2⟩ := fun f hf =>
  C162_same_partial (fun _ => [⟨.keyMatch, 2, none⟩]) [0, 0, 1, 1] 1 ⟨.keyMatch, 2, none⟩ f
    (by intro h; cases h) hf

/-- A call that is not interrupted takes these steps. -/
theorem alone {s : Shared} {i : Nat} {c : Call} {cs : List Call} (hp : s.pool = [])
    (ht : (s.thread i).todo = c :: cs) (ha : (s.thread i).at_ = .idle) :
    (run s [i, i, i]).pool = [] ∧
    ((run s [i, i, i]).thread i) =
      { todo := cs, at_ := .idle, got := (s.thread i).got ++ [(c, make c.kind c.narg c.rm)] } ∧
    ∀ j, j ≠ i → (run s [i, i, i]).thread j = s.thread j := by
  have h1 : step s i = s.put i { s.thread i with todo := cs, at_ := .enter c } := by
    unfold step; simp only [ha, ht, hp, UMap.get]
  have h2 : ∃ P, step (step s i) i =
      ({ s with pool := P } : Shared).put i { s.thread i with todo := cs, at_ := .empty c } := by
    rw [h1]
    unfold step
    simp only [Shared.put, if_true]
    have hite : ∀ t t' : Thread, (fun j => if j = i then t else if j = i then t' else s.thread j) =
        fun j => if j = i then t else s.thread j := by
      intro t t'; funext j; by_cases hj : j = i <;> simp [hj]
    cases c.made with
    | none => exact ⟨s.pool, by simp only [hite]⟩
    | some f => exact ⟨s.pool.set c.key (some f), by simp only [hite]⟩
  obtain ⟨P, h2⟩ := h2
  have h3 : run s [i, i, i] = step (step (step s i) i) i := rfl
  rw [h3, h2]
  unfold step
  simp only [Shared.put, if_true]
  exact ⟨trivial, rfl, fun j hj => by simp [hj]⟩

/-- Each of the threads named makes its next call, without interruption. -/
def inTurn (is : List Nat) : List Nat := is.flatMap fun i => [i, i, i]

/-- C162 for calls that do not overlap, in any order of the threads: every object is the one made for the
call. (Also C97, for the pool as it is used by several threads.) -/
theorem C162_turns_partial (program : Nat → List Call) (is : List Nat)
    (hn : ∀ i, is.count i ≤ (program i).length) (i : Nat) :
    ((run (start program) (inTurn is)).thread i).got =
      ((program i).take (is.count i)).map fun c => (c, make c.kind c.narg c.rm) := by
  have key : ∀ (is : List Nat) (s : Shared), s.pool = [] → (∀ i, (s.thread i).at_ = .idle) →
      (∀ i, is.count i ≤ (s.thread i).todo.length) → ∀ i,
      ((run s (inTurn is)).thread i).got = (s.thread i).got ++
        ((s.thread i).todo.take (is.count i)).map fun c => (c, make c.kind c.narg c.rm) := by
    intro is
    induction is with
    | nil => intro s _ _ _ i; simp [inTurn, run]
    | cons j is ih =>
      intro s hp hat hc i
      have hj := hc j
      cases htd : (s.thread j).todo with
      | nil => simp [htd] at hj
      | cons c cs =>
        obtain ⟨h1, h2, h3⟩ := alone hp htd (hat j)
        have hrun : run s (inTurn (j :: is)) = run (run s [j, j, j]) (inTurn is) := by
          simp [inTurn, run]
        rw [hrun, ih (run s [j, j, j]) h1 ?_ ?_ i]
        · by_cases hi : i = j
          · subst hi
            rw [h2, htd, List.count_cons_self, List.take_succ_cons]
            simp
          · rw [h3 i hi, List.count_cons_of_ne (Ne.symm hi)]
        · intro k
          by_cases hk : k = j
          · subst hk; rw [h2]
          · rw [h3 k hk]; exact hat k
        · intro k
          by_cases hk : k = j
          · subst hk
            rw [h2]
            rw [htd, List.count_cons_self] at hj
            simpa using hj
          · rw [h3 k hk]
            have := hc k
            rwa [List.count_cons_of_ne (Ne.symm hk)] at this
  have := key is (start program) rfl (fun _ => rfl) hn i
  simpa [start] using this

/-- Two threads, each with its own enforcer and role manager; each makes a grouping function with two
parameters and a `keyMatch`. -/
def two : Nat → List Call
  | 0 => [⟨.gfunction, 2, some 1⟩, ⟨.keyMatch, 2, none⟩]
  | 1 => [⟨.gfunction, 2, some 0⟩, ⟨.keyMatch, 2, none⟩]
  | _ => []

example : ((run (start two) (inTurn [1, 0, 0, 1])).thread 1).got =
    [(⟨.gfunction, 2, some 0⟩, some ⟨.g (some 0) 2, 2⟩),
     (⟨.keyMatch, 2, none⟩, some ⟨.builtin .keyMatch, 2⟩)] :=
  C162_turns_partial two [1, 0, 0, 1] (by intro i; match i with | 0 | 1 | _ + 2 => simp [two]) 1

/-- C162 fails: whatever the other threads do and did, when two threads are about to make a grouping
function with the same number of parameters and the pool has none, the second may be handed the function of
the first, with the role manager of the other enforcer. -/
theorem C162_fails (s : Shared) (i j : Nat) (hij : i ≠ j) (c d : Call) (cs ds : List Call)
    (hi : (s.thread i).at_ = .idle) (hj : (s.thread j).at_ = .idle)
    (hc : (s.thread i).todo = c :: cs) (hd : (s.thread j).todo = d :: ds)
    (hcg : c.kind = .gfunction) (hdg : d.kind = .gfunction) (hn : c.narg = d.narg)
    (hp : s.pool.get c.key = none) :
    ((run s [i, i, j, j]).thread j).got =
      (s.thread j).got ++ [(d, some ⟨.g c.rm d.narg, d.narg⟩)] := by
  have hk : d.key = c.key := by simp [Call.key, hcg, hdg, hn]
  have hm : c.made = some ⟨.g c.rm d.narg, d.narg⟩ := by simp [Call.made, hcg, make, hn]
  have hji : j ≠ i := Ne.symm hij
  have h1 : step s i = s.put i { s.thread i with todo := cs, at_ := .enter c } := by
    unfold step; simp only [hi, hc, hp]
  have h2 : step (step s i) i =
      ({ s with pool := s.pool.set c.key (some ⟨.g c.rm d.narg, d.narg⟩) } : Shared).put i
        { s.thread i with todo := cs, at_ := .empty c } := by
    rw [h1]
    unfold step
    simp only [Shared.put, if_true, hm]
    congr 1; funext j; by_cases hj : j = i <;> simp [hj]
  have h3 : run s [i, i, j, j] = step (step (step (step s i) i) j) j := rfl
  rw [h3, h2]
  have h4 : ∀ s' : Shared, s'.pool.get d.key = some (some ⟨.g c.rm d.narg, d.narg⟩) →
      s'.thread j = s.thread j → ((step (step s' j) j).thread j).got =
        (s.thread j).got ++ [(d, some ⟨.g c.rm d.narg, d.narg⟩)] := by
    intro s' hg ht
    have : step s' j = s'.put j { s.thread j with todo := ds, at_ := .take d } := by
      unfold step; simp only [ht, hj, hd, hg]
    rw [this]
    unfold step
    simp only [Shared.put, if_true, hg]
  refine h4 _ ?_ ?_
  · simp only [Shared.put, hk, UMap.get_set_self]
  · simp [Shared.put, hji]

example : ((run (start two) [0, 0, 1, 1]).thread 1).got =
    [(⟨.gfunction, 2, some 0⟩, some ⟨.g (some 1) 2, 2⟩)] :=
  C162_fails (start two) 0 1 (by decide) _ _ _ _ rfl rfl rfl rfl rfl rfl rfl rfl

/-- C162 fails also for the functions without role manager: a thread may be handed a null pointer, which
`AddFunction` does not register, so that the matcher does not compile. -/
theorem C162_null_fails : ∃ schedule : List Nat,
    ((run (start two) schedule).thread 1).got =
      [(⟨.gfunction, 2, some 0⟩, some ⟨.g (some 0) 2, 2⟩), (⟨.keyMatch, 2, none⟩, none)] :=
  ⟨[0, 0, 0, 1, 1, 1, 0, 0, 1, 0, 1], by rfl⟩

/-! ## What becomes of it -/

/-- A function that is registered stays: a later request of the enforcer with its own role manager does not
replace it (evaluator.cpp 123–128). -/
theorem C162_kept (fs : List (Str × FunRef)) : ∀ (ev : Evaluator) {n : Str} {f : FunRef},
    ev.funs.get (lower n) = some f → ((Evaluator.addFunctions fs ev).2).funs.get (lower n) = some f := by
  induction fs with
  | nil => intro ev n f h; exact h
  | cons nf fs ih =>
    obtain ⟨x, g⟩ := nf
    intro ev n f h
    simp only [Evaluator.addFunctions, Evaluator.addFunction, M.bind_run, M.modify_run]
    refine ih _ ?_
    split
    · exact h
    · rename_i hx
      refine (UMap.get_set_ne _ _ ?_).trans h
      intro he
      exact hx ((UMap.has_iff _ _).mpr (by rw [he]; exact UMap.mem_keys_of_get h))

example : ((Evaluator.addFunctions [(c!"g", .g (some 0) 2)]
    (Evaluator.addFunction c!"g" (.g (some 1) 2) Evaluator.new).2).2).funs.get c!"g" =
      some (.g (some 1) 2) :=
  C162_kept [(c!"g", .g (some 0) 2)] _ (n := c!"g") (by decide)

/-- The enforcer of the second thread, in which Bob has the role admin and Alice has none. The role manager
of the first enforcer, in which Alice is an admin, is a second object of the heap. `f` is what was registered
for `g`. -/
def mixed [IterOrder] (f : FunRef) : Enforcer :=
  let E := (Enforcer.buildRoleLinks (rbac [[c!"admin", c!"data1", c!"read"]] [[c!"bob", c!"admin"]])).2
  { E with
    heap := E.heap ++ [(RM.addLink c!"alice" c!"admin" [] (RM.new 10)).2]
    eval := some (Evaluator.addFunction c!"g" f Evaluator.new).2 }

/-- C162 fails in what is granted: with the function that a schedule of the two threads hands to the second
enforcer, it grants Alice what is granted to the admins of its own policy, though Alice has no role in it;
with its own function it denies. -/
theorem C162_grant_fails : letI := insertionOrder
    ∃ (schedule : List Nat) (own other : Made),
      ((run (start two) schedule).thread 1).got = [(⟨.gfunction, 2, some 0⟩, some other)] ∧
      make .gfunction 2 (some 0) = some own ∧
      ((mixed other.fn).enforce miniLib [.str c!"alice", .str c!"data1", .str c!"read"]).1 = .ok true ∧
      ((mixed own.fn).enforce miniLib [.str c!"alice", .str c!"data1", .str c!"read"]).1 = .ok false :=
  letI := insertionOrder
  ⟨[0, 0, 1, 1], ⟨.g (some 0) 2, 2⟩, ⟨.g (some 1) 2, 2⟩, rfl, rfl, by decide +kernel, by decide +kernel⟩

end Factory
end Casbin
