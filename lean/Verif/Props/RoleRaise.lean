import Verif.RoleRaise
import Verif.RoleManagerLemmas

/-!
# C171: a matching function that raises an exception
-/

set_option linter.unusedSectionVars false

namespace Casbin
namespace Raising

variable [IterOrder] {f : Fn} {m : Roles} {lvl : Nat}

/-! ## Specification -/

/-- The function with "no" in place of an exception. -/
def sure (f : Fn) (x y : Str) : Bool :=
  match f x y with
  | .ok b => b
  | _ => false

/-- The function answers about the name and each of these. -/
def Quiet (f : Fn) (n : Str) (ks : List Str) : Prop := ∀ k ∈ ks, (f n k).IsOk

/-- What came out is an exception of the function. -/
def Failed {α : Type} (f : Fn) (o : Outcome α) : Prop :=
  ∃ x y, (∃ e, f x y = .throw e ∧ o = .throw e) ∨ ∃ u, f x y = .ub u ∧ o = .ub u

/-- The role manager of `RoleManager.lean` with these roles and that function. -/
def calm (f : Fn) (lvl : Nat) (m : Roles) : RM := { roles := m, maxLevel := lvl, pattern := some (sure f) }

/-- The call did what the other role manager does. -/
def Did {α : Type} (f : Fn) (lvl : Nat) (m : Roles) (g : M RM α) (r : Outcome α × Roles) : Prop :=
  g (calm f lvl m) = (r.1, calm f lvl r.2)

/-! ## Helpers -/

omit [IterOrder] in
theorem Failed.notOk {α : Type} {o : Outcome α} (h : Failed f o) : ¬ o.IsOk := by
  rcases h with ⟨x, y, ⟨e, -, rfl⟩ | ⟨u, -, rfl⟩⟩ <;> exact id

omit [IterOrder] in
theorem any_cases (f : Fn) (n : Str) (ks : List Str) :
    (Quiet f n ks ∧ anyMatch f n ks = .ok (ks.any (sure f n))) ∨
    (¬ Quiet f n ks ∧ Failed f (anyMatch f n ks)) := by
  induction ks with
  | nil => exact .inl ⟨by simp [Quiet], rfl⟩
  | cons k ks ih =>
    cases hk : f n k with
    | throw e =>
      refine .inr ⟨fun h => ?_, n, k, .inl ⟨e, hk, by simp [anyMatch, hk]⟩⟩
      have := h k (by simp); rw [hk] at this; exact this
    | ub u =>
      refine .inr ⟨fun h => ?_, n, k, .inr ⟨u, hk, by simp [anyMatch, hk]⟩⟩
      have := h k (by simp); rw [hk] at this; exact this
    | ok b =>
      rcases ih with ⟨h1, h2⟩ | ⟨h1, h2⟩
      · refine .inl ⟨?_, by simp [anyMatch, hk, h2, sure]⟩
        intro k' hk'
        rcases List.mem_cons.mp hk' with rfl | h
        · rw [hk]; trivial
        · exact h1 k' h
      · refine .inr ⟨fun h => h1 fun k' hk' => h k' (List.mem_cons_of_mem _ hk'), ?_⟩
        obtain ⟨x, y, h⟩ := h2
        refine ⟨x, y, h.imp ?_ ?_⟩
        · rintro ⟨e, he, h⟩; exact ⟨e, he, by simp [anyMatch, hk, h]⟩
        · rintro ⟨e, he, h⟩; exact ⟨e, he, by simp [anyMatch, hk, h]⟩

omit [IterOrder] in
/-- What the loop of `CreateRole` leaves behind: the names as they were, all links there were, and as new
links only matches of the name. -/
theorem link_cases (f : Fn) (n : Str) (ks : List Str) : ∀ m : Roles, n ∈ m.keys →
    ((Quiet f n ks ∧ linkAll f n ks m = (.ok (), ks.foldl
        (fun m k => if sure f n k = true ∧ n ≠ k then RM.addRole m n k else m) m)) ∨
      (¬ Quiet f n ks ∧ Failed f (linkAll f n ks m).1)) ∧
    (linkAll f n ks m).2.keys = m.keys ∧
    (∀ x y, y ∈ RM.direct m x → y ∈ RM.direct (linkAll f n ks m).2 x) ∧
    ∀ x y, y ∈ RM.direct (linkAll f n ks m).2 x →
      y ∈ RM.direct m x ∨ (x = n ∧ y ∈ ks ∧ y ≠ n ∧ f n y = .ok true) := by
  induction ks with
  | nil =>
    intro m hn
    exact ⟨.inl ⟨by simp [Quiet], rfl⟩, rfl, fun _ _ h => h, fun _ _ h => .inl h⟩
  | cons k ks ih =>
    intro m hn
    cases hk : f n k with
    | throw e =>
      have hr : linkAll f n (k :: ks) m = (.throw e, m) := by simp [linkAll, M.bind_run, hk]
      rw [hr]
      refine ⟨.inr ⟨fun h => ?_, n, k, .inl ⟨e, hk, rfl⟩⟩, rfl, fun _ _ h => h, fun _ _ h => .inl h⟩
      have := h k (by simp); rw [hk] at this; exact this
    | ub u =>
      have hr : linkAll f n (k :: ks) m = (.ub u, m) := by simp [linkAll, M.bind_run, hk]
      rw [hr]
      refine ⟨.inr ⟨fun h => ?_, n, k, .inr ⟨u, hk, rfl⟩⟩, rfl, fun _ _ h => h, fun _ _ h => .inl h⟩
      have := h k (by simp); rw [hk] at this; exact this
    | ok b =>
      obtain ⟨m1, hm1⟩ : ∃ m1, m1 = if b = true ∧ n ≠ k then RM.addRole m n k else m := ⟨_, rfl⟩
      have hr : linkAll f n (k :: ks) m = linkAll f n ks m1 := by
        simp [linkAll, M.bind_run, hk, hm1]
      have hk1 : m1.keys = m.keys := by
        rw [hm1]; split
        · exact RM.keys_addRole _ _ _
        · rfl
      have hd1 : ∀ x y, y ∈ RM.direct m1 x ↔ y ∈ RM.direct m x ∨ (x = n ∧ y = k ∧ b = true ∧ n ≠ k) := by
        intro x y
        rw [hm1]
        split
        · rename_i hc
          rw [RM.direct_addRole _ _ _ _ _ hn]
          simp [hc]
        · rename_i hc
          constructor
          · exact .inl
          · rintro (h | ⟨-, -, h1, h2⟩)
            · exact h
            · exact absurd ⟨h1, h2⟩ hc
      obtain ⟨c1, c2, c3, c4⟩ := ih m1 (hk1 ▸ hn)
      rw [hr]
      refine ⟨?_, c2.trans hk1, fun x y h => c3 x y ((hd1 x y).mpr (.inl h)), fun x y h => ?_⟩
      · rcases c1 with ⟨q, h⟩ | ⟨q, h⟩
        · refine .inl ⟨?_, ?_⟩
          · intro k' hk'
            rcases List.mem_cons.mp hk' with rfl | h
            · rw [hk]; trivial
            · exact q k' h
          · rw [h]
            simp only [List.foldl_cons]
            rw [show (if sure f n k = true ∧ n ≠ k then RM.addRole m n k else m) = m1 by
              rw [hm1]; simp [sure, hk]]
        · exact .inr ⟨fun q' => q fun k' hk' => q' k' (List.mem_cons_of_mem _ hk'), h⟩
      · rcases c4 x y h with h | ⟨rfl, h2, h3, h4⟩
        · rcases (hd1 x y).mp h with h | ⟨rfl, rfl, rfl, h⟩
          · exact .inl h
          · exact .inr ⟨rfl, List.mem_cons_self, h.symm, hk⟩
        · exact .inr ⟨rfl, List.mem_cons_of_mem _ h2, h3, h4⟩

theorem quiet_iter {n : Str} {ks : List Str} : Quiet f n (IterOrder.iter ks) ↔ Quiet f n ks :=
  forall_congr' fun _ => by rw [(IterOrder.iter_perm ks).mem_iff]

theorem has_cases (n : Str) :
    (Quiet f n m.keys ∧ hasRole f m n = .ok ((calm f lvl m).hasRole n)) ∨
    (¬ Quiet f n m.keys ∧ Failed f (hasRole f m n)) := by
  rcases any_cases f n (IterOrder.iter m.keys) with ⟨h1, h2⟩ | ⟨h1, h2⟩
  · refine .inl ⟨quiet_iter.mp h1, ?_⟩
    show anyMatch f n _ = _
    rw [h2]
    exact congrArg Outcome.ok ((IterOrder.iter_perm m.keys).any_eq)
  · exact .inr ⟨fun h => h1 (quiet_iter.mpr h), h2⟩

theorem create_cases (n : Str) :
    ((Quiet f n (n :: m.keys) ∧ createRole f n m = (.ok (), ((calm f lvl m).createRole n).roles)) ∨
      (¬ Quiet f n (n :: m.keys) ∧ Failed f (createRole f n m).1)) ∧
    (∀ x, x ∈ (createRole f n m).2.keys ↔ x = n ∨ x ∈ m.keys) ∧
    (∀ x y, y ∈ RM.direct m x → y ∈ RM.direct (createRole f n m).2 x) ∧
    ∀ x y, y ∈ RM.direct (createRole f n m).2 x →
      y ∈ RM.direct m x ∨ (x = n ∧ y ∈ m.keys ∧ y ≠ n ∧ f n y = .ok true) := by
  obtain ⟨m0, hm0⟩ : ∃ m0, m0 = if m.has n then m else m.set n [] := ⟨_, rfl⟩
  have hk0 : ∀ x, x ∈ m0.keys ↔ x = n ∨ x ∈ m.keys := by
    intro x
    rw [hm0]
    split
    · rename_i h
      have := (UMap.has_iff m n).mp h
      constructor
      · exact .inr
      · rintro (rfl | h) <;> assumption
    · exact UMap.mem_keys_set _ _ _ _
  have hd0 : ∀ x, RM.direct m0 x = RM.direct m x := by
    intro x
    rw [hm0]
    split
    · rfl
    · rename_i h
      rw [RM.direct_set]
      split
      · rename_i hx
        subst hx
        have : m.get n = none := by
          cases hg : m.get n with
          | none => rfl
          | some l => exact absurd (by simp [UMap.has, hg]) h
        simp [RM.direct, this]
      · rfl
  have hr : createRole f n m = linkAll f n (IterOrder.iter m0.keys) m0 := by
    simp [createRole, M.bind_run, hm0]
  have hc : ((calm f lvl m).createRole n).roles = (IterOrder.iter m0.keys).foldl
        (fun m k => if sure f n k = true ∧ n ≠ k then RM.addRole m n k else m) m0 := by
    rw [hm0]; rfl
  have hq : Quiet f n (IterOrder.iter m0.keys) ↔ Quiet f n (n :: m.keys) := by
    rw [quiet_iter]
    exact forall_congr' fun x => by rw [hk0 x, List.mem_cons]
  obtain ⟨c1, c2, c3, c4⟩ := link_cases f n (IterOrder.iter m0.keys) m0 ((hk0 n).mpr (.inl rfl))
  rw [hr, hc]
  refine ⟨?_, fun x => by rw [c2]; exact hk0 x, fun x y h => c3 x y (by rw [hd0]; exact h), fun x y h => ?_⟩
  · rw [← hq]; exact c1
  · rcases c4 x y h with h | ⟨h1, h2, h3, h4⟩
    · rw [hd0] at h; exact .inl h
    · exact .inr ⟨h1, ((hk0 y).mp ((IterOrder.iter_perm _).mem_iff.mp h2)).resolve_left h3, h3, h4⟩

theorem calm_create (n : Str) : calm f lvl ((calm f lvl m).createRole n).roles = (calm f lvl m).createRole n := by
  rfl

omit [IterOrder] in
theorem qualify_both (a b : Str) (d : List Str) :
    (∃ n1 n2, RM.qualify d a = .ok n1 ∧ RM.qualify d b = .ok n2) ∨
    (RM.qualify d a = .throw .rbac ∧ RM.qualify d b = .throw .rbac) := by
  match d with
  | [] => exact .inl ⟨a, b, rfl, rfl⟩
  | [x] => exact .inl ⟨_, _, rfl, rfl⟩
  | x :: y :: r => exact .inr ⟨rfl, rfl⟩

omit [IterOrder] in
/-- A step that fails makes the call fail. -/
theorem Failed.bind {α β : Type} {g : M Roles α} {k : α → M Roles β} (h : Failed f (g m).1) :
    Failed f ((g >>= k) m).1 := by
  rcases hg : g m with ⟨o, m'⟩
  rw [hg] at h
  rcases h with ⟨x, y, ⟨e, h1, h2⟩ | ⟨u, h1, h2⟩⟩
  · simp only at h2; subst h2
    exact ⟨x, y, .inl ⟨e, h1, by rw [M.bind_run, hg]⟩⟩
  · simp only at h2; subst h2
    exact ⟨x, y, .inr ⟨u, h1, by rw [M.bind_run, hg]⟩⟩

/-- The two steps of `AddLink` and `DeleteLink`. -/
theorem two_cases (n1 n2 : Str) (k : M Roles Unit) :
    (createRole f n1 >>= fun _ => createRole f n2 >>= fun _ => k) m =
      k (((calm f lvl m).createRole n1).createRole n2).roles ∨
    Failed f ((createRole f n1 >>= fun _ => createRole f n2 >>= fun _ => k) m).1 := by
  rcases (create_cases (f := f) (m := m) (lvl := lvl) n1).1 with ⟨-, h1⟩ | ⟨-, h1⟩
  · rw [M.bind_run_ok h1]
    rcases (create_cases (f := f) (m := ((calm f lvl m).createRole n1).roles) (lvl := lvl) n2).1 with
      ⟨-, h2⟩ | ⟨-, h2⟩
    · rw [M.bind_run_ok h2]; exact .inl rfl
    · exact .inr h2.bind
  · exact .inr h1.bind

/-! ## C171 -/

/-- C171, what a call does if the function raises no exception during it: what the other role manager does
with "no" in place of every exception. Otherwise the exception is that of the function. -/
theorem C171_calls (f : Fn) (lvl : Nat) (m : Roles) (a b : Str) (d : List Str) :
    (Did f lvl m (RM.addLink a b d) (addLink f a b d m) ∨ Failed f (addLink f a b d m).1) ∧
    (Did f lvl m (RM.deleteLink a b d) (deleteLink f a b d m) ∨ Failed f (deleteLink f a b d m).1) ∧
    (Did f lvl m (RM.hasLink a b d) (hasLink f lvl a b d m) ∨ Failed f (hasLink f lvl a b d m).1) ∧
    (Did f lvl m (RM.getRoles a d) (getRoles f a d m) ∨ Failed f (getRoles f a d m).1) ∧
    (Did f lvl m (RM.getUsers a d) (getUsers f a d m) ∨ Failed f (getUsers f a d m).1) := by
  unfold Did
  rcases qualify_both a b d with ⟨n1, n2, q1, q2⟩ | ⟨q1, q2⟩
  · refine ⟨?_, ?_, ?_, ?_, ?_⟩
    · have hr : addLink f a b d m = (createRole f n1 >>= fun _ => createRole f n2 >>= fun _ =>
          M.modify (fun m => RM.addRole m n1 n2)) m := by unfold addLink; rw [q1, q2]; rfl
      rw [hr]
      refine (two_cases (lvl := lvl) n1 n2 _).imp (fun h => ?_) id
      rw [h]
      unfold RM.addLink; rw [q1, q2]; rfl
    · rcases has_cases (f := f) (m := m) (lvl := lvl) n1 with ⟨-, h1⟩ | ⟨-, h1⟩
      · have hr : deleteLink f a b d m = (if !(calm f lvl m).hasRole n1 then M.throw .rbac
          else M.lift (hasRole f m n2) >>= fun h2 => if !h2 then M.throw .rbac else
            createRole f n1 >>= fun _ => createRole f n2 >>= fun _ =>
              M.modify (fun m => RM.delRole m n1 n2)) m := by
          unfold deleteLink; rw [q1, q2]
          show (M.lift (hasRole f m n1) >>= _) m = _
          rw [M.bind_run_ok (show M.lift (hasRole f m n1) m = (.ok _, m) by rw [h1]; rfl)]
        rw [hr]
        have hR : RM.deleteLink a b d (calm f lvl m) =
            (if !(calm f lvl m).hasRole n1 || !(calm f lvl m).hasRole n2 then M.throw .rbac
              else do
                M.modify (fun rm : RM => rm.createRole n1)
                M.modify (fun rm : RM => rm.createRole n2)
                M.modify (fun rm => { rm with roles := RM.delRole rm.roles n1 n2 })) (calm f lvl m) := by
          unfold RM.deleteLink; rw [q1, q2]; rfl
        rw [hR]
        cases hb : (calm f lvl m).hasRole n1 with
        | false => exact .inl rfl
        | true =>
          simp only [Bool.not_true, Bool.false_or, Bool.false_eq_true, if_false]
          rcases has_cases (f := f) (m := m) (lvl := lvl) n2 with ⟨-, h2⟩ | ⟨-, h2⟩
          · rw [M.bind_run_ok (show M.lift (hasRole f m n2) m = (.ok _, m) by rw [h2]; rfl)]
            cases hb2 : (calm f lvl m).hasRole n2 with
            | false => exact .inl rfl
            | true =>
              simp only [Bool.not_true, Bool.false_eq_true, if_false]
              refine (two_cases (lvl := lvl) n1 n2 _).imp (fun h => ?_) id
              rw [h]; rfl
          · exact .inr (Failed.bind (g := M.lift (hasRole f m n2)) h2)
      · refine .inr ?_
        have hr : deleteLink f a b d m = (M.lift (hasRole f m n1) >>= fun h1 => if !h1 then M.throw .rbac
          else M.lift (hasRole f m n2) >>= fun h2 => if !h2 then M.throw .rbac else
            createRole f n1 >>= fun _ => createRole f n2 >>= fun _ =>
              M.modify (fun m => RM.delRole m n1 n2)) m := by
          unfold deleteLink; rw [q1, q2]; rfl
        rw [hr]
        exact Failed.bind (g := M.lift (hasRole f m n1)) h1
    · have hr : hasLink f lvl a b d m = (if n1 = n2 then pure true else M.lift (hasRole f m n1) >>= fun h1 =>
          if !h1 then pure false else M.lift (hasRole f m n2) >>= fun h2 => if !h2 then pure false else
            createRole f n1 >>= fun _ => M.get >>= fun m => pure (RM.roleHasRole m n2 lvl n1)) m := by
        unfold hasLink; rw [q1, q2]
        show (if n1 = n2 then _ else _ : M Roles Bool) m = _
        split <;> rfl
      have hR : RM.hasLink a b d (calm f lvl m) = (if n1 = n2 then pure true else
            if !(calm f lvl m).hasRole n1 || !(calm f lvl m).hasRole n2 then pure false
            else do
              M.modify (fun rm : RM => rm.createRole n1)
              let rm : RM ← M.get
              pure (RM.roleHasRole rm.roles n2 rm.maxLevel n1)) (calm f lvl m) := by
        unfold RM.hasLink; rw [q1, q2]
        show (if n1 = n2 then _ else _ : M RM Bool) _ = _
        split <;> rfl
      rw [hr, hR]
      split
      · exact .inl rfl
      rcases has_cases (f := f) (m := m) (lvl := lvl) n1 with ⟨-, h1⟩ | ⟨-, h1⟩
      · rw [M.bind_run_ok (show M.lift (hasRole f m n1) m = (.ok _, m) by rw [h1]; rfl)]
        cases hb : (calm f lvl m).hasRole n1 with
        | false => exact .inl rfl
        | true =>
          simp only [Bool.not_true, Bool.false_or, Bool.false_eq_true, if_false]
          rcases has_cases (f := f) (m := m) (lvl := lvl) n2 with ⟨-, h2⟩ | ⟨-, h2⟩
          · rw [M.bind_run_ok (show M.lift (hasRole f m n2) m = (.ok _, m) by rw [h2]; rfl)]
            cases hb2 : (calm f lvl m).hasRole n2 with
            | false => exact .inl rfl
            | true =>
              simp only [Bool.not_true, Bool.false_eq_true, if_false]
              rcases (create_cases (f := f) (m := m) (lvl := lvl) n1).1 with ⟨-, h3⟩ | ⟨-, h3⟩
              · rw [M.bind_run_ok h3]; exact .inl rfl
              · exact .inr h3.bind
          · exact .inr (Failed.bind (g := M.lift (hasRole f m n2)) h2)
      · exact .inr (Failed.bind (g := M.lift (hasRole f m n1)) h1)
    · have hr : getRoles f a d m = (M.lift (hasRole f m n1) >>= fun h => if !h then pure [] else
          createRole f n1 >>= fun _ => M.get >>= fun m => M.lift (RM.stripAll d (RM.direct m n1))) m := by
        unfold getRoles; rw [q1]; rfl
      have hR : RM.getRoles a d (calm f lvl m) = (if !(calm f lvl m).hasRole n1 then pure [] else do
            M.modify (fun rm : RM => rm.createRole n1)
            let rm : RM ← M.get
            M.lift (RM.stripAll d (RM.direct rm.roles n1))) (calm f lvl m) := by
        unfold RM.getRoles; rw [q1]; rfl
      rw [hr, hR]
      rcases has_cases (f := f) (m := m) (lvl := lvl) n1 with ⟨-, h1⟩ | ⟨-, h1⟩
      · rw [M.bind_run_ok (show M.lift (hasRole f m n1) m = (.ok _, m) by rw [h1]; rfl)]
        cases hb : (calm f lvl m).hasRole n1 with
        | false => exact .inl rfl
        | true =>
          simp only [Bool.not_true, Bool.false_eq_true, if_false]
          rcases (create_cases (f := f) (m := m) (lvl := lvl) n1).1 with ⟨-, h3⟩ | ⟨-, h3⟩
          · rw [M.bind_run_ok h3]; exact .inl rfl
          · exact .inr h3.bind
      · exact .inr (Failed.bind (g := M.lift (hasRole f m n1)) h1)
    · have hr : getUsers f a d m = (M.lift (hasRole f m n1) >>= fun h => if !h then M.throw .rbac else
          M.lift (RM.stripAll d ((IterOrder.iter m.keys).filter (fun u => decide (n1 ∈ RM.direct m u))))) m := by
        unfold getUsers; rw [q1]; rfl
      have hR : RM.getUsers a d (calm f lvl m) = (if !(calm f lvl m).hasRole n1 then M.throw .rbac else
          M.lift (RM.stripAll d ((IterOrder.iter m.keys).filter (fun u => decide (n1 ∈ RM.direct m u)))))
          (calm f lvl m) := by
        unfold RM.getUsers; rw [q1]; rfl
      rw [hr, hR]
      rcases has_cases (f := f) (m := m) (lvl := lvl) n1 with ⟨-, h1⟩ | ⟨-, h1⟩
      · rw [M.bind_run_ok (show M.lift (hasRole f m n1) m = (.ok _, m) by rw [h1]; rfl)]
        cases hb : (calm f lvl m).hasRole n1 <;> exact .inl rfl
      · exact .inr (Failed.bind (g := M.lift (hasRole f m n1)) h1)
  · refine ⟨.inl ?_, .inl ?_, .inl ?_, .inl ?_, .inl ?_⟩ <;>
      simp [RM.addLink, RM.deleteLink, RM.hasLink, RM.getRoles, RM.getUsers, addLink, deleteLink, hasLink,
        getRoles, getUsers, M.bind_run, q1]

/-- C171, for a function that always answers: the two role managers are the same. -/
theorem C171_same (hf : ∀ x y, (f x y).IsOk) (lvl : Nat) (m : Roles) (a b : Str) (d : List Str) :
    Did f lvl m (RM.addLink a b d) (addLink f a b d m) ∧
    Did f lvl m (RM.deleteLink a b d) (deleteLink f a b d m) ∧
    Did f lvl m (RM.hasLink a b d) (hasLink f lvl a b d m) ∧
    Did f lvl m (RM.getRoles a d) (getRoles f a d m) ∧
    Did f lvl m (RM.getUsers a d) (getUsers f a d m) := by
  have hno : ∀ {α : Type} (o : Outcome α), ¬ Failed f o := by
    rintro α o ⟨x, y, ⟨e, h, -⟩ | ⟨u, h, -⟩⟩ <;> have := hf x y <;> rw [h] at this <;> exact this
  obtain ⟨h1, h2, h3, h4, h5⟩ := C171_calls f lvl m a b d
  exact ⟨h1.resolve_right (hno _), h2.resolve_right (hno _), h3.resolve_right (hno _),
    h4.resolve_right (hno _), h5.resolve_right (hno _)⟩

omit [IterOrder] in
theorem sure_iff {x y : Str} : sure f x y = true ↔ f x y = .ok true := by
  unfold sure
  cases h : f x y <;> simp

omit [IterOrder] in
theorem calm_hasRole {n : Str} : (calm f lvl m).hasRole n = true ↔ ∃ k ∈ m.keys, f n k = .ok true := by
  simp [RM.hasRole, calm, sure_iff]

/-- C171, when a question raises an exception: `HasLink` answers just if the names are the same, or the
function answers about the first name and every name entered, and, if it matches one of them, about the second
name and every name entered, and, if that matches one too, about the first name and itself. -/
theorem C171_when (f : Fn) (lvl : Nat) (m : Roles) {a b n1 n2 : Str} {d : List Str}
    (q1 : RM.qualify d a = .ok n1) (q2 : RM.qualify d b = .ok n2) :
    (hasLink f lvl a b d m).1.IsOk ↔ n1 = n2 ∨ (Quiet f n1 m.keys ∧
      ((∃ k ∈ m.keys, f n1 k = .ok true) → Quiet f n2 m.keys ∧
        ((∃ k ∈ m.keys, f n2 k = .ok true) → (f n1 n1).IsOk))) := by
  have hr : hasLink f lvl a b d m = (if n1 = n2 then pure true else M.lift (hasRole f m n1) >>= fun h1 =>
      if !h1 then pure false else M.lift (hasRole f m n2) >>= fun h2 => if !h2 then pure false else
        createRole f n1 >>= fun _ => M.get >>= fun m => pure (RM.roleHasRole m n2 lvl n1)) m := by
    unfold hasLink; rw [q1, q2]
    show (if n1 = n2 then _ else _ : M Roles Bool) m = _
    split <;> rfl
  rw [hr]
  by_cases hn : n1 = n2
  · rw [if_pos hn]; exact ⟨fun _ => .inl hn, fun _ => trivial⟩
  rw [if_neg hn]
  rcases has_cases (f := f) (m := m) (lvl := lvl) n1 with ⟨c1, h1⟩ | ⟨c1, h1⟩
  · rw [M.bind_run_ok (show M.lift (hasRole f m n1) m = (.ok _, m) by rw [h1]; rfl)]
    cases hb : (calm f lvl m).hasRole n1 with
    | false =>
      have : ¬ ∃ k ∈ m.keys, f n1 k = .ok true := fun h => by
        rw [calm_hasRole.mpr h] at hb; cases hb
      exact ⟨fun _ => .inr ⟨c1, fun h => absurd h this⟩, fun _ => trivial⟩
    | true =>
      have e1 := calm_hasRole.mp hb
      simp only [Bool.not_true, Bool.false_eq_true, if_false]
      rcases has_cases (f := f) (m := m) (lvl := lvl) n2 with ⟨c2, h2⟩ | ⟨c2, h2⟩
      · rw [M.bind_run_ok (show M.lift (hasRole f m n2) m = (.ok _, m) by rw [h2]; rfl)]
        cases hb2 : (calm f lvl m).hasRole n2 with
        | false =>
          have : ¬ ∃ k ∈ m.keys, f n2 k = .ok true := fun h => by
            rw [calm_hasRole.mpr h] at hb2; cases hb2
          exact ⟨fun _ => .inr ⟨c1, fun _ => ⟨c2, fun h => absurd h this⟩⟩, fun _ => trivial⟩
        | true =>
          have e2 := calm_hasRole.mp hb2
          simp only [Bool.not_true, Bool.false_eq_true, if_false]
          rcases (create_cases (f := f) (m := m) (lvl := lvl) n1).1 with ⟨c3, h3⟩ | ⟨c3, h3⟩
          · rw [M.bind_run_ok h3]
            exact ⟨fun _ => .inr ⟨c1, fun _ => ⟨c2, fun _ => c3 n1 List.mem_cons_self⟩⟩, fun _ => trivial⟩
          · refine ⟨fun h => absurd h h3.bind.notOk, fun h => ?_⟩
            rcases h with h | h
            · exact absurd h hn
            · refine absurd (fun k hk => ?_) c3
              rcases List.mem_cons.mp hk with rfl | hk
              · exact (h.2 e1).2 e2
              · exact c1 k hk
      · refine ⟨fun h => absurd h (Failed.bind (g := M.lift (hasRole f m n2)) h2).notOk, fun h => ?_⟩
        rcases h with h | h
        · exact absurd h hn
        · exact absurd (h.2 e1).1 c2
  · refine ⟨fun h => absurd h (Failed.bind (g := M.lift (hasRole f m n1)) h1).notOk, fun h => ?_⟩
    rcases h with h | h
    · exact absurd h hn
    · exact absurd h.1 c1

/-- What a step may do to the roles: names and links stay, other names come only from `ns`, and other links are
matches of names of `ns`. -/
structure Grown (f : Fn) (ns : List Str) (m m' : Roles) : Prop where
  names : ∀ x ∈ m.keys, x ∈ m'.keys
  fresh : ∀ x ∈ m'.keys, x ∈ m.keys ∨ x ∈ ns
  links : ∀ x y, y ∈ RM.direct m x → y ∈ RM.direct m' x
  made : ∀ x y, y ∈ RM.direct m' x → y ∈ RM.direct m x ∨ (x ∈ ns ∧ y ≠ x ∧ f x y = .ok true)

omit [IterOrder] in
theorem Grown.refl (ns : List Str) : Grown f ns m m :=
  ⟨fun _ h => h, fun _ h => .inl h, fun _ _ h => h, fun _ _ h => .inl h⟩

omit [IterOrder] in
theorem Grown.trans {ns : List Str} {m m' m'' : Roles} (h : Grown f ns m m') (h' : Grown f ns m' m'') :
    Grown f ns m m'' :=
  ⟨fun x hx => h'.names x (h.names x hx), fun x hx => (h'.fresh x hx).elim (h.fresh x) .inr,
    fun x y hy => h'.links x y (h.links x y hy), fun x y hy => (h'.made x y hy).elim (h.made x y) .inr⟩

theorem grown_create {n : Str} {ns : List Str} (hn : n ∈ ns) : Grown f ns m (createRole f n m).2 := by
  obtain ⟨-, c2, c3, c4⟩ := create_cases (f := f) (m := m) (lvl := 0) n
  refine ⟨fun x hx => (c2 x).mpr (.inr hx), fun x hx => ((c2 x).mp hx).elim (fun h => .inr (h ▸ hn)) .inl, c3,
    fun x y hy => (c4 x y hy).imp id ?_⟩
  rintro ⟨rfl, -, h1, h2⟩
  exact ⟨hn, h1, h2⟩

/-- C171, what a call that raises an exception leaves behind, for `AddLink`: the first name is entered, no name
and no link is lost, the other names are at most those of the call, and new links are matches of them. The
link asked for is not made, unless it is a match. -/
theorem C171_left (f : Fn) (m : Roles) {a b n1 n2 : Str} {d : List Str}
    (q1 : RM.qualify d a = .ok n1) (q2 : RM.qualify d b = .ok n2) (hfail : ¬ (addLink f a b d m).1.IsOk) :
    n1 ∈ (addLink f a b d m).2.keys ∧ Grown f [n1, n2] m (addLink f a b d m).2 := by
  have hr : addLink f a b d m = (createRole f n1 >>= fun _ => createRole f n2 >>= fun _ =>
      M.modify (fun m => RM.addRole m n1 n2)) m := by unfold addLink; rw [q1, q2]; rfl
  rw [hr] at hfail ⊢
  have g1 : Grown f [n1, n2] m (createRole f n1 m).2 := grown_create (by simp)
  have k1 : n1 ∈ (createRole f n1 m).2.keys :=
    ((create_cases (f := f) (m := m) (lvl := 0) n1).2.1 n1).mpr (.inl rfl)
  rcases h1 : createRole f n1 m with ⟨o1, m1⟩
  rw [h1] at g1 k1
  cases o1 with
  | throw e => rw [M.bind_run, h1]; exact ⟨k1, g1⟩
  | ub u => rw [M.bind_run, h1]; exact ⟨k1, g1⟩
  | ok _ =>
    rw [M.bind_run_ok h1] at hfail ⊢
    have g2 : Grown f [n1, n2] m1 (createRole f n2 m1).2 := grown_create (by simp)
    rcases h2 : createRole f n2 m1 with ⟨o2, m2⟩
    rw [h2] at g2
    cases o2 with
    | throw e => rw [M.bind_run, h2]; exact ⟨g2.names _ k1, g1.trans g2⟩
    | ub u => rw [M.bind_run, h2]; exact ⟨g2.names _ k1, g1.trans g2⟩
    | ok _ => rw [M.bind_run_ok h2] at hfail; exact absurd trivial hfail

/-- The same for `HasLink`. -/
theorem C171_left_ask (f : Fn) (lvl : Nat) (m : Roles) {a b n1 n2 : Str} {d : List Str}
    (q1 : RM.qualify d a = .ok n1) (q2 : RM.qualify d b = .ok n2) :
    Grown f [n1] m (hasLink f lvl a b d m).2 := by
  have hr : hasLink f lvl a b d m = (if n1 = n2 then pure true else M.lift (hasRole f m n1) >>= fun h1 =>
      if !h1 then pure false else M.lift (hasRole f m n2) >>= fun h2 => if !h2 then pure false else
        createRole f n1 >>= fun _ => M.get >>= fun m => pure (RM.roleHasRole m n2 lvl n1)) m := by
    unfold hasLink; rw [q1, q2]
    show (if n1 = n2 then _ else _ : M Roles Bool) m = _
    split <;> rfl
  rw [hr]
  split
  · exact .refl _
  rw [M.bind_run, M.lift_run]
  cases hasRole f m n1 with
  | throw e => exact .refl _
  | ub u => exact .refl _
  | ok b1 =>
    cases b1 with
    | false => exact .refl _
    | true =>
      simp only [Bool.not_true, Bool.false_eq_true, if_false]
      rw [M.bind_run, M.lift_run]
      cases hasRole f m n2 with
      | throw e => exact .refl _
      | ub u => exact .refl _
      | ok b2 =>
        cases b2 with
        | false => exact .refl _
        | true =>
          simp only [Bool.not_true, Bool.false_eq_true, if_false]
          have g1 : Grown f [n1] m (createRole f n1 m).2 := grown_create (by simp)
          rcases h1 : createRole f n1 m with ⟨o1, m1⟩
          rw [h1] at g1
          rw [M.bind_run, h1]
          cases o1 <;> exact g1

/-! ## One name that cannot be matched -/

/-- A call on the role manager, other than `Clear`. -/
inductive Call
  | add (a b : Str) (d : List Str)
  | del (a b : Str) (d : List Str)
  | ask (a b : Str) (d : List Str)
  | roles (a : Str) (d : List Str)
  | users (a : Str) (d : List Str)

/-- The roles after a call, also when it raises an exception. -/
def step (f : Fn) (lvl : Nat) (m : Roles) : Call → Roles
  | .add a b d => (addLink f a b d m).2
  | .del a b d => (deleteLink f a b d m).2
  | .ask a b d => (hasLink f lvl a b d m).2
  | .roles a d => (getRoles f a d m).2
  | .users a d => (getUsers f a d m).2

omit [IterOrder] in
/-- The names stay if they stay in each step. -/
theorem kept_bind {α β : Type} {g : M Roles α} {k : α → M Roles β} {x : Str} {m : Roles} (hx : x ∈ m.keys)
    (hg : ∀ m : Roles, x ∈ m.keys → x ∈ (g m).2.keys)
    (hk : ∀ a, ∀ m : Roles, x ∈ m.keys → x ∈ (k a m).2.keys) : x ∈ ((g >>= k) m).2.keys := by
  have h1 := hg m hx
  rcases h : g m with ⟨o, m'⟩
  rw [h] at h1
  rw [M.bind_run, h]
  cases o with
  | ok a => exact hk a m' h1
  | throw e => exact h1
  | ub u => exact h1

theorem kept_create {n x : Str} (m : Roles) (hx : x ∈ m.keys) : x ∈ (createRole f n m).2.keys :=
  ((create_cases (f := f) (m := m) (lvl := 0) n).2.1 x).mpr (.inr hx)

theorem kept_step (lvl : Nat) (c : Call) (m : Roles) {x : Str} (hx : x ∈ m.keys) :
    x ∈ (step f lvl m c).keys := by
  have hadd : ∀ a b : Str, ∀ m : Roles, x ∈ m.keys → x ∈ (RM.addRole m a b).keys := by
    intro a b m h; rw [RM.keys_addRole]; exact h
  have hdel : ∀ a b : Str, ∀ m : Roles, x ∈ m.keys → x ∈ (RM.delRole m a b).keys := by
    intro a b m h
    unfold RM.delRole
    split
    · exact (UMap.mem_keys_set _ _ _ _).mpr (.inr h)
    · exact h
  cases c with
  | add a b d =>
    show x ∈ (addLink f a b d m).2.keys
    unfold addLink
    refine kept_bind hx (fun _ h => h) fun n1 _ hx => kept_bind hx (fun _ h => h) fun n2 _ hx =>
      kept_bind hx (fun _ h => kept_create _ h) fun _ _ hx => kept_bind hx (fun _ h => kept_create _ h)
      fun _ m hx => hadd _ _ m hx
  | del a b d =>
    show x ∈ (deleteLink f a b d m).2.keys
    unfold deleteLink
    refine kept_bind hx (fun _ h => h) fun n1 _ hx => kept_bind hx (fun _ h => h) fun n2 _ hx =>
      kept_bind hx (fun _ h => h) fun _ _ hx => kept_bind hx (fun _ h => h) fun h1 _ hx => ?_
    cases h1
    · exact hx
    · refine kept_bind hx (fun _ h => h) fun h2 _ hx => ?_
      cases h2
      · exact hx
      · exact kept_bind hx (fun _ h => kept_create _ h) fun _ _ hx => kept_bind hx (fun _ h => kept_create _ h)
          fun _ m hx => hdel _ _ m hx
  | ask a b d =>
    show x ∈ (hasLink f lvl a b d m).2.keys
    unfold hasLink
    refine kept_bind hx (fun _ h => h) fun n1 _ hx => kept_bind hx (fun _ h => h) fun n2 _ hx => ?_
    split
    · exact hx
    refine kept_bind hx (fun _ h => h) fun _ _ hx => kept_bind hx (fun _ h => h) fun h1 _ hx => ?_
    cases h1
    · exact hx
    · refine kept_bind hx (fun _ h => h) fun h2 _ hx => ?_
      cases h2
      · exact hx
      · exact kept_bind hx (fun _ h => kept_create _ h) fun _ _ hx => hx
  | roles a d =>
    show x ∈ (getRoles f a d m).2.keys
    unfold getRoles
    refine kept_bind hx (fun _ h => h) fun n1 _ hx => kept_bind hx (fun _ h => h) fun _ _ hx =>
      kept_bind hx (fun _ h => h) fun h1 _ hx => ?_
    cases h1
    · exact hx
    · exact kept_bind hx (fun _ h => kept_create _ h) fun _ _ hx => hx
  | users a d =>
    show x ∈ (getUsers f a d m).2.keys
    unfold getUsers
    refine kept_bind hx (fun _ h => h) fun n1 _ hx => kept_bind hx (fun _ h => h) fun _ _ hx =>
      kept_bind hx (fun _ h => h) fun h1 _ hx => ?_
    cases h1 <;> exact hx

/-- C171 is false: a name the function cannot be asked about, such as a malformed pattern, is entered by the
`AddLink` that raises the exception, and from then on, whatever is called except `Clear`, every question whether
one name has another as a role raises an exception, whatever the names are. -/
theorem C171_blocked_fails (f : Fn) (lvl : Nat) (m : Roles) {k : Str} (hk : ∀ x, ¬ (f x k).IsOk) (x : Str) :
    ¬ (addLink f k x [] m).1.IsOk ∧
    ∀ (cs : List Call) (a b : Str), a ≠ b →
      ¬ (hasLink f lvl a b [] (cs.foldl (step f lvl) (addLink f k x [] m).2)).1.IsOk := by
  have hfail : ¬ (addLink f k x [] m).1.IsOk := by
    have hr : addLink f k x [] m = (createRole f k >>= fun _ => createRole f x >>= fun _ =>
      M.modify (fun m => RM.addRole m k x)) m := rfl
    rw [hr]
    rcases (create_cases (f := f) (m := m) (lvl := lvl) k).1 with ⟨h1, -⟩ | ⟨-, h1⟩
    · exact absurd (h1 k List.mem_cons_self) (hk k)
    · exact h1.bind.notOk
  refine ⟨hfail, fun cs a b hab hok => ?_⟩
  have hin : k ∈ (cs.foldl (step f lvl) (addLink f k x [] m).2).keys := by
    have key : ∀ (cs : List Call) (m0 : Roles), k ∈ m0.keys → k ∈ (cs.foldl (step f lvl) m0).keys := by
      intro cs
      induction cs with
      | nil => exact fun _ h => h
      | cons c cs ih => exact fun m0 h => ih _ (kept_step lvl c m0 h)
    exact key cs _ (C171_left f m (a := k) (b := x) (d := []) rfl rfl hfail).1
  rcases (C171_when f lvl _ (a := a) (b := b) (d := []) rfl rfl).mp hok with h | h
  · exact hab h
  · exact hk a (h.1 k hin)

/-! ## Examples -/

/-- Equality, and an exception for the pattern `[`, as a regular expression has it. -/
def fussy : Fn := fun x y => if y = c!"[" then .throw .regex else .ok (decide (x = y))

theorem fussy_bad (x : Str) : ¬ (fussy x c!"[").IsOk := by simp [fussy, Outcome.IsOk]

/-- Alice has her role until somebody is given a role by that pattern. -/
example : letI := insertionOrder
    (hasLink fussy 10 c!"alice" c!"admin" [] (addLink fussy c!"alice" c!"admin" [] []).2).1 = .ok true ∧
    ¬ (hasLink fussy 10 c!"alice" c!"admin" []
      (addLink fussy c!"[" c!"admin" [] (addLink fussy c!"alice" c!"admin" [] []).2).2).1.IsOk := by
  let _ := insertionOrder
  exact ⟨by decide +kernel, (C171_blocked_fails fussy 10 _ fussy_bad c!"admin").2 [] _ _ (by decide)⟩

/-- As long as only other names are entered it answers as a function that always answers does. -/
example : letI := insertionOrder
    Did fussy 10 (addLink fussy c!"alice" c!"admin" [] []).2 (RM.hasLink c!"alice" c!"admin" [])
      (hasLink fussy 10 c!"alice" c!"admin" [] (addLink fussy c!"alice" c!"admin" [] []).2) := by
  let _ := insertionOrder
  refine (C171_calls fussy 10 _ c!"alice" c!"admin" []).2.2.1.resolve_right fun h => h.notOk ?_
  decide +kernel

/-- `C171_same` for a function that always answers. -/
example (lvl : Nat) (m : Roles) (a b : Str) : Did (fun x y => .ok (decide (x = y))) lvl m (RM.hasLink a b [])
    (hasLink (fun x y => .ok (decide (x = y))) lvl a b [] m) :=
  (C171_same (f := fun x y => .ok (decide (x = y))) (fun _ _ => trivial) lvl m a b []).2.2.1

end Raising
end Casbin
