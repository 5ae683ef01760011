import Verif.Calls
import Verif.ImplicitLemmas
import Verif.StepLemmas

/-!
# Code without undefined behaviour

`Fine P f`: from a state with `P` the code has no undefined behaviour and leaves a state with `P`. Each
function of the model, with what has to hold for it.
-/

set_option linter.unusedSectionVars false

namespace Casbin
namespace Safe

/-- From a state with `P` no undefined behaviour, and a state with `P` again. -/
def Fine {σ α : Type} (P : σ → Prop) (f : M σ α) : Prop := ∀ s, P s → (∀ u, (f s).1 ≠ .ub u) ∧ P (f s).2

section
variable {σ α β : Type} {P : σ → Prop}

theorem Fine.pure (a : α) : Fine P (Pure.pure a : M σ α) := fun _ h => ⟨fun _ h => by simp at h, h⟩
theorem Fine.throw (e : Exn) : Fine P (M.throw e : M σ α) :=
  fun _ h => ⟨fun _ h => by simp [M.throw] at h, h⟩
theorem Fine.lift {o : Outcome α} (ho : ∀ u, o ≠ .ub u) : Fine P (M.lift o : M σ α) := fun _ h => ⟨ho, h⟩
theorem Fine.modify {f : σ → σ} (hf : ∀ s, P s → P (f s)) : Fine P (M.modify f) :=
  fun s h => ⟨fun _ h => by simp at h, hf s h⟩

theorem Fine.bindQ {f : M σ α} {k : α → M σ β} (Q : α → Prop) (hf : Fine P f)
    (hQ : ∀ s, P s → ∀ a, (f s).1 = .ok a → Q a) (hk : ∀ a, Q a → Fine P (k a)) : Fine P (f >>= k) := by
  intro s h
  have h1 := hf s h
  have h2 := hQ s h
  rw [M.bind_run]
  rcases hs : f s with ⟨o, s'⟩
  rw [hs] at h1 h2
  cases o with
  | ok a => exact hk a (h2 a rfl) s' h1.2
  | throw e => exact ⟨fun u h => by simp at h, h1.2⟩
  | ub u => exact absurd rfl (h1.1 u)

theorem Fine.bind {f : M σ α} {k : α → M σ β} (hf : Fine P f) (hk : ∀ a, Fine P (k a)) : Fine P (f >>= k) :=
  .bindQ (fun _ => True) hf (fun _ _ _ _ => trivial) fun a _ => hk a

theorem Fine.get {k : σ → M σ β} (hk : ∀ s, P s → Fine P (k s)) : Fine P (M.get >>= k) :=
  .bindQ P (fun _ h => ⟨fun _ h => by simp at h, h⟩)
    (fun s h a ha => by rw [M.get_run] at ha; cases ha; exact h) hk

theorem Fine.ite {c : Prop} [Decidable c] {f g : M σ α} (hf : c → Fine P f) (hg : ¬ c → Fine P g) :
    Fine P (if c then f else g) := by split <;> [exact hf ‹_›; exact hg ‹_›]

end

/-! ## Outcomes -/

theorem noUb_bind {α β : Type} {o : Outcome α} {k : α → Outcome β} (ho : ∀ u, o ≠ .ub u)
    (hk : ∀ a, o = .ok a → ∀ u, k a ≠ .ub u) : ∀ u, (o >>= k) ≠ .ub u := by
  intro u h
  cases o with
  | ok a => exact hk a rfl u h
  | throw e => cases h
  | ub v => exact ho v rfl

theorem noUb_vecAt {α : Type} {l : List α} {i : Nat} (h : i < l.length) : ∀ u, vecAt l i ≠ .ub u := by
  intro u hu; rw [vecAt_ok h] at hu; cases hu

/-! ## Role managers -/

/-- Every role of a name is a name. -/
def Shut (rm : RM) : Prop := ∀ a b, b ∈ RM.direct rm.roles a → b ∈ rm.roles.keys

/-- The same for a map. -/
def ShutMap (m : UMap Str (List Str)) : Prop := ∀ a b, b ∈ RM.direct m a → b ∈ m.keys

theorem shut_addRole {m : UMap Str (List Str)} (h : ShutMap m) {a b : Str} (ha : a ∈ m.keys) (hb : b ∈ m.keys) :
    ShutMap (RM.addRole m a b) := by
  intro x y hy
  rw [RM.keys_addRole]
  rcases (RM.direct_addRole m a b x y ha).mp hy with h1 | ⟨-, rfl⟩
  · exact h x y h1
  · exact hb

theorem mem_eraseLoop (b : Str) {y : Str} : ∀ {l : List Str}, y ∈ RM.eraseLoop b l → y ∈ l
  | [], h => h
  | [x], h => by
    unfold RM.eraseLoop at h
    split at h
    · cases h
    · simpa [RM.eraseLoop] using h
  | x :: z :: zs, h => by
    unfold RM.eraseLoop at h
    split at h
    · rcases List.mem_cons.mp h with rfl | h
      · simp
      · exact List.mem_cons_of_mem _ (List.mem_cons_of_mem _ (mem_eraseLoop b h))
    · rcases List.mem_cons.mp h with rfl | h
      · simp
      · exact List.mem_cons_of_mem _ (mem_eraseLoop b h)

theorem shut_delRole {m : UMap Str (List Str)} (h : ShutMap m) (a b : Str) : ShutMap (RM.delRole m a b) := by
  intro x y hy
  rw [RM.keys_delRole]
  unfold RM.delRole at hy
  cases hg : m.get a with
  | none => rw [hg] at hy; exact h x y hy
  | some l =>
    rw [hg] at hy
    simp only [RM.direct_set] at hy
    split at hy
    · next hax =>
      refine h a y ?_
      unfold RM.direct
      rw [hg]
      exact mem_eraseLoop b hy
    · exact h x y hy

variable [IterOrder]

theorem keys_create (m : UMap Str (List Str)) (n : Str) :
    ∀ x, x ∈ (if m.has n then m else m.set n []).keys ↔ x = n ∨ x ∈ m.keys := by
  intro x
  split
  · next h => exact ⟨.inr, fun hx => hx.elim (fun e => e ▸ (UMap.has_iff _ _).mp h) id⟩
  · rw [UMap.mem_keys_set]

theorem create_spec {rm : RM} (h : Shut rm) (n : Str) :
    Shut (rm.createRole n) ∧ (∀ x, x ∈ (rm.createRole n).roles.keys ↔ x = n ∨ x ∈ rm.roles.keys) := by
  obtain ⟨m, hm⟩ : ∃ m, m = if rm.roles.has n then rm.roles else rm.roles.set n [] := ⟨_, rfl⟩
  have hk : ∀ x, x ∈ m.keys ↔ x = n ∨ x ∈ rm.roles.keys := hm ▸ keys_create rm.roles n
  have hs : ShutMap m := by
    intro a b hb
    rw [hk]
    subst hm
    split at hb
    · exact .inr (h a b hb)
    · rw [RM.direct_set] at hb
      split at hb
      · simp at hb
      · exact .inr (h a b hb)
  unfold RM.createRole
  rw [← hm]
  cases rm.pattern with
  | none => exact ⟨hs, hk⟩
  | some f =>
    have key : ∀ (ks : List Str), (∀ k ∈ ks, k ∈ m.keys) → ∀ m' : UMap Str (List Str), m'.keys = m.keys →
        ShutMap m' → ShutMap (ks.foldl (fun m k => if f n k = true ∧ n ≠ k then RM.addRole m n k else m) m') ∧
        (ks.foldl (fun m k => if f n k = true ∧ n ≠ k then RM.addRole m n k else m) m').keys = m.keys := by
      intro ks
      induction ks with
      | nil => exact fun _ m' he hs => ⟨hs, he⟩
      | cons k ks ih =>
        intro hks m' he hs
        rw [List.foldl_cons]
        refine ih (fun k hk => hks k (List.mem_cons_of_mem _ hk)) _ ?_ ?_
        · split
          · rw [RM.keys_addRole, he]
          · exact he
        · split
          · refine shut_addRole hs ?_ ?_
            · rw [he]; exact (hk n).mpr (.inl rfl)
            · rw [he]; exact hks k List.mem_cons_self
          · exact hs
    obtain ⟨h1, h2⟩ := key (IterOrder.iter m.keys) (fun k hk => (IterOrder.iter_perm _).mem_iff.mp hk) m rfl hs
    exact ⟨h1, fun x => by simp only; rw [h2]; exact hk x⟩

omit [IterOrder] in
theorem noUb_qualify (d : List Str) (a : Str) : ∀ u, RM.qualify d a ≠ .ub u := by
  intro u; unfold RM.qualify; split <;> simp

omit [IterOrder] in
theorem noUb_strip (d : List Str) : ∀ l u, RM.stripAll d l ≠ .ub u := by
  intro l
  induction l with
  | nil => intro u; simp [RM.stripAll]
  | cons a l ih =>
    refine noUb_bind ?_ fun _ _ => noUb_bind ih fun _ _ u => by simp
    intro u; unfold RM.stripDomain; split
    · split <;> simp
    · simp

theorem fine_create (n : Str) : Fine Shut (M.modify fun rm => rm.createRole n) :=
  .modify fun _ h => (create_spec h n).1

theorem fine_addLink (a b : Str) (d : List Str) : Fine Shut (RM.addLink a b d) := by
  intro rm h
  unfold RM.addLink
  have hq1 := noUb_qualify d a
  have hq2 := noUb_qualify d b
  simp only [M.bind_run, M.lift_run]
  cases h1 : RM.qualify d a with
  | ub u => exact absurd h1 (hq1 u)
  | throw e => exact ⟨fun u h => by simp at h, h⟩
  | ok n1 =>
    cases h2 : RM.qualify d b with
    | ub u => exact absurd h2 (hq2 u)
    | throw e => exact ⟨fun u h => by simp at h, h⟩
    | ok n2 =>
      simp only [M.modify_run]
      refine ⟨fun u h => by simp at h, ?_⟩
      have c1 := create_spec h n1
      have c2 := create_spec c1.1 n2
      exact shut_addRole c2.1 ((c2.2 n1).mpr (.inr ((c1.2 n1).mpr (.inl rfl)))) ((c2.2 n2).mpr (.inl rfl))

theorem fine_deleteLink (a b : Str) (d : List Str) : Fine Shut (RM.deleteLink a b d) := by
  unfold RM.deleteLink
  refine .bind (.lift (noUb_qualify d a)) fun n1 => .bind (.lift (noUb_qualify d b)) fun n2 => .get fun rm _ =>
    .ite (fun _ => .throw _) fun _ => .bind (fine_create _) fun _ => .bind (fine_create _) fun _ =>
    .modify fun rm h => shut_delRole h _ _

theorem fine_hasLink (a b : Str) (d : List Str) : Fine Shut (RM.hasLink a b d) := by
  unfold RM.hasLink
  refine .bind (.lift (noUb_qualify d a)) fun n1 => .bind (.lift (noUb_qualify d b)) fun n2 =>
    .ite (fun _ => .pure _) fun _ => .get fun rm _ => .ite (fun _ => .pure _) fun _ =>
    .bind (fine_create _) fun _ => .get fun _ _ => .pure _

theorem fine_getRoles (a : Str) (d : List Str) : Fine Shut (RM.getRoles a d) := by
  unfold RM.getRoles
  refine .bind (.lift (noUb_qualify d a)) fun n1 => .get fun rm _ => .ite (fun _ => .pure _) fun _ =>
    .bind (fine_create _) fun _ => .get fun _ _ => .lift (noUb_strip d _)

theorem fine_getUsers (a : Str) (d : List Str) : Fine Shut (RM.getUsers a d) := by
  unfold RM.getUsers
  exact .bind (.lift (noUb_qualify d a)) fun n1 => .get fun rm _ => .ite (fun _ => .throw _) fun _ =>
    .lift (noUb_strip d _)

omit [IterOrder] in
theorem fine_clear : Fine Shut (M.modify RM.clear) :=
  .modify fun _ _ a b h => by simp [RM.clear, RM.direct] at h

theorem fine_linkRules (op : PolicyOp) {n : Nat} (hn : 2 ≤ n) : ∀ rs, Fine Shut (Assertion.linkRules op n rs)
  | [] => .pure _
  | r :: rs => by
    unfold Assertion.linkRules
    refine .ite (fun _ => .throw _) fun hl => ?_
    have hlen : (r.take n).length = n := by rw [List.length_take]; omega
    refine .bind (.lift (noUb_vecAt (by omega))) fun a => .bind (.lift (noUb_vecAt (by omega))) fun b => ?_
    cases op with
    | add => exact .bind (fine_addLink _ _ _) fun _ => fine_linkRules .add hn rs
    | remove => exact .bind (fine_deleteLink _ _ _) fun _ => fine_linkRules .remove hn rs

theorem fine_buildLinks (v : Str) (op : PolicyOp) (rs : List Rule) : Fine Shut (Assertion.buildLinks v op rs) := by
  unfold Assertion.buildLinks
  exact .ite (fun _ => .throw _) fun h => fine_linkRules op (by omega) rs

/-! ## `GetImplicitRolesForUser` ends -/

omit [IterOrder] in
theorem strip_mem {d : List Str} : ∀ {l rs : List Str}, RM.stripAll d l = .ok rs →
    ∀ r ∈ rs, ∃ k ∈ l, RM.stripDomain d k = .ok r
  | [], rs, h, r, hr => by simp [RM.stripAll] at h; subst h; simp at hr
  | a :: l, rs, h, r, hr => by
    unfold RM.stripAll at h
    cases h1 : RM.stripDomain d a with
    | throw e => rw [h1] at h; cases h
    | ub e => rw [h1] at h; cases h
    | ok n =>
      rw [h1] at h
      cases h2 : RM.stripAll d l with
      | throw e => rw [h2] at h; cases h
      | ub e => rw [h2] at h; cases h
      | ok ns =>
        rw [h2] at h
        obtain rfl : n :: ns = rs := by simpa using h
        rcases List.mem_cons.mp hr with rfl | hr
        · exact ⟨a, List.mem_cons_self, h1⟩
        · obtain ⟨k, hk, e⟩ := strip_mem h2 r hr
          exact ⟨k, List.mem_cons_of_mem _ hk, e⟩

omit [IterOrder] in
theorem strip_qualify {d : List Str} {x k r : Str} (h : RM.qualify d x = .ok k)
    (h' : RM.stripDomain d k = .ok r) : r = x := by
  unfold RM.qualify at h
  split at h
  · cases h; unfold RM.stripDomain at h'; simpa using h'.symm
  · next dd =>
    cases h
    unfold RM.stripDomain at h'
    simp only at h'
    split at h'
    · cases h'
    · simp only [Outcome.ok.injEq] at h'
      rw [← h']
      rw [show dd.length + 2 = (dd ++ c!"::").length by simp]
      simp
  · cases h

theorem getRoles_spec {rm : RM} (h : Shut rm) (n : Str) (d : List Str) :
    (∀ k ∈ (RM.getRoles n d rm).2.roles.keys, k ∈ rm.roles.keys ∨ RM.qualify d n = .ok k) ∧
    ∀ rs, (RM.getRoles n d rm).1 = .ok rs →
      ∀ r ∈ rs, ∃ k, (k ∈ rm.roles.keys ∨ RM.qualify d n = .ok k) ∧ RM.stripDomain d k = .ok r := by
  unfold RM.getRoles
  simp only [M.bind_run, M.lift_run]
  cases hq : RM.qualify d n with
  | ub u => exact absurd hq (noUb_qualify d n u)
  | throw e => exact ⟨fun k hk => .inl hk, fun rs h => by cases h⟩
  | ok n1 =>
    simp only [M.get_run]
    split
    · refine ⟨fun k hk => .inl hk, fun rs h r hr => ?_⟩
      obtain rfl : [] = rs := by simpa using h
      simp at hr
    · have c := create_spec h n1
      simp only [M.bind_run, M.modify_run, M.get_run, M.lift_run]
      refine ⟨fun k hk => ((c.2 k).mp hk).elim (fun e => .inr (e ▸ rfl)) .inl, fun rs h r hr => ?_⟩
      obtain ⟨k, hk, e⟩ := strip_mem h r hr
      exact ⟨k, ((c.2 k).mp (c.1 _ _ hk)).elim (fun e => .inr (e ▸ rfl)) .inl, e⟩

/-- A name without its domain, if it has one. -/
def bare (d : List Str) (k : Str) : Str :=
  match RM.stripDomain d k with
  | .ok r => r
  | _ => []

theorem loop_ends (d : List Str) (K : List Str) : ∀ (fuel : Nat) (seen queue : List Str) (rm : RM), Shut rm →
    (∀ k ∈ rm.roles.keys, k ∈ K ∨ ∃ x ∈ seen, RM.qualify d x = .ok k) → (∀ x ∈ queue, x ∈ seen) →
    queue.length + ((K.map (bare d)).toFinset \ seen.toFinset).card ≤ fuel →
    (∀ u, (Enforcer.implicitLoop d fuel seen queue rm).1 ≠ .ub u) ∧
      Shut (Enforcer.implicitLoop d fuel seen queue rm).2 := by
  intro fuel
  induction fuel with
  | zero =>
    intro seen queue rm h _ _ hf
    cases queue with
    | nil => exact ⟨fun u h => by simp [Enforcer.implicitLoop] at h, h⟩
    | cons a l => simp at hf
  | succ fuel ih =>
    intro seen queue rm h hK hsub hf
    cases queue with
    | nil => exact ⟨fun u h => by simp [Enforcer.implicitLoop] at h, h⟩
    | cons n l =>
      unfold Enforcer.implicitLoop
      have f1 := fine_getRoles n d rm h
      have s1 := getRoles_spec h n d
      rw [M.bind_run]
      rcases hg : RM.getRoles n d rm with ⟨o, rm'⟩
      rw [hg] at f1 s1
      cases o with
      | ub u => exact absurd rfl (f1.1 u)
      | throw e => exact ⟨fun u h => by simp at h, f1.2⟩
      | ok rs =>
        simp only
        generalize hnew : Enforcer.newRoles seen rs = new
        have hnd : new.Nodup := hnew ▸ Enforcer.nodup_newRoles seen rs
        have hmem : ∀ x, x ∈ new ↔ x ∈ rs ∧ x ∉ seen := fun x => by rw [← hnew, Enforcer.mem_newRoles]
        have hn : n ∈ seen := hsub n List.mem_cons_self
        have hT : new.toFinset ⊆ (K.map (bare d)).toFinset \ seen.toFinset := by
          intro x hx
          obtain ⟨hx1, hx2⟩ := (hmem x).mp (List.mem_toFinset.mp hx)
          rw [Finset.mem_sdiff, List.mem_toFinset, List.mem_toFinset]
          refine ⟨?_, hx2⟩
          obtain ⟨k, hk, e⟩ := s1.2 rs rfl x hx1
          rcases hk with hk | hk
          · rcases hK k hk with hk | ⟨y, hy, hk⟩
            · exact List.mem_map.mpr ⟨k, hk, by unfold bare; rw [e]⟩
            · exact absurd (strip_qualify hk e ▸ hy) hx2
          · exact absurd (strip_qualify hk e ▸ hn) hx2
        have hcard : ((K.map (bare d)).toFinset \ (new ++ seen).toFinset).card + new.length ≤
            ((K.map (bare d)).toFinset \ seen.toFinset).card := by
          have he : (K.map (bare d)).toFinset \ (new ++ seen).toFinset =
              ((K.map (bare d)).toFinset \ seen.toFinset) \ new.toFinset := by
            ext x
            simp only [List.toFinset_append, Finset.mem_sdiff, Finset.mem_union, not_or]
            tauto
          rw [he, ← List.toFinset_card_of_nodup hnd, Finset.card_sdiff_add_card_eq_card hT]
        have := ih (new ++ seen) (l ++ new) rm' f1.2
          (by
            intro k hk
            rcases s1.1 k hk with hk | hk
            · exact (hK k hk).imp id fun ⟨x, hx, e⟩ => ⟨x, List.mem_append_right _ hx, e⟩
            · exact .inr ⟨n, List.mem_append_right _ hn, hk⟩)
          (by
            intro x hx
            rcases List.mem_append.mp hx with h | h
            · exact List.mem_append_right _ (hsub x (List.mem_cons_of_mem _ h))
            · exact List.mem_append_left _ h)
          (by
            simp only [List.length_append, List.length_cons] at hf ⊢
            omega)
        rw [M.bind_run]
        rcases hr : Enforcer.implicitLoop d fuel (new ++ seen) (l ++ new) rm' with ⟨o, rm2⟩
        rw [hr] at this
        cases o with
        | ok a => exact ⟨fun u h => by simp at h, this.2⟩
        | throw e => exact ⟨fun u h => by simp at h, this.2⟩
        | ub u => exact absurd rfl (this.1 u)

theorem fine_implicit (name : Str) (d : List Str) : Fine Shut (do
    let rm ← M.get
    Enforcer.implicitLoop d (rm.roles.length + 2) [name] [name]) := by
  intro rm h
  rw [M.bind_run, M.get_run]
  refine loop_ends d rm.roles.keys _ _ _ rm h (fun k hk => .inl hk) (fun x hx => hx) ?_
  have h1 : ((rm.roles.keys.map (bare d)).toFinset \ [name].toFinset).card ≤ rm.roles.length :=
    (Finset.card_le_card Finset.sdiff_subset).trans ((List.toFinset_card_le _).trans (by simp [UMap.keys]))
  simp only [List.length_cons, List.length_nil]
  omega

end Safe
end Casbin
