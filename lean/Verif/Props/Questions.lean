import Verif.QuestionLemmas
import Verif.Props.Links
import Verif.StdLib
import Verif.ConditionFixtures

/-!
# C146: a question changes nothing that is stored

A question is a call that asks: a request, a listing, a test. `Questions.Asks` says which methods are
meant. What is stored is the definitions and the rules of the model, the role managers, the adapter,
the watcher and the switches. The evaluator is not: it is a workplace of the requests (C11, C145).
-/

namespace Casbin
namespace Custom
namespace Questions

open Growth Method

/-- The calls that read what is stored and make no request. -/
def Lists : Method → Prop
  | .allValues _ _ | .namedValues _ _ _ | .getPolicy _ _ | .getFiltered _ _ _ _
  | .hasPolicy _ _ _ | .roles _ _ | .users _ _ | .hasRole _ _ | .implicitRoles _ _
  | .implicitPermissions _ _ => True
  | _ => False

/-- The calls that ask: those, the requests, and `GetImplicitUsersForPermission`, which makes
requests. -/
def Asks : Method → Prop
  | .ask _ _ | .askEx _ _ _ | .askMap _ _ _ | .batch _ _ | .implicitUsers _ => True
  | c => Lists c

/-- A role manager that has gained names only, and links only from a name to one that the matching
function accepts for it. -/
structure Grown (R R' : RM) : Prop where
  pattern : R'.pattern = R.pattern
  maxLevel : R'.maxLevel = R.maxLevel
  names : ∀ a, R.roles.has a = true → R'.roles.has a = true
  old : ∀ a b, b ∈ RM.direct R.roles a → b ∈ RM.direct R'.roles a
  new : ∀ a b, b ∈ RM.direct R'.roles a → b ∈ RM.direct R.roles a ∨
    ∃ f, R.pattern = some f ∧ f a b = true

variable [IterOrder]

theorem kept_run (lib : ExprLib) {P : Nat → RM → Prop} (hP : ∀ p, Closed (P p)) {E0 : Enforcer}
    {c : Method} (hc : Asks c) : Keeps (Kept E0 P) (c.run lib) := by
  have fin : ∀ {α : Type} {f : M Enforcer α} (g : α → Answer), Keeps (Kept E0 P) f →
      Keeps (Kept E0 P) (f >>= fun a => pure (g a)) := fun g h => Keeps.bind h fun _ => Keeps.pure _
  cases c with
  | ask m vs => exact fin _ (kept_ask hP lib _ _)
  | askEx m vs x => exact fin _ (kept_enforceEx hP lib _ _ _)
  | askMap m vs x => exact fin _ (kept_enforceExMap hP lib _ _ _)
  | batch m rs => exact fin _ (kept_batch hP lib _ _)
  | allValues s i => exact fin _ (kept_allValues s i)
  | namedValues s t i => exact fin _ (kept_read (Model.same_values s t i))
  | getPolicy s t => exact fin _ (kept_read (Model.same_getPolicy s t))
  | getFiltered s t i vs => exact fin _ (kept_read (Model.same_getFiltered s t i vs))
  | hasPolicy s t r => exact fin _ (kept_read (Model.same_hasPolicy s t r))
  | roles a d => exact fin _ (kept_onGRm fun p => closed_getRoles (hP p) a d)
  | users a d => exact fin _ (kept_onGRm fun p => closed_getUsers (P p) a d)
  | hasRole a r =>
    exact fin _ (Keeps.bind (kept_onGRm fun p => closed_getRoles (hP p) a []) fun _ => Keeps.pure _)
  | implicitRoles a d => exact fin _ (kept_implicitRoles hP a d)
  | implicitPermissions a d =>
    exact fin _ (Keeps.bind (kept_implicitRoles hP a d) fun _ =>
      Keeps.ite _ (Keeps.throw _) (kept_implicitPermLoop d _))
  | implicitUsers perm =>
    exact fin _ (Keeps.bind (kept_allValues _ _) fun _ => Keeps.bind (kept_allValues _ _) fun _ =>
      Keeps.bind (kept_allValues _ _) fun _ =>
      Keeps.bind (kept_implicitUsersLoop hP lib perm _) fun _ => Keeps.pure _)
  | _ => exact hc.elim

theorem kept_after (lib : ExprLib) {P : Nat → RM → Prop} (hP : ∀ p, Closed (P p)) {E0 : Enforcer} :
    ∀ (qs : List Method), (∀ c ∈ qs, Asks c) → ∀ E, Kept E0 P E → Kept E0 P (after lib qs E)
  | [], _, _, h => h
  | c :: qs, hq, E, h => kept_after lib hP qs (fun c hc => hq c (by simp [hc])) _
      (kept_run lib hP (hq c (by simp)) E h)

omit [IterOrder] in
theorem kept_start {P : Nat → RM → Prop} {E : Enforcer} (h : ∀ p R, E.heap[p]? = some R → P p R) :
    Kept E P E :=
  ⟨fun _ => rfl, rfl, rfl, rfl, rfl, rfl, rfl, rfl, rfl, h⟩

omit [IterOrder] in
theorem grown_foldl {R0 : RM} (f : Str → Str → Bool) (hf : R0.pattern = some f) (name : Str) :
    ∀ (ks : List Str) (m : UMap Str (List Str)), Grown R0 { R0 with roles := m } →
      Grown R0 { R0 with roles := ks.foldl (fun m k =>
        if f name k = true ∧ name ≠ k then RM.addRole m name k else m) m }
  | [], _, h => h
  | k :: ks, m, h => by
    refine grown_foldl f hf name ks _ ?_
    beta_reduce
    split
    · rename_i hk
      unfold RM.addRole
      split
      · rename_i l hl
        split
        · exact h
        · have hd : ∀ a, RM.direct (m.set name (l ++ [k])) a =
              if name = a then l ++ [k] else RM.direct m a := by
            intro a
            unfold RM.direct
            rw [UMap.get_set]
            by_cases ha : name = a
            · simp [ha]
            · simp [ha]
          have hl' : RM.direct m name = l := by unfold RM.direct; rw [hl]
          refine ⟨rfl, rfl, fun a ha => ?_, fun a b hb => ?_, fun a b hb => ?_⟩
          · have := h.names a ha
            simp only [UMap.has_iff, UMap.mem_keys_set] at this ⊢
            exact .inr this
          · have := h.old a b hb
            simp only at this ⊢
            rw [hd]
            split
            · rename_i he
              subst he
              rw [hl'] at this
              simp [this]
            · exact this
          · simp only at hb
            rw [hd] at hb
            split at hb
            · rename_i he
              subst he
              rcases List.mem_append.1 hb with hb | hb
              · exact h.new name b (by simpa only [hl'] using hb)
              · rw [List.mem_singleton] at hb
                subst hb
                exact .inr ⟨f, hf, hk.1⟩
            · exact h.new a b hb
      · exact h
    · exact h

theorem closed_grown (R0 : RM) : Closed (Grown R0) := by
  intro R n _ h
  have hm : Grown R0 { R0 with roles := if R.roles.has n then R.roles else R.roles.set n [] } := by
    have h0 : Grown R0 { R0 with roles := R.roles } := ⟨rfl, rfl, h.names, h.old, h.new⟩
    split
    · exact h0
    · rename_i hn
      have hg : R.roles.get n = none := by simpa [UMap.has] using hn
      have hd : ∀ a, RM.direct (R.roles.set n []) a = RM.direct R.roles a := by
        intro a
        unfold RM.direct
        rw [UMap.get_set]
        by_cases ha : n = a
        · subst ha; simp [hg]
        · simp [ha]
      refine ⟨rfl, rfl, fun a ha => ?_, fun a b hb => ?_, fun a b hb => ?_⟩
      · have := h0.names a ha
        simp only [UMap.has_iff, UMap.mem_keys_set] at this ⊢
        exact .inr this
      · simp only [hd]; exact h0.old a b hb
      · simp only [hd] at hb; exact h0.new a b hb
  unfold RM.createRole
  cases hp : R.pattern with
  | none => exact ⟨hp.symm.trans h.pattern, h.maxLevel, hm.names, hm.old, hm.new⟩
  | some f =>
    have h1 := grown_foldl f (h.pattern.symm.trans hp) n (IterOrder.iter
      (if R.roles.has n then R.roles else R.roles.set n []).keys) _ hm
    exact ⟨hp.symm.trans h.pattern, h.maxLevel, h1.names, h1.old, h1.new⟩

/-- Without a matching function entering a known name does nothing. -/
theorem createRole_known {R : RM} (hp : R.pattern = none) {n : Str} (h : R.hasRole n = true) :
    R.createRole n = R := by
  unfold RM.hasRole at h
  rw [hp] at h
  unfold RM.createRole
  rw [hp]
  simp only at h ⊢
  rw [if_pos h, ← hp]

/-! ## C146 -/

/-- **C146 (what is stored).** After any questions, however they end, the enforcer has the
definitions and rules it had in every section, the adapter, the watcher and the switches it had, and
as many role managers; each of these has its matching function and its bound, all its names and all
its links, in case with more names, and with links from a name to names that its matching function
accepts for it. -/
theorem C146_stored (lib : ExprLib) (E : Enforcer) (qs : List Method) (hq : ∀ c ∈ qs, Asks c) :
    let E' := after lib qs E
    (∀ sec ptype, E'.model.find sec ptype = E.model.find sec ptype) ∧
    E'.adapter = E.adapter ∧ E'.watcher = E.watcher ∧ E'.rm = E.rm ∧
    (E'.enabled, E'.autoSave, E'.autoBuild, E'.autoNotify) =
      (E.enabled, E.autoSave, E.autoBuild, E.autoNotify) ∧
    List.Forall₂ Grown E.heap E'.heap := by
  have h := kept_after (P := fun p R => ∃ R0, E.heap[p]? = some R0 ∧ Grown R0 R) lib
    (fun p R n hn ⟨R0, h0, hg⟩ => ⟨R0, h0, closed_grown R0 R n hn hg⟩) qs hq E
    (kept_start fun p R hR => ⟨R, hR, rfl, rfl, fun _ h => h, fun _ _ h => h, fun _ _ h => .inl h⟩)
  refine ⟨fun s t => (h.model.find s t).symm, h.adapter, h.watcher, h.rm, ?_, ?_⟩
  · rw [h.enabled, h.autoSave, h.autoBuild, h.autoNotify]
  · rw [List.forall₂_iff_get]
    refine ⟨h.heap.1.symm, fun i h1 h2 => ?_⟩
    obtain ⟨R0, e1, e2⟩ := h.heap.2 i _ (List.getElem?_eq_getElem h2)
    rw [List.getElem?_eq_getElem h1] at e1
    cases e1
    exact e2

theorem kept_heap (lib : ExprLib) {E : Enforcer} (hp : ∀ R ∈ E.heap, R.pattern = none)
    {qs : List Method} (hq : ∀ c ∈ qs, Asks c) :
    Kept E (fun p R => E.heap[p]? = some R) (after lib qs E) :=
  kept_after lib (fun p R n hn h => by
    rw [createRole_known (hp R (List.mem_of_getElem? h)) hn]; exact h) qs hq E
    (kept_start fun _ _ h => h)

/-- **C146 (the roles).** Without a matching function the role managers are what they were. What is
missing: with one, names and links are added (`C146_fails`). -/
theorem C146_roles_partial (lib : ExprLib) (E : Enforcer) (hp : ∀ R ∈ E.heap, R.pattern = none)
    (qs : List Method) (hq : ∀ c ∈ qs, Asks c) : (after lib qs E).heap = E.heap := by
  have h := (kept_heap lib hp hq).heap
  refine List.ext_getElem? fun p => ?_
  cases hR : (after lib qs E).heap[p]? with
  | some R => exact (h.2 p R hR).symm
  | none =>
    rw [List.getElem?_eq_none_iff] at hR
    rw [eq_comm, List.getElem?_eq_none_iff]
    have := h.1
    omega

theorem like_lists (lib : ExprLib) {c : Method} (hc : Lists c) (ev : Prop) :
    Alike (Like ev) (c.run lib) (c.run lib) := by
  have fin : ∀ {α : Type} {f : M Enforcer α} (g : α → Answer), Alike (Like ev) f f →
      Alike (Like ev) (f >>= fun a => pure (g a)) (f >>= fun a => pure (g a)) :=
    fun g h => Alike.bind h fun _ => Alike.pure _
  cases c with
  | allValues s i => exact fin _ (like_onModel (like_allValues s i))
  | namedValues s t i => exact fin _ (like_onModel (like_values s t i))
  | getPolicy s t => exact fin _ (like_onModel (Alike.bind (like_at _ _) fun _ => Alike.pure _))
  | getFiltered s t i vs => exact fin _ (like_onModel (like_getFiltered s t i vs))
  | hasPolicy s t r => exact fin _ (like_onModel (Alike.bind (like_at _ _) fun _ => Alike.pure _))
  | roles a d => exact fin _ (like_onGRm _)
  | users a d => exact fin _ (like_onGRm _)
  | hasRole a r => exact fin _ (Alike.bind (like_onGRm _) fun _ => Alike.pure _)
  | implicitRoles a d => exact fin _ (like_implicitRoles a d)
  | implicitPermissions a d =>
    exact fin _ (Alike.bind (like_implicitRoles a d) fun _ =>
      Alike.ite _ (Alike.throw _) (like_implicitPermLoop d _))
  | _ => exact hc.elim

theorem like_asks (lib : ExprLib) {c : Method} (hc : Asks c) :
    Alike (Like True) (c.run lib) (c.run lib) := by
  have fin : ∀ {α : Type} {f : M Enforcer α} (g : α → Answer), Alike (Like True) f f →
      Alike (Like True) (f >>= fun a => pure (g a)) (f >>= fun a => pure (g a)) :=
    fun g h => Alike.bind h fun _ => Alike.pure _
  by_cases hl : Lists c
  · exact like_lists lib hl True
  cases c with
  | ask m vs => exact fin _ (like_ask lib _ _)
  | askEx m vs x => exact fin _ (like_enforceEx lib _ _ _)
  | askMap m vs x => exact fin _ (like_enforceExMap lib _ _ _)
  | batch m rs => exact fin _ (like_batch lib _ _)
  | implicitUsers perm =>
    exact fin _ (Alike.bind (like_onModel (like_allValues _ _)) fun _ =>
      Alike.bind (like_onModel (like_allValues _ _)) fun _ =>
      Alike.bind (like_onModel (like_allValues _ _)) fun _ =>
      Alike.bind (like_implicitUsersLoop lib perm _) fun _ => Alike.pure _)
  | _ => exact absurd hc hl

theorem eval_lists (lib : ExprLib) {c : Method} (hc : Lists c) (o : Option Evaluator) :
    Keeps (fun E => E.eval = o) (c.run lib) := by
  have fin : ∀ {α : Type} {f : M Enforcer α} (g : α → Answer), Keeps (fun E => E.eval = o) f →
      Keeps (fun E => E.eval = o) (f >>= fun a => pure (g a)) :=
    fun g h => Keeps.bind h fun _ => Keeps.pure _
  have hm : ∀ {α : Type} (f : M Model α), Keeps (fun E => E.eval = o) (Enforcer.onModel f) :=
    fun _ _ h => h
  have hr : ∀ {α : Type} (f : M RM α), Keeps (fun E => E.eval = o) (Enforcer.onGRm f) := by
    intro α f E h
    simp only [Enforcer.onGRm, M.bind_run, M.get_run]
    cases E.model.find c!"g" c!"g" with
    | none => exact h
    | some a =>
      simp only
      cases a.rm with
      | none => exact h
      | some p => exact h
  have hi : ∀ a d, Keeps (fun E => E.eval = o) (Enforcer.getImplicitRolesForUser a d) :=
    fun _ _ _ h => h
  have hl : ∀ d names, Keeps (fun E => E.eval = o) (Enforcer.implicitPermLoop d names) := by
    intro d names
    induction names with
    | nil => exact Keeps.pure _
    | cons r rs ih =>
      unfold Enforcer.implicitPermLoop
      have h : ∀ perms : Policies, Keeps (fun E => E.eval = o) (do
          let rest ← Enforcer.implicitPermLoop d rs
          pure (perms.items ++ rest)) := fun perms => Keeps.bind ih fun b => Keeps.pure _
      split <;> exact Keeps.bind (hm _) h
  cases c with
  | allValues s i => exact fin _ (hm _)
  | namedValues s t i => exact fin _ (hm _)
  | getPolicy s t => exact fin _ (hm _)
  | getFiltered s t i vs => exact fin _ (hm _)
  | hasPolicy s t r => exact fin _ (hm _)
  | roles a d => exact fin _ (hr _)
  | users a d => exact fin _ (hr _)
  | hasRole a r => exact fin _ (Keeps.bind (hr _) fun _ => Keeps.pure _)
  | implicitRoles a d => exact fin _ (hi a d)
  | implicitPermissions a d =>
    exact fin _ (Keeps.bind (hi a d) fun _ => Keeps.ite _ (Keeps.throw _) (hl d _))
  | _ => exact hc.elim

/-- **C146 (the answers).** Without a matching function a question gets, after any questions, the
answer it would have got before them: a listing after any questions, a request after any listings.
A request after requests is the subject of C11. -/
theorem C146_answers_partial (lib : ExprLib) (E : Enforcer) (hp : ∀ R ∈ E.heap, R.pattern = none)
    (qs : List Method) (hq : ∀ c ∈ qs, Asks c) (c : Method) (hc : Asks c)
    (h : Lists c ∨ ∀ q ∈ qs, Lists q) :
    (c.run lib (after lib qs E)).1 = (c.run lib E).1 := by
  have k := kept_heap lib hp hq
  have hh := C146_roles_partial lib E hp qs hq
  rcases h with h | h
  · exact (like_lists lib h False _ _
      ⟨fun s => (k.model s).symm, hh, k.rm, k.enabled, False.elim⟩).1
  · have he : ∀ (qs : List Method), (∀ q ∈ qs, Lists q) → ∀ F : Enforcer,
        (after lib qs F).eval = F.eval := by
      intro qs
      induction qs with
      | nil => intro _ F; rfl
      | cons q qs ih =>
        intro hq F
        exact (ih (fun q' h' => hq q' (by simp [h'])) _).trans
          (eval_lists lib (hq q (by simp)) F.eval F rfl)
    exact (like_asks lib hc _ _
      ⟨fun s => (k.model s).symm, hh, k.rm, k.enabled, fun _ => he qs h E⟩).1

open Fixtures

/-- Every name that starts with `b` has the roles of `b*`, which is in `library`; the rules are
loaded. -/
def library : Enforcer :=
  letI := insertionOrder
  after LinkProps.noLib [.addMatchingFunc LinkProps.bStar, .buildRoleLinks]
    (rbac [[c!"library", c!"data1", c!"read"]] [[c!"b*", c!"library"]])

/-- The request of the book `b7`. -/
def askB7 : Method := .ask [] [.str c!"b7", .str c!"data1", .str c!"read"]

omit [IterOrder] in
/-- C146 is false with a matching function: after a request of `b7`, `b7` is a user of `b*`, where
there was none before. -/
theorem C146_fails : ¬ ∀ (_ : IterOrder) (lib : ExprLib) (E : Enforcer) (q c : Method),
    Asks q → Lists c → (c.run lib (q.run lib E).2).1 = (c.run lib E).1 := by
  intro h
  exact absurd (@h insertionOrder (stdLib noRx) library askB7 (.users c!"b*" []) trivial trivial)
    (by decide +kernel)

omit [IterOrder] in
/-- C146 is false of the sections: a listing of a section that the model does not have makes one. -/
theorem C146_section_fails : ¬ ∀ (_ : IterOrder) (lib : ExprLib) (E : Enforcer) (q : Method) (s : Str),
    Lists q → (q.run lib E).2.model.hasSection s = E.model.hasSection s := by
  intro h
  exact absurd (@h insertionOrder LinkProps.noLib (acl [alice]) (.allValues c!"g" 0) c!"g" trivial)
    (by decide +kernel)

/-- Four questions to an enforcer with roles: the listing that follows them is not empty. -/
def asked : List Method :=
  [.ask [] [.str c!"carol", .str c!"data1", .str c!"read"], .roles c!"carol" [], .allValues c!"p2" 0,
    .implicitUsers [c!"data1", c!"read"]]

def staff : Enforcer :=
  letI := insertionOrder
  after LinkProps.noLib [.buildRoleLinks] (rbac [alice] [[c!"carol", c!"alice"]])

example : (letI := insertionOrder
    (((Method.users c!"alice" []).run (stdLib noRx) (after (stdLib noRx) asked staff)).1,
      answers (stdLib noRx) asked staff)) =
    (.ok (.names [c!"carol"]), [.ok (.bool true), .ok (.names [c!"alice"]), .ok (.names []),
      .ok (.names [c!"carol"])]) := by decide +kernel

example : letI := insertionOrder
    ∀ c, Lists c → (c.run (stdLib noRx) (after (stdLib noRx) asked staff)).1 = (c.run (stdLib noRx) staff).1 := by
  let _ := insertionOrder
  intro c hc
  refine C146_answers_partial _ staff ?_ asked ?_ c ?_ (.inl hc)
  · have h : staff.heap.map RM.pattern = [none] := rfl
    intro R hR
    have := List.mem_map_of_mem (f := RM.pattern) hR
    rw [h] at this
    simpa using this
  · intro q hq
    simp only [asked, List.mem_cons, List.not_mem_nil, or_false] at hq
    rcases hq with rfl | rfl | rfl | rfl <;> trivial
  · cases c <;> first | exact hc | exact hc.elim

end Questions
end Custom
end Casbin
