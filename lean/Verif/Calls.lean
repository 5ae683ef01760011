import Verif.EmbedLemmas
import Verif.ModelDef

/-!
# Histories of calls

The methods of an enforcer as data, with the answers they give, so that two enforcers can be compared
by what a user sees of them.
-/

namespace Casbin

/-- What a method returns. -/
inductive Answer
  | done
  | bool (b : Bool)
  | bools (bs : List Bool)
  | explained (b : Bool) (r : Rule)
  | names (ns : List Str)
  | policy (p : Policies)
  | rules (rs : List Rule)
  deriving DecidableEq, Repr

/-- A call of a method. The methods with fewer parameters (`GetPolicy`, `AddRoleForUser`, ...) are
these with fixed arguments. -/
inductive Method
  | edit (e : Enforcer.Edit)
  | loadPolicy | savePolicy | clearPolicy | buildRoleLinks
  | buildIncremental (op : PolicyOp) (pt : Str) (rs : List Rule)
  | enableEnforce (b : Bool) | enableAutoSave (b : Bool) | enableAutoBuild (b : Bool)
  | enableAutoNotify (b : Bool)
  | setAdapter (a : Adapter) | setWatcher (w : Watcher) | setModel (m : Model)
  | addMatchingFunc (f : Str → Str → Bool)
  | ask (matcher : Str) (vals : List ReqVal)
  | askEx (matcher : Str) (vals : List ReqVal) (explain : Rule)
  | askMap (matcher : Str) (vals : UMap Str ReqVal) (explain : Rule)
  | batch (matcher : Str) (rs : List (List ReqVal))
  | allValues (sec : Str) (i : Nat) | namedValues (sec pt : Str) (i : Nat)
  | getPolicy (sec pt : Str) | getFiltered (sec pt : Str) (i : Nat) (vs : List Str)
  | hasPolicy (sec pt : Str) (r : Rule)
  | roles (name : Str) (domain : List Str) | users (name : Str) (domain : List Str)
  | hasRole (name role : Str)
  | addRoles (user : Str) (roles : List Str) | deleteUser (user : Str) | deleteRole (role : Str)
  | implicitRoles (name : Str) (domain : List Str)
  | implicitPermissions (name : Str) (domain : List Str)
  | implicitUsers (perm : List Str)

namespace Method

open Enforcer

variable [IterOrder]

/-- The method of the enforcer (Enforcer.lean, where the lines of the source are given). -/
def run (lib : ExprLib) : Method → M Enforcer Answer
  | edit e => do let b ← e.run; pure (.bool b)
  | loadPolicy => do Enforcer.loadPolicy; pure .done
  | savePolicy => do Enforcer.savePolicy; pure .done
  | clearPolicy => do Enforcer.clearPolicy; pure .done
  | buildRoleLinks => do Enforcer.buildRoleLinks; pure .done
  | buildIncremental op pt rs => do Enforcer.buildIncremental op pt rs; pure .done
  | enableEnforce b => do Enforcer.enableEnforce b; pure .done
  | enableAutoSave b => do Enforcer.enableAutoSave b; pure .done
  | enableAutoBuild b => do Enforcer.enableAutoBuild b; pure .done
  | enableAutoNotify b => do Enforcer.enableAutoNotify b; pure .done
  | setAdapter a => do Enforcer.setAdapter a; pure .done
  | setWatcher w => do Enforcer.setWatcher w; pure .done
  | setModel m => do Enforcer.setModel m; pure .done
  | addMatchingFunc f => do let b ← addNamedMatchingFunc f; pure (.bool b)
  | ask matcher vals => do let b ← enforceWithMatcher lib matcher vals; pure (.bool b)
  | askEx matcher vals ex => do let r ← enforceEx lib matcher vals ex; pure (.explained r.1 r.2)
  | askMap matcher vals ex => do let r ← enforceExMap lib matcher vals ex; pure (.explained r.1 r.2)
  | batch matcher rs => do let bs ← batchEnforceWithMatcher lib matcher rs; pure (.bools bs)
  | allValues sec i => do let ns ← onModel (Model.getValuesForFieldAllTypes sec i); pure (.names ns)
  | namedValues sec pt i => do let ns ← onModel (Model.getValuesForField sec pt i); pure (.names ns)
  | getPolicy sec pt => do let p ← onModel (Model.getPolicy sec pt); pure (.policy p)
  | getFiltered sec pt i vs => do
    let p ← onModel (Model.getFilteredPolicy sec pt i vs)
    pure (.policy p)
  | hasPolicy sec pt r => do let b ← onModel (Model.hasPolicy sec pt r); pure (.bool b)
  | roles name domain => do let ns ← getRolesForUser name domain; pure (.names ns)
  | users name domain => do let ns ← getUsersForRole name domain; pure (.names ns)
  | hasRole name role => do let b ← hasRoleForUser name role; pure (.bool b)
  | addRoles user rs => do let b ← addRolesForUser user rs; pure (.bool b)
  | deleteUser user => do let b ← Enforcer.deleteUser user; pure (.bool b)
  | deleteRole role => do let b ← Enforcer.deleteRole role; pure (.bool b)
  | implicitRoles name domain => do let ns ← getImplicitRolesForUser name domain; pure (.names ns)
  | implicitPermissions name domain => do
    let rs ← getImplicitPermissionsForUser name domain
    pure (.rules rs)
  | implicitUsers perm => do let ns ← getImplicitUsersForPermission lib perm; pure (.names ns)

/-- What a user sees of a history of calls: how each call ended. The history goes on after an
exception. -/
def answers (lib : ExprLib) : List Method → Enforcer → List (Outcome Answer)
  | [], _ => []
  | c :: cs, E => (c.run lib E).1 :: answers lib cs (c.run lib E).2

/-- The enforcer after a history of calls. -/
def after (lib : ExprLib) : List Method → Enforcer → Enforcer
  | [], E => E
  | c :: cs, E => after lib cs (c.run lib E).2

end Method

/-- No grouping type of the model has a role manager: it has not been used by an enforcer. -/
def Model.Unused (m : Model) : Prop := ∀ sm ∈ m, ∀ ta ∈ sm.2, ta.2.rm = none

/-- The adapters and models that a call brings in do not come from elsewhere: an adapter of the user
does not look at role managers, and a model has not been used. -/
def Method.Plain : Method → Prop
  | .setAdapter a => a.Blind
  | .setModel m => m.Unused
  | _ => True

theorem Model.Unused.move {m : Model} (h : m.Unused) (ρ : Nat → Nat) : m.move ρ = m := by
  unfold Model.move UMap.mapVals
  refine (List.map_congr_left fun sm hsm => ?_).trans (List.map_id _)
  refine Prod.ext rfl ((List.map_congr_left fun ta hta => ?_).trans (List.map_id _))
  have h0 := h sm hsm ta hta
  obtain ⟨t, a⟩ := ta
  simp only [Assertion.move, id_eq]
  simp only at h0
  rw [h0, Option.map_none, ← h0]

variable [IterOrder]

/-- The method makes no role manager. -/
def Method.Stays : Method → Prop
  | .setModel _ => False
  | _ => True

theorem Method.indep (hk : IterOrder.ByKeys ‹_›) (lib : ExprLib) {c : Method} (hc : c.Plain)
    (hs : c.Stays) : Enforcer.Indep (c.run lib) := by
  have fin : ∀ {α : Type} {f : M Enforcer α} (g : α → Answer), Enforcer.Indep f →
      Enforcer.Indep (f >>= fun a => pure (g a)) := fun g h => h.bind fun _ => Enforcer.indep_pure _
  have sw : ∀ f : Enforcer → Enforcer, (∀ ε E, f (E.move ε) = (f E).move ε) →
      (∀ E, (f E).adapter = E.adapter) → (∀ E, (f E).heap = E.heap) → Enforcer.Indep (M.modify f) :=
    fun f h1 h2 h3 => Enforcer.indep_modifyRest h1 (fun E hE a ha => hE a (h2 E ▸ ha)) h3
  cases c with
  | edit e => exact fin _ (Enforcer.indep_edit e)
  | loadPolicy => exact fin _ Enforcer.indep_loadPolicy
  | savePolicy => exact fin _ (Enforcer.indep_savePolicy hk)
  | clearPolicy => exact fin _ Enforcer.indep_clearPolicy
  | buildRoleLinks => exact fin _ Enforcer.indep_buildRoleLinks
  | buildIncremental op pt rs => exact fin _ (Enforcer.indep_buildIncremental op pt rs)
  | enableEnforce b => exact fin _ (sw _ (fun _ _ => rfl) (fun _ => rfl) fun _ => rfl)
  | enableAutoSave b => exact fin _ (sw _ (fun _ _ => rfl) (fun _ => rfl) fun _ => rfl)
  | enableAutoBuild b => exact fin _ (sw _ (fun _ _ => rfl) (fun _ => rfl) fun _ => rfl)
  | enableAutoNotify b => exact fin _ (sw _ (fun _ _ => rfl) (fun _ => rfl) fun _ => rfl)
  | setAdapter a =>
    refine fin _ (Enforcer.indep_modifyRest (fun _ _ => rfl) (fun E _ b hb => ?_) fun _ => rfl)
    obtain rfl : a = b := Option.some.inj hb
    exact hc
  | setWatcher w => exact fin _ (sw _ (fun _ _ => rfl) (fun _ => rfl) fun _ => rfl)
  | setModel m => exact hs.elim
  | addMatchingFunc f => exact fin _ (Enforcer.indep_addNamedMatchingFunc f)
  | ask matcher vals => exact fin _ (Enforcer.indep_enforceWithMatcher hk lib matcher vals)
  | askEx matcher vals ex => exact fin _ (Enforcer.indep_enforceEx hk lib matcher vals ex)
  | askMap matcher vals ex => exact fin _ (Enforcer.indep_enforceExMap hk lib matcher vals ex)
  | batch matcher rs => exact fin _ (Enforcer.indep_batchEnforceWithMatcher hk lib matcher rs)
  | allValues sec i => exact fin _ (Enforcer.indep_onModel (Model.blind_getValuesForFieldAllTypes _ _))
  | namedValues sec pt i => exact fin _ (Enforcer.indep_onModel (Model.blind_getValuesForField _ _ _))
  | getPolicy sec pt => exact fin _ (Enforcer.indep_onModel (Model.blind_getPolicy _ _))
  | getFiltered sec pt i vs =>
    exact fin _ (Enforcer.indep_onModel (Model.blind_getFilteredPolicy _ _ _ _))
  | hasPolicy sec pt r => exact fin _ (Enforcer.indep_onModel (Model.blind_hasPolicy _ _ _))
  | roles name domain => exact fin _ (Enforcer.indep_onGRm _)
  | users name domain => exact fin _ (Enforcer.indep_onGRm _)
  | hasRole name role => exact fin _ ((Enforcer.indep_onGRm _).bind fun _ => Enforcer.indep_pure _)
  | addRoles user rs => exact fin _ (Enforcer.indep_addRolesForUser user rs)
  | deleteUser user =>
    exact fin _ ((Enforcer.indep_removeFilteredNamedGroupingPolicy _ _ _).bind fun _ =>
      (Enforcer.indep_removeFilteredI _ _ _ _).bind fun _ => Enforcer.indep_pure _)
  | deleteRole role =>
    exact fin _ ((Enforcer.indep_removeFilteredNamedGroupingPolicy _ _ _).bind fun _ =>
      (Enforcer.indep_removeFilteredI _ _ _ _).bind fun _ => Enforcer.indep_pure _)
  | implicitRoles name domain => exact fin _ (Enforcer.indep_ownRm _)
  | implicitPermissions name domain =>
    exact fin _ (Enforcer.indep_getImplicitPermissionsForUser name domain)
  | implicitUsers perm => exact fin _ (Enforcer.indep_getImplicitUsersForPermission hk lib perm)

theorem Method.setModel_run (lib : ExprLib) (m : Model) (E : Enforcer) :
    (Method.setModel m).run lib E =
      (.ok .done, { E with model := m, heap := E.heap ++ [RM.new 10], rm := E.heap.length,
                           watcher := none, eval := none, enabled := true, autoSave := true,
                           autoBuild := true, autoNotify := true }) := rfl

theorem Method.indep_grows (hk : IterOrder.ByKeys ‹_›) (lib : ExprLib) {c : Method} (hc : c.Plain)
    {ε : Embedding} (hε : ε.Grows) : Sim (Enforcer.Fits ε) (Enforcer.move ε) (c.run lib) (c.run lib) := by
  by_cases hs : c.Stays
  · exact Method.indep hk lib hc hs ε
  · cases c with
    | setModel m =>
      intro E hE
      obtain ⟨h1, h2, h3⟩ := hε.2 E.heap hE.2 (RM.new 10)
      have hm : m.move ε.ptr = m := Model.Unused.move hc _
      refine ⟨?_, hE.1, h3⟩
      rw [Method.setModel_run, Method.setModel_run]
      simp only [Enforcer.move, hε.1, Bool.false_eq_true, if_false, h1, h2, Option.map_none, hm]
    | _ => exact absurd trivial hs

theorem Method.answers_move (hk : IterOrder.ByKeys ‹_›) (lib : ExprLib) {ε : Embedding} (hε : ε.Grows) :
    ∀ (cs : List Method) (E : Enforcer), (∀ c ∈ cs, c.Plain) → E.Fits ε →
      Method.answers lib cs (E.move ε) = Method.answers lib cs E
  | [], _, _, _ => rfl
  | c :: cs, E, hcs, hE => by
    obtain ⟨h1, h2⟩ := Method.indep_grows hk lib (hcs c List.mem_cons_self) hε E hE
    unfold Method.answers
    rw [h1]
    simp only
    rw [answers_move hk lib hε cs _ (fun c hc => hcs c (List.mem_cons_of_mem _ hc)) h2]

/-- A history is answered alike with a new evaluator and with none. -/
theorem Method.answers_ready (hk : IterOrder.ByKeys ‹_›) (lib : ExprLib) :
    ∀ (cs : List Method) (E : Enforcer), (∀ c ∈ cs, c.Plain) → E.AdBlind →
      Method.answers lib cs (E.move .ready) = Method.answers lib cs E
  | [], _, _, _ => rfl
  | c :: cs, E, hcs, hE => by
    by_cases hs : c.Stays
    · obtain ⟨h1, h2⟩ := Method.indep hk lib (hcs c List.mem_cons_self) hs .ready E ⟨hE, trivial⟩
      unfold Method.answers
      rw [h1]
      simp only
      rw [answers_ready hk lib cs _ (fun c hc => hcs c (List.mem_cons_of_mem _ hc)) h2.1]
    · cases c with
      | setModel m => rfl
      | _ => exact absurd trivial hs

/-! ## Models that have just been read -/

omit [IterOrder] in
theorem UMap.mem_set {K V : Type} [DecidableEq K] {k : K} {v : V} {x : K × V} :
    ∀ {m : UMap K V}, x ∈ UMap.set m k v → x = (k, v) ∨ x ∈ m
  | [], h => .inl (by simpa [UMap.set] using h)
  | (k', v') :: m, h => by
    unfold UMap.set at h
    split at h
    · rcases List.mem_cons.mp h with h | h
      · exact .inl h
      · exact .inr (List.mem_cons_of_mem _ h)
    · rcases List.mem_cons.mp h with h | h
      · exact .inr (h ▸ List.mem_cons_self)
      · exact (UMap.mem_set h).imp id (List.mem_cons_of_mem _)

/-- `f` keeps a model unused. -/
def Model.KeepsUnused {α : Type} (f : M Model α) : Prop := ∀ m, m.Unused → (f m).2.Unused

namespace Model

omit [IterOrder] in
theorem KeepsUnused.bind {α β : Type} {f : M Model α} {k : α → M Model β} (h : KeepsUnused f)
    (hk : ∀ a, KeepsUnused (k a)) : KeepsUnused (f >>= k) := by
  intro m hm
  have h1 := h m hm
  simp only [M.bind_run]
  rcases hf : f m with ⟨o, m'⟩
  rw [hf] at h1
  cases o with
  | ok a => exact hk a m' h1
  | throw e => exact h1
  | ub u => exact h1

omit [IterOrder] in
theorem keepsUnused_pure {α : Type} (a : α) : KeepsUnused (pure a : M Model α) := fun _ h => h

omit [IterOrder] in
theorem unused_addDef (rx : Str → Str → Outcome Str) (sec key value : Str) :
    KeepsUnused (addDef rx sec key value) := by
  intro m hm
  unfold addDef
  split
  · exact hm
  · have h1 : (m.ensureSec sec).Unused := by
      unfold ensureSec
      split
      · exact hm
      · intro sm hsm
        rcases UMap.mem_set hsm with rfl | h
        · intro ta h; cases h
        · exact hm sm h
    simp only [M.bind_run, M.modify_run, M.get_run]
    generalize m.ensureSec sec = m1 at h1
    split
    · exact h1
    · simp only [M.bind_run, M.lift_run]
      cases hashPossible rx m1 with
      | throw e => exact h1
      | ub u => exact h1
      | ok b =>
        show (m1.put sec key (newAssertion sec key value b)).Unused
        unfold put
        cases hg : UMap.get m1 sec with
        | none =>
          intro sm hsm
          rcases UMap.mem_set hsm with rfl | h
          · intro ta hta
            obtain rfl : ta = (key, newAssertion sec key value b) := by simpa using hta
            rfl
          · exact h1 sm h
        | some am =>
          intro sm hsm
          rcases UMap.mem_set hsm with rfl | h
          · intro ta hta
            rcases UMap.mem_set hta with rfl | h
            · rfl
            · exact h1 _ (UMap.mem_of_get hg) ta h
          · exact h1 sm h

omit [IterOrder] in
theorem unused_loadSectionFrom (rx : Str → Str → Outcome Str) (d : Config) (sec : Str) :
    ∀ n i : Nat, KeepsUnused (loadSectionFrom rx d sec n i)
  | 0, _ => fun _ h => h
  | n + 1, i => .bind (unused_addDef rx _ _ _) fun b => by
    split
    · exact unused_loadSectionFrom rx d sec n (i + 1)
    · exact keepsUnused_pure _

omit [IterOrder] in
theorem unused_loadSections (rx : Str → Str → Outcome Str) (d : Config) :
    ∀ ss : List Str, KeepsUnused (loadSections rx d ss)
  | [] => keepsUnused_pure _
  | s :: ss => .bind (unused_loadSectionFrom rx d s _ _) fun _ => unused_loadSections rx d ss

omit [IterOrder] in
/-- A model that has just been read has no role managers. -/
theorem unused_ofText {rx : Str → Str → Outcome Str} {text : Str} {m : Model}
    (h : ofText rx text = .ok m) : m.Unused := by
  unfold ofText at h
  cases hp : Config.parseText text with
  | throw e => simp [hp] at h
  | ub u => simp [hp] at h
  | ok d =>
    rw [hp] at h
    simp only at h
    have hu : (loadFromConfig rx d []).2.Unused := by
      refine KeepsUnused.bind (unused_loadSections rx d _) (fun _ => ?_) [] (fun _ h => by cases h)
      intro m hm
      simp only [M.bind_run, M.get_run]
      split <;> exact hm
    rcases hl : loadFromConfig rx d [] with ⟨o, m'⟩
    rw [hl] at h hu
    cases o with
    | ok a => exact (Outcome.ok.inj h) ▸ hu
    | throw e => cases h
    | ub u => cases h

end Model
end Casbin
