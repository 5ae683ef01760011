import Verif.SafeCalls
import Verif.Props.Definitions
import Verif.MiniLib

/-!
# C172: no undefined behaviour

A user keeps to a `Shape`: policy types that the model defines, a number of values that every rule of a
type has at least, whether requests are made. As long as every call keeps to it (`Needs`, `Careful`), no
call of any history has undefined behaviour, whatever the calls are and whether they raise exceptions.
-/

set_option linter.unusedSectionVars false

namespace Casbin
namespace Safe

open Enforcer

variable [IterOrder] {S : Shape} {lib : ExprLib}

/-- The enforcer is in order: it has the shape, the role managers that its model, its evaluator and
itself point to exist, and its adapter has no undefined behaviour of its own. -/
def Good (S : Shape) (E : Enforcer) : Prop := ∃ n, Inv S False False n E

/-- Every call of the history has what it needs when its turn comes. -/
def Careful (S : Shape) (lib : ExprLib) : Enforcer → List Method → Prop
  | _, [] => True
  | E, c :: cs => Needs S E c ∧ Careful S lib (c.run lib E).2 cs

/-- The members of a new enforcer before the policy is loaded. -/
def started (m : Model) (a : Option Adapter) : Enforcer :=
  { model := m, heap := [RM.new 10], rm := 0, adapter := a, watcher := none, eval := none,
    enabled := true, autoSave := true, autoBuild := true, autoNotify := true }

theorem construct_some (m : Model) (a : Adapter) :
    construct m (some a) = (if a.isValid then loadPolicy else pure ()) (started m (some a)) := rfl

theorem started_good {m : Model} (hm : Fresh S m) {a : Option Adapter} (ha : ∀ b, a = some b → Tame b) :
    Inv S False False 1 (started m a) := by
  refine ⟨⟨rfl, fun rm hrm => ?_⟩, Nat.one_pos, hm.inv 1, fun ev hev => (by cases hev), ha, False.elim⟩
  obtain rfl := List.mem_singleton.mp hrm
  intro a b hb
  simp [RM.new, RM.direct] at hb

/-- C172, the constructor: from a fresh model of the shape, with no adapter or one that loads rules of the
shape, the constructor has no undefined behaviour and the enforcer is in order. -/
theorem C172_new {m : Model} (hm : Fresh S m) {a : Option Adapter}
    (ha : ∀ b, a = some b → Tame b ∧ (b.isValid = true → ∀ L n, Fine (MInv S L n) b.loadPolicy)) :
    (∀ u, (construct m a).1 ≠ .ub u) ∧ Good S (construct m a).2 := by
  have h0 := started_good hm fun b hb => (ha b hb).1
  cases a with
  | none => exact ⟨fun u h => (by cases h), 1, h0⟩
  | some b =>
    rw [construct_some]
    split
    · next hv =>
      have := fine_loadPolicy h0 ⟨b, rfl, (ha b rfl).2 hv⟩
      exact ⟨this.1, 1, this.2⟩
    · exact ⟨fun u h => (by cases h), 1, h0⟩

/-- C172, one call. -/
theorem C172_call (hlib : SafeLib lib) {E : Enforcer} (h : Good S E) {c : Method} (hc : Needs S E c) :
    (∀ u, (c.run lib E).1 ≠ .ub u) ∧ Good S (c.run lib E).2 := by
  obtain ⟨n, h⟩ := h
  exact ⟨(call_ok hlib h hc).1, (call_ok hlib h hc).2.1⟩

/-- The enforcer after its model and its adapter have been replaced is in order again. -/
theorem good_replaced {E : Enforcer} (h : Good S E) {m : Model} (hm : Fresh S m) {a : Option Adapter}
    (ha : ∀ b, a = some b → Tame b) : Good S (initObject { E with adapter := a, model := m }).2 := by
  obtain ⟨n, h⟩ := h
  refine ⟨n + 1, ⟨by simp [initObject, h.heap.1], fun rm hrm => ?_⟩,
    by simp [initObject, h.heap.1], hm.inv _, fun ev hev => (by cases hev), ha, False.elim⟩
  rcases List.mem_append.mp (show rm ∈ E.heap ++ [RM.new 10] from hrm) with h' | h'
  · exact h.heap.2 rm h'
  · obtain rfl := List.mem_singleton.mp h'
    intro a b hb
    simp [RM.new, RM.direct] at hb

/-- C172, `LoadModel`: reading the file may fail with an exception. -/
theorem C172_loadModel {E : Enforcer} (h : Good S E) {file : Outcome Model} (hf : ∀ u, file ≠ .ub u)
    (hm : ∀ m, file = .ok m → Fresh S m) :
    (∀ u, (Enforcer.loadModel file E).1 ≠ .ub u) ∧ Good S (Enforcer.loadModel file E).2 := by
  cases file with
  | ok m =>
    obtain ⟨n, hi⟩ := id h
    exact ⟨fun u hu => (by cases hu), good_replaced h (hm m rfl) hi.adapter⟩
  | throw x => exact ⟨fun u hu => (by cases hu), h⟩
  | ub u => exact absurd rfl (hf u)

/-- C172, `InitWithModelAndAdapter`: as the constructor, on an enforcer that is already in use. -/
theorem C172_init {E : Enforcer} (h : Good S E) {m : Model} (hm : Fresh S m) {a : Option Adapter}
    (ha : ∀ b, a = some b → Tame b ∧ (b.isFiltered = false → ∀ L n, Fine (MInv S L n) b.loadPolicy)) :
    (∀ u, (Enforcer.initWithModelAndAdapter m a E).1 ≠ .ub u) ∧
      Good S (Enforcer.initWithModelAndAdapter m a E).2 := by
  have h0 := good_replaced h hm fun b hb => (ha b hb).1
  cases a with
  | none => exact ⟨fun u hu => (by cases hu), h0⟩
  | some b =>
    have hr : Enforcer.initWithModelAndAdapter m (some b) E =
        (if !b.isFiltered then loadPolicy else pure ()) (initObject { E with adapter := some b, model := m }).2 := rfl
    rw [hr]
    cases hv : b.isFiltered with
    | true => exact ⟨fun u hu => (by cases hu), h0⟩
    | false =>
      obtain ⟨n, h0⟩ := h0
      have := fine_loadPolicy h0 ⟨b, rfl, (ha b rfl).2 hv⟩
      exact ⟨this.1, n, this.2⟩

/-- C172: no call of a careful history has undefined behaviour, and the enforcer stays in order, also
after calls that raise exceptions. -/
theorem C172_history (hlib : SafeLib lib) : ∀ (cs : List Method) {E : Enforcer}, Good S E → Careful S lib E cs →
    (∀ o ∈ Method.answers lib cs E, ∀ u, o ≠ .ub u) ∧ Good S (Method.after lib cs E)
  | [], _, h, _ => ⟨fun _ h => (by cases h), h⟩
  | c :: cs, E, h, hc => by
    obtain ⟨h1, h2⟩ := C172_call hlib h hc.1
    obtain ⟨h3, h4⟩ := C172_history hlib cs h2 hc.2
    refine ⟨fun o ho => ?_, h4⟩
    rcases List.mem_cons.mp ho with rfl | ho
    · exact h1
    · exact h3 o ho

/-! ## What the needs come from -/

/-- C172 without looking at the states in between: a history of calls that need nothing but the shape is
safe. -/
theorem C172_shape (hlib : SafeLib lib) {cs : List Method} {E : Enforcer} (h : Good S E)
    (hcs : ∀ c ∈ cs, ∀ E', Needs S E' c) :
    (∀ o ∈ Method.answers lib cs E, ∀ u, o ≠ .ub u) ∧ Good S (Method.after lib cs E) := by
  refine C172_history hlib cs h ?_
  clear h
  induction cs generalizing E with
  | nil => trivial
  | cons c cs ih => exact ⟨hcs c List.mem_cons_self E, ih fun c hc => hcs c (List.mem_cons_of_mem _ hc)⟩

/-- The same once the role links are built: queries for roles need the links, and nothing but replacing the
model takes them away. -/
theorem C172_shape_linked (hlib : SafeLib lib) {cs : List Method} {E : Enforcer} (h : Good S E) (hl : Linked E)
    (hcs : ∀ c ∈ cs, (∀ m, c ≠ .setModel m) ∧ ∀ E', Linked E' → Needs S E' c) :
    (∀ o ∈ Method.answers lib cs E, ∀ u, o ≠ .ub u) ∧ Good S (Method.after lib cs E) := by
  refine C172_history hlib cs h ?_
  induction cs generalizing E with
  | nil => trivial
  | cons c cs ih =>
    have h1 := hcs c List.mem_cons_self
    obtain ⟨n, h⟩ := h
    have h2 := call_ok hlib h (h1.2 E hl)
    exact ⟨h1.2 E hl, ih h2.2.1 (h2.2.2 hl h1.1) fun c hc => hcs c (List.mem_cons_of_mem _ hc)⟩

/-- The text of a `StringAdapter` all whose lines are empty, comments or rules of the shape can be loaded. -/
theorem C172_text {text : Str} (h : ∀ l ∈ split text c!"\n", LineOk S l) :
    ∀ L n, Fine (MInv S L n) (Adapter.string text).loadPolicy := fun _ _ =>
  .ite (fun _ => .throw _) fun _ => fine_lines h

/-- The same for a file, whose lines are trimmed. -/
theorem C172_file {a : Adapter} {path : Str} {disk : Option Str} {w b : Bool} (ha : a.kind = .file path disk w b)
    (h : ∀ text, disk = some text → ∀ l ∈ (getLines text).map trim, LineOk S l) :
    ∀ L n, Fine (MInv S L n) a.loadPolicy := by
  intro L n
  unfold Adapter.loadPolicy
  rw [ha]
  refine .ite (fun _ => .throw _) fun _ => ?_
  cases disk with
  | none => exact .pure _
  | some text => exact fine_lines (h text rfl)

theorem buildAll_links : ∀ (ks : List Str) (E : Enforcer), (buildAll ks E).1 = .ok () →
    ∀ k, (k ∈ ks ∨ ∃ a p, E.model.find c!"g" k = some a ∧ a.rm = some p) →
      ∃ a p, (buildAll ks E).2.model.find c!"g" k = some a ∧ a.rm = some p
  | [], E, _, k, hk => hk.resolve_left (by simp)
  | k0 :: ks, E, h, k, hk => by
    unfold buildAll at h ⊢
    rw [M.bind_run, M.get_run] at h ⊢
    dsimp only at h ⊢
    cases hf : E.model.find c!"g" k0 with
    | none => rw [hf] at h; cases h
    | some a =>
      rw [hf] at h
      rcases hr : onRm E.rm (Assertion.buildLinks a.value .add a.policy.iterate)
        { E with model := E.model.put c!"g" k0 { a with rm := some E.rm } } with ⟨o, E'⟩
      have hm : E'.model = E.model.put c!"g" k0 { a with rm := some E.rm } := by
        have := congrArg (fun x => x.2.model) hr
        exact this.symm
      have e : ((onModel (M.modify fun m => m.put c!"g" k0 { a with rm := some E.rm }) >>= fun _ =>
          onRm E.rm (Assertion.buildLinks a.value .add a.policy.iterate) >>= fun _ => buildAll ks) E) =
          (onRm E.rm (Assertion.buildLinks a.value .add a.policy.iterate) >>= fun _ => buildAll ks)
            { E with model := E.model.put c!"g" k0 { a with rm := some E.rm } } := rfl
      dsimp only at h ⊢
      rw [e, M.bind_run, hr] at h ⊢
      cases o with
      | throw e => cases h
      | ub u => cases h
      | ok _ =>
        refine buildAll_links ks E' h k ?_
        rw [hm, Model.find_put]
        split
        · exact .inr ⟨_, E.rm, rfl, rfl⟩
        · next hne =>
          rcases hk with hk | hk
          · rcases List.mem_cons.mp hk with rfl | hk
            · exact absurd ⟨rfl, rfl⟩ hne
            · exact .inl hk
          · exact .inr hk

/-- After a `BuildRoleLinks` that returned, the role type `g`, if defined, has its role manager. -/
theorem C172_links {E : Enforcer} (hg : E.model.find c!"g" c!"g" ≠ none) (h : (buildRoleLinks E).1 = .ok ()) :
    Linked (buildRoleLinks E).2 := by
  have hw : ∀ E1 : Enforcer, E1.model = E.model.ensureSec c!"g" →
      (buildAll (IterOrder.iter (E1.model.secMap c!"g").keys) E1).1 = .ok () →
      Linked (buildAll (IterOrder.iter (E1.model.secMap c!"g").keys) E1).2 := by
    intro E1 hm h1
    refine buildAll_links _ E1 h1 c!"g" (.inl ((IterOrder.iter_perm _).mem_iff.mpr ?_))
    rw [← UMap.get_isSome_iff, Model.find_secMap, hm, Model.find_ensureSec]
    exact Option.isSome_iff_ne_none.mpr hg
  unfold buildRoleLinks at h ⊢
  rw [M.bind_run, M.get_run] at h ⊢
  dsimp only at h ⊢
  rw [M.bind_run] at h ⊢
  rcases hr : onRm E.rm (M.modify RM.clear) E with ⟨o, E'⟩
  have hm : E'.model = E.model := (congrArg (fun x => x.2.model) hr).symm
  rw [hr] at h
  cases o with
  | throw e => cases h
  | ub u => cases h
  | ok _ => exact hw { E' with model := E'.model.ensureSec c!"g" } (by rw [hm]) h

/-- A `LoadPolicy` that returned has built the links, unless that is switched off. -/
theorem C172_loaded {E : Enforcer} (h : Good S E) (hg : S.defined c!"g" c!"g") (hb : E.autoBuild = true)
    {a : Adapter} (ha : E.adapter = some a) (hf : ∀ L n, Fine (MInv S L n) a.loadPolicy)
    (hok : (loadPolicy E).1 = .ok ()) : Linked (loadPolicy E).2 := by
  obtain ⟨n, h⟩ := h
  have h1 := (fine_onModel (B := False) (hf False n)) _ (h.atLoad ha)
  rw [loadPolicy_run ha] at hok ⊢
  rw [M.bind_run] at hok ⊢
  have hab : (onModel a.loadPolicy { E with model := E.model.clearPolicy, adapter := some { a with log := a.log ++ [.load] } }).2.autoBuild = true := hb
  rcases hr : onModel a.loadPolicy { E with model := E.model.clearPolicy, adapter := some { a with log := a.log ++ [.load] } } with ⟨o, E'⟩
  rw [hr] at h1 hok hab
  cases o with
  | throw e => cases hok
  | ub u => cases hok
  | ok _ =>
    dsimp only at hok ⊢ hab
    rw [M.bind_run, M.get_run] at hok ⊢
    dsimp only at hok ⊢
    rw [if_pos hab] at hok ⊢
    exact C172_links (h1.2.model.defs _ _ hg) hok

/-- So has the constructor. -/
theorem C172_new_linked {m : Model} (hm : Fresh S m) (hg : S.defined c!"g" c!"g") {a : Adapter}
    (ha : Tame a) (hv : a.isValid = true) (hf : ∀ L n, Fine (MInv S L n) a.loadPolicy)
    (hok : (construct m (some a)).1 = .ok ()) : Linked (construct m (some a)).2 := by
  rw [construct_some, if_pos hv] at hok ⊢
  exact C172_loaded ⟨1, started_good hm (by rintro b ⟨⟩; exact ha)⟩ hg rfl rfl hf hok

/-- The role manager of `g` stays: it is lost by replacing the model only. -/
theorem C172_linked (hlib : SafeLib lib) {E : Enforcer} (h : Good S E) {c : Method} (hc : Needs S E c)
    (hs : ∀ m, c ≠ .setModel m) (hl : Linked E) : Linked (c.run lib E).2 := by
  obtain ⟨n, h⟩ := h
  exact (call_ok hlib h hc).2.2 hl hs

/-! ## Models from a text -/

/-- No rules. -/
def Blank (m : Model) : Prop := ∀ sm ∈ m, ∀ ta ∈ sm.2, ta.2.policy.items = []

/-- `f` keeps a model without rules so. -/
def KeepsBlank {α : Type} (f : M Model α) : Prop := ∀ m, Blank m → Blank (f m).2

omit [IterOrder] in
theorem KeepsBlank.bind {α β : Type} {f : M Model α} {k : α → M Model β} (h : KeepsBlank f)
    (hk : ∀ a, KeepsBlank (k a)) : KeepsBlank (f >>= k) := by
  intro m hm
  have h1 := h m hm
  simp only [M.bind_run]
  rcases hf : f m with ⟨o, m'⟩
  rw [hf] at h1
  cases o with
  | ok a => exact hk a m' h1
  | throw e => exact h1
  | ub u => exact h1

omit [IterOrder] in
theorem blank_new (sec key value : Str) (b : Bool) : (newAssertion sec key value b).policy.items = [] := by
  cases b <;> rfl

omit [IterOrder] in
theorem blank_addDef (rx : Str → Str → Outcome Str) (sec key value : Str) :
    KeepsBlank (Model.addDef rx sec key value) := by
  intro m hm
  unfold Model.addDef
  split
  · exact hm
  · have h1 : Blank (m.ensureSec sec) := by
      unfold Model.ensureSec
      split
      · exact hm
      · intro sm hsm
        rcases UMap.mem_set hsm with rfl | h
        · intro ta h; cases h
        · exact hm sm h
    simp only [M.bind_run, M.modify_run, M.get_run]
    generalize m.ensureSec sec = m1 at h1
    split
    · exact h1
    · simp only [M.bind_run, M.lift_run]
      cases hashPossible rx m1 with
      | throw e => exact h1
      | ub u => exact h1
      | ok b =>
        show Blank (m1.put sec key (newAssertion sec key value b))
        unfold Model.put
        cases hg : UMap.get m1 sec with
        | none =>
          intro sm hsm
          rcases UMap.mem_set hsm with rfl | h
          · intro ta hta
            obtain rfl : ta = (key, newAssertion sec key value b) := by simpa using hta
            exact blank_new ..
          · exact h1 sm h
        | some am =>
          intro sm hsm
          rcases UMap.mem_set hsm with rfl | h
          · intro ta hta
            rcases UMap.mem_set hta with rfl | h
            · exact blank_new ..
            · exact h1 _ (UMap.mem_of_get hg) ta h
          · exact h1 sm h

omit [IterOrder] in
theorem blank_loadSectionFrom (rx : Str → Str → Outcome Str) (d : Config) (sec : Str) :
    ∀ n i : Nat, KeepsBlank (Model.loadSectionFrom rx d sec n i)
  | 0, _ => fun _ h => h
  | n + 1, i => .bind (blank_addDef rx _ _ _) fun b => by
    split
    · exact blank_loadSectionFrom rx d sec n (i + 1)
    · exact fun _ h => h

omit [IterOrder] in
theorem blank_loadSections (rx : Str → Str → Outcome Str) (d : Config) :
    ∀ ss : List Str, KeepsBlank (Model.loadSections rx d ss)
  | [] => fun _ h => h
  | s :: ss => .bind (blank_loadSectionFrom rx d s _ _) fun _ => blank_loadSections rx d ss

omit [IterOrder] in
theorem ofText_config {rx : Str → Str → Outcome Str} {text : Str} {m : Model} (h : Model.ofText rx text = .ok m) :
    ∃ d, Model.loadFromConfig rx d [] = (.ok (), m) := by
  unfold Model.ofText at h
  cases hp : Config.parseText text with
  | throw e => simp [hp] at h
  | ub u => simp [hp] at h
  | ok d =>
    rw [hp] at h
    simp only at h
    refine ⟨d, ?_⟩
    rcases hl : Model.loadFromConfig rx d [] with ⟨o, m'⟩
    rw [hl] at h
    cases o with
    | ok a => rw [← Outcome.ok.inj h]
    | throw e => cases h
    | ub u => cases h

omit [IterOrder] in
/-- C172, the model: one read from a text is fresh. It has the definitions that requests need; what is left
to check is that the types of the shape are defined and that the expression library takes the names. -/
theorem C172_model {rx : Str → Str → Outcome Str} (hrx : ConfigProps.RxTotal rx) {text : Str} {m : Model}
    (h : Model.ofText rx text = .ok m) (hd : ∀ s t, S.defined s t → m.find s t ≠ none)
    (hr : ∀ r, m.find c!"r" c!"r" = some r → ∀ t ∈ r.tokens, 2 ≤ t.length →
      Evaluator.validSymbol (c!"r." ++ t.drop 2) = true)
    (hp : ∀ p, m.find c!"p" c!"p" = some p → ∀ t ∈ p.tokens,
      Evaluator.validSymbol (c!"p." ++ tokenName t) = true) : Fresh S m := by
  obtain ⟨d, hl⟩ := ofText_config h
  have hdef := ConfigProps.C58_required rx d (by rw [hl])
  obtain ⟨m', hl', hfind⟩ := (ConfigProps.C58_sections_partial hrx d fun _ => hdef _ (by simp)).1 hdef
  obtain rfl : m = m' := by rw [hl] at hl'; exact (Prod.mk.inj hl').2
  have hbl : Blank m := by
    have : Blank (Model.loadFromConfig rx d []).2 := by
      refine KeepsBlank.bind (blank_loadSections rx d _) (fun _ => ?_) [] (fun _ h => by cases h)
      intro m hm
      simp only [M.bind_run, M.get_run]
      split <;> exact hm
    rwa [hl] at this
  refine ⟨Model.unused_ofText h, hd, fun s t a ha r hra => ?_, fun _ => ⟨?_, ?_, ?_, ?_⟩⟩
  · obtain ⟨sm, hsm, hta⟩ := find_mem ha
    rw [hbl sm hsm _ hta] at hra
    cases hra
  · obtain ⟨b, hb⟩ := hfind c!"r" (by simp)
    exact ⟨_, hb, hr _ hb⟩
  · obtain ⟨b, hb⟩ := hfind c!"p" (by simp)
    exact ⟨_, hb, hp _ hb⟩
  · obtain ⟨b, hb⟩ := hfind c!"e" (by simp)
    simp [hb]
  · obtain ⟨b, hb⟩ := hfind c!"m" (by simp)
    simp [hb]

/-! ## Examples and witnesses -/

open Fixtures

theorem safe_miniLib : SafeLib miniLib := fun _ _ _ h => by cases h

/-- The shape of the RBAC model. -/
def rbacShape : Shape where
  defined s t := (s = c!"p" ∧ t = c!"p") ∨ (s = c!"g" ∧ t = c!"g")
  width s _ := if s = c!"p" then 3 else if s = c!"g" then 2 else 0
  asked := True

theorem Fits.one {w i : Nat} {v : Str} (h : i < w) : Fits w i [v] := by
  intro j x hj _
  cases j with
  | zero => exact h
  | succ j => simp at hj

theorem fresh_rbac {P G : List Rule} (hP : ∀ r ∈ P, 3 ≤ r.length) (hG : ∀ r ∈ G, 2 ≤ r.length) :
    Fresh rbacShape (rbacModel P G) := by
  refine ⟨?_, ?_, ?_, fun _ => ⟨⟨_, rfl, ?_⟩, ⟨_, rfl, ?_⟩, ?_, ?_⟩⟩
  · simp [Model.Unused, rbacModel, asrt, rDef, pDef, eDef]
  · rintro s t (⟨rfl, rfl⟩ | ⟨rfl, rfl⟩) h <;> cases h
  · intro s t a h r hr
    by_cases hp : s = c!"p"
    · subst hp
      by_cases ht : t = c!"p"
      · subst ht
        cases h
        exact hP r hr
      · simp [Model.find, rbacModel, UMap.get, pDef, Ne.symm ht] at h
    · by_cases hg : s = c!"g"
      · subst hg
        by_cases ht : t = c!"g"
        · subst ht
          cases h
          exact hG r hr
        · simp [Model.find, rbacModel, UMap.get, Ne.symm ht] at h
      · simp [rbacShape, hp, hg]
  · decide
  · show ∀ t ∈ pTok, _
    decide
  · simp [Model.find, rbacModel, UMap.get, eDef]
  · simp [Model.find, rbacModel, UMap.get]

/-- Constructor without an adapter, rules, links, requests, queries, removals. -/
example (b : Str) :
    ∀ o ∈ Method.answers miniLib
        [.edit (.add false c!"p" alice), .edit (.add true c!"g" [b, c!"alice"]),
          .ask [] [.str b, .str c!"data1", .str c!"read"], .buildRoleLinks, .allValues c!"p" 2,
          .ask [] [.str b], .edit (.removeFiltered true c!"g" 1 [c!"alice"]), .deleteUser b,
          .addRoles b [c!"bob", b], .implicitPermissions b [], .getPolicy c!"p" c!"p"]
        (construct (rbacModel [] []) none).2, ∀ u, o ≠ .ub u := by
  have hn := C172_new (S := rbacShape) (a := none)
    (fresh_rbac (P := []) (G := []) (by simp) (by simp)) (by simp)
  refine (C172_shape safe_miniLib hn.2 ?_).1
  simp only [List.mem_cons, List.not_mem_nil, or_false, forall_eq_or_imp, forall_eq]
  simp [Needs, EditNeeds, Edit.secOf, rbacShape, Fits.one, alice]

/-- Once `BuildRoleLinks` returned, queries for roles are safe. -/
example {E : Enforcer} (h : Good rbacShape E) (hb : (buildRoleLinks E).1 = .ok ())
    (hg : E.model.find c!"g" c!"g" ≠ none) (x y : Str) :
    ∀ o ∈ Method.answers miniLib [.roles x [], .edit (.add true c!"g" [x, y]), .users y [], .clearPolicy,
      .hasRole x y] (buildRoleLinks E).2, ∀ u, o ≠ .ub u := by
  have h1 := C172_call safe_miniLib (c := .buildRoleLinks) h trivial
  have e : (Method.run miniLib .buildRoleLinks E).2 = (buildRoleLinks E).2 := by
    show ((buildRoleLinks >>= fun _ => pure Answer.done) E).2 = _
    rw [M.bind_run]
    rcases buildRoleLinks E with ⟨o, E'⟩
    cases o <;> rfl
  rw [e] at h1
  refine (C172_shape_linked safe_miniLib h1.2 (C172_links hg hb) ?_).1
  simp only [List.mem_cons, List.not_mem_nil, or_false, forall_eq_or_imp, forall_eq]
  simp +contextual [Needs, EditNeeds, Edit.secOf, rbacShape]

/-- A text of rules of the shape. -/
example : ∀ L n, Fine (MInv rbacShape L n)
    (Adapter.string c!"p, alice, data1, read\n# comment\n\ng, bob, alice").loadPolicy := by
  refine C172_text ?_
  have e : split c!"p, alice, data1, read\n# comment\n\ng, bob, alice" c!"\n"
      = [c!"p, alice, data1, read", c!"# comment", c!"", c!"g, bob, alice"] := by decide +kernel
  rw [e]
  simp only [List.mem_cons, List.not_mem_nil, or_false, forall_eq_or_imp, forall_eq]
  exact ⟨.inr (.inr ⟨c!"p", alice, (by decide +kernel), .inl ⟨rfl, rfl⟩, (by decide)⟩), .inr (.inl rfl), .inl rfl,
    .inr (.inr ⟨c!"g", [c!"bob", c!"alice"], (by decide +kernel), .inr ⟨rfl, rfl⟩, (by decide)⟩)⟩

/-- examples/rbac_model.conf and any policy text of its rules: whatever is called afterwards with two values
for a role and three for a permission, roles asked for or not, nothing has undefined behaviour. -/
theorem C172_rbac {rx : Str → Str → Outcome Str} {text : Str}
    (ht : ∀ l ∈ split text c!"\n", LineOk rbacShape l) (hl : text ≠ []) (hlib : SafeLib lib) {cs : List Method}
    (hcs : ∀ c ∈ cs, (∀ m, c ≠ .setModel m) ∧ ∀ E', Linked E' → Needs rbacShape E' c) :
    ∃ m, Model.ofText rx TextProps.rbacConf = .ok m ∧
      (∀ u, (construct m (some (.string text))).1 ≠ .ub u) ∧
      ((construct m (some (.string text))).1 = .ok () →
        ∀ o ∈ Method.answers lib cs (construct m (some (.string text))).2, ∀ u, o ≠ .ub u) := by
  have hm : Fresh rbacShape (rbacModel [] []) := fresh_rbac (by simp) (by simp)
  have hv : (Adapter.string text).isValid = true := by
    simp [Adapter.isValid, Adapter.string, hl]
  have hn := C172_new hm (a := some (.string text)) (by rintro b ⟨⟩; exact ⟨trivial, fun _ => C172_text ht⟩)
  exact ⟨_, TextProps.rbac_ofText rx, hn.1, fun hok => (C172_shape_linked hlib hn.2
    (C172_new_linked hm (.inr ⟨rfl, rfl⟩) trivial hv (C172_text ht) hok) hcs).1⟩

example {rx : Str → Str → Outcome Str} (x y : Str) : ∃ m, Model.ofText rx TextProps.rbacConf = .ok m ∧
      (∀ u, (construct m (some (.string c!"p, alice, data1, read\ng, bob, alice"))).1 ≠ .ub u) ∧
      ((construct m (some (.string c!"p, alice, data1, read\ng, bob, alice"))).1 = .ok () →
        ∀ o ∈ Method.answers miniLib [.roles x [], .edit (.add true c!"g" [x, y]), .ask x [.str y], .deleteRole y,
            .hasRole x y, .implicitRoles x []]
          (construct m (some (.string c!"p, alice, data1, read\ng, bob, alice"))).2, ∀ u, o ≠ .ub u) := by
  refine C172_rbac ?_ (by decide) safe_miniLib ?_
  · have e : split c!"p, alice, data1, read\ng, bob, alice" c!"\n"
        = [c!"p, alice, data1, read", c!"g, bob, alice"] := by decide +kernel
    rw [e]
    simp only [List.mem_cons, List.not_mem_nil, or_false, forall_eq_or_imp, forall_eq]
    exact ⟨.inr (.inr ⟨c!"p", alice, (by decide +kernel), .inl ⟨rfl, rfl⟩, (by decide)⟩),
      .inr (.inr ⟨c!"g", [c!"bob", c!"alice"], (by decide +kernel), .inr ⟨rfl, rfl⟩, (by decide)⟩)⟩
  · simp only [List.mem_cons, List.not_mem_nil, or_false, forall_eq_or_imp, forall_eq]
    simp +contextual [Needs, EditNeeds, Edit.secOf, rbacShape, Fits.one]

/-- The constructor answers for this text. -/
example :
    letI := insertionOrder
    (construct (rbacModel [] []) (some (.string c!"p, alice, data1, read\ng, bob, alice"))).1 = .ok () := by
  decide +kernel

/-- Each need is there for a reason: a value with a line break, saved and loaded again. -/
theorem C172_newline_fails :
    letI := insertionOrder
    (loadPolicy (savePolicy { rbac [[c!"alice\nzz", c!"data1", c!"read"]] [] with
      adapter := some (.string c!"p, a, b, c") }).2).1 = .ub .nullDeref := by decide +kernel

/-- Several rules at once with automatic saving and a `StringAdapter`. -/
theorem C172_batch_fails :
    letI := insertionOrder
    ((Edit.addMany false c!"p" [alice]).run { rbac [] [] with adapter := some (.string c!"p, a, b, c") }).1
      = .ub .nullDeref := by decide +kernel

/-- A rule shorter than what is asked for. -/
theorem C172_short_fails :
    letI := insertionOrder
    (Method.run miniLib (.allValues c!"p" 1) ((Edit.add false c!"p" [c!"alice"]).run (rbac [] [])).2).1
      = .ub .outOfBounds := by decide +kernel

/-- A policy type that the model does not define. -/
theorem C172_undefined_fails :
    letI := insertionOrder
    ((Edit.add false c!"p9" alice).run (rbac [] [])).1 = .ub .nullDeref := by decide +kernel

/-- Roles before there are links. -/
theorem C172_unlinked_fails :
    letI := insertionOrder
    (Method.run miniLib (.roles c!"alice" []) (rbac [] [])).1 = .ub .nullDeref := by decide +kernel

end Safe
end Casbin
