import Verif.Props.Sharing
import Verif.Props.OtherTypes

/-!
# C158: a load that succeeds makes up for everything before it

A service reloads its policy now and then, or automatically (`StartAutoLoadPolicy`, whose tasks drop the
exceptions of the load). In between calls fail: the file is missing or half written, the store refuses a
rule, a rule is too short for its role definition. The property: after a load that succeeds nothing of
that is left.
-/

set_option linter.unusedSectionVars false

namespace Casbin
namespace RecoverProps

open Enforcer AdapterProps DecisionProps Fixtures EndToEnd HistoryProps SharingProps OtherTypes

/-! ## What is claimed -/

/-- Loading changes nothing but the rules of policy and role types. The last part is about the
representation of a map as a list. -/
structure OnlyRules (m m' : Model) : Prop where
  none : ∀ s t, m.find s t = none → m'.find s t = none
  some : ∀ s t a, m.find s t = some a → ∃ P, m'.find s t = some { a with policy := P } ∧
    P.hash = a.policy.hash ∧ (s ≠ c!"p" → s ≠ c!"g" → P = a.policy)
  keys : (m'.secMap c!"g").keys = (m.secMap c!"g").keys

variable [IterOrder]

/-- Whatever the loads of the history do, whether they succeed or stop half-way, they change rules only.
Nothing is asked of the other calls. -/
def Tame (lib : ExprLib) : List Deed → Enforcer → Prop
  | [], _ => True
  | .load :: ds, E => (∀ ad, E.adapter = some ad →
      OnlyRules E.model.clearPolicy (ad.loadPolicy E.model.clearPolicy).2) ∧
      Tame lib ds (Deed.run lib .load E)
  | d :: ds, E => Tame lib ds (d.run lib E)

/-- An enforcer whose definitions are `r`, `p`, `e` and `exp`, that builds links automatically with a role
manager of its own without matching function. Its rules and links are arbitrary. -/
structure Working (lib : ExprLib) (E : Enforcer) (r p e : Assertion) (exp : Str) : Prop where
  setup : Setup lib E r p e exp
  roles : NoPat 10 E
  auto : E.autoBuild = true
  places : ∀ t a, E.model.find c!"g" t = some a → PlacesOk (countChar '_' a.value)

/-! ## Helpers: what editing calls keep -/

/-- The role manager of the enforcer, its limit, and the switch for links. -/
def Base (i : Nat) (E : Enforcer) : Prop :=
  E.rm = i ∧ (E.heap[i]?.map RM.maxLevel) = some 10 ∧ E.autoBuild = true

theorem base_model {i : Nat} {α : Type} (op : M Model α) : Keeps (Base i) (onModel op) :=
  fun _ h => h

theorem base_core {i : Nat} {E E' : Enforcer} (h : Base i E) (hc : SameCore E E') : Base i E' := by
  obtain ⟨_, c2, c3, _, _, _, c7, _⟩ := hc
  exact ⟨c3.trans h.1, c2 ▸ h.2.1, c7.trans h.2.2⟩

theorem base_rm {i j : Nat} {α : Type} {f : M RM α} (hf : ∀ R, (f R).2.maxLevel = R.maxLevel) :
    Keeps (Base i) (onRm j f) := by
  intro E h
  refine ⟨h.1, ?_, h.2.2⟩
  have h2 := h.2.1
  cases hj : E.heap[j]? with
  | none => simpa [onRm, onHeap, hj] using h2
  | some R =>
    simp only [onRm, onHeap, hj, List.getElem?_set]
    split
    · rename_i hij
      subst hij
      rw [hj] at h2
      split
      · simpa [hf] using h2
      · rename_i hlt
        rw [List.getElem?_eq_none (by omega)] at hj; cases hj
    · exact h2

theorem base_incremental {i : Nat} (op : PolicyOp) (pt : Str) (rs : List Rule) :
    Keeps (Base i) (buildIncremental op pt rs) := by
  intro E h
  simp only [buildIncremental, M.bind_run, M.get_run]
  cases ha : E.model.find c!"g" pt with
  | none => exact h
  | some a =>
    simp only [M.bind_run, onModel_run, M.modify_run]
    exact base_rm (fun R => (Assertion.buildLinks_pattern _ _ _ R).2) _ h

theorem base_linkIfG {i : Nat} (sec : Str) (op : PolicyOp) (pt : Str) (rs : List Rule) :
    Keeps (Base i) (linkIfG sec op pt rs) := by
  unfold linkIfG
  exact keeps_ite (base_incremental _ _ _) (keeps_pure _)

theorem base_buildAll {i : Nat} (ks : List Str) : Keeps (Base i) (buildAll ks) := by
  induction ks with
  | nil => exact keeps_pure _
  | cons k ks ih =>
    intro E h
    simp only [buildAll, M.bind_run, M.get_run]
    cases ha : E.model.find c!"g" k with
    | none => exact h
    | some a =>
      simp only [M.bind_run, onModel_run, M.modify_run]
      exact (keeps_bind (base_rm fun R => (Assertion.buildLinks_pattern _ _ _ R).2) (fun _ => ih)) _ h

theorem base_rebuild {i : Nat} : Keeps (Base i) buildRoleLinks := by
  unfold buildRoleLinks
  exact keeps_bind keeps_get fun E0 => keeps_bind (base_rm (by intro R; rfl)) fun _ =>
    keeps_bind (base_model _) fun _ => keeps_bind keeps_get fun _ => base_buildAll _

theorem base_shape {i : Nat} {α : Type} {op : M Model α} {test : α → Bool} {link : α → M Enforcer Unit}
    {save : M Enforcer Unit} {c : Option AdapterCall}
    (hl : ∀ a, Keeps (Base i) (link a)) (hs : SaveStep save c) :
    Keeps (Base i) (do
        let a ← onModel op
        if !(test a) then pure false
        else do
          link a
          save
          notify
          pure true : M Enforcer Bool) :=
  keeps_bind (base_model _) fun a => keeps_ite (keeps_pure _)
    (keeps_bind (hl a) fun _ => keeps_bind (fun E h => base_core h (hs E).1) fun _ =>
      keeps_bind (fun E h => base_core h (by rw [notify_run]; exact afterNotify_core E)) fun _ => keeps_pure _)

theorem base_then {i : Nat} {x : M Enforcer Bool} {link : M Enforcer Unit}
    (hx : Keeps (Base i) x) (hl : Keeps (Base i) link) :
    Keeps (Base i) (do
      let b ← x
      let E' ← M.get
      if E'.autoBuild then link else pure ()
      pure b : M Enforcer Bool) :=
  keeps_bind hx fun _ => keeps_bind keeps_get fun _ => by
    split
    · exact keeps_bind hl fun _ => keeps_pure _
    · exact keeps_pure _

theorem base_edit {i : Nat} (e : Edit) : Keeps (Base i) e.run := by
  have hadd : ∀ g pt r, Keeps (Base i) (addPolicyI (Edit.secOf g) pt r) := fun g pt r =>
    base_shape (test := fun b => b) (link := fun _ => linkIfG _ .add pt [r])
      (fun _ => base_linkIfG _ _ _ _) (saveStep_call _)
  have haddM : ∀ g pt rs, Keeps (Base i) (addPoliciesI (Edit.secOf g) pt rs) := fun g pt rs =>
    base_shape (test := fun b => b) (link := fun _ => linkIfG _ .add pt rs)
      (fun _ => base_linkIfG _ _ _ _) (saveStep_batch _)
  have hrem : ∀ g pt r, Keeps (Base i) (removePolicyI (Edit.secOf g) pt r) := fun g pt r =>
    base_shape (test := fun b => b) (link := fun _ => linkIfG _ .add pt [r])
      (fun _ => base_linkIfG _ _ _ _) (saveStep_call _)
  have hremM : ∀ g pt rs, Keeps (Base i) (removePoliciesI (Edit.secOf g) pt rs) := fun g pt rs =>
    base_shape (test := fun b => b) (link := fun _ => linkIfG _ .add pt rs)
      (fun _ => base_linkIfG _ _ _ _) (saveStep_batch _)
  have hfil : ∀ g pt j vs, Keeps (Base i) (removeFilteredI (Edit.secOf g) pt j vs) := fun g pt j vs =>
    base_shape (test := Prod.fst) (link := fun a => linkIfG _ .remove pt a.2)
      (fun _ => base_linkIfG _ _ _ _) (saveStep_call _)
  have hupd : ∀ g pt o n, Keeps (Base i) (updatePolicyI (Edit.secOf g) pt o n) := by
    intro g pt o n E h
    unfold updatePolicyI
    rw [updateShape]
    exact base_shape (test := fun b => b)
      (fun _ => keeps_bind (base_linkIfG _ _ _ _) fun _ => base_linkIfG _ _ _ _) saveStep_none E h
  cases e with
  | add g pt r =>
    cases g with
    | false => exact hadd false pt r
    | true => exact base_then (hadd true pt r) (base_incremental _ _ _)
  | addMany g pt rs =>
    cases g with
    | false => exact haddM false pt rs
    | true => exact haddM true pt rs
  | remove g pt r =>
    cases g with
    | false => exact hrem false pt r
    | true => exact base_then (hrem true pt r) base_rebuild
  | removeMany g pt rs =>
    cases g with
    | false => exact hremM false pt rs
    | true => exact hremM true pt rs
  | removeFiltered g pt j vs =>
    cases g with
    | false => exact hfil false pt j vs
    | true => exact base_then (hfil true pt j vs) base_rebuild
  | update g pt o n =>
    cases g with
    | false => exact hupd false pt o n
    | true => exact hupd true pt o n
  | updateMany pt o n =>
    intro E h
    show Base i (updatePoliciesI c!"p" pt o n E).2
    unfold updatePoliciesI
    rw [updateShape]
    exact base_shape (test := fun b => b)
      (fun _ => keeps_bind (base_linkIfG _ _ _ _) fun _ => base_linkIfG _ _ _ _) saveStep_none E h

/-! ## Helpers: what loads keep -/

variable {lib : ExprLib} {r p e : Assertion} {exp : Str}

theorem OnlyRules.refl (m : Model) : OnlyRules m m :=
  ⟨fun _ _ h => h, fun _ _ a h => ⟨a.policy, h, rfl, fun _ _ => rfl⟩, rfl⟩

theorem OnlyRules.trans {m m' m'' : Model} (h : OnlyRules m m') (h' : OnlyRules m' m'') : OnlyRules m m'' := by
  refine ⟨fun s t hn => h'.none s t (h.none s t hn), fun s t a ha => ?_, h'.keys.trans h.keys⟩
  obtain ⟨P, h1, h2, h3⟩ := h.some s t a ha
  obtain ⟨Q, h4, h5, h6⟩ := h'.some s t _ h1
  exact ⟨Q, h4, h5.trans h2, fun x y => (h6 x y).trans (h3 x y)⟩

theorem onlyRules_clear (m : Model) : OnlyRules m m.clearPolicy := by
  refine ⟨fun s t h => ?_, fun s t a h => ?_, ?_⟩
  · rw [Model.find_clearPolicy]; split <;> simp [h]
  · rw [Model.find_clearPolicy]
    split
    · rename_i hs
      refine ⟨a.policy.clear, by simp [h], rfl, fun h1 h2 => absurd hs (by simp [h1, h2])⟩
    · exact ⟨a.policy, h, rfl, fun _ _ => rfl⟩
  · unfold Model.clearPolicy
    rw [keys_clearSec, keys_clearSec]

/-- The enforcer when its rules have been changed. -/
theorem stable_rules {E : Enforcer} (h : Ready lib E r p) {m' : Model} (hm : OnlyRules E.model m')
    (a : Option Adapter) :
    Stable True E.model E.rm p.tokens E.eval E.enabled { E with model := m', adapter := a } := by
  have h0 := h.stable
  refine ⟨fun s t h1 h2 => ?_, ?_, fun t => ?_, fun _ t a' ha' => ?_, ?_, rfl, h0.heap, h0.idx, rfl, rfl⟩
  · show m'.find s t = _
    cases hfa : E.model.find s t with
    | none => exact hm.none _ _ hfa
    | some a =>
      obtain ⟨P, p1, _, p3⟩ := hm.some _ _ a hfa
      rw [p1, p3 h2 h1]
  · obtain ⟨P, p1, _⟩ := hm.some _ _ p h.state.defs.findP
    exact ⟨_, p1, rfl⟩
  · show (m'.find _ _).map _ = _
    cases hfa : E.model.find c!"g" t with
    | none => rw [hm.none _ _ hfa]
    | some a =>
      obtain ⟨P, p1, _⟩ := hm.some _ _ a hfa
      rw [p1]; rfl
  · have ha'' : m'.find c!"g" t = some a' := ha'
    cases hfa : E.model.find c!"g" t with
    | none => rw [hm.none _ _ hfa] at ha''; cases ha''
    | some a =>
      obtain ⟨P, p1, _⟩ := hm.some _ _ a hfa
      rw [p1] at ha''
      cases ha''
      exact h.ptr t a hfa
  · show (m'.secMap _).keys.Nodup
    rw [hm.keys]; exact h0.keys

/-- What `LoadPolicy` leaves, however it ends. -/
theorem loadPolicy_state (E : Enforcer) (hl : ∀ ad, E.adapter = some ad →
      OnlyRules E.model.clearPolicy (ad.loadPolicy E.model.clearPolicy).2) :
    ∃ m' a, OnlyRules E.model m' ∧ ((loadPolicy E).2 = { E with model := m', adapter := a } ∨
      (loadPolicy E).2 = (buildRoleLinks { E with model := m', adapter := a }).2) := by
  simp only [loadPolicy, clearPolicy, M.bind_run, onModel_run, M.modify_run, M.get_run]
  cases ha : E.adapter with
  | none => exact ⟨_, _, onlyRules_clear _, .inl rfl⟩
  | some ad =>
    have h1 := (onlyRules_clear E.model).trans (hl ad ha)
    simp only [onAdapter, onModel, M.bind_run, M.modify_run, M.get_run]
    rcases hld : ad.loadPolicy E.model.clearPolicy with ⟨o, m'⟩
    rw [hld] at h1
    cases o with
    | throw x => exact ⟨m', _, h1, .inl rfl⟩
    | ub u => exact ⟨m', _, h1, .inl rfl⟩
    | ok _ =>
      simp only
      split
      · exact ⟨m', _, h1, .inr rfl⟩
      · exact ⟨m', _, h1, .inl rfl⟩

theorem Working.base {E : Enforcer} (h : Working lib E r p e exp) : Base E.rm E := by
  obtain ⟨rm, h1, _, h3⟩ := h.roles
  exact ⟨rfl, by rw [h1]; simp [h3], h.auto⟩

theorem Working.stable {E E' : Enforcer} (h : Working lib E r p e exp)
    (hs : Stable True E.model E.rm p.tokens E.eval E.enabled E') (hb : Base E.rm E') :
    ∃ p', p'.tokens = p.tokens ∧ Working lib E' r p' e exp ∧
      ∀ t, (E'.model.find c!"g" t).map Assertion.value = (E.model.find c!"g" t).map Assertion.value := by
  obtain ⟨p', h1, h2⟩ := h.setup.stable hs
  refine ⟨p', h1, ⟨h2, ?_, hb.2.2, ?_⟩, hs.vals⟩
  · have h3 := hb.2.1
    cases h4 : E'.heap[E.rm]? with
    | none => rw [h4] at h3; cases h3
    | some R =>
      rw [h4] at h3
      exact ⟨R, by rw [hb.1, h4], (hs.heap R (List.mem_of_getElem? h4)).2, by simpa using h3⟩
  · intro t a ha
    have h3 := hs.vals t
    rw [ha] at h3
    cases h4 : E.model.find c!"g" t with
    | none => rw [h4] at h3; cases h3
    | some a0 =>
      rw [h4] at h3
      simp only [Option.map_some, Option.some.injEq] at h3
      rw [h3]
      exact h.places t a0 h4

theorem Working.deed {E : Enforcer} (h : Working lib E r p e exp) (d : Deed) (hd : d = .load → ∀ ad,
      E.adapter = some ad → OnlyRules E.model.clearPolicy (ad.loadPolicy E.model.clearPolicy).2) :
    ∃ p', p'.tokens = p.tokens ∧ Working lib (d.run lib E) r p' e exp ∧
      ∀ t, ((d.run lib E).model.find c!"g" t).map Assertion.value = (E.model.find c!"g" t).map Assertion.value := by
  have hb := h.base
  have hr := h.setup.ready
  cases d with
  | act a =>
    cases a with
    | ask vals =>
      obtain ⟨p', h1, h2⟩ := h.setup.act (.ask vals)
      obtain ⟨ev, h3, _⟩ := ask_state h.setup vals
      simp only [Deed.run] at h2 ⊢
      rw [h3] at h2 ⊢
      exact ⟨p', h1, ⟨h2, h.roles, h.auto, h.places⟩, fun _ => rfl⟩
    | edit ed => exact h.stable (Edit.keeps ed E hr.stable) (base_edit ed E hb)
  | load =>
    obtain ⟨m', a, hm, hl⟩ := loadPolicy_state E (hd rfl)
    have hs := stable_rules hr hm a
    have hb' : Base E.rm { E with model := m', adapter := a } := hb
    simp only [Deed.run]
    rcases hl with hl | hl <;> rw [hl]
    · exact h.stable hs hb'
    · exact h.stable (keeps_buildRoleLinks _ hs) (base_rebuild _ hb')
  | save =>
    refine h.stable hr.save_stable ?_
    simp only [Deed.run]
    rcases savePolicy_state E with h1 | ⟨ad, w, h1⟩ <;> rw [h1] <;> exact hb
  | rebuild => exact h.stable (keeps_buildRoleLinks _ hr.stable) (base_rebuild _ hb)
  | setAdapter a => exact h.stable (hr.plain ..) hb
  | setWatcher w => exact h.stable (hr.plain ..) hb
  | autoSave b => exact h.stable (hr.plain ..) hb
  | autoNotify b => exact h.stable (hr.plain ..) hb

theorem Working.deeds (ds : List Deed) : ∀ {E : Enforcer} {p : Assertion}, Working lib E r p e exp →
    Tame lib ds E → ∃ p', p'.tokens = p.tokens ∧ Working lib (runDeeds lib ds E) r p' e exp ∧
      ∀ t, ((runDeeds lib ds E).model.find c!"g" t).map Assertion.value =
        (E.model.find c!"g" t).map Assertion.value := by
  induction ds with
  | nil => intro E p h _; exact ⟨p, rfl, h, fun _ => rfl⟩
  | cons d ds ih =>
    intro E p h ht
    have hd : (d = .load → ∀ ad, E.adapter = some ad →
        OnlyRules E.model.clearPolicy (ad.loadPolicy E.model.clearPolicy).2) ∧ Tame lib ds (d.run lib E) := by
      cases d with
      | load => exact ⟨fun _ => ht.1, ht.2⟩
      | _ => exact ⟨fun h => (by cases h), by simpa only [Tame] using ht⟩
    obtain ⟨p1, t1, w1, v1⟩ := h.deed d hd.1
    obtain ⟨p2, t2, w2, v2⟩ := ih w1 hd.2
    exact ⟨p2, t2.trans t1, w2, fun t => (v2 t).trans (v1 t)⟩

/-- The load that succeeds. -/
theorem Working.load {E : Enforcer} (h : Working lib E r p e exp) {rules : List (Str × Rule)}
    (hl : LoadsRules E rules) (hlong : LongEnough E rules) :
    ∃ p' m', p'.tokens = p.tokens ∧ (loadPolicy E).1 = .ok () ∧ Linked lib (loadPolicy E).2 r p' e exp ∧
      Extended E.model.clearPolicy m' rules ∧ m'.SameRules (loadPolicy E).2.model := by
  obtain ⟨ad, m', ha, hld, hE, hk⟩ := hl.into
  have hf := find_loaded hE hl.types
  rw [loadPolicy_ok ha hld, if_pos h.auto]
  set E1 : Enforcer := { E with model := m', adapter := some { ad with log := ad.log ++ [.load] } } with hE1
  have hg : GroupsOk E1.model := by
    intro t a' ha'
    cases hfa : E.model.find c!"g" t with
    | none => rw [show E1.model = m' from rfl, (hf _ _).1 hfa] at ha'; cases ha'
    | some a =>
      obtain ⟨P, p1, _, _, p4⟩ := (hf _ _).2 a hfa
      rw [show E1.model = m' from rfl, p1] at ha'
      cases ha'
      refine ⟨h.places t a hfa, fun r hr => ?_⟩
      obtain ⟨_, hr'⟩ := (p4 (Or.inr rfl) r).mp hr
      unfold rulesOf at hr'
      simp only [List.mem_map, List.mem_filter] at hr'
      obtain ⟨x, ⟨hx, hxt⟩, rfl⟩ := hr'
      simp only [decide_eq_true_eq] at hxt
      subst hxt
      exact hlong x hx a hfa
  have hst := h.setup.ready.load_stable hE hk hl.types (some { ad with log := ad.log ++ [.load] })
  obtain ⟨E2, h1, h2, h3⟩ := buildRoleLinks_mirrors (E := E1) (h.roles.of_heap rfl rfl) hg
  have hs := keeps_buildRoleLinks E1 hst
  rw [h1] at hs ⊢
  obtain ⟨p', t', s'⟩ := h.setup.stable hs
  exact ⟨p', m', t', rfl, ⟨s', h3, h2.2.2.2.2.2.2.2.1.trans h.auto⟩, hE, h2.1⟩

/-- The same rules loaded into the same definitions. -/
theorem sameStore_loads {m1 m1' m2 m2' n1 n2 : Model} {rules : List (Str × Rule)}
    (h1 : Extended m1.clearPolicy m1' rules) (h2 : Extended m2.clearPolicy m2' rules)
    (s1 : m1'.SameRules n1) (s2 : m2'.SameRules n2)
    (hp : ∀ a a', m1.find c!"p" c!"p" = some a → m2.find c!"p" c!"p" = some a' →
      a'.tokens = a.tokens ∧ a'.policy.hash = a.policy.hash)
    (hg : ∀ t, (m2.find c!"g" t).map Assertion.value = (m1.find c!"g" t).map Assertion.value) :
    SameStore n1 n2 := by
  have key : ∀ {m m' n : Model}, Extended m.clearPolicy m' rules → m'.SameRules n → ∀ s t,
      s = c!"p" ∨ s = c!"g" → (m.find s t = none → n.find s t = none) ∧
      ∀ a, m.find s t = some a → ∃ b, n.find s t = some b ∧ b.tokens = a.tokens ∧ b.value = a.value ∧
        b.policy.hash = a.policy.hash ∧
        (b.policy.hash = false → b.policy.items = if s = t.take 1 then rulesOf rules t else []) ∧
        ∀ r, r ∈ b.policy.items ↔ s = t.take 1 ∧ r ∈ rulesOf rules t := by
    intro m m' n hE hS s t hs
    obtain ⟨e1, e2⟩ := hE s t
    rw [Model.find_clearPolicy, if_pos hs] at e1 e2
    refine ⟨fun h => hS.none (e1 (by rw [h]; rfl)), fun a ha => ?_⟩
    rw [ha] at e2
    obtain ⟨P, p1, p2, p3, p4, _⟩ := e2 _ rfl
    obtain ⟨x, hx⟩ := hS.some p1
    refine ⟨_, hx, rfl, rfl, p2, fun hh => ?_, fun r => ?_⟩
    · simpa [Policies.clear] using p3 hh
    · simpa [Policies.clear] using p4 r
  refine ⟨fun p p' f1 f2 => ?_, fun t => ?_, fun t a a' f1 f2 => ?_⟩
  · obtain ⟨k1, k2⟩ := key h1 s1 c!"p" c!"p" (.inl rfl)
    obtain ⟨l1, l2⟩ := key h2 s2 c!"p" c!"p" (.inl rfl)
    cases q1 : m1.find c!"p" c!"p" with
    | none => rw [k1 q1] at f1; cases f1
    | some a =>
      cases q2 : m2.find c!"p" c!"p" with
      | none => rw [l1 q2] at f2; cases f2
      | some a' =>
        obtain ⟨b, b1, b2, _, b4, b5, b6⟩ := k2 a q1
        obtain ⟨c, c1, c2, _, c4, c5, c6⟩ := l2 a' q2
        rw [b1] at f1; cases f1
        rw [c1] at f2; cases f2
        obtain ⟨z1, z2⟩ := hp a a' q1 q2
        have hh : p'.policy.hash = p.policy.hash := by rw [c4, z2, b4]
        exact ⟨by rw [c2, z1, b2], hh, fun h => by rw [c5 (hh.trans h), b5 h], fun r => by rw [c6, b6]⟩
  · obtain ⟨k1, k2⟩ := key h1 s1 c!"g" t (.inr rfl)
    obtain ⟨l1, l2⟩ := key h2 s2 c!"g" t (.inr rfl)
    have := hg t
    cases q1 : m1.find c!"g" t <;> cases q2 : m2.find c!"g" t <;> rw [q1, q2] at this <;> simp at this
    · simp [k1 q1, l1 q2]
    · obtain ⟨b, b1, _⟩ := k2 _ q1
      obtain ⟨c, c1, _⟩ := l2 _ q2
      simp [b1, c1]
  · obtain ⟨k1, k2⟩ := key h1 s1 c!"g" t (.inr rfl)
    obtain ⟨l1, l2⟩ := key h2 s2 c!"g" t (.inr rfl)
    have := hg t
    cases q1 : m1.find c!"g" t with
    | none => rw [k1 q1] at f1; cases f1
    | some b0 =>
      cases q2 : m2.find c!"g" t with
      | none => rw [l1 q2] at f2; cases f2
      | some c0 =>
        rw [q1, q2] at this
        simp only [Option.map_some, Option.some.injEq] at this
        obtain ⟨b, b1, _, b3, _, _, b6⟩ := k2 _ q1
        obtain ⟨c, c1, _, c3, _, _, c6⟩ := l2 _ q2
        rw [b1] at f1; cases f1
        rw [c1] at f2; cases f2
        exact ⟨by rw [c3, this, b3], fun r => by rw [c6, b6]⟩

/-! ## The property -/

/-- C158: after any history, whatever failed in it, a load that reads rules long enough for their
definitions returns, and then every request gets the answer and the explanation of an enforcer that did
nothing but this load. Missing: histories after which the rules of `p` are kept in another container than
before (`C158_fails`); role managers with a matching function. -/
theorem C158_partial {E : Enforcer} (h : Working lib E r p e exp) (ds : List Deed) (ht : Tame lib ds E)
    {F : Enforcer} {q : Assertion} (hF : Working lib F r q e exp) (hq : q.tokens = p.tokens)
    (hg : ∀ t, (F.model.find c!"g" t).map Assertion.value = (E.model.find c!"g" t).map Assertion.value)
    {rules : List (Str × Rule)} (hl : LoadsRules (runDeeds lib ds E) rules)
    (hlong : LongEnough (runDeeds lib ds E) rules) (hl' : LoadsRules F rules)
    (hc : ∀ a, (runDeeds lib ds E).model.find c!"p" c!"p" = some a → a.policy.hash = q.policy.hash) :
    (loadPolicy (runDeeds lib ds E)).1 = .ok () ∧ (loadPolicy F).1 = .ok () ∧ ∀ (vals : List Str) (X : Rule),
      (((loadPolicy (runDeeds lib ds E)).2).enforce lib (vals.map ReqVal.str)).1 =
        ((loadPolicy F).2.enforce lib (vals.map ReqVal.str)).1 ∧
      (((loadPolicy (runDeeds lib ds E)).2).enforceEx lib [] (vals.map ReqVal.str) X).1 =
        ((loadPolicy F).2.enforceEx lib [] (vals.map ReqVal.str) X).1 := by
  obtain ⟨p1, t1, w1, v1⟩ := h.deeds ds ht
  have hlong' : LongEnough F rules := by
    intro x hx a ha
    have h1 := hg x.1
    rw [ha, ← v1] at h1
    cases h2 : (runDeeds lib ds E).model.find c!"g" x.1 with
    | none => rw [h2] at h1; cases h1
    | some b =>
      rw [h2] at h1
      simp only [Option.map_some, Option.some.injEq] at h1
      rw [h1]
      exact hlong x hx b h2
  obtain ⟨p2, m2, t2, o2, L2, e2, s2⟩ := w1.load hl hlong
  obtain ⟨p3, m3, t3, o3, L3, e3, s3⟩ := hF.load hl' hlong'
  have hst : SameStore (loadPolicy F).2.model (loadPolicy (runDeeds lib ds E)).2.model := by
    refine sameStore_loads e3 e2 s3 s2 ?_ (fun t => (v1 t).trans (hg t).symm)
    · intro a a' ha ha'
      have h1 := hF.setup.ready.state.defs.findP
      rw [ha] at h1; cases h1
      have h2 := w1.setup.ready.state.defs.findP
      rw [ha'] at h2; cases h2
      exact ⟨t1.trans hq.symm, hc _ ha'⟩
  exact ⟨o2, o3, fun vals X => C135_determined L3 L2 hst vals X⟩

theorem vec_deed (d : Deed) {E : Enforcer} (hd : d = .load → ∀ ad, E.adapter = some ad →
      OnlyRules E.model.clearPolicy (ad.loadPolicy E.model.clearPolicy).2) (hs : Setup lib E r p e exp)
    {s t : Str} (h : E.model.Vec s t) : (d.run lib E).model.Vec s t := by
  have hrb : ∀ {E : Enforcer}, E.model.Vec s t → (buildRoleLinks E).2.model.Vec s t := by
    intro E h a ha
    have := (buildRoleLinks_linkOnly E).1 s t
    rw [ha] at this
    cases hb : E.model.find s t with
    | none => rw [hb] at this; simp at this
    | some b =>
      rw [hb] at this
      simp only [Option.map_some, Option.some.injEq] at this
      rw [← h b hb]
      have h2 := congrArg (fun x : Assertion => x.policy.hash) this
      exact h2
  cases d with
  | act a =>
    cases a with
    | ask vals =>
      obtain ⟨ev, h3, _⟩ := ask_state hs vals
      simp only [Deed.run, h3]
      exact h
    | edit ed => exact Edit.vec ed h
  | load =>
    obtain ⟨m', a, hm, hl⟩ := loadPolicy_state E (hd rfl)
    have hv : m'.Vec s t := by
      intro b hb
      cases hf : E.model.find s t with
      | none => rw [hm.none _ _ hf] at hb; cases hb
      | some a0 =>
        obtain ⟨P, p1, p2, _⟩ := hm.some _ _ a0 hf
        rw [p1] at hb; cases hb
        exact p2.trans (h a0 hf)
    simp only [Deed.run]
    rcases hl with hl | hl <;> rw [hl]
    · exact hv
    · exact hrb hv
  | save =>
    simp only [Deed.run]
    rcases savePolicy_state E with h1 | ⟨ad, w, h1⟩ <;> rw [h1]
    · exact h
    · intro a ha
      exact h a (by rw [← find_ensured]; exact ha)
  | rebuild => exact hrb h
  | setAdapter a => exact h
  | setWatcher w => exact h
  | autoSave b => exact h
  | autoNotify b => exact h

theorem vec_deeds (ds : List Deed) {s t : Str} : ∀ {E : Enforcer} {p : Assertion}, Working lib E r p e exp →
    Tame lib ds E → E.model.Vec s t → (runDeeds lib ds E).model.Vec s t := by
  induction ds with
  | nil => intro E p _ _ h; exact h
  | cons d ds ih =>
    intro E p h ht hv
    have hd : (d = .load → ∀ ad, E.adapter = some ad →
        OnlyRules E.model.clearPolicy (ad.loadPolicy E.model.clearPolicy).2) ∧ Tame lib ds (d.run lib E) := by
      cases d with
      | load => exact ⟨fun _ => ht.1, ht.2⟩
      | _ => exact ⟨fun h => (by cases h), by simpa only [Tame] using ht⟩
    obtain ⟨p1, t1, w1, v1⟩ := h.deed d hd.1
    exact ih w1 hd.2 (vec_deed d hd.1 h.setup hv)

/-- C158 for policies kept in a vector: after any history the answers are those of the enforcer itself
when it does nothing but the load. -/
theorem C158_vector_partial {E : Enforcer} (h : Working lib E r p e exp) (hv : p.policy.hash = false)
    (ds : List Deed) (ht : Tame lib ds E) {A : Adapter} {rules : List (Str × Rule)}
    (hl : LoadsRules (runDeeds lib ds E) rules) (hlong : LongEnough (runDeeds lib ds E) rules)
    (hl' : LoadsRules { E with adapter := some A } rules) :
    (loadPolicy (runDeeds lib ds E)).1 = .ok () ∧ ∀ (vals : List Str) (X : Rule),
      (((loadPolicy (runDeeds lib ds E)).2).enforce lib (vals.map ReqVal.str)).1 =
        ((loadPolicy { E with adapter := some A }).2.enforce lib (vals.map ReqVal.str)).1 ∧
      (((loadPolicy (runDeeds lib ds E)).2).enforceEx lib [] (vals.map ReqVal.str) X).1 =
        ((loadPolicy { E with adapter := some A }).2.enforceEx lib [] (vals.map ReqVal.str) X).1 := by
  obtain ⟨q, tq, wq, vq⟩ := h.deed (.setAdapter A) (fun h => by cases h)
  have hq := wq.setup.ready.state.defs.findP
  have hE : (Deed.run lib (.setAdapter A) E) = { E with adapter := some A } := rfl
  rw [hE] at wq vq hq
  have hqp : q = p := by
    have h1 := h.setup.ready.state.defs.findP
    rw [show E.model.find c!"p" c!"p" = some q from hq] at h1
    exact Option.some.inj h1
  subst hqp
  obtain ⟨h1, _, h3⟩ := C158_partial h ds ht wq rfl vq hl hlong hl' (fun a ha => by
    rw [hv]
    refine vec_deeds ds h ht ?_ a ha
    intro b hb
    have h1 := h.setup.ready.state.defs.findP
    rw [hb] at h1; cases h1
    exact hv)
  exact ⟨h1, h3⟩

theorem onlyRules_put {m : Model} {s t : Str} {a : Assertion} {P : Policies} (ha : m.find s t = some a)
    (hs : s = c!"p" ∨ s = c!"g") (hP : P.hash = a.policy.hash) :
    OnlyRules m (m.put s t { a with policy := P }) := by
  refine ⟨fun s' t' h => ?_, fun s' t' b h => ?_, ?_⟩
  · rw [Model.find_put_ne _ _ (by rintro ⟨rfl, rfl⟩; rw [h] at ha; cases ha)]; exact h
  · by_cases he : s = s' ∧ t = t'
    · obtain ⟨rfl, rfl⟩ := he
      rw [ha] at h; cases h
      exact ⟨P, Model.find_put_self .., hP, fun h1 h2 => absurd hs (by simp [h1, h2])⟩
    · exact ⟨b.policy, by rw [Model.find_put_ne _ _ he]; exact h, rfl, fun _ _ => rfl⟩
  · by_cases hg : s = c!"g"
    · subst hg; exact keys_put ha
    · rw [secMap_put_ne _ _ hg]

/-- `C158_partial` and `C158_vector_partial` apply to texts: loading lines, wherever it stops, changes
rules only, if each line is about a policy type or a role type. -/
theorem loadLines_onlyRules (ls : List Str) : ∀ {m : Model},
    (∀ l ∈ ls, (lineType l).take 1 = c!"p" ∨ (lineType l).take 1 = c!"g") →
    OnlyRules m (loadLines ls m).2 := by
  induction ls with
  | nil => intro m _; exact .refl m
  | cons l ls ih =>
    intro m h
    have h1 : OnlyRules m (loadPolicyLine l m).2 := by
      have hl := h l List.mem_cons_self
      unfold loadPolicyLine
      split
      · exact .refl _
      · cases hs : split l c!"," with
        | nil => exact .refl _
        | cons k vs =>
          rw [lineType_split hs] at hl
          simp only [trimAll, List.map_cons, M.bind_run]
          cases hf : m.find ((trim k).take 1) (trim k) with
          | none => simp only [Model.at_, hf]; exact .refl _
          | some a =>
            simp only [Model.at_, hf, Model.setPolicy]
            exact onlyRules_put hf hl (Policies.emplace_hash ..)
    simp only [loadLines, M.bind_run]
    rcases hl : loadPolicyLine l m with ⟨o, m1⟩
    rw [hl] at h1
    cases o with
    | throw x => exact h1
    | ub u => exact h1
    | ok _ =>
      exact h1.trans (ih fun l' hl' => h l' (List.mem_cons_of_mem _ hl'))

/-! ## Examples -/

/-- An enforcer whose links have been built works. -/
theorem _root_.Casbin.Linked.working {E : Enforcer} (h : Linked lib E r p e exp) : Working lib E r p e exp :=
  ⟨h.setup, h.mirrors.links.noPat, h.auto, fun t a ha => (h.mirrors.groups t a ha).1⟩

/-- A store that gives one rule and then fails. -/
def failing : Adapter :=
  ⟨.custom true false true (do loadPolicyLine c!"p, carol, data1, read"; M.throw .adapter) (fun _ => .ok ()), []⟩

/-- The store fails at one load; at the next a grouping rule is too short; a rule without second name is
added; then the policy file is there again. -/
def badDays : List Deed :=
  [.setAdapter failing, .load, .act (.ask [c!"bob", c!"data2", c!"write"]),
    .setAdapter ⟨.string c!"p, bob, data2, write\ng, carol", []⟩, .load,
    .act (.edit (.add true c!"g" [c!"bob"])), .rebuild,
    .setAdapter ⟨.file c!"policy.csv" (some sample) true false, []⟩]

/-- The enforcer of the examples. -/
def before : Enforcer := (buildRoleLinks (rbac [alice] [[c!"alice", c!"admin"]])).2

/-- Non-vacuity of `Tame`: the history of failures. -/
theorem tame_badDays (lib : ExprLib) (E : Enforcer) : Tame lib badDays E := by
  have h1 : ∀ l ∈ [c!"p, carol, data1, read"], (lineType l).take 1 = c!"p" ∨ (lineType l).take 1 = c!"g" := by
    decide +kernel
  have h2 : ∀ l ∈ split c!"p, bob, data2, write\ng, carol" c!"\n",
      (lineType l).take 1 = c!"p" ∨ (lineType l).take 1 = c!"g" := by
    decide +kernel
  have h3 : ∀ m, OnlyRules m (failing.loadPolicy m).2 := by
    intro m
    have := loadLines_onlyRules _ (m := m) h1
    simp only [loadLines, M.bind_run] at this
    show OnlyRules m ((loadPolicyLine c!"p, carol, data1, read" >>= fun _ => M.throw .adapter) m).2
    rw [M.bind_run]
    rcases hl : loadPolicyLine c!"p, carol, data1, read" m with ⟨o, m1⟩
    rw [hl] at this
    cases o <;> exact this
  simp only [badDays, Tame, and_true]
  refine ⟨fun ad ha => ?_, fun ad ha => ?_⟩
  · rw [← Option.some.inj ha]
    exact h3 _
  · rw [← Option.some.inj ha]
    exact loadLines_onlyRules _ h2

omit [IterOrder] in
/-- Its loads and calls do fail. -/
example : letI := insertionOrder
    let E1 := runDeeds miniLib (badDays.take 1) before
    let E2 := runDeeds miniLib (badDays.take 4) before
    let E3 := runDeeds miniLib (badDays.take 5) before
    (loadPolicy E1).1 = .throw .adapter ∧
    ((loadPolicy E1).2.enforce miniLib [.str c!"carol", .str c!"data1", .str c!"read"]).1 = .ok true ∧
    (loadPolicy E2).1 = .throw .illegalArgument ∧
    (addNamedGroupingPolicy c!"g" [c!"bob"] E3).1 = .throw .illegalArgument ∧
    ((runDeeds miniLib badDays before).enforce miniLib [.str c!"alice", .str c!"data1", .str c!"read"]).1 = .ok false := by
  decide +kernel

/-- The rules of the policy file. -/
def fileRules : List (Str × Rule) := [(c!"p", alice), (c!"p", bob), (c!"g", [c!"bob", c!"admin"])]

theorem loads_file (E : Enforcer) (hk : (E.model.secMap c!"g").keys.Nodup)
    (hd : ∀ x ∈ fileRules, E.model.find (x.1.take 1) x.1 ≠ none) :
    LoadsRules { E with adapter := some ⟨.file c!"policy.csv" (some sample) true false, []⟩ } fileRules :=
  loadsRules_file (ad := ⟨.file c!"policy.csv" (some sample) true false, []⟩) rfl rfl (by decide)
    sample_says (shortLines_of_length (by decide)) hk hd (by decide)

omit [IterOrder] in
/-- Non-vacuity of `C158_vector_partial`: after these days the answers are those of the enforcer that just
loads the file. -/
example (vals : List Str) : letI := insertionOrder
    ((loadPolicy (runDeeds miniLib badDays before)).2.enforce miniLib (vals.map ReqVal.str)).1 =
      ((loadPolicy { before with adapter := some ⟨.file c!"policy.csv" (some sample) true false, []⟩ }).2.enforce
        miniLib (vals.map ReqVal.str)).1 := by
  let _ := insertionOrder
  obtain ⟨p, _, hv, hL, _⟩ := linked_rbac miniLib [alice] [[c!"alice", c!"admin"]] (by decide)
  have hrun : ∀ E, runDeeds miniLib badDays E = { runDeeds miniLib (badDays.take 7) E with
      adapter := some ⟨.file c!"policy.csv" (some sample) true false, []⟩ } := fun E => rfl
  have hl : LoadsRules (runDeeds miniLib badDays before) fileRules := by
    rw [hrun]
    exact loads_file _ (by decide +kernel) (by decide +kernel)
  refine ((C158_vector_partial hL.working (by rw [hv]; rfl) badDays (tame_badDays _ _) hl ?_
    (loads_file _ (by decide +kernel) (by decide +kernel))).2 vals []).1
  intro x hx a ha
  have h : ∀ x ∈ fileRules, (Option.all (fun a : Assertion => decide (countChar '_' a.value ≤ x.2.length))
      ((runDeeds miniLib badDays before).model.find c!"g" x.1)) = true := by
    decide +kernel
  have h1 := h x hx
  rw [show (runDeeds miniLib badDays before).model.find c!"g" x.1 = some a from ha] at h1
  simpa using h1

omit [IterOrder] in
/-- C158 is false for rules kept in a set: `RemoveFilteredPolicy` replaces the set by a vector for good
(model.cpp 404, 422), even when it removes nothing. After the same load the two enforcers answer a blank
request differently, since the lookup in set storage grants it (`C14`) and the loop over a vector does
not. -/
theorem C158_fails : letI := insertionOrder; ∃ (E : Enforcer) (ds : List Deed) (vals : List Str),
    (∀ d ∈ ds, d = .act (.edit (.removeFiltered false c!"p" 0 [c!"nobody"]))) ∧
    (removeFilteredNamedPolicy c!"p" 0 [c!"nobody"] E).1 = .ok false ∧
    (loadPolicy E).1 = .ok () ∧ (loadPolicy (runDeeds miniLib ds E)).1 = .ok () ∧
    ((loadPolicy E).2.enforce miniLib (vals.map ReqVal.str)).1 = .ok true ∧
    ((loadPolicy (runDeeds miniLib ds E)).2.enforce miniLib (vals.map ReqVal.str)).1 = .ok false := by
  let _ := insertionOrder
  refine ⟨{ aclHash [alice] with adapter := some ⟨.string c!"p, alice, data1, read", []⟩ },
    [.act (.edit (.removeFiltered false c!"p" 0 [c!"nobody"]))], [[], [], []], ?_⟩
  refine ⟨by simp, ?_⟩
  decide +kernel

end RecoverProps
end Casbin
