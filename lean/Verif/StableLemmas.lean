import Verif.MirrorLemmas
import Verif.DecisionEdit
import Verif.DecisionRun

/-!
# What editing calls keep

Helper lemmas: after an editing call, returning or not, the definitions of the model, the role
manager pointers and the soundness of the role managers are as before.
-/

namespace Casbin

namespace Assertion
variable [IterOrder]

/-- Linking keeps the role manager sound, also when it stops half-way. -/
theorem linkRules_wf (op : PolicyOp) (n : Nat) (rs : List Rule) : ∀ rm : RM,
    rm.WF → rm.pattern = none → (linkRules op n rs rm).2.WF := by
  induction rs with
  | nil => intro rm h _; exact h
  | cons r rs ih =>
    intro rm hw hp
    simp only [linkRules]
    split
    · exact hw
    · simp only [M.bind_run, M.lift_run]
      cases vecAt (List.take n r) 0 with
      | throw e => exact hw
      | ub u => exact hw
      | ok a =>
        cases vecAt (List.take n r) 1 with
        | throw e => exact hw
        | ub u => exact hw
        | ok b =>
          simp only []
          have key : ∀ d, ((RM.addLink a b d rm).2.WF ∧ (RM.addLink a b d rm).2.pattern = none) ∧
              ((RM.deleteLink a b d rm).2.WF ∧ (RM.deleteLink a b d rm).2.pattern = none) := by
            intro d
            rcases RoleProps.qualify_cases d with ⟨q, hq⟩ | ⟨hd, hq⟩
            · rw [RM.addLink_run rm a b _ _ d (hq a) (hq b),
                RM.deleteLink_run rm a b _ _ d (hq a) (hq b)]
              refine ⟨⟨RM.WF_addQ hw _ _ hp, by rw [RM.addQ_pattern, hp]⟩, ?_⟩
              split
              · exact ⟨RM.WF_delQ hw _ _ hp, by rw [RM.delQ_pattern, hp]⟩
              · exact ⟨hw, hp⟩
            · rw [RM.addLink_bad rm a b d hd, RM.deleteLink_bad rm a b d hd]
              exact ⟨⟨hw, hp⟩, ⟨hw, hp⟩⟩
          have key := key ((List.take n r).drop 2)
          cases op with
          | add =>
            simp only [M.bind_run]
            rcases hx : RM.addLink a b ((List.take n r).drop 2) rm with ⟨o, rm1⟩
            rw [hx] at key
            cases o with
            | ok _ => exact ih rm1 key.1.1 key.1.2
            | throw e => exact key.1.1
            | ub u => exact key.1.1
          | remove =>
            simp only [M.bind_run]
            rcases hx : RM.deleteLink a b ((List.take n r).drop 2) rm with ⟨o, rm1⟩
            rw [hx] at key
            cases o with
            | ok _ => exact ih rm1 key.2.1 key.2.2
            | throw e => exact key.2.1
            | ub u => exact key.2.1

theorem buildLinks_wf (v : Str) (op : PolicyOp) (rs : List Rule) (rm : RM) (hw : rm.WF)
    (hp : rm.pattern = none) : (buildLinks v op rs rm).2.WF := by
  unfold buildLinks
  split
  · exact hw
  · exact linkRules_wf op _ rs rm hw hp

end Assertion

namespace Enforcer

/-- A computation keeps an invariant, whatever its outcome. -/
def Keeps {α : Type} (I : Enforcer → Prop) (x : M Enforcer α) : Prop := ∀ E, I E → I (x E).2

theorem keeps_bind {α β : Type} {I : Enforcer → Prop} {x : M Enforcer α} {f : α → M Enforcer β}
    (hx : Keeps I x) (hf : ∀ a, Keeps I (f a)) : Keeps I (x >>= f) := by
  intro E hE
  rw [M.bind_run]
  have h := hx E hE
  rcases he : x E with ⟨o, E'⟩
  rw [he] at h
  cases o with
  | ok a => exact hf a E' h
  | throw e => exact h
  | ub u => exact h

theorem keeps_pure {α : Type} {I : Enforcer → Prop} (a : α) : Keeps I (pure a) := fun _ h => h
theorem keeps_get {I : Enforcer → Prop} : Keeps I (M.get : M Enforcer Enforcer) := fun _ h => h
theorem keeps_ite {α : Type} {I : Enforcer → Prop} {c : Prop} [Decidable c] {x y : M Enforcer α}
    (hx : Keeps I x) (hy : Keeps I y) : Keeps I (if c then x else y) := by
  split <;> assumption

/-- What editing calls keep. `m0`, `rm0`, `toks` describe the definitions and the role manager; with
`st`, every grouping type has that role manager. -/
structure Stable (st : Prop) (m0 : Model) (rm0 : Nat) (toks : List Str) (ev0 : Option Evaluator) (en0 : Bool)
    (E : Enforcer) : Prop where
  other : ∀ s t, s ≠ c!"g" → s ≠ c!"p" → E.model.find s t = m0.find s t
  pol : ∃ p, E.model.find c!"p" c!"p" = some p ∧ p.tokens = toks
  vals : ∀ t, (E.model.find c!"g" t).map Assertion.value = (m0.find c!"g" t).map Assertion.value
  ptr : st → ∀ t a, E.model.find c!"g" t = some a → a.rm = some rm0
  keys : (E.model.secMap c!"g").keys.Nodup
  rm : E.rm = rm0
  heap : ∀ R ∈ E.heap, R.WF ∧ R.pattern = none
  idx : rm0 < E.heap.length
  eval : E.eval = ev0
  enabled : E.enabled = en0

theorem Stable.core {st : Prop} {m0 : Model} {rm0 : Nat} {toks : List Str} {ev0 : Option Evaluator} {en0 : Bool}
    {E E' : Enforcer} (h : Stable st m0 rm0 toks ev0 en0 E) (hc : SameCore E E') :
    Stable st m0 rm0 toks ev0 en0 E' := by
  obtain ⟨c1, c2, c3, c4, c5, _, _, _⟩ := hc
  exact ⟨c1 ▸ h.other, c1 ▸ h.pol, c1 ▸ h.vals, c1 ▸ h.ptr, c1 ▸ h.keys, c3.trans h.rm,
    c2 ▸ h.heap, c2 ▸ h.idx, c4.trans h.eval, c5.trans h.enabled⟩

theorem keys_put {m : Model} {s t : Str} {a b : Assertion} (h : m.find s t = some a) :
    ((m.put s t b).secMap s).keys = (m.secMap s).keys := by
  have hk : t ∈ (m.secMap s).keys := by
    rw [← UMap.get_isSome_iff, Model.find_secMap, h]; rfl
  have : (m.put s t b).secMap s = (m.secMap s).set t b := by
    unfold Model.put Model.secMap
    cases hm : UMap.get m s with
    | none => simp [UMap.get_set_self, UMap.set]
    | some am => simp [UMap.get_set_self]
  rw [this, UMap.keys_set, if_pos hk]

theorem Stable.put {st : Prop} {m0 : Model} {rm0 : Nat} {toks : List Str} {ev0 : Option Evaluator} {en0 : Bool}
    {E : Enforcer} (h : Stable st m0 rm0 toks ev0 en0 E) {s t : Str} (hs : s = c!"g" ∨ s = c!"p")
    {a b : Assertion} (ha : E.model.find s t = some a) (hv : b.value = a.value)
    (ht : b.tokens = a.tokens) (hr : b.rm = a.rm ∨ b.rm = some rm0) :
    Stable st m0 rm0 toks ev0 en0 { E with model := E.model.put s t b } where
  other := by
    intro s' t' h1 h2
    have : s' ≠ s := by rcases hs with rfl | rfl <;> assumption
    rw [← h.other s' t' h1 h2]
    exact Model.find_put_ne _ _ (fun h => this h.1.symm)
  pol := by
    obtain ⟨p, hp, hpt⟩ := h.pol
    by_cases he : s = c!"p" ∧ t = c!"p"
    · obtain ⟨rfl, rfl⟩ := he
      rw [hp] at ha
      cases ha
      exact ⟨b, Model.find_put_self .., ht.trans hpt⟩
    · exact ⟨p, by rw [← hp]; exact Model.find_put_ne _ _ he, hpt⟩
  vals := by
    intro t'
    rw [← h.vals t']
    by_cases he : s = c!"g" ∧ t = t'
    · obtain ⟨rfl, rfl⟩ := he
      simp only
      rw [Model.find_put_self, ha]
      simp [hv]
    · simp only
      rw [Model.find_put_ne _ _ he]
  ptr := by
    intro hst t' a' ha'
    by_cases he : s = c!"g" ∧ t = t'
    · obtain ⟨rfl, rfl⟩ := he
      simp only at ha'
      rw [Model.find_put_self] at ha'
      cases ha'
      rcases hr with hr | hr
      · rw [hr]; exact h.ptr hst _ _ ha
      · exact hr
    · simp only at ha'
      rw [Model.find_put_ne _ _ he] at ha'
      exact h.ptr hst _ _ ha'
  keys := by
    by_cases he : s = c!"g"
    · subst he
      simp only
      rw [keys_put ha]; exact h.keys
    · simp only
      rw [secMap_put_ne _ _ he]; exact h.keys
  rm := h.rm
  heap := h.heap
  idx := h.idx
  eval := h.eval
  enabled := h.enabled

variable [IterOrder] {st : Prop} {m0 : Model} {rm0 : Nat} {toks : List Str} {ev0 : Option Evaluator} {en0 : Bool}

omit [IterOrder] in
theorem keeps_onModel {α : Type} {op : M Model α} {s t : Str} (hs : s = c!"g" ∨ s = c!"p")
    (ho : ∀ m : Model, m.EditedAt s t (op m).2) :
    Keeps (Stable st m0 rm0 toks ev0 en0) (onModel op) := by
  intro E h
  show Stable st m0 rm0 toks ev0 en0 { E with model := (op E.model).2 }
  rcases ho E.model with he | ⟨a, P, ha, he⟩
  · rw [he]; exact h
  · rw [he]
    exact h.put hs ha rfl rfl (.inl rfl)

omit [IterOrder] in
theorem keeps_onRm {α : Type} (f : M RM α)
    (hf : ∀ R : RM, R.WF → R.pattern = none → (f R).2.WF ∧ (f R).2.pattern = none) (i : Nat) :
    Keeps (Stable st m0 rm0 toks ev0 en0) (onRm i f) := by
  intro E h
  cases hi : E.heap[i]? with
  | none => simpa [onRm, onHeap, hi] using h
  | some R =>
    have hR := h.heap R (List.mem_of_getElem? hi)
    have hstate : (onRm i f E).2 = { E with heap := E.heap.set i (f R).2 } := by
      simp [onRm, onHeap, hi]
    rw [hstate]
    refine ⟨h.other, h.pol, h.vals, h.ptr, h.keys, h.rm, ?_, ?_, h.eval, h.enabled⟩
    · intro R' hR'
      rcases List.mem_or_eq_of_mem_set hR' with h' | rfl
      · exact h.heap R' h'
      · exact hf R hR.1 hR.2
    · simpa using h.idx

theorem keeps_buildIncremental (op : PolicyOp) (pt : Str) (rs : List Rule) :
    Keeps (Stable st m0 rm0 toks ev0 en0) (buildIncremental op pt rs) := by
  intro E h
  simp only [buildIncremental, M.bind_run, M.get_run]
  cases ha : E.model.find c!"g" pt with
  | none => exact h
  | some a =>
    simp only [M.bind_run, onModel_run, M.modify_run]
    refine keeps_onRm _ (fun R h1 h2 => ⟨Assertion.buildLinks_wf _ _ _ R h1 h2,
      by rw [(Assertion.buildLinks_pattern _ _ _ R).1, h2]⟩) _ _ ?_
    exact h.put (.inl rfl) ha rfl rfl (.inr (by simp [h.rm]))

theorem keeps_linkIfG (sec : Str) (op : PolicyOp) (pt : Str) (rs : List Rule) :
    Keeps (Stable st m0 rm0 toks ev0 en0) (linkIfG sec op pt rs) := by
  unfold linkIfG
  exact keeps_ite (keeps_buildIncremental _ _ _) (keeps_pure _)

theorem keeps_buildAll (ks : List Str) : Keeps (Stable st m0 rm0 toks ev0 en0) (buildAll ks) := by
  induction ks with
  | nil => exact keeps_pure _
  | cons k ks ih =>
    intro E h
    simp only [buildAll, M.bind_run, M.get_run]
    cases ha : E.model.find c!"g" k with
    | none => exact h
    | some a =>
      simp only []
      have h1 : Stable st m0 rm0 toks ev0 en0
          { E with model := E.model.put c!"g" k { a with rm := some E.rm } } :=
        h.put (.inl rfl) ha rfl rfl (.inr (by simp [h.rm]))
      simp only [M.bind_run, onModel_run, M.modify_run]
      refine (keeps_bind (keeps_onRm _ (fun R h1 h2 => ⟨Assertion.buildLinks_wf _ _ _ R h1 h2,
        by rw [(Assertion.buildLinks_pattern _ _ _ R).1, h2]⟩) _) (fun _ => ih)) _ h1

theorem keeps_buildRoleLinks : Keeps (Stable st m0 rm0 toks ev0 en0) buildRoleLinks := by
  unfold buildRoleLinks
  refine keeps_bind keeps_get fun E0 => keeps_bind (keeps_onRm _ ?_ _) fun _ => keeps_bind ?_ fun _ =>
    keeps_bind keeps_get fun _ => keeps_buildAll _
  · intro R _ hp; exact ⟨RM.WF_clear R, hp⟩
  · intro E h
    show Stable st m0 rm0 toks ev0 en0 { E with model := E.model.ensureSec c!"g" }
    refine ⟨?_, ?_, ?_, ?_, ?_, h.rm, h.heap, h.idx, h.eval, h.enabled⟩
    · intro s t; simp only [Model.find_ensureSec]; exact h.other s t
    · simp only [Model.find_ensureSec]; exact h.pol
    · simp only [Model.find_ensureSec]; exact h.vals
    · simp only [Model.find_ensureSec]; exact h.ptr
    · have : (E.model.ensureSec c!"g").secMap c!"g" = E.model.secMap c!"g" := by
        unfold Model.ensureSec Model.secMap
        cases h : UMap.get E.model c!"g" with
        | none => simp [UMap.has, h, UMap.get_set_self]
        | some x => simp [UMap.has, h]
      rw [this]; exact h.keys

omit [IterOrder] in
theorem keeps_core {x : M Enforcer Unit} (h : ∀ E, SameCore E (x E).2) :
    Keeps (Stable st m0 rm0 toks ev0 en0) x := fun E hE => hE.core (h E)

omit [IterOrder] in
theorem keeps_notify : Keeps (Stable st m0 rm0 toks ev0 en0) notify := by
  refine keeps_core fun E => ?_
  rw [notify_run]; exact afterNotify_core E

omit [IterOrder] in
theorem keeps_shape {α : Type} {op : M Model α} {test : α → Bool} {link : α → M Enforcer Unit}
    {save : M Enforcer Unit} {c : Option AdapterCall} {s t : Str} (hst : s = c!"g" ∨ s = c!"p")
    (ho : ∀ m : Model, m.EditedAt s t (op m).2)
    (hl : ∀ a, Keeps (Stable st m0 rm0 toks ev0 en0) (link a)) (hs : SaveStep save c) :
    Keeps (Stable st m0 rm0 toks ev0 en0) (do
        let a ← onModel op
        if !(test a) then pure false
        else do
          link a
          save
          notify
          pure true : M Enforcer Bool) :=
  keeps_bind (keeps_onModel hst ho) fun a => keeps_ite (keeps_pure _)
    (keeps_bind (hl a) fun _ => keeps_bind (keeps_core fun E => (hs E).1) fun _ =>
      keeps_bind keeps_notify fun _ => keeps_pure _)

omit [IterOrder] in
theorem keeps_then {x : M Enforcer Bool} {link : M Enforcer Unit}
    (hx : Keeps (Stable st m0 rm0 toks ev0 en0) x) (hl : Keeps (Stable st m0 rm0 toks ev0 en0) link) :
    Keeps (Stable st m0 rm0 toks ev0 en0) (do
      let b ← x
      let E' ← M.get
      if E'.autoBuild then link else pure ()
      pure b : M Enforcer Bool) :=
  keeps_bind hx fun _ => keeps_bind keeps_get fun _ => by
    split
    · exact keeps_bind hl fun _ => keeps_pure _
    · exact keeps_pure _

omit [IterOrder] in
theorem secOf_cases (g : Bool) : Edit.secOf g = c!"g" ∨ Edit.secOf g = c!"p" := by
  cases g
  · exact .inr rfl
  · exact .inl rfl

/-- Every editing call keeps what `Stable` says. -/
theorem Edit.keeps (e : Edit) : Keeps (Stable st m0 rm0 toks ev0 en0) e.run := by
  have hadd : ∀ g pt r, Keeps (Stable st m0 rm0 toks ev0 en0) (addPolicyI (Edit.secOf g) pt r) :=
    fun g pt r => keeps_shape (test := fun b => b) (link := fun _ => linkIfG _ .add pt [r])
      (secOf_cases g) (fun m => Model.addPolicy_edited ..) (fun _ => keeps_linkIfG _ _ _ _)
      (saveStep_call _)
  have haddM : ∀ g pt rs, Keeps (Stable st m0 rm0 toks ev0 en0) (addPoliciesI (Edit.secOf g) pt rs) :=
    fun g pt rs => keeps_shape (test := fun b => b) (link := fun _ => linkIfG _ .add pt rs)
      (secOf_cases g) (fun m => Model.addPolicies_edited ..) (fun _ => keeps_linkIfG _ _ _ _)
      (saveStep_batch _)
  have hrem : ∀ g pt r, Keeps (Stable st m0 rm0 toks ev0 en0) (removePolicyI (Edit.secOf g) pt r) :=
    fun g pt r => keeps_shape (test := fun b => b) (link := fun _ => linkIfG _ .add pt [r])
      (secOf_cases g) (fun m => Model.eraseRule_edited ..) (fun _ => keeps_linkIfG _ _ _ _)
      (saveStep_call _)
  have hremM : ∀ g pt rs,
      Keeps (Stable st m0 rm0 toks ev0 en0) (removePoliciesI (Edit.secOf g) pt rs) :=
    fun g pt rs => keeps_shape (test := fun b => b) (link := fun _ => linkIfG _ .add pt rs)
      (secOf_cases g) (fun m => Model.addPolicies_edited ..) (fun _ => keeps_linkIfG _ _ _ _)
      (saveStep_batch _)
  have hfil : ∀ g pt i vs,
      Keeps (Stable st m0 rm0 toks ev0 en0) (removeFilteredI (Edit.secOf g) pt i vs) :=
    fun g pt i vs => keeps_shape (test := Prod.fst) (link := fun a => linkIfG _ .remove pt a.2)
      (secOf_cases g) (fun m => Model.removeFilteredPolicy_edited ..) (fun _ => keeps_linkIfG _ _ _ _)
      (saveStep_call _)
  have hupd : ∀ g pt o n, Keeps (Stable st m0 rm0 toks ev0 en0) (updatePolicyI (Edit.secOf g) pt o n) := by
    intro g pt o n E h
    unfold updatePolicyI
    rw [updateShape]
    exact keeps_shape (test := fun b => b) (secOf_cases g) (fun m => Model.updatePolicy_edited ..)
      (fun _ => keeps_bind (keeps_linkIfG _ _ _ _) fun _ => keeps_linkIfG _ _ _ _) saveStep_none E h
  cases e with
  | add g pt r =>
    cases g with
    | false => exact hadd false pt r
    | true => exact keeps_then (hadd true pt r) (keeps_buildIncremental _ _ _)
  | addMany g pt rs =>
    cases g with
    | false => exact haddM false pt rs
    | true => exact haddM true pt rs
  | remove g pt r =>
    cases g with
    | false => exact hrem false pt r
    | true => exact keeps_then (hrem true pt r) keeps_buildRoleLinks
  | removeMany g pt rs =>
    cases g with
    | false => exact hremM false pt rs
    | true => exact hremM true pt rs
  | removeFiltered g pt i vs =>
    cases g with
    | false => exact hfil false pt i vs
    | true => exact keeps_then (hfil true pt i vs) keeps_buildRoleLinks
  | update g pt o n =>
    cases g with
    | false => exact hupd false pt o n
    | true => exact hupd true pt o n
  | updateMany pt o n =>
    intro E h
    show Stable st m0 rm0 toks ev0 en0 (updatePoliciesI c!"p" pt o n E).2
    unfold updatePoliciesI
    rw [updateShape]
    exact keeps_shape (test := fun b => b) (.inr rfl) (fun m => Model.updatePolicies_edited ..)
      (fun _ => keeps_bind (keeps_linkIfG _ _ _ _) fun _ => keeps_linkIfG _ _ _ _) saveStep_none E h

end Enforcer

open Enforcer

/-- The state is consistent and every grouping type uses the enforcer's role manager. -/
structure Ready (lib : ExprLib) (E : Enforcer) (r p : Assertion) : Prop where
  state : Consistent lib E r p
  ptr : ∀ t a, E.model.find c!"g" t = some a → a.rm = some E.rm
  idx : E.rm < E.heap.length

theorem Ready.stable {lib : ExprLib} {E : Enforcer} {r p : Assertion} (h : Ready lib E r p) :
    Stable True E.model E.rm p.tokens E.eval E.enabled E :=
  ⟨fun _ _ _ _ => rfl, ⟨p, h.state.defs.findP, rfl⟩, fun _ => rfl, fun _ => h.ptr, h.state.defs.gNodup, rfl,
    fun R hR => ⟨h.state.roles.wf R hR, h.state.roles.plain R hR⟩, h.idx, rfl, rfl⟩

theorem Stable.functions {lib : ExprLib} {E E' : Enforcer} {r p : Assertion} (h : Ready lib E r p)
    (hs : Stable True E.model E.rm p.tokens E.eval E.enabled E') :
    Casbin.functions E'.model = Casbin.functions E.model := by
  funext f
  unfold Casbin.functions
  cases UMap.get lowBuiltins f with
  | some fr => rfl
  | none =>
    have hv := hs.vals f
    cases h1 : E'.model.find c!"g" f with
    | none =>
      rw [h1] at hv
      cases h2 : E.model.find c!"g" f with
      | none => rfl
      | some a => rw [h2] at hv; simp at hv
    | some a =>
      rw [h1] at hv
      cases h2 : E.model.find c!"g" f with
      | none => rw [h2] at hv; simp at hv
      | some b =>
        rw [h2] at hv
        simp only [Option.map_some, Option.some.injEq] at hv
        simp only [Option.map_some]
        rw [hs.ptr trivial f a h1, h.ptr f b h2, hv]

theorem Stable.ready {lib : ExprLib} {E E' : Enforcer} {r p : Assertion} (h : Ready lib E r p)
    (hs : Stable True E.model E.rm p.tokens E.eval E.enabled E') :
    ∃ p', p'.tokens = p.tokens ∧ Ready lib E' r p' := by
  obtain ⟨p', hp', ht⟩ := hs.pol
  have hfun := Stable.functions h hs
  have d := h.state.defs
  refine ⟨p', ht, ⟨⟨?_, ?_, ?_, ?_, by rw [ht]; exact d.pValid, d.rNodup, by rw [ht]; exact d.pNodup,
    hs.keys, fun k a hk => ?_⟩, ⟨fun R hR => (hs.heap R hR).1, fun R hR => (hs.heap R hR).2, ?_⟩, ?_⟩, ?_, ?_⟩
  · rw [hs.other _ _ (by simp) (by simp)]; exact d.findR
  · exact hp'
  · exact d.rLen
  · exact d.rValid
  · have hv := hs.vals k
    rw [hk] at hv
    cases h2 : E.model.find c!"g" k with
    | none => rw [h2] at hv; simp at hv
    | some b => exact d.gLower k b h2
  · intro k a i hk hi
    have := hs.ptr trivial k a hk
    rw [this] at hi
    cases hi
    exact hs.idx
  · have : E'.evaluator = E.evaluator := by unfold Enforcer.evaluator; rw [hs.eval]
    rw [this]
    exact EvOK.congr (p := p) hfun ht h.state.eval
  · intro t a ha; rw [hs.rm]; exact hs.ptr trivial t a ha
  · rw [hs.rm]; exact hs.idx

end Casbin

namespace Casbin
namespace Model

/-- The rules of the type are kept in a vector. -/
def Vec (s t : Str) (m : Model) : Prop := ∀ a, m.find s t = some a → a.policy.hash = false

theorem Vec.put {s t s' t' : Str} {m : Model} (h : Vec s t m) {a : Assertion} {P : Policies}
    (ha : m.find s' t' = some a) (hP : a.policy.hash = false → P.hash = false) :
    Vec s t (m.put s' t' { a with policy := P }) := by
  intro b hb
  by_cases he : s' = s ∧ t' = t
  · obtain ⟨rfl, rfl⟩ := he
    rw [find_put_self] at hb
    cases hb
    exact hP (h a ha)
  · rw [find_put_ne _ _ he] at hb
    exact h b hb

variable [IterOrder]

theorem addPolicy_vec {s t : Str} (s' t' : Str) (r : Rule) {m : Model} (h : Vec s t m) :
    Vec s t (addPolicy s' t' r m).2 := by
  cases ha : m.find s' t' with
  | none => simpa [addPolicy, M.bind_run, hasPolicy_none ha] using h
  | some a =>
    rw [addPolicy_run ha]
    split
    · exact h
    · exact h.put ha (fun hh => by rw [Policies.emplace_hash]; exact hh)

theorem addPolicies_vec {s t : Str} (s' t' : Str) (rs : List Rule) {m : Model} (h : Vec s t m) :
    Vec s t (addPolicies s' t' rs m).2 := by
  cases ha : m.find s' t' with
  | none =>
    cases rs with
    | nil => exact h
    | cons r rs => simpa [addPolicies, anyPresent, M.bind_run, hasPolicy_none ha] using h
  | some a =>
    rw [addPolicies_run ha]
    split
    · exact h
    · exact h.put ha (fun hh => by rw [emplaceList_hash]; exact hh)

theorem eraseRule_vec {s t : Str} (s' t' : Str) (r : Rule) {m : Model} (h : Vec s t m) :
    Vec s t (eraseRule s' t' r m).2 := by
  cases ha : m.find s' t' with
  | none => simpa [eraseRule, M.bind_run, at_none ha] using h
  | some a =>
    rw [eraseRule_run ha]
    cases hx : a.policy.eraseFirst (fun x => arrayEquals r x) with
    | none => exact h
    | some P =>
      obtain ⟨_, _, _, _, hP, _⟩ := Policies.eraseFirst_some hx
      exact h.put ha (fun hh => by rw [hP]; exact hh)

theorem eraseAll_vec {s t : Str} (s' t' : Str) (rs : List Rule) : ∀ {m : Model}, Vec s t m →
    Vec s t (eraseAll s' t' rs m).2 := by
  induction rs with
  | nil => intro m h; exact h
  | cons r rs ih =>
    intro m h0
    have h := eraseRule_vec s' t' r h0
    simp only [eraseAll, M.bind_run]
    rcases he : eraseRule s' t' r m with ⟨o, m'⟩
    rw [he] at h
    cases o with
    | ok b =>
      cases b with
      | true => exact ih h
      | false => exact h
    | throw e => exact h
    | ub u => exact h

theorem updatePolicy_vec {s t : Str} (s' t' : Str) (o n : Rule) {m : Model} (h0 : Vec s t m) :
    Vec s t (updatePolicy s' t' o n m).2 := by
  have h := eraseRule_vec s' t' o h0
  simp only [updatePolicy, M.bind_run]
  rcases he : eraseRule s' t' o m with ⟨x, m'⟩
  rw [he] at h
  cases x with
  | throw e => exact h
  | ub u => exact h
  | ok b =>
    cases b with
    | false => exact h
    | true => exact addPolicy_vec s' t' n h

theorem updatePolicies_vec {s t : Str} (s' t' : Str) (o n : List Rule) {m : Model}
    (h0 : Vec s t m) : Vec s t (updatePolicies s' t' o n m).2 := by
  cases hf : m.find s' t' with
  | none => simpa [updatePolicies, M.bind_run, at_none hf] using h0
  | some a =>
    have h := eraseAll_vec s' t' o h0
    simp only [updatePolicies, M.bind_run, at_run hf]
    rcases he : eraseAll s' t' o m with ⟨x, m'⟩
    rw [he] at h
    cases x with
    | throw e => exact h
    | ub u => exact h
    | ok b =>
      cases b with
      | false => exact h
      | true => exact addPolicies_vec s' t' n h

theorem removeFilteredPolicy_vec {s t : Str} (s' t' : Str) (i : Nat) (vs : List Str) {m : Model}
    (h : Vec s t m) : Vec s t (removeFilteredPolicy s' t' i vs m).2 := by
  cases hf : m.find s' t' with
  | none => simpa [removeFilteredPolicy, M.bind_run, at_none hf] using h
  | some a =>
    simp only [removeFilteredPolicy, M.bind_run, at_run hf, M.lift_run]
    cases partitionFilter i vs a.policy.iterate with
    | throw e => exact h
    | ub e => exact h
    | ok yn =>
      simp only [setPolicy_run hf]
      exact h.put hf (fun _ => rfl)

end Model

namespace Enforcer
variable [IterOrder]

/-- Rules in a vector stay in a vector. -/
theorem Edit.vec {s t : Str} (e : Edit) {E : Enforcer} (h : E.model.Vec s t) :
    (e.run E).2.model.Vec s t := by
  have h1 : Model.Vec s t (e.onStore E.model).2 := by
    cases e with
    | add g pt r => exact Model.addPolicy_vec _ _ _ h
    | addMany g pt rs => exact Model.addPolicies_vec _ _ _ h
    | remove g pt r => exact Model.eraseRule_vec _ _ _ h
    | removeMany g pt rs => exact Model.addPolicies_vec _ _ _ h
    | removeFiltered g pt i vs =>
      rw [onStore_removeFiltered]; exact Model.removeFilteredPolicy_vec _ _ _ _ h
    | update g pt o n => exact Model.updatePolicy_vec _ _ _ _ h
    | updateMany pt o n => exact Model.updatePolicies_vec _ _ _ _ h
  intro a ha
  have hr := (Edit.did e E).rules s t
  rw [ha] at hr
  cases hb : (e.onStore E.model).2.find s t with
  | none => rw [hb] at hr; simp at hr
  | some b =>
    rw [hb] at hr
    simp only [Option.map_some, Option.some.injEq] at hr
    have := h1 b hb
    rw [← this]
    have h2 := congrArg (fun x : Assertion => x.policy.hash) hr
    exact h2

end Enforcer
end Casbin
