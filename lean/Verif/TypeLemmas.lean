import Verif.StableLemmas

/-!
# The policy types an editing call meets are those it leaves

Helper lemmas, as in StableLemmas.lean.
-/

namespace Casbin
namespace TypesKept

open Enforcer

/-- Key, value and tokens of a definition. -/
def defn (a : Assertion) : Str × Str × List Str := (a.key, a.value, a.tokens)

/-- The types of every section, in the order of their entries, and the definitions. -/
def Types (ks : Str → List Str) (ds : Str → Str → Option (Str × Str × List Str)) (E : Enforcer) : Prop :=
  ∀ s, (E.model.secMap s).keys = ks s ∧ ∀ t, (E.model.find s t).map defn = ds s t

variable [IterOrder] {ks : Str → List Str} {ds : Str → Str → Option (Str × Str × List Str)}

omit [IterOrder] in
theorem Types.put {E : Enforcer} (h : Types ks ds E) {s t : Str} {a b : Assertion}
    (ha : E.model.find s t = some a) (hb : defn b = defn a) :
    Types ks ds { E with model := E.model.put s t b } := by
  intro s'
  refine ⟨?_, fun t' => ?_⟩
  · by_cases he : s = s'
    · subst he
      exact (keys_put ha).trans (h s).1
    · show ((E.model.put s t b).secMap s').keys = _
      rw [secMap_put_ne _ _ he]
      exact (h s').1
  · rw [← (h s').2 t']
    by_cases he : s = s' ∧ t = t'
    · obtain ⟨rfl, rfl⟩ := he
      simp only
      rw [Model.find_put_self, ha]
      simp [hb]
    · simp only
      rw [Model.find_put_ne _ _ he]

omit [IterOrder] in
theorem keeps_onModel {α : Type} {op : M Model α} {s t : Str}
    (ho : ∀ m : Model, m.EditedAt s t (op m).2) : Keeps (Types ks ds) (onModel op) := by
  intro E h
  show Types ks ds { E with model := (op E.model).2 }
  rcases ho E.model with he | ⟨a, P, ha, he⟩
  · rw [he]; exact h
  · rw [he]
    exact h.put ha rfl

omit [IterOrder] in
theorem keeps_onRm {α : Type} (f : M RM α) (i : Nat) : Keeps (Types ks ds) (onRm i f) := by
  intro E h
  cases hi : E.heap[i]? with
  | none => simpa [onRm, onHeap, hi] using h
  | some R =>
    have hstate : (onRm i f E).2 = { E with heap := E.heap.set i (f R).2 } := by
      simp [onRm, onHeap, hi]
    rw [hstate]
    exact h

theorem keeps_buildIncremental (op : PolicyOp) (pt : Str) (rs : List Rule) :
    Keeps (Types ks ds) (buildIncremental op pt rs) := by
  intro E h
  simp only [buildIncremental, M.bind_run, M.get_run]
  cases ha : E.model.find c!"g" pt with
  | none => exact h
  | some a =>
    simp only [M.bind_run, onModel_run, M.modify_run]
    exact keeps_onRm _ _ _ (h.put ha rfl)

theorem keeps_linkIfG (sec : Str) (op : PolicyOp) (pt : Str) (rs : List Rule) :
    Keeps (Types ks ds) (linkIfG sec op pt rs) := by
  unfold linkIfG
  exact keeps_ite (keeps_buildIncremental _ _ _) (keeps_pure _)

theorem keeps_buildAll (ts : List Str) : Keeps (Types ks ds) (buildAll ts) := by
  induction ts with
  | nil => exact keeps_pure _
  | cons k ts ih =>
    intro E h
    simp only [buildAll, M.bind_run, M.get_run]
    cases ha : E.model.find c!"g" k with
    | none => exact h
    | some a =>
      simp only [M.bind_run, onModel_run, M.modify_run]
      exact (keeps_bind (keeps_onRm _ _) (fun _ => ih)) _ (h.put ha rfl)

omit [IterOrder] in
theorem secMap_ensureSec (m : Model) (s s' : Str) : (m.ensureSec s).secMap s' = m.secMap s' := by
  unfold Model.ensureSec Model.secMap
  cases h : UMap.get m s with
  | none =>
    by_cases he : s = s'
    · subst he; simp [UMap.has, h, UMap.get_set_self]
    · simp [UMap.has, h, UMap.get_set, he]
  | some x => simp [UMap.has, h]

theorem keeps_buildRoleLinks : Keeps (Types ks ds) buildRoleLinks := by
  unfold buildRoleLinks
  refine keeps_bind keeps_get fun E0 => keeps_bind (keeps_onRm _ _) fun _ => keeps_bind ?_ fun _ =>
    keeps_bind keeps_get fun _ => keeps_buildAll _
  intro E h s
  simp only [M.modify_run, onModel_run, secMap_ensureSec, Model.find_ensureSec]
  exact h s

omit [IterOrder] in
theorem keeps_core {x : M Enforcer Unit} (h : ∀ E, SameCore E (x E).2) : Keeps (Types ks ds) x := by
  intro E hE s
  have := (h E).1
  rw [this]
  exact hE s

omit [IterOrder] in
theorem keeps_notify : Keeps (Types ks ds) notify := by
  refine keeps_core fun E => ?_
  rw [notify_run]; exact afterNotify_core E

omit [IterOrder] in
theorem keeps_shape {α : Type} {op : M Model α} {test : α → Bool} {link : α → M Enforcer Unit}
    {save : M Enforcer Unit} {c : Option AdapterCall} {s t : Str}
    (ho : ∀ m : Model, m.EditedAt s t (op m).2)
    (hl : ∀ a, Keeps (Types ks ds) (link a)) (hs : SaveStep save c) :
    Keeps (Types ks ds) (do
        let a ← onModel op
        if !(test a) then pure false
        else do
          link a
          save
          notify
          pure true : M Enforcer Bool) :=
  keeps_bind (keeps_onModel ho) fun a => keeps_ite (keeps_pure _)
    (keeps_bind (hl a) fun _ => keeps_bind (keeps_core fun E => (hs E).1) fun _ =>
      keeps_bind keeps_notify fun _ => keeps_pure _)

omit [IterOrder] in
theorem keeps_then {x : M Enforcer Bool} {link : M Enforcer Unit}
    (hx : Keeps (Types ks ds) x) (hl : Keeps (Types ks ds) link) :
    Keeps (Types ks ds) (do
      let b ← x
      let E' ← M.get
      if E'.autoBuild then link else pure ()
      pure b : M Enforcer Bool) :=
  keeps_bind hx fun _ => keeps_bind keeps_get fun _ => by
    split
    · exact keeps_bind hl fun _ => keeps_pure _
    · exact keeps_pure _

/-- Every editing call keeps the types. -/
theorem keeps_edit (e : Edit) : Keeps (Types ks ds) e.run := by
  have hadd : ∀ g pt r, Keeps (Types ks ds) (addPolicyI (Edit.secOf g) pt r) :=
    fun g pt r => keeps_shape (test := fun b => b) (link := fun _ => linkIfG _ .add pt [r])
      (fun m => Model.addPolicy_edited ..) (fun _ => keeps_linkIfG _ _ _ _)
      (saveStep_call _)
  have haddM : ∀ g pt rs, Keeps (Types ks ds) (addPoliciesI (Edit.secOf g) pt rs) :=
    fun g pt rs => keeps_shape (test := fun b => b) (link := fun _ => linkIfG _ .add pt rs)
      (fun m => Model.addPolicies_edited ..) (fun _ => keeps_linkIfG _ _ _ _)
      (saveStep_batch _)
  have hrem : ∀ g pt r, Keeps (Types ks ds) (removePolicyI (Edit.secOf g) pt r) :=
    fun g pt r => keeps_shape (test := fun b => b) (link := fun _ => linkIfG _ .add pt [r])
      (fun m => Model.eraseRule_edited ..) (fun _ => keeps_linkIfG _ _ _ _)
      (saveStep_call _)
  have hremM : ∀ g pt rs,
      Keeps (Types ks ds) (removePoliciesI (Edit.secOf g) pt rs) :=
    fun g pt rs => keeps_shape (test := fun b => b) (link := fun _ => linkIfG _ .add pt rs)
      (fun m => Model.addPolicies_edited ..) (fun _ => keeps_linkIfG _ _ _ _)
      (saveStep_batch _)
  have hfil : ∀ g pt i vs,
      Keeps (Types ks ds) (removeFilteredI (Edit.secOf g) pt i vs) :=
    fun g pt i vs => keeps_shape (test := Prod.fst) (link := fun a => linkIfG _ .remove pt a.2)
      (fun m => Model.removeFilteredPolicy_edited ..) (fun _ => keeps_linkIfG _ _ _ _)
      (saveStep_call _)
  have hupd : ∀ g pt o n, Keeps (Types ks ds) (updatePolicyI (Edit.secOf g) pt o n) := by
    intro g pt o n E h
    unfold updatePolicyI
    rw [updateShape]
    exact keeps_shape (test := fun b => b) (fun m => Model.updatePolicy_edited ..)
      (fun _ => keeps_bind (keeps_linkIfG _ _ _ _) fun _ => keeps_linkIfG _ _ _ _) saveStep_none E h
  cases e with
  | add g pt r =>
    cases g with
    | false => exact hadd false pt r
    | true => exact keeps_then (hadd true pt r) (keeps_buildIncremental _ _ _)
  | addMany g pt rs =>
    cases g with
    | false => exact haddM false pt rs
    | true => exact haddM true pt rs
  | remove g pt r =>
    cases g with
    | false => exact hrem false pt r
    | true => exact keeps_then (hrem true pt r) keeps_buildRoleLinks
  | removeMany g pt rs =>
    cases g with
    | false => exact hremM false pt rs
    | true => exact hremM true pt rs
  | removeFiltered g pt i vs =>
    cases g with
    | false => exact hfil false pt i vs
    | true => exact keeps_then (hfil true pt i vs) keeps_buildRoleLinks
  | update g pt o n =>
    cases g with
    | false => exact hupd false pt o n
    | true => exact hupd true pt o n
  | updateMany pt o n =>
    intro E h
    show Types ks ds (updatePoliciesI c!"p" pt o n E).2
    unfold updatePoliciesI
    rw [updateShape]
    exact keeps_shape (test := fun b => b) (fun m => Model.updatePolicies_edited ..)
      (fun _ => keeps_bind (keeps_linkIfG _ _ _ _) fun _ => keeps_linkIfG _ _ _ _) saveStep_none E h

end TypesKept
end Casbin
