import Verif.Props.Renaming
import Verif.Props.Defined

/-!
# C173 for the calls that list what is stored
-/

set_option linter.unusedSectionVars false

namespace Casbin
namespace Renaming

open Enforcer Fixtures EndToEnd StoreProps Locality Tenants PolicyProps

variable [IterOrder] {E E' : Enforcer} {ρ : Str → Str}

/-! ## Helpers -/

omit [IterOrder] in
theorem vecAt_ren (ρ : Str → Str) (r : Rule) (i : Nat) : vecAt (r.map ρ) i = (vecAt r i).map ρ := by
  unfold vecAt
  rw [List.getElem?_map]
  cases r[i]? <;> rfl

omit [IterOrder] in
theorem matchFilter_ren (h : Renames ρ) (r : Rule) : ∀ (vs : List Str) (i : Nat),
    Model.matchFilter (r.map ρ) i (vs.map ρ) = Model.matchFilter r i vs
  | [], _ => rfl
  | v :: vs, i => by
    have ih := matchFilter_ren h r vs (i + 1)
    simp only [List.map_cons, Model.matchFilter, ne_eq, h.ne, vecAt_ren, ih]
    cases vecAt r i with
    | ok x =>
      show (if ¬ v = [] then (if ¬ ρ x = ρ v then Outcome.ok false else Model.matchFilter r (i + 1) vs)
        else Model.matchFilter r (i + 1) vs) = _
      simp only [h.inj.eq_iff]
      rfl
    | throw e => rfl
    | ub u => rfl

omit [IterOrder] in
theorem partitionFilter_ren (h : Renames ρ) (i : Nat) (vs : List Str) : ∀ rs : List Rule,
    Model.partitionFilter i (vs.map ρ) (ren ρ rs) =
      (Model.partitionFilter i vs rs).map (fun x => (ren ρ x.1, ren ρ x.2))
  | [] => rfl
  | r :: rs => by
    have ih := partitionFilter_ren h i vs rs
    show Model.partitionFilter i (vs.map ρ) (r.map ρ :: ren ρ rs) = _
    simp only [Model.partitionFilter, matchFilter_ren h, ih]
    cases Model.matchFilter r i vs with
    | ok b =>
      cases Model.partitionFilter i vs rs with
      | ok x => cases b <;> rfl
      | throw e => rfl
      | ub u => rfl
    | throw e => rfl
    | ub u => rfl

omit [IterOrder] in
theorem column_ren (ρ : Str → Str) (i : Nat) : ∀ rs : List Rule,
    Model.column i (ren ρ rs) = (Model.column i rs).map (List.map ρ)
  | [] => rfl
  | r :: rs => by
    have ih := column_ren ρ i rs
    show Model.column i (r.map ρ :: ren ρ rs) = _
    simp only [Model.column, vecAt_ren, ih]
    cases vecAt r i with
    | ok x =>
      cases Model.column i rs with
      | ok xs => rfl
      | throw e => rfl
      | ub u => rfl
    | throw e => rfl
    | ub u => rfl

omit [IterOrder] in
theorem dedupFrom_ren (h : Renames ρ) : ∀ (xs found : List Str),
    dedupFrom (found.map ρ) (xs.map ρ) = (dedupFrom found xs).map ρ
  | [], _ => rfl
  | x :: xs, found => by
    have i1 := dedupFrom_ren h xs found
    have i2 := dedupFrom_ren h xs (x :: found)
    simp only [List.map_cons] at i2
    simp only [List.map_cons, dedupFrom, i1, i2, List.mem_map_of_injective h.inj]
    split <;> rfl

theorem field_ren (h : Renames ρ) {s t : Str} {i : Nat} {m m' : Model} {a a' : Assertion} {rs : List Rule}
    (ha : m.find s t = some a) (hp : a.policy = .vector rs) (ha' : m'.find s t = some a')
    (hp' : a'.policy = .vector (ren ρ rs)) :
    ∃ o, Model.getValuesForField s t i m = (o, m) ∧ Model.getValuesForField s t i m' = (o.map (List.map ρ), m') := by
  have it : ∀ l : List Rule, (Policies.vector l).iterate = l := fun _ => rfl
  simp only [Model.getValuesForField, M.bind_run, Model.at_run ha, Model.at_run ha', hp, hp', it, column_ren,
    M.lift_run]
  cases Model.column i rs with
  | ok xs =>
    have := dedupFrom_ren h xs []
    exact ⟨_, rfl, congrArg (fun x => (Outcome.ok x, m')) this⟩
  | throw e => exact ⟨_, rfl, rfl⟩
  | ub u => exact ⟨_, rfl, rfl⟩

theorem types_ren (h : Renames ρ) {s : Str} {i : Nat} {m m' : Model} : ∀ ts : List Str,
    (∀ t ∈ ts, ∃ rs, (∃ a, m.find s t = some a ∧ a.policy = .vector rs) ∧
      ∃ a, m'.find s t = some a ∧ a.policy = .vector (ren ρ rs)) →
    ∃ o, Model.valuesAllTypes s i ts m = (o, m) ∧ Model.valuesAllTypes s i ts m' = (o.map (List.map ρ), m')
  | [], _ => ⟨_, rfl, rfl⟩
  | t :: ts, hr => by
    obtain ⟨rs, ⟨a, ha, hp⟩, ⟨a', ha', hp'⟩⟩ := hr t List.mem_cons_self
    obtain ⟨o, e1, e2⟩ := field_ren h (i := i) ha hp ha' hp'
    obtain ⟨o', e3, e4⟩ := types_ren h (i := i) ts fun t ht => hr t (List.mem_cons_of_mem _ ht)
    simp only [Model.valuesAllTypes, M.bind_run, e1, e2]
    cases o with
    | ok xs =>
      simp only [Outcome.map, e3, e4]
      cases o' with
      | ok ys => exact ⟨_, rfl, by simp [M.pure_run]⟩
      | throw e => exact ⟨_, rfl, rfl⟩
      | ub u => exact ⟨_, rfl, rfl⟩
    | throw e => exact ⟨_, rfl, rfl⟩
    | ub u => exact ⟨_, rfl, rfl⟩

/-! ## C173 -/

/-- C173 for the listings, after any history of edits: what `GetPolicy`, `GetFilteredPolicy`, `HasPolicy`,
`GetAllNamedSubjects` and the like (with their named and grouping variants, `t` being the section and the type)
give with the new names is what they gave with the old ones, renamed, in the same order; and one is undefined or
throws just when the other is or does. -/
theorem C173_listings (h : Renames ρ) {t : Str × Str} {rs : List Rule} (h1 : Holds E t rs)
    (h2 : Holds E' t (ren ρ rs)) (es : List Edit) :
    (∃ rs', (onModel (Model.getPolicy t.1 t.2) (runEdits E es)).1 = .ok (.vector rs') ∧
      (onModel (Model.getPolicy t.1 t.2) (runEdits E' (es.map (renEdit ρ)))).1 = .ok (.vector (ren ρ rs'))) ∧
    (∀ i vs, (onModel (Model.getFilteredPolicy t.1 t.2 i (vs.map ρ)) (runEdits E' (es.map (renEdit ρ)))).1 =
      (onModel (Model.getFilteredPolicy t.1 t.2 i vs) (runEdits E es)).1.map
        (fun P => { P with items := ren ρ P.items })) ∧
    (∀ r, (onModel (Model.hasPolicy t.1 t.2 (r.map ρ)) (runEdits E' (es.map (renEdit ρ)))).1 =
      (onModel (Model.hasPolicy t.1 t.2 r) (runEdits E es)).1) ∧
    ∀ i, (onModel (Model.getValuesForField t.1 t.2 i) (runEdits E' (es.map (renEdit ρ)))).1 =
      (onModel (Model.getValuesForField t.1 t.2 i) (runEdits E es)).1.map (List.map ρ) := by
  obtain ⟨rs', ⟨a, ha, hp⟩, ⟨a', ha', hp'⟩⟩ := C173_rules h h1 h2 es
  have it : ∀ l : List Rule, (Policies.vector l).iterate = l := fun _ => rfl
  refine ⟨⟨rs', ?_, ?_⟩, fun i vs => ?_, fun r => ?_, fun i => ?_⟩
  · simp [onModel, Model.getPolicy, M.bind_run, Model.at_run ha, hp]
  · simp [onModel, Model.getPolicy, M.bind_run, Model.at_run ha', hp']
  · simp only [onModel, Model.getFilteredPolicy, M.bind_run, Model.at_run ha, Model.at_run ha', hp, hp', it,
      partitionFilter_ren h, M.lift_run]
    cases Model.partitionFilter i vs rs' <;> rfl
  · simp only [onModel, Model.hasPolicy_run ha, Model.hasPolicy_run ha', hp, hp']
    congr 1
    rw [decide_eq_decide]
    simp [Policies.Similar, Policies.vector, ren, List.map_perm_map_iff h.inj]
  · simp only [onModel, Model.getValuesForField, M.bind_run, Model.at_run ha, Model.at_run ha', hp, hp', it,
      column_ren, M.lift_run]
    cases Model.column i rs' with
    | ok xs =>
      have := dedupFrom_ren h xs []
      exact congrArg Outcome.ok this
    | throw e => rfl
    | ub u => rfl

/-- Eve in the place of Bob, after a rule of Bob has been added: the subjects and the rules of Bob. -/
example :
    letI := insertionOrder
    let es : List Edit := [.add false c!"p" bob]
    let ρ := swap c!"bob" c!"eve"
    (getAllNamedSubjects c!"p" (runEdits (acl (ren ρ [alice])) (es.map (renEdit ρ)))).1 =
        .ok ([c!"alice", c!"bob"].map ρ) ∧
    (getFilteredPolicy 0 [c!"eve"] (runEdits (acl (ren ρ [alice])) (es.map (renEdit ρ)))).1 =
      (getFilteredPolicy 0 [c!"bob"] (runEdits (acl [alice]) es)).1.map (fun P => { P with items := ren ρ P.items }) := by
  let := insertionOrder
  have h := C173_listings (E := acl [alice]) (E' := acl (ren (swap c!"bob" c!"eve") [alice]))
    (renames_swap (by decide : c!"bob" ≠ []) (by decide : c!"eve" ≠ [])) (t := (c!"p", c!"p"))
    ⟨_, rfl, rfl⟩ ⟨_, rfl, rfl⟩ [.add false c!"p" bob]
  exact ⟨(h.2.2.2 0).trans (by decide +kernel), h.2.1 0 [c!"bob"]⟩

/-- C173 for the listings of all types of a section, after any history of edits: what `GetAllSubjects`,
`GetAllObjects`, `GetAllActions` and `GetAllRoles` give with the new names is what they gave with the old ones,
renamed, in the same order, whatever order the types are met in; and one is undefined just when the other is. -/
theorem C173_all_listings (h : Renames ρ) {s : Str} (hk : (E'.model.secMap s).keys = (E.model.secMap s).keys)
    (hr : ∀ t ∈ (E.model.secMap s).keys, ∃ rs, Holds E (s, t) rs ∧ Holds E' (s, t) (ren ρ rs))
    (es : List Edit) (i : Nat) :
    (onModel (Model.getValuesForFieldAllTypes s i) (runEdits E' (es.map (renEdit ρ)))).1 =
      (onModel (Model.getValuesForFieldAllTypes s i) (runEdits E es)).1.map (List.map ρ) := by
  have k1 := (DefinedProps.C183_edits E es s).1
  have k2 := (DefinedProps.C183_edits E' (es.map (renEdit ρ)) s).1
  simp only [onModel, Model.getValuesForFieldAllTypes, M.bind_run, M.modify_run, M.get_run,
    TypesKept.secMap_ensureSec, k1, k2, hk]
  obtain ⟨o, e1, e2⟩ := types_ren h (s := s) (i := i) (m := (runEdits E es).model.ensureSec s)
    (m' := (runEdits E' (es.map (renEdit ρ))).model.ensureSec s) (IterOrder.iter (E.model.secMap s).keys)
    (fun t ht => by
      obtain ⟨rs, h1, h2⟩ := hr t ((IterOrder.iter_perm _).mem_iff.mp ht)
      simp only [Model.find_ensureSec]
      exact C173_rules h h1 h2 es)
  rw [e1, e2]
  cases o with
  | ok xs =>
    have := dedupFrom_ren h xs []
    exact congrArg Outcome.ok this
  | throw e => rfl
  | ub u => rfl

/-- Eve in the place of Bob, who gets a rule and then a role: the subjects and the roles. -/
example :
    letI := insertionOrder
    let es : List Edit := [.add false c!"p" bob, .add true c!"g" [c!"bob", c!"admin"]]
    let ρ := swap c!"bob" c!"eve"
    (getAllSubjects (runEdits (rbac (ren ρ [alice]) []) (es.map (renEdit ρ)))).1 =
        .ok [c!"alice", c!"eve"] ∧
    (getAllRoles (runEdits (rbac (ren ρ [alice]) []) (es.map (renEdit ρ)))).1 =
      (getAllRoles (runEdits (rbac [alice] []) es)).1.map (List.map ρ) := by
  let := insertionOrder
  have hn := renames_swap (by decide : c!"bob" ≠ []) (by decide : c!"eve" ≠ [])
  have h := fun i => C173_all_listings (E := rbac [alice] []) (E' := rbac (ren (swap c!"bob" c!"eve") [alice]) [])
    hn (s := c!"p") rfl (fun t ht => by
      obtain rfl : t = c!"p" := List.mem_singleton.mp ht
      exact ⟨[alice], ⟨_, rfl, rfl⟩, ⟨_, rfl, rfl⟩⟩)
    [.add false c!"p" bob, .add true c!"g" [c!"bob", c!"admin"]] i
  have h' := fun i => C173_all_listings (E := rbac [alice] []) (E' := rbac (ren (swap c!"bob" c!"eve") [alice]) [])
    hn (s := c!"g") rfl (fun t ht => by
      obtain rfl : t = c!"g" := List.mem_singleton.mp ht
      exact ⟨[], ⟨_, rfl, rfl⟩, ⟨_, rfl, rfl⟩⟩)
    [.add false c!"p" bob, .add true c!"g" [c!"bob", c!"admin"]] i
  exact ⟨(h 0).trans (by decide +kernel), h' 1⟩

end Renaming
end Casbin
