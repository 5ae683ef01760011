import Verif.PythonMaking

/-!
# C182: a Python program makes the enforcer it asks for

Which C++ constructor `Enforcer(…)` calls in Python, for all arguments.
-/

namespace Casbin
namespace PyMakingProps

open Py

/-! ## The specification -/

/-- Python values that are given for a path: a text, or bytes. -/
def Path (v : PyVal) (s : Str) : Prop := v = .str s ∨ v = .bytes s

/-- Python objects that are given for a model. -/
def IsModel (v : PyVal) (i : Nat) : Prop := v = .obj c!"Model" i

/-- The classes of adapters. -/
def adapterClasses : List Str := [c!"Adapter", c!"BatchAdapter", c!"FileAdapter", c!"BatchFileAdapter"]

/-- Python objects that are given for an adapter. -/
def IsAdapter (v : PyVal) (j : Nat) : Prop := ∃ c ∈ adapterClasses, v = .obj c j

/-- The C++ arguments that Python arguments stand for. -/
inductive Stands (mo : Nat → Model) (ad : Nat → Adapter) : List PyVal → Source → Prop
  | file {v s} : Path v s → Stands mo ad [v] (.file s)
  | object {v i} : IsModel v i → Stands mo ad [v] (.object (mo i))
  | files {v w s t} : Path v s → Path w t → Stands mo ad [v, w] (.files s t)
  | fileAdapter {v w s j} : Path v s → IsAdapter w j → Stands mo ad [v, w] (.fileAdapter s (some (ad j)))
  | fileNone {v s} : Path v s → Stands mo ad [v, .none] (.fileAdapter s none)
  | objects {v w i j} : IsModel v i → IsAdapter w j → Stands mo ad [v, w] (.objects (mo i) (some (ad j)))
  | objectNone {v i} : IsModel v i → Stands mo ad [v, .none] (.objects (mo i) none)
  | filesLog {v w s t b} : Path v s → Path w t → Stands mo ad [v, w, .bool b] (.filesLog s t b)

/-! ## Helpers -/

theorem adapter_mro (c : Str) : c!"Adapter" ∈ mro c ↔ c ∈ adapterClasses := by
  unfold mro adapterClasses
  split_ifs <;> simp_all
  all_goals first | decide | (constructor <;> intro h <;> simp_all)

theorem model_mro (c : Str) : c!"Model" ∈ mro c ↔ c = c!"Model" := by
  unfold mro
  split_ifs <;> simp_all
  all_goals first | decide | (constructor <;> intro h <;> simp_all)

theorem load_path (conv : Bool) {v : PyVal} {s : Str} (h : Path v s) : load conv .str v = some (.str s) := by
  rcases h with rfl | rfl <;> rfl

theorem path_load {conv : Bool} {v : PyVal} {x : CVal} (h : load conv .str v = some x) : ∃ s, x = .str s ∧ Path v s := by
  cases v <;> simp [load, loadStr] at h <;> subst h
  · exact ⟨_, rfl, .inl rfl⟩
  · exact ⟨_, rfl, .inr rfl⟩

theorem load_model (conv : Bool) {v : PyVal} {i : Nat} (h : IsModel v i) :
    load conv modelT v = some (.obj c!"Model" i) := by
  subst h; rfl

theorem model_load {conv : Bool} {v : PyVal} {x : CVal} (h : load conv modelT v = some x) :
    (∃ i, x = .obj c!"Model" i ∧ IsModel v i) ∨ (conv = true ∧ v = .none ∧ x = .null) := by
  cases v <;> simp [load] at h
  · exact .inr ⟨h.1.1, rfl, h.2.symm⟩
  · rename_i c i
    have := (model_mro c).mp h.1.2
    subst this
    exact .inl ⟨i, h.2.symm, rfl⟩

theorem load_adapter (conv : Bool) {v : PyVal} {j : Nat} (h : IsAdapter v j) :
    ∃ c, load conv adapterT v = some (.obj c j) := by
  obtain ⟨c, hc, rfl⟩ := h
  refine ⟨c, ?_⟩
  have h1 := (adapter_mro c).mpr hc
  have h2 : c!"Adapter" ∈ registered := by decide
  simp [load, h1, h2]

theorem adapter_load {conv : Bool} {v : PyVal} {x : CVal} (h : load conv adapterT v = some x) :
    (∃ c j, x = .obj c j ∧ IsAdapter v j) ∨ (conv = true ∧ v = .none ∧ x = .null) := by
  cases v <;> simp [load] at h
  · exact .inr ⟨h.1.1, rfl, h.2.symm⟩
  · rename_i c i
    exact .inl ⟨c, i, h.2.symm, c, (adapter_mro c).mp h.1.2, rfl⟩

theorem str_not_obj (conv : Bool) (c : Str) (i : Nat) : load conv .str (.obj c i) = none := rfl
theorem str_not_none (conv : Bool) : load conv .str .none = none := rfl
theorem model_not_path (conv : Bool) {v : PyVal} {s : Str} (h : Path v s) : load conv modelT v = none := by
  rcases h with rfl | rfl <;> rfl
theorem adapter_not_path (conv : Bool) {v : PyVal} {s : Str} (h : Path v s) : load conv adapterT v = none := by
  rcases h with rfl | rfl <;> rfl

/-! ## C182 -/

variable (mo : Nat → Model) (ad : Nat → Adapter)

/-- C182: Python arguments that stand for the arguments of a C++ constructor make that constructor be called with
them. -/
theorem C182_partial {args : List PyVal} {s : Source} (h : Stands mo ad args s) :
    newEnforcer mo ad args = some (.source s) := by
  cases h with
  | file h =>
    simp [newEnforcer, choose, ctorDefs, firstTaking, loadAll, load_path _ h, model_not_path _ h, ctorOf]
  | object h =>
    simp [newEnforcer, choose, ctorDefs, firstTaking, loadAll, load_model _ h, ctorOf]
  | files h1 h2 =>
    simp [newEnforcer, choose, ctorDefs, firstTaking, loadAll, load_path _ h1, load_path _ h2, ctorOf]
  | @fileAdapter _ w _ _ h1 h2 =>
    obtain ⟨c, hc⟩ := load_adapter false h2
    have hn : ∀ conv, load conv .str w = none := fun conv => by
      obtain ⟨c, -, rfl⟩ := h2; exact str_not_obj conv c _
    simp [newEnforcer, choose, ctorDefs, firstTaking, loadAll, load_path _ h1, hn, hc, ctorOf]
  | fileNone h =>
    have hn : ∀ conv, load conv .str .none = none := str_not_none
    have ha : load false adapterT .none = none := rfl
    have ha' : load true adapterT .none = some .null := rfl
    simp [newEnforcer, choose, ctorDefs, firstTaking, loadAll, load_path _ h, model_not_path _ h, hn, ha, ha', ctorOf]
  | @objects v _ _ _ h1 h2 =>
    obtain ⟨c, hc⟩ := load_adapter false h2
    have hn : ∀ conv, load conv .str v = none := fun conv => by
      cases h1; exact str_not_obj conv _ _
    simp [newEnforcer, choose, ctorDefs, firstTaking, loadAll, load_model _ h1, hn, hc, ctorOf]
  | objectNone h1 =>
    cases h1
    rfl
  | filesLog h1 h2 =>
    have hb : ∀ b, load false .bool (.bool b) = some (.bool b) := fun _ => rfl
    simp [newEnforcer, choose, ctorDefs, firstTaking, loadAll, load_path _ h1, load_path _ h2, hb, ctorOf]

/-- What a flag that is no `bool` counts as: `None`, numbers and durations are taken too. -/
def Truth (v : PyVal) (b : Bool) : Prop :=
  (v = .none ∧ b = false) ∨ (∃ n, v = .int n ∧ b = (n != 0)) ∨ (∃ n, v = .float n ∧ b = (n % 2 ^ 31 != 0)) ∨
    ∃ n, v = .delta n ∧ b = (n != 0)

theorem bool_load {conv : Bool} {v : PyVal} {x : CVal} (h : load conv .bool v = some x) :
    (∃ b, x = .bool b ∧ v = .bool b) ∨ ∃ b, x = .bool b ∧ Truth v b := by
  cases v <;> simp [load] at h
  · exact .inr ⟨_, h.2.symm, .inl ⟨rfl, rfl⟩⟩
  · exact .inl ⟨_, h.symm, rfl⟩
  · exact .inr ⟨_, h.2.symm, .inr (.inl ⟨_, rfl, rfl⟩)⟩
  · exact .inr ⟨_, h.2.symm, .inr (.inr (.inl ⟨_, rfl, rfl⟩))⟩
  · exact .inr ⟨_, h.2.symm, .inr (.inr (.inr ⟨_, rfl, rfl⟩))⟩

/-- The first overload that takes the arguments is one of the list. -/
theorem firstTaking_mem {conv : Bool} {args : List PyVal} : ∀ {ds : List Def} {d : Def} {cs : List CVal},
    firstTaking conv args ds = some (d, cs) → d ∈ ds ∧ loadAll conv d.params args = some cs
  | [], _, _, h => by cases h
  | e :: ds, d, cs, h => by
    simp only [firstTaking] at h
    split at h
    · rename_i hx
      cases h
      exact ⟨List.mem_cons_self .., hx⟩
    · obtain ⟨h1, h2⟩ := firstTaking_mem h
      exact ⟨List.mem_cons_of_mem _ h1, h2⟩

theorem loadAll_one {conv : Bool} {t : Ty} {args : List PyVal} {cs : List CVal} (h : loadAll conv [t] args = some cs) :
    ∃ v x, args = [v] ∧ cs = [x] ∧ load conv t v = some x := by
  rcases args with _ | ⟨v, _ | ⟨w, vs⟩⟩
  · cases h
  · simp only [loadAll] at h
    split at h
    · rename_i h1 h2; cases h2; cases h; exact ⟨_, _, rfl, rfl, h1⟩
    · cases h
  · simp only [loadAll] at h
    split at h
    · rename_i h2; cases h2
    · cases h

theorem loadAll_cons {conv : Bool} {t : Ty} {ts : List Ty} {args : List PyVal} {cs : List CVal}
    (h : loadAll conv (t :: ts) args = some cs) : ∃ v vs x xs, args = v :: vs ∧ cs = x :: xs ∧ load conv t v = some x ∧
      loadAll conv ts vs = some xs := by
  rcases args with _ | ⟨v, vs⟩
  · cases h
  · simp only [loadAll] at h
    split at h
    · rename_i h1 h2; cases h; exact ⟨_, _, _, _, rfl, rfl, h1, h2⟩
    · cases h

theorem loadAll_nil {conv : Bool} {args : List PyVal} {cs : List CVal} (h : loadAll conv [] args = some cs) :
    args = [] ∧ cs = [] := by
  rcases args with _ | ⟨v, vs⟩
  · cases h; exact ⟨rfl, rfl⟩
  · cases h

/-- C182: the only other arguments that are taken are none at all, a flag that is no `bool`, and `None` for a
model. Everything else is a `TypeError`. -/
theorem C182_only {args : List PyVal} {c : Ctor} (h : newEnforcer mo ad args = some c) :
    (args = [] ∧ c = .empty) ∨ (∃ s, c = .source s ∧ Stands mo ad args s) ∨
    (∃ v w f s t b, args = [v, w, f] ∧ Path v s ∧ Path w t ∧ Truth f b ∧ c = .source (.filesLog s t b)) ∨
    ((args = [.none] ∨ args = [.none, .none]) ∧ c = .nullModel none) ∨
    ∃ v j, args = [.none, v] ∧ IsAdapter v j ∧ c = .nullModel (some (ad j)) := by
  obtain ⟨⟨d, cs⟩, hx, hc⟩ := Option.bind_eq_some_iff.mp h
  obtain ⟨conv, hd, hl⟩ : ∃ conv, d ∈ ctorDefs ∧ loadAll conv d.params args = some cs := by
    simp only [choose, ctorDefs] at hx
    split at hx
    · rename_i hy
      cases hx
      exact ⟨false, firstTaking_mem hy⟩
    · exact ⟨true, firstTaking_mem hx⟩
  simp only at hc
  clear hx h
  simp only [ctorDefs, List.mem_cons, List.not_mem_nil, or_false] at hd
  rcases hd with rfl | rfl | rfl | rfl | rfl | rfl | rfl
  · obtain ⟨rfl, rfl⟩ := loadAll_nil hl
    cases hc
    exact .inl ⟨rfl, rfl⟩
  · obtain ⟨v, vs, x, xs, rfl, rfl, h1, hl⟩ := loadAll_cons hl
    obtain ⟨w, y, rfl, rfl, h2⟩ := loadAll_one hl
    obtain ⟨s, rfl, p1⟩ := path_load h1
    obtain ⟨t, rfl, p2⟩ := path_load h2
    cases hc
    exact .inr (.inl ⟨_, rfl, .files p1 p2⟩)
  · obtain ⟨v, vs, x, xs, rfl, rfl, h1, hl⟩ := loadAll_cons hl
    obtain ⟨w, y, rfl, rfl, h2⟩ := loadAll_one hl
    obtain ⟨s, rfl, p1⟩ := path_load h1
    obtain ⟨k, j, rfl, p2⟩ | ⟨-, rfl, rfl⟩ := adapter_load h2
    · cases hc
      exact .inr (.inl ⟨_, rfl, .fileAdapter p1 p2⟩)
    · cases hc
      exact .inr (.inl ⟨_, rfl, .fileNone p1⟩)
  · obtain ⟨v, vs, x, xs, rfl, rfl, h1, hl⟩ := loadAll_cons hl
    obtain ⟨w, y, rfl, rfl, h2⟩ := loadAll_one hl
    obtain ⟨i, rfl, p1⟩ | ⟨-, rfl, rfl⟩ := model_load h1 <;>
      obtain ⟨k, j, rfl, p2⟩ | ⟨-, rfl, rfl⟩ := adapter_load h2 <;> cases hc
    · exact .inr (.inl ⟨_, rfl, .objects p1 p2⟩)
    · exact .inr (.inl ⟨_, rfl, .objectNone p1⟩)
    · exact .inr (.inr (.inr (.inr ⟨_, _, rfl, p2, rfl⟩)))
    · exact .inr (.inr (.inr (.inl ⟨.inr rfl, rfl⟩)))
  · obtain ⟨v, x, rfl, rfl, h1⟩ := loadAll_one hl
    obtain ⟨i, rfl, p1⟩ | ⟨-, rfl, rfl⟩ := model_load h1 <;> cases hc
    · exact .inr (.inl ⟨_, rfl, .object p1⟩)
    · exact .inr (.inr (.inr (.inl ⟨.inl rfl, rfl⟩)))
  · obtain ⟨v, x, rfl, rfl, h1⟩ := loadAll_one hl
    obtain ⟨s, rfl, p1⟩ := path_load h1
    cases hc
    exact .inr (.inl ⟨_, rfl, .file p1⟩)
  · obtain ⟨v, vs, x, xs, rfl, rfl, h1, hl⟩ := loadAll_cons hl
    obtain ⟨w, ws, y, ys, rfl, rfl, h2, hl⟩ := loadAll_cons hl
    obtain ⟨f, z, rfl, rfl, h3⟩ := loadAll_one hl
    obtain ⟨s, rfl, p1⟩ := path_load h1
    obtain ⟨t, rfl, p2⟩ := path_load h2
    obtain ⟨b, rfl, rfl⟩ | ⟨b, rfl, p3⟩ := bool_load h3 <;> cases hc
    · exact .inr (.inl ⟨_, rfl, .filesLog p1 p2⟩)
    · exact .inr (.inr (.inl ⟨_, _, _, _, _, _, rfl, p1, p2, p3, rfl⟩))

/-- C182 is false for `None` in the place of a model: the constructor is called with a null pointer and uses it,
where a `TypeError` is due. For all files, objects and adapters. -/
theorem C182_fails [IterOrder] (rx : Str → Str → Outcome Str) (fs : Files) :
    (∃ c, newEnforcer mo ad [.none] = some c ∧ c.run rx fs = .ub .nullDeref) ∧
    (∃ c, newEnforcer mo ad [.none, .none] = some c ∧ c.run rx fs = .ub .nullDeref) ∧
    ∀ v j, IsAdapter v j → ∃ c, newEnforcer mo ad [.none, v] = some c ∧ c.run rx fs = .ub .nullDeref := by
  refine ⟨⟨_, rfl, rfl⟩, ⟨_, rfl, rfl⟩, fun v j hv => ⟨.nullModel (some (ad j)), ?_, rfl⟩⟩
  obtain ⟨c, hc, rfl⟩ := hv
  simp only [adapterClasses, List.mem_cons, List.not_mem_nil, or_false] at hc
  rcases hc with rfl | rfl | rfl | rfl <;> rfl

/-- A path given as bytes and a `BatchFileAdapter`, which is an adapter by its base classes. -/
example : newEnforcer mo ad [.bytes c!"rbac.conf", .obj c!"BatchFileAdapter" 4] =
    some (.source (.fileAdapter c!"rbac.conf" (some (ad 4)))) :=
  C182_partial mo ad (.fileAdapter (.inr rfl) ⟨_, by decide, rfl⟩)

/-- An adapter alone, or in the place of the model, is a `TypeError`. -/
example : newEnforcer mo ad [.obj c!"FileAdapter" 0] = none ∧
    newEnforcer mo ad [.obj c!"FileAdapter" 0, .obj c!"Model" 1] = none := ⟨rfl, rfl⟩

end PyMakingProps
end Casbin
