/-!
# Base definitions shared by the whole model

Conventions (see DESIGN.md, section 2):

* a C++ `std::string` is a list of characters (`Str`);
* an exception, undefined behaviour and self-deadlock are distinct results (`Outcome`);
* a method that mutates an object is a state transformer (`M`), whose state survives a
  C++ exception;
* `std::unordered_map` is an association list in insertion order (`UMap`), and every
  *iteration* over an unordered container goes through an arbitrary reordering
  (`IterOrder`).
-/

namespace Casbin

/-- `std::string`. Encoding is irrelevant to every property here. -/
abbrev Str := List Char

/-- One policy rule: `PolicyValues = std::vector<std::string>`
(include/casbin/model/policy_collection.hpp). -/
abbrev Rule := List Str

/-- `c!"abc"` is the list `['a', 'b', 'c']`. -/
syntax:max "c!" str : term
macro_rules
  | `(c! $s:str) => do
    let cs := s.getString.toList.toArray.map Lean.Syntax.mkCharLit
    `(([ $[$cs],* ] : Casbin.Str))

/-- The exceptions thrown by the library (casbin/exception/*.h, and the standard ones). -/
inductive Exn
  | enforcer          -- CasbinEnforcerException
  | adapter           -- CasbinAdapterException
  | rbac              -- CasbinRBACException
  | illegalArgument   -- IllegalArgumentException
  | unsupported       -- UnsupportedOperationException
  | missingSections   -- MissingRequiredSections
  | outOfRange        -- std::out_of_range (map::at, string::substr)
  | logic             -- std::logic_error
  | parse             -- the std::string thrown by ExprtkEvaluator::CheckType
  | ipParser          -- ParserException
  | io                -- IOException
  | regex             -- std::regex_error
  | text              -- a `const char*` (KeyMatch4)
  | external          -- anything thrown by code supplied by the user
  deriving DecidableEq, Repr

/-- Sources of undefined behaviour. -/
inductive UB
  | nullDeref     -- dereference of a null shared_ptr / pointer
  | outOfBounds   -- vector::operator[] beyond the end
  | iterator      -- use of an invalidated iterator
  | uninit        -- read of an uninitialised variable
  | relock        -- lock of a mutex already held by the same thread
  | unbounded     -- unbounded recursion
  | overflow      -- a number that does not fit
  | freed         -- use of an object that has been destroyed
  deriving DecidableEq, Repr

/-- Result of running a piece of C++ code. -/
inductive Outcome (α : Type)
  | ok (a : α)
  | throw (e : Exn)
  | ub (u : UB)
  deriving Repr

deriving instance DecidableEq for Outcome

namespace Outcome

def bind {α β : Type} : Outcome α → (α → Outcome β) → Outcome β
  | ok a, f => f a
  | throw e, _ => throw e
  | ub u, _ => ub u

def map {α β : Type} (f : α → β) : Outcome α → Outcome β
  | ok a => ok (f a)
  | throw e => throw e
  | ub u => ub u

instance : Monad Outcome where
  pure := ok
  bind := bind

@[simp] theorem pure_eq {α : Type} (a : α) : (pure a : Outcome α) = ok a := rfl
@[simp] theorem ok_bind {α β : Type} (a : α) (f : α → Outcome β) : (ok a >>= f) = f a := rfl
@[simp] theorem throw_bind {α β : Type} (e : Exn) (f : α → Outcome β) :
    ((throw e : Outcome α) >>= f) = throw e := rfl
@[simp] theorem ub_bind {α β : Type} (u : UB) (f : α → Outcome β) :
    ((ub u : Outcome α) >>= f) = ub u := rfl
@[simp] theorem map_ok {α β : Type} (f : α → β) (a : α) : map f (ok a) = ok (f a) := rfl
@[simp] theorem map_throw {α β : Type} (f : α → β) (e : Exn) :
    map f (throw e : Outcome α) = throw e := rfl
@[simp] theorem map_ub {α β : Type} (f : α → β) (u : UB) :
    map f (ub u : Outcome α) = ub u := rfl

/-- The code returned normally. -/
def IsOk {α : Type} : Outcome α → Prop
  | ok _ => True
  | _ => False

/-- The code has no undefined behaviour. -/
def Safe {α : Type} : Outcome α → Prop
  | ub _ => False
  | _ => True

instance {α : Type} (o : Outcome α) : Decidable o.IsOk := by
  cases o <;> simp only [IsOk] <;> infer_instance
instance {α : Type} (o : Outcome α) : Decidable o.Safe := by
  cases o <;> simp only [Safe] <;> infer_instance

instance : LawfulMonad Outcome := LawfulMonad.mk'
  (id_map := fun o => by cases o <;> rfl)
  (pure_bind := fun _ _ => rfl)
  (bind_assoc := fun o _ _ => by cases o <;> rfl)

theorem bind_eq_ok {α β : Type} {o : Outcome α} {f : α → Outcome β} {b : β} :
    (o >>= f) = ok b ↔ ∃ a, o = ok a ∧ f a = ok b := by
  cases o <;> simp

end Outcome

/-- A method of an object with state `σ`. On `throw` the state is the one left behind by
the statements executed before the exception; on `ub` it is meaningless. -/
def M (σ α : Type) : Type := σ → Outcome α × σ

namespace M

variable {σ α β : Type}

def pure (a : α) : M σ α := fun s => (.ok a, s)

def bind (m : M σ α) (f : α → M σ β) : M σ β := fun s =>
  match m s with
  | (.ok a, s') => f a s'
  | (.throw e, s') => (.throw e, s')
  | (.ub u, s') => (.ub u, s')

instance : Monad (M σ) where
  pure := M.pure
  bind := M.bind

def get : M σ σ := fun s => (.ok s, s)
def set (s : σ) : M σ Unit := fun _ => (.ok (), s)
def modify (f : σ → σ) : M σ Unit := fun s => (.ok (), f s)
def throw (e : Exn) : M σ α := fun s => (.throw e, s)
def ub (u : UB) : M σ α := fun s => (.ub u, s)
def lift (o : Outcome α) : M σ α := fun s => (o, s)
def gets (f : σ → α) : M σ α := fun s => (.ok (f s), s)

/-- `try { m } catch (E) {}` for one exception type `E`. -/
def catchOnly (e : Exn) (m : M σ Unit) : M σ Unit := fun s =>
  match m s with
  | (.throw e', s') => if e' = e then (.ok (), s') else (.throw e', s')
  | r => r

@[simp] theorem pure_run (a : α) (s : σ) : (Pure.pure a : M σ α) s = (.ok a, s) := rfl

theorem bind_run (m : M σ α) (f : α → M σ β) (s : σ) :
    (m >>= f) s = match m s with
      | (.ok a, s') => f a s'
      | (.throw e, s') => (.throw e, s')
      | (.ub u, s') => (.ub u, s') := rfl

theorem bind_run_ok {m : M σ α} {f : α → M σ β} {s s' : σ} {a : α} (h : m s = (.ok a, s')) :
    (m >>= f) s = f a s' := by simp [bind_run, h]

theorem bind_ok_inv {m : M σ α} {f : α → M σ β} {s : σ} {b : β} (h : ((m >>= f) s).1 = .ok b) :
    ∃ a s', m s = (.ok a, s') ∧ (f a s').1 = .ok b := by
  change (match m s with
    | (.ok a, s') => f a s'
    | (.throw e, s') => (.throw e, s')
    | (.ub u, s') => (.ub u, s')).1 = .ok b at h
  rcases hm : m s with ⟨o, s'⟩
  rw [hm] at h
  cases o with
  | ok a => exact ⟨a, s', rfl, h⟩
  | throw e => simp at h
  | ub u => simp at h

theorem bind_run_throw {m : M σ α} {f : α → M σ β} {s s' : σ} {e : Exn}
    (h : m s = (.throw e, s')) : (m >>= f) s = (.throw e, s') := by simp [bind_run, h]

theorem bind_run_ub {m : M σ α} {f : α → M σ β} {s s' : σ} {u : UB}
    (h : m s = (.ub u, s')) : (m >>= f) s = (.ub u, s') := by simp [bind_run, h]

@[simp] theorem get_run (s : σ) : (get : M σ σ) s = (.ok s, s) := rfl
@[simp] theorem set_run (s s' : σ) : (set s' : M σ Unit) s = (.ok (), s') := rfl
@[simp] theorem modify_run (f : σ → σ) (s : σ) : (modify f : M σ Unit) s = (.ok (), f s) := rfl
@[simp] theorem throw_run (e : Exn) (s : σ) : (throw e : M σ α) s = (.throw e, s) := rfl
@[simp] theorem ub_run (u : UB) (s : σ) : (ub u : M σ α) s = (.ub u, s) := rfl
@[simp] theorem lift_run (o : Outcome α) (s : σ) : (lift o : M σ α) s = (o, s) := rfl
@[simp] theorem gets_run (f : σ → α) (s : σ) : (gets f : M σ α) s = (.ok (f s), s) := rfl

end M

/-- Iteration order of the unordered containers: an arbitrary rearrangement. Every theorem
about the model is proved for every instance. -/
class IterOrder where
  /-- the order in which a range-for visits the elements of an unordered container -/
  iter : {α : Type} → List α → List α
  iter_perm : ∀ {α : Type} (l : List α), (iter l).Perm l

/-- One particular order (insertion order), used by the examples. -/
@[instance_reducible] def insertionOrder : IterOrder where
  iter := fun l => l
  iter_perm := fun l => List.Perm.refl l

/-- Another order (reverse of insertion), used by the examples. -/
@[instance_reducible] def reverseOrder : IterOrder where
  iter := fun l => l.reverse
  iter_perm := fun l => List.reverse_perm l

theorem IterOrder.mem_iter [IterOrder] {α : Type} {l : List α} {a : α} :
    a ∈ IterOrder.iter l ↔ a ∈ l := (IterOrder.iter_perm l).mem_iff

@[simp] theorem IterOrder.length_iter [IterOrder] {α : Type} (l : List α) :
    (IterOrder.iter l).length = l.length := (IterOrder.iter_perm l).length_eq

@[simp] theorem IterOrder.iter_nil [IterOrder] {α : Type} :
    IterOrder.iter ([] : List α) = [] :=
  List.length_eq_zero_iff.mp (by simp)

theorem IterOrder.iter_singleton [IterOrder] {α : Type} (a : α) :
    IterOrder.iter [a] = [a] :=
  List.perm_singleton.mp (IterOrder.iter_perm [a])

/-- `std::unordered_map<K, V>` as an association list in insertion order. -/
abbrev UMap (K V : Type) := List (K × V)

namespace UMap

variable {K V : Type} [DecidableEq K]

/-- `find`. -/
def get : UMap K V → K → Option V
  | [], _ => none
  | (k', v) :: m, k => if k' = k then some v else get m k

/-- `m[k] = v`. -/
def set : UMap K V → K → V → UMap K V
  | [], k, v => [(k, v)]
  | (k', v') :: m, k, v => if k' = k then (k, v) :: m else (k', v') :: set m k v

/-- `m.find(k) != m.end()`. -/
def has (m : UMap K V) (k : K) : Bool := (m.get k).isSome

def keys (m : UMap K V) : List K := m.map Prod.fst

@[simp] theorem get_nil (k : K) : get ([] : UMap K V) k = none := rfl

@[simp] theorem get_set_self (m : UMap K V) (k : K) (v : V) : (m.set k v).get k = some v := by
  induction m with
  | nil => simp [set, get]
  | cons p m ih =>
    obtain ⟨k', v'⟩ := p
    by_cases h : k' = k <;> simp [set, get, h, ih]

theorem get_set_ne (m : UMap K V) {k k' : K} (v : V) (h : k ≠ k') :
    (m.set k v).get k' = m.get k' := by
  induction m with
  | nil => simp [set, get, h]
  | cons p m ih =>
    obtain ⟨k'', v'⟩ := p
    by_cases h1 : k'' = k
    · subst h1; simp [set, get, h]
    · by_cases h2 : k'' = k'
      · subst h2; simp [set, get, h1]
      · simp [set, get, h1, h2, ih]

theorem get_set (m : UMap K V) (k k' : K) (v : V) :
    (m.set k v).get k' = if k = k' then some v else m.get k' := by
  by_cases h : k = k'
  · subst h; simp
  · simp [h, get_set_ne m v h]

omit [DecidableEq K] in
@[simp] theorem keys_nil : keys ([] : UMap K V) = [] := rfl

theorem get_isSome_iff (m : UMap K V) (k : K) : (m.get k).isSome ↔ k ∈ m.keys := by
  induction m with
  | nil => simp
  | cons p m ih =>
    obtain ⟨k', v'⟩ := p
    by_cases h : k' = k
    · simp [get, keys, h]
    · simp only [get, h, if_false, ih, keys, List.map_cons, List.mem_cons]
      constructor
      · exact Or.inr
      · rintro (h' | h')
        · exact absurd h'.symm h
        · exact h'

theorem has_iff (m : UMap K V) (k : K) : m.has k = true ↔ k ∈ m.keys := by
  simp [has, get_isSome_iff]

theorem mem_keys_of_get {m : UMap K V} {k : K} {v : V} (h : m.get k = some v) : k ∈ m.keys := by
  rw [← get_isSome_iff, h]; rfl

theorem get_eq_none_iff (m : UMap K V) (k : K) : m.get k = none ↔ k ∉ m.keys := by
  rw [← get_isSome_iff]; simp

theorem mem_of_get {m : UMap K V} {k : K} {v : V} (h : m.get k = some v) : (k, v) ∈ m := by
  induction m with
  | nil => simp at h
  | cons p m ih =>
    obtain ⟨k', v'⟩ := p
    by_cases h1 : k' = k
    · simp [get, h1] at h; simp [h1, h]
    · simp [get, h1] at h; exact List.mem_cons_of_mem _ (ih h)

theorem get_of_mem {m : UMap K V} (hn : m.keys.Nodup) {k : K} {v : V} (h : (k, v) ∈ m) :
    m.get k = some v := by
  induction m with
  | nil => simp at h
  | cons p m ih =>
    obtain ⟨k', v'⟩ := p
    simp only [keys, List.map_cons, List.nodup_cons] at hn
    rcases List.mem_cons.mp h with h | h
    · cases h; simp [get]
    · have : k' ≠ k := by
        intro he; subst he; exact hn.1 (List.mem_map.mpr ⟨_, h, rfl⟩)
      simp [get, this, ih hn.2 h]

theorem keys_set (m : UMap K V) (k : K) (v : V) :
    (m.set k v).keys = if k ∈ m.keys then m.keys else m.keys ++ [k] := by
  induction m with
  | nil => simp [set, keys]
  | cons p m ih =>
    obtain ⟨k', v'⟩ := p
    by_cases h : k' = k
    · simp [set, keys, h]
    · have h' : ¬ k = k' := fun e => h e.symm
      simp only [set, h, if_false, keys, List.map_cons, List.mem_cons, h', false_or]
      simp only [keys] at ih
      rw [ih]
      split <;> simp_all

theorem mem_keys_set (m : UMap K V) (k k' : K) (v : V) :
    k' ∈ (m.set k v).keys ↔ k' = k ∨ k' ∈ m.keys := by
  rw [keys_set]
  split
  · constructor
    · exact Or.inr
    · rintro (h | h)
      · subst h; assumption
      · exact h
  · simp [or_comm]

theorem nodup_keys_set {m : UMap K V} (h : m.keys.Nodup) (k : K) (v : V) :
    (m.set k v).keys.Nodup := by
  rw [keys_set]
  split
  · exact h
  · rename_i hk
    rw [List.nodup_append]
    refine ⟨h, by simp, ?_⟩
    intro a ha b hb
    simp at hb
    subst hb
    intro he; subst he; exact hk ha

end UMap

/-- `v[i]` on a vector with a bounds check that is undefined behaviour when it fails. -/
def vecAt {α : Type} (v : List α) (i : Nat) : Outcome α :=
  match v[i]? with
  | some a => .ok a
  | none => .ub .outOfBounds

theorem vecAt_ok {α : Type} {v : List α} {i : Nat} (h : i < v.length) :
    vecAt v i = .ok v[i] := by simp [vecAt, h]

/-- `s.find(pat)` for a possibly multi-character pattern, as an index. -/
def findSub (pat : Str) : Str → Option Nat
  | [] => if pat = [] then some 0 else none
  | c :: s => if pat.isPrefixOf (c :: s) then some 0 else (findSub pat s).map (· + 1)

end Casbin
