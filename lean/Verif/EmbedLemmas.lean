import Verif.Enforcer
import Verif.EditLemmas

/-!
# Other role manager objects do not matter

The heap of role managers of an enforcer can have further objects before and between its own: every
method then does the same. Used to compare an enforcer that got a new model with a new enforcer, and
enforcers that live side by side.
-/

namespace Casbin

/-! ## One program doing what another one does -/

/-- `g`, started in `s x`, gives what `f` gives in `x` and ends in the image of where `f` ends; `P` is
kept. -/
def Sim {σ τ α : Type} (P : σ → Prop) (s : σ → τ) (f : M σ α) (g : M τ α) : Prop :=
  ∀ x, P x → g (s x) = ((f x).1, s (f x).2) ∧ P (f x).2

namespace Sim

variable {σ τ α β : Type} {P : σ → Prop} {s : σ → τ}

theorem pure (a : α) : Sim P s (Pure.pure a : M σ α) (Pure.pure a : M τ α) := fun _ h => ⟨rfl, h⟩

theorem throw (e : Exn) : Sim P s (M.throw e : M σ α) (M.throw e) := fun _ h => ⟨rfl, h⟩

theorem ub (u : UB) : Sim P s (M.ub u : M σ α) (M.ub u) := fun _ h => ⟨rfl, h⟩

theorem lift (o : Outcome α) : Sim P s (M.lift o : M σ α) (M.lift o) := fun _ h => ⟨rfl, h⟩

theorem bind {f : M σ α} {g : M τ α} {k : α → M σ β} {l : α → M τ β} (h : Sim P s f g)
    (hk : ∀ a, Sim P s (k a) (l a)) : Sim P s (f >>= k) (g >>= l) := by
  intro x hx
  obtain ⟨h1, h2⟩ := h x hx
  simp only [M.bind_run, h1]
  rcases hf : f x with ⟨o, x'⟩
  rw [hf] at h2
  cases o with
  | ok a => exact hk a x' h2
  | throw e => exact ⟨rfl, h2⟩
  | ub u => exact ⟨rfl, h2⟩

theorem get {k : σ → M σ β} {l : τ → M τ β} (hk : ∀ x, P x → Sim P s (k x) (l (s x))) :
    Sim P s (M.get >>= k) (M.get >>= l) := by
  intro x hx
  simp only [M.bind_run, M.get_run]
  exact hk x hx x hx

theorem modify {f : σ → σ} {g : τ → τ} (h : ∀ x, P x → g (s x) = s (f x) ∧ P (f x)) :
    Sim P s (M.modify f) (M.modify g) := by
  intro x hx
  obtain ⟨h1, h2⟩ := h x hx
  exact ⟨by simp [h1], h2⟩

theorem ite {c : Prop} [Decidable c] {f f' : M σ α} {g g' : M τ α} (h : Sim P s f g)
    (h' : Sim P s f' g') : Sim P s (if c then f else f') (if c then g else g') := by
  split
  · exact h
  · exact h'

theorem catchOnly {e : Exn} {f : M σ Unit} {g : M τ Unit} (h : Sim P s f g) :
    Sim P s (M.catchOnly e f) (M.catchOnly e g) := by
  intro x hx
  obtain ⟨h1, h2⟩ := h x hx
  unfold M.catchOnly
  rw [h1]
  rcases hf : f x with ⟨o, x'⟩
  rw [hf] at h2
  cases o with
  | ok a => exact ⟨rfl, h2⟩
  | throw e' =>
    by_cases he : e' = e
    · subst he; simpa using h2
    · simpa [he] using h2
  | ub u => exact ⟨rfl, h2⟩

theorem congr {f f' : M σ α} {g g' : M τ α} (h : Sim P s f g) (hf : f = f') (hg : g = g') :
    Sim P s f' g' := by subst hf; subst hg; exact h

end Sim

/-- The trivial invariant. -/
abbrev Any {σ : Type} : σ → Prop := fun _ => True

/-! ## Maps with other values -/

namespace UMap

variable {K V W : Type} [DecidableEq K]

/-- The map with every value replaced. -/
def mapVals (f : V → W) (m : UMap K V) : UMap K W := m.map fun kv => (kv.1, f kv.2)

theorem get_mapVals (f : V → W) (m : UMap K V) (k : K) :
    (m.mapVals f).get k = (m.get k).map f := by
  induction m with
  | nil => rfl
  | cons p m ih =>
    obtain ⟨k', v⟩ := p
    have ih' : get (List.map (fun kv : K × V => (kv.1, f kv.2)) m) k = (UMap.get m k).map f := ih
    by_cases h : k' = k <;> simp [mapVals, get, h, ih']

theorem set_mapVals (f : V → W) (m : UMap K V) (k : K) (v : V) :
    (m.mapVals f).set k (f v) = (m.set k v).mapVals f := by
  induction m with
  | nil => rfl
  | cons p m ih =>
    obtain ⟨k', v'⟩ := p
    have ih' : set (List.map (fun kv : K × V => (kv.1, f kv.2)) m) k (f v) =
      List.map (fun kv : K × V => (kv.1, f kv.2)) (UMap.set m k v) := ih
    by_cases h : k' = k <;> simp [mapVals, set, h, ih']

theorem has_mapVals (f : V → W) (m : UMap K V) (k : K) : (m.mapVals f).has k = m.has k := by
  simp [has, get_mapVals]

omit [DecidableEq K] in
theorem keys_mapVals (f : V → W) (m : UMap K V) : (m.mapVals f).keys = m.keys := by
  simp [keys, mapVals, Function.comp_def]

end UMap

/-- The order in which a map is visited depends on its keys only. -/
def IterOrder.ByKeys (o : IterOrder) : Prop :=
  ∀ {K V W : Type} (f : V → W) (m : UMap K V),
    o.iter (m.map fun kv => (kv.1, f kv.2)) = (o.iter m).map fun kv => (kv.1, f kv.2)

theorem insertionOrder_byKeys : insertionOrder.ByKeys := fun _ _ => rfl

theorem reverseOrder_byKeys : reverseOrder.ByKeys := fun _ _ => List.map_reverse.symm

/-! ## The model -/

/-- The assertion with its pointer moved along `ρ`. -/
def Assertion.move (ρ : Nat → Nat) (a : Assertion) : Assertion := { a with rm := a.rm.map ρ }

namespace Model

/-- The model with all pointers moved along `ρ`. -/
def move (ρ : Nat → Nat) (m : Model) : Model := UMap.mapVals (UMap.mapVals (Assertion.move ρ)) m

theorem find_move (ρ : Nat → Nat) (m : Model) (sec t : Str) :
    (m.move ρ).find sec t = (m.find sec t).map (Assertion.move ρ) := by
  unfold find move
  rw [UMap.get_mapVals]
  cases m.get sec with
  | none => rfl
  | some am => simp [UMap.get_mapVals]

theorem put_move (ρ : Nat → Nat) (m : Model) (sec t : Str) (a : Assertion) :
    (m.move ρ).put sec t (a.move ρ) = (m.put sec t a).move ρ := by
  unfold put move
  rw [UMap.get_mapVals]
  cases m.get sec with
  | none =>
    simp only [Option.map_none]
    rw [← UMap.set_mapVals]
    rfl
  | some am =>
    simp only [Option.map_some]
    rw [UMap.set_mapVals, UMap.set_mapVals]

theorem ensureSec_move (ρ : Nat → Nat) (m : Model) (sec : Str) :
    (m.move ρ).ensureSec sec = (m.ensureSec sec).move ρ := by
  unfold ensureSec
  have h : (m.move ρ).has sec = m.has sec := UMap.has_mapVals ..
  rw [h]
  split
  · rfl
  · exact UMap.set_mapVals (UMap.mapVals (Assertion.move ρ)) m sec []

theorem secMap_move (ρ : Nat → Nat) (m : Model) (sec : Str) :
    (m.move ρ).secMap sec = UMap.mapVals (Assertion.move ρ) (m.secMap sec) := by
  unfold secMap move
  rw [UMap.get_mapVals]
  cases m.get sec <;> rfl

theorem clearSec_move (ρ : Nat → Nat) (m : Model) (sec : Str) :
    (m.move ρ).clearSec sec = (m.clearSec sec).move ρ := by
  unfold clearSec move
  rw [UMap.get_mapVals]
  cases m.get sec with
  | none => exact UMap.set_mapVals (UMap.mapVals (Assertion.move ρ)) m sec []
  | some am =>
    simp only [Option.map_some]
    rw [← UMap.set_mapVals]
    congr 1
    simp [UMap.mapVals, Assertion.move, Function.comp_def]

theorem clearPolicy_move (ρ : Nat → Nat) (m : Model) :
    (m.move ρ).clearPolicy = m.clearPolicy.move ρ := by
  unfold clearPolicy
  rw [clearSec_move, clearSec_move]

/-- A method of the model that does not look at the pointers. -/
abbrev Blind {α : Type} (f : M Model α) : Prop := ∀ ρ, Sim Any (move ρ) f f

/-- Dereferencing an assertion, with code that does not look at the pointer. -/
theorem blind_at {α : Type} {sec t : Str} {c : Assertion → M Model α}
    (h : ∀ ρ a, c (a.move ρ) = c a) (hc : ∀ a, Blind (c a)) : Blind (at_ sec t >>= c) := by
  intro ρ m _
  simp only [M.bind_run, at_, find_move]
  cases m.find sec t with
  | none => exact ⟨rfl, trivial⟩
  | some a =>
    simp only [Option.map_some, h]
    exact hc a ρ m trivial

theorem blind_setPolicy (sec t : Str) (Q : Policies) : Blind (setPolicy sec t Q) := by
  intro ρ m _
  simp only [setPolicy, find_move]
  cases m.find sec t with
  | none => exact ⟨rfl, trivial⟩
  | some a =>
    refine ⟨?_, trivial⟩
    simp only [Option.map_some]
    rw [← put_move]
    rfl

variable [IterOrder]

omit [IterOrder] in
theorem blind_getPolicy (sec t : Str) : Blind (getPolicy sec t) :=
  blind_at (fun _ _ => rfl) fun _ _ => .pure _

theorem blind_getFilteredPolicy (sec t : Str) (i : Nat) (vs : List Str) :
    Blind (getFilteredPolicy sec t i vs) :=
  blind_at (fun _ _ => rfl) fun _ _ => .bind (.lift _) fun _ => .pure _

theorem blind_hasPolicy (sec t : Str) (r : Rule) : Blind (hasPolicy sec t r) :=
  blind_at (fun _ _ => rfl) fun _ _ => .pure _

theorem blind_addPolicy (sec t : Str) (r : Rule) : Blind (addPolicy sec t r) := by
  intro ρ
  refine .bind (blind_hasPolicy sec t r ρ) fun h => .ite (.pure _) ?_
  exact blind_at (fun _ _ => rfl) (fun _ ρ => .bind (blind_setPolicy _ _ _ ρ) fun _ => .pure _) ρ

theorem blind_anyPresent (sec t : Str) (rs : List Rule) : Blind (anyPresent sec t rs) := by
  intro ρ
  induction rs with
  | nil => exact .pure _
  | cons r rs ih => exact .bind (blind_hasPolicy sec t r ρ) fun h => .ite (.pure _) ih

omit [IterOrder] in
theorem blind_emplaceAll (sec t : Str) (rs : List Rule) : Blind (emplaceAll sec t rs) := by
  induction rs with
  | nil => exact fun _ => .pure _
  | cons r rs ih =>
    exact blind_at (fun _ _ => rfl) fun _ ρ => .bind (blind_setPolicy _ _ _ ρ) fun _ => ih ρ

theorem blind_addPolicies (sec t : Str) (rs : List Rule) : Blind (addPolicies sec t rs) := fun ρ =>
  .bind (blind_anyPresent sec t rs ρ) fun _ => .ite (.pure _)
    (.bind (blind_emplaceAll sec t rs ρ) fun _ => .pure _)

theorem blind_eraseRule (sec t : Str) (r : Rule) : Blind (eraseRule sec t r) := by
  refine blind_at (fun _ _ => rfl) fun a ρ => ?_
  cases a.policy.eraseFirst (fun x => arrayEquals r x) with
  | none => exact .pure _
  | some Q => exact .bind (blind_setPolicy _ _ _ ρ) fun _ => .pure _

theorem blind_updatePolicy (sec t : Str) (o n : Rule) : Blind (updatePolicy sec t o n) := fun ρ =>
  .bind (blind_eraseRule sec t o ρ) fun _ => .ite (.pure _) <|
    .bind (blind_hasPolicy sec t n ρ) fun _ => .ite (.pure _) <|
      blind_at (fun _ _ => rfl) (fun _ ρ => .bind (blind_setPolicy _ _ _ ρ) fun _ => .pure _) ρ

theorem blind_eraseAll (sec t : Str) (rs : List Rule) : Blind (eraseAll sec t rs) := by
  intro ρ
  induction rs with
  | nil => exact .pure _
  | cons r rs ih => exact .bind (blind_eraseRule sec t r ρ) fun _ => .ite (.pure _) ih

theorem blind_updatePolicies (sec t : Str) (o n : List Rule) : Blind (updatePolicies sec t o n) :=
  blind_at (fun _ _ => rfl) fun _ ρ =>
    .bind (blind_eraseAll sec t o ρ) fun _ => .ite (.pure _) <|
      .bind (blind_anyPresent sec t n ρ) fun _ => .ite (.pure _) <|
        .bind (blind_emplaceAll sec t n ρ) fun _ => .pure _

theorem blind_removeFilteredPolicy (sec t : Str) (i : Nat) (vs : List Str) :
    Blind (removeFilteredPolicy sec t i vs) :=
  blind_at (fun _ _ => rfl) fun _ ρ => .bind (.lift _) fun _ =>
    .bind (blind_setPolicy _ _ _ ρ) fun _ => .pure _

theorem blind_getValuesForField (sec t : Str) (i : Nat) : Blind (getValuesForField sec t i) :=
  blind_at (fun _ _ => rfl) fun _ _ => .bind (.lift _) fun _ => .pure _

theorem blind_valuesAllTypes (sec : Str) (i : Nat) (ts : List Str) :
    Blind (valuesAllTypes sec i ts) := by
  intro ρ
  induction ts with
  | nil => exact .pure _
  | cons t ts ih => exact .bind (blind_getValuesForField sec t i ρ) fun _ => .bind ih fun _ => .pure _

theorem blind_getValuesForFieldAllTypes (sec : Str) (i : Nat) :
    Blind (getValuesForFieldAllTypes sec i) := fun ρ =>
  .bind (.modify fun m _ => ⟨ensureSec_move ρ m sec, trivial⟩) fun _ => .get fun m _ => by
    rw [secMap_move, UMap.keys_mapVals]
    exact .bind (blind_valuesAllTypes sec i _ ρ) fun _ => .pure _

end Model

/-! ## Loading -/

theorem blind_loadPolicyLine (line : Str) : Model.Blind (loadPolicyLine line) := by
  intro ρ
  refine .ite (.pure _) ?_
  cases trimAll (split line c!",") with
  | nil => exact .ub _
  | cons key vals =>
    exact Model.blind_at (fun _ _ => rfl) (fun _ ρ => Model.blind_setPolicy _ _ _ ρ) ρ

theorem blind_loadLines (ls : List Str) : Model.Blind (loadLines ls) := by
  intro ρ
  induction ls with
  | nil => exact .pure _
  | cons l ls ih => exact .bind (blind_loadPolicyLine l ρ) fun _ => ih

/-- The adapter's loading does not look at the role managers of the model. The built-in adapters are
so. -/
def Adapter.Blind (a : Adapter) : Prop :=
  match a.kind with
  | .custom _ _ _ load _ => Model.Blind load
  | _ => True

theorem Adapter.Blind.load {a : Adapter} (h : a.Blind) : Model.Blind a.loadPolicy := by
  intro ρ
  obtain ⟨kind, log⟩ := a
  unfold Adapter.loadPolicy
  cases kind with
  | string line => exact .ite (.throw _) (blind_loadLines _ ρ)
  | file path disk w b =>
    refine .ite (.throw _) ?_
    cases disk with
    | none => exact .pure _
    | some text => exact blind_loadLines _ ρ
  | custom v f b load resp => exact h ρ

/-! ## Requests -/

/-- The function with its pointer moved along `ρ`. -/
def FunRef.move (ρ : Nat → Nat) : FunRef → FunRef
  | .builtin b => .builtin b
  | .g rm n => .g (rm.map ρ) n

theorem FunRef.arity_move (ρ : Nat → Nat) (f : FunRef) : (f.move ρ).arity = f.arity := by
  cases f with
  | builtin b => rfl
  | g rm n => rfl

/-- A heap of role managers inside a larger one: where its objects are, the larger heap, and which
heaps are meant. -/
structure Embedding where
  ptr : Nat → Nat
  heap : List RM → List RM
  Ok : List RM → Prop
  get : ∀ h, Ok h → ∀ p, (heap h)[ptr p]? = h[p]?
  set : ∀ h, Ok h → ∀ p x, p < h.length → heap (h.set p x) = (heap h).set (ptr p) x ∧ Ok (h.set p x)
  /-- An enforcer without an evaluator gets a new one. -/
  fresh : Bool := false

/-- New objects get the next position in the larger heap. -/
def Embedding.Grows (ε : Embedding) : Prop := ε.fresh = false ∧
  ∀ h, ε.Ok h → ∀ x, ε.heap (h ++ [x]) = ε.heap h ++ [x] ∧ ε.ptr h.length = (ε.heap h).length ∧
    ε.Ok (h ++ [x])

/-- Objects in front. -/
def Embedding.front (pre : List RM) : Embedding where
  ptr p := p + pre.length
  heap h := pre ++ h
  Ok _ := True
  get h _ p := by
    rw [List.getElem?_append_right (by omega), Nat.add_sub_cancel]
  set h _ p x _ := by
    refine ⟨?_, trivial⟩
    rw [List.set_append_right _ _ (by omega), Nat.add_sub_cancel]

theorem Embedding.front_grows (pre : List RM) : (front pre).Grows := ⟨rfl, fun h _ x =>
  ⟨by simp [front], by simp [front, Nat.add_comm], trivial⟩⟩

/-- The same heap; an enforcer without an evaluator gets a new one. -/
def Embedding.ready : Embedding where
  ptr p := p
  heap h := h
  Ok _ := True
  get _ _ _ := rfl
  set _ _ _ _ _ := ⟨rfl, trivial⟩
  fresh := true

theorem sim_onHeap {α : Type} (ε : Embedding) (p : Nat) (f : M RM α) :
    Sim ε.Ok ε.heap (onHeap p f) (onHeap (ε.ptr p) f) := by
  intro h hh
  unfold onHeap
  rw [ε.get h hh p]
  cases hp : h[p]? with
  | none => exact ⟨rfl, hh⟩
  | some rm =>
    obtain ⟨h1, h2⟩ := ε.set h hh p (f rm).2 (List.getElem?_eq_some_iff.mp hp).1
    exact ⟨by simp only [h1], h2⟩

variable [IterOrder]

theorem sim_callFun (lib : ExprLib) (ε : Embedding) (fr : FunRef) (vs : List Val) :
    Sim ε.Ok ε.heap (callFun lib fr vs) (callFun lib (fr.move ε.ptr) vs) := by
  cases fr with
  | builtin b =>
    refine .ite (.pure _) ?_
    cases allStrs vs with
    | none => exact .pure _
    | some ss => exact .lift _
  | g rm n =>
    unfold callFun FunRef.move
    dsimp only
    split
    · cases rm with
      | none => exact .pure _
      | some p => exact .bind (sim_onHeap ε p _) fun _ => .pure _
    · cases rm with
      | none => exact .pure _
      | some p => exact .bind (sim_onHeap ε p _) fun _ => .pure _
    · exact .pure _

mutual
theorem sim_evalExpr (lib : ExprLib) (ε : Embedding) (vars : UMap Str Str) (funs : UMap Str FunRef) :
    ∀ e : Expr, Sim ε.Ok ε.heap (evalExpr lib vars funs e)
      (evalExpr lib vars (funs.mapVals (FunRef.move ε.ptr)) e)
  | .str s => .pure _
  | .num n => .pure _
  | .var x => by
    unfold evalExpr
    cases vars.get (lower x) with
    | none => exact .ub _
    | some v => exact .pure _
  | .call f args => by
    unfold evalExpr
    refine .bind (sim_evalArgs lib ε vars funs args) fun vs => ?_
    rw [UMap.get_mapVals]
    cases funs.get (lower f) with
    | none => exact .ub _
    | some fr => exact sim_callFun lib ε fr vs
  | .op o args => by
    unfold evalExpr
    exact .bind (sim_evalArgs lib ε vars funs args) fun _ => .pure _
theorem sim_evalArgs (lib : ExprLib) (ε : Embedding) (vars : UMap Str Str) (funs : UMap Str FunRef) :
    ∀ es : List Expr, Sim ε.Ok ε.heap (evalArgs lib vars funs es)
      (evalArgs lib vars (funs.mapVals (FunRef.move ε.ptr)) es)
  | [] => by unfold evalArgs; exact .pure _
  | e :: es => by
    unfold evalArgs
    exact .bind (sim_evalExpr lib ε vars funs e) fun _ =>
      .bind (sim_evalArgs lib ε vars funs es) fun _ => .pure _
end

omit [IterOrder] in
mutual
theorem resolves_move (ρ : Nat → Nat) (vars : UMap Str Str) (funs : UMap Str FunRef) :
    ∀ e : Expr, resolves vars (funs.mapVals (FunRef.move ρ)) e = resolves vars funs e
  | .str s => rfl
  | .num n => rfl
  | .var x => rfl
  | .call f args => by
    unfold resolves
    rw [resolvesAll_move ρ vars funs args, UMap.get_mapVals]
    cases funs.get (lower f) with
    | none => rfl
    | some fr => simp [FunRef.arity_move]
  | .op o args => by
    unfold resolves
    exact resolvesAll_move ρ vars funs args
theorem resolvesAll_move (ρ : Nat → Nat) (vars : UMap Str Str) (funs : UMap Str FunRef) :
    ∀ es : List Expr, resolvesAll vars (funs.mapVals (FunRef.move ρ)) es = resolvesAll vars funs es
  | [] => rfl
  | e :: es => by
    unfold resolvesAll
    rw [resolves_move ρ vars funs e, resolvesAll_move ρ vars funs es]
end

namespace Evaluator

/-- The evaluator with the pointers of its functions moved along `ρ`. -/
def move (ρ : Nat → Nat) (ev : Evaluator) : Evaluator := { ev with funs := ev.funs.mapVals (FunRef.move ρ) }

omit [IterOrder] in
theorem sim_addIdentifier (ρ : Nat → Nat) (x v : Str) :
    Sim Any (move ρ) (addIdentifier x v) (addIdentifier x v) := by
  intro ev _
  refine ⟨?_, trivial⟩
  unfold addIdentifier
  show (if ev.vars.has (lower x) = true then _ else _) = _
  split
  · rfl
  · split <;> rfl

omit [IterOrder] in
theorem sim_addFunction (ρ : Nat → Nat) (n : Str) (f : FunRef) :
    Sim Any (move ρ) (addFunction n f) (addFunction n (f.move ρ)) := by
  refine .modify fun ev _ => ⟨?_, trivial⟩
  have h : (ev.move ρ).funs.has (lower n) = ev.funs.has (lower n) := UMap.has_mapVals ..
  rw [h]
  split
  · rfl
  · simp only [move, UMap.set_mapVals]

omit [IterOrder] in
theorem sim_addFunctions (ρ : Nat → Nat) : ∀ fs : List (Str × FunRef),
    Sim Any (move ρ) (addFunctions fs) (addFunctions (fs.map fun nf => (nf.1, nf.2.move ρ)))
  | [] => .pure _
  | (n, f) :: fs => .bind (sim_addFunction ρ n f) fun _ => sim_addFunctions ρ fs

omit [IterOrder] in
theorem sim_loadFunctions (ρ : Nat → Nat) : Sim Any (move ρ) loadFunctions loadFunctions :=
  sim_addFunctions ρ builtins

omit [IterOrder] in
theorem sim_eval (lib : ExprLib) (ρ : Nat → Nat) (t : Str) : Sim Any (move ρ) (eval lib t) (eval lib t) := by
  intro ev _
  refine ⟨?_, trivial⟩
  have hc : compile lib (ev.move ρ).vars (ev.move ρ).funs t = compile lib ev.vars ev.funs t := by
    unfold compile move
    simp only [resolves_move]
  unfold eval
  rw [hc]
  show (if ev.exprStr ≠ t then _ else _) = _
  split
  · cases compile lib ev.vars ev.funs t <;> rfl
  · rfl

end Evaluator

namespace ReqSt

/-- The state of a request with the role managers in the larger heap. -/
def move (ε : Embedding) (s : ReqSt) : ReqSt :=
  { s with ev := s.ev.move ε.ptr, heap := ε.heap s.heap }

/-- The heap is one of those meant. -/
def Fits (ε : Embedding) (s : ReqSt) : Prop := ε.Ok s.heap

omit [IterOrder] in
theorem sim_onEv {α : Type} (ε : Embedding) {f g : M Evaluator α}
    (h : Sim Any (Evaluator.move ε.ptr) f g) : Sim (Fits ε) (move ε) (onEv f) (onEv g) := by
  intro s hs
  refine ⟨?_, hs⟩
  unfold onEv
  rw [show (move ε s).ev = s.ev.move ε.ptr from rfl, (h s.ev trivial).1]
  rfl

end ReqSt

open ReqSt

theorem sim_exprValue (lib : ExprLib) (ε : Embedding) :
    Sim (ReqSt.Fits ε) (ReqSt.move ε) (exprValue lib) (exprValue lib) := by
  intro s hs
  unfold exprValue
  rw [show (ReqSt.move ε s).ev.compiled = s.ev.compiled from rfl]
  cases s.ev.compiled with
  | none => exact ⟨rfl, hs⟩
  | some e =>
    obtain ⟨h, h'⟩ := sim_evalExpr lib ε s.ev.vars s.ev.funs e s.heap hs
    refine ⟨?_, h'⟩
    simp only [onRms]
    show (((evalExpr lib s.ev.vars (s.ev.funs.mapVals (FunRef.move ε.ptr)) e) (ε.heap s.heap)).1,
      ({ ReqSt.move ε s with heap :=
        ((evalExpr lib s.ev.vars (s.ev.funs.mapVals (FunRef.move ε.ptr)) e)
          (ε.heap s.heap)).2 } : ReqSt)) = _
    rw [h]
    rfl

theorem sim_isBoolType (lib : ExprLib) (ε : Embedding) :
    Sim (ReqSt.Fits ε) (ReqSt.move ε) (isBoolType lib) (isBoolType lib) :=
  .get fun _ _ => .ite (.throw _) <| .bind (sim_exprValue lib ε) fun _ => .ite (.pure _) <|
    .bind (sim_exprValue lib ε) fun _ => .pure _

theorem sim_matcherResult (lib : ExprLib) (ε : Embedding) :
    Sim (ReqSt.Fits ε) (ReqSt.move ε) (matcherResult lib) (matcherResult lib) :=
  .bind (sim_isBoolType lib ε) fun _ => .ite (.bind (sim_exprValue lib ε) fun _ => .pure _) <|
    .bind (sim_isBoolType lib ε) fun _ =>
      .ite (.bind (sim_exprValue lib ε) fun _ => .pure _) (.throw _)

omit [IterOrder] in
theorem sim_pushPolicy (ρ : Nat → Nat) : ∀ ts vs : List Str,
    Sim Any (Evaluator.move ρ) (pushPolicy ts vs) (pushPolicy ts vs)
  | [], vs => .congr (.pure ()) (by simp [pushPolicy]) (by simp [pushPolicy])
  | t :: ts, v :: vs =>
    .bind (Evaluator.sim_addIdentifier ρ _ v) fun _ => sim_pushPolicy ρ ts vs
  | t :: ts, [] => .ub _

omit [IterOrder] in
theorem sim_pushRequest (ρ : Nat → Nat) : ∀ (ts : List Str) (vs : List ReqVal),
    Sim Any (Evaluator.move ρ) (pushRequest ts vs) (pushRequest ts vs)
  | [], vs => .congr (.pure ()) (by simp [pushRequest]) (by simp [pushRequest])
  | t :: ts, [] => .congr (.pure ()) (by simp [pushRequest]) (by simp [pushRequest])
  | t :: ts, .str x :: vs => .ite (.throw _) <|
      .bind (Evaluator.sim_addIdentifier ρ _ x) fun _ => sim_pushRequest ρ ts vs
  | t :: ts, .json :: vs => by
    have h := sim_pushRequest ρ ts vs
    exact .ite (.throw _) h

omit [IterOrder] in
theorem sim_pushMap (ρ : Nat → Nat) : ∀ vs : List (Str × ReqVal),
    Sim Any (Evaluator.move ρ) (pushMap vs) (pushMap vs)
  | [] => .pure _
  | (x, .str v) :: vs => .bind (Evaluator.sim_addIdentifier ρ _ v) fun _ => sim_pushMap ρ vs
  | (_, .json) :: vs => by
    have h := sim_pushMap ρ vs
    exact h

theorem sim_ruleStep (lib : ExprLib) (ε : Embedding) (exp : Str) (tokens : List Str) (rule : Rule) :
    Sim (ReqSt.Fits ε) (ReqSt.move ε) (ruleStep lib exp tokens rule) (ruleStep lib exp tokens rule) :=
  .ite (.throw _) <| .bind (sim_onEv ε (sim_pushPolicy _ _ _)) fun _ => .bind (.lift _) fun _ =>
    .bind (sim_onEv ε (Evaluator.sim_eval lib _ _)) fun _ => .bind (sim_matcherResult lib ε) fun _ =>
      .bind (.lift _) fun _ => .pure _

omit [IterOrder] in
theorem sim_ruleLoop {σ : Type} {P : σ → Prop} {s : σ → σ} {step : Rule → M σ (Bool × Effect)}
    (h : ∀ r, Sim P s (step r) (step r)) (expr : Str) (len : Nat) : ∀ (rs : List Rule) (i : Nat)
      (es : List Effect) (ms : List Bool) (last : Option (Effect × Option Nat)),
      Sim P s (ruleLoop step expr len rs i es ms last) (ruleLoop step expr len rs i es ms last)
  | [], _, _, _, _ => .pure _
  | r :: rs, _, _, _, _ => .bind (h r) fun _ => .bind (.lift _) fun _ => .ite (.pure _)
      (sim_ruleLoop h expr len rs _ _ _ _)

omit [IterOrder] in
theorem sim_finish (ε : Embedding) (rules : List Rule) (res : Option (Effect × Option Nat)) :
    Sim (ReqSt.Fits ε) (ReqSt.move ε) (finish rules res) (finish rules res) := by
  unfold finish
  cases res with
  | none => exact .ub _
  | some ei =>
    obtain ⟨eff, idx⟩ := ei
    cases idx with
    | none => exact .pure _
    | some i =>
      dsimp only
      cases rules[i]? with
      | none => exact .pure _
      | some r => exact .bind (.modify fun s hs => ⟨rfl, hs⟩) fun _ => .pure _

theorem sim_enforceEmpty (lib : ExprLib) (ε : Embedding) (exp : Str) (tokens : List Str) (eff : Str) :
    Sim (ReqSt.Fits ε) (ReqSt.move ε) (enforceEmpty lib exp tokens eff) (enforceEmpty lib exp tokens eff) :=
  .ite (.throw _) <| .bind (sim_onEv ε (sim_pushPolicy _ _ _)) fun _ =>
    .bind (sim_onEv ε (Evaluator.sim_eval lib _ _)) fun _ => .ite (.pure _) <|
      .bind (sim_exprValue lib ε) fun _ => .bind (.lift _) fun _ => sim_finish ε _ _

theorem gFunctions_move (hk : IterOrder.ByKeys ‹_›) (ρ : Nat → Nat) (m : Model) :
    gFunctions (m.move ρ) = (gFunctions m).map fun nf => (nf.1, nf.2.move ρ) := by
  unfold gFunctions
  rw [Model.secMap_move]
  unfold UMap.mapVals
  rw [hk (Assertion.move ρ)]
  simp [Assertion.move, FunRef.move, Function.comp_def]

omit [IterOrder] in
theorem selectPolicies_move (ρ : Nat → Nat) (m : Model) (ev : Evaluator) :
    selectPolicies (m.move ρ) (ev.move ρ) = selectPolicies m ev := by
  unfold selectPolicies
  rw [Model.find_move, Model.find_move]
  cases m.find c!"p" c!"p" with
  | none => rfl
  | some p => cases m.find c!"r" c!"r" <;> rfl

omit [IterOrder] in
theorem sim_need (ε : Embedding) (m : Model) (sec t : Str) {α : Type} {c : Assertion → M ReqSt α}
    {c' : Assertion → M ReqSt α} (hc : ∀ a, Sim (ReqSt.Fits ε) (ReqSt.move ε) (c a) (c' (a.move ε.ptr))) :
    Sim (ReqSt.Fits ε) (ReqSt.move ε) (needAssertion m sec t >>= c)
      (needAssertion (m.move ε.ptr) sec t >>= c') := by
  unfold needAssertion
  rw [Model.find_move]
  cases m.find sec t with
  | none => intro s hs; exact ⟨rfl, hs⟩
  | some a => intro s hs; exact hc a s hs

theorem sim_mEnforce (hk : IterOrder.ByKeys ‹_›) (lib : ExprLib) (ε : Embedding) (m : Model)
    (enabled : Bool) (matcher : Str) :
    Sim (ReqSt.Fits ε) (ReqSt.move ε) (mEnforce lib m enabled matcher)
      (mEnforce lib (m.move ε.ptr) enabled matcher) := by
  refine .bind (.modify fun s hs => ⟨rfl, hs⟩) fun _ => .ite (.pure _) <|
    .bind (sim_onEv ε (Evaluator.sim_loadFunctions _)) fun _ => ?_
  rw [gFunctions_move hk]
  refine .bind (sim_onEv ε (Evaluator.sim_addFunctions _ _)) fun _ => ?_
  have tail : ∀ exp : Str, Sim (ReqSt.Fits ε) (ReqSt.move ε)
      (needAssertion m c!"r" c!"r" >>= fun _ => needAssertion m c!"p" c!"p" >>= fun p =>
        M.get >>= fun s => M.lift (selectPolicies m s.ev) >>= fun rules =>
        needAssertion m c!"e" c!"e" >>= fun e =>
        if rules ≠ [] then runRules (ruleStep lib exp p.tokens) e.value rules >>= finish rules
        else enforceEmpty lib exp p.tokens e.value)
      (needAssertion (m.move ε.ptr) c!"r" c!"r" >>= fun _ =>
        needAssertion (m.move ε.ptr) c!"p" c!"p" >>= fun p =>
        M.get >>= fun s => M.lift (selectPolicies (m.move ε.ptr) s.ev) >>= fun rules =>
        needAssertion (m.move ε.ptr) c!"e" c!"e" >>= fun e =>
        if rules ≠ [] then runRules (ruleStep lib exp p.tokens) e.value rules >>= finish rules
        else enforceEmpty lib exp p.tokens e.value) := by
    intro exp
    refine sim_need ε m _ _ fun r => sim_need ε m _ _ fun p => .get fun s _ => ?_
    rw [show (ReqSt.move ε s).ev = s.ev.move ε.ptr from rfl, selectPolicies_move]
    refine .bind (.lift _) fun rules => sim_need ε m _ _ fun e =>
      .ite ?_ (sim_enforceEmpty lib ε _ _ _)
    exact .bind (sim_ruleLoop (fun r => sim_ruleStep lib ε exp _ r) _ _ _ _ _ _ _) fun _ =>
      sim_finish ε _ _
  refine .ite (sim_need ε m _ _ fun a => ?_) (tail _)
  exact tail a.value

/-! ## The enforcer -/

theorem saveAssertions_move (ρ : Nat → Nat) : ∀ l : List (Str × Assertion),
    saveAssertions (l.map fun kv => (kv.1, kv.2.move ρ)) = saveAssertions l
  | [] => rfl
  | (pt, a) :: rest => by
    show (saveRules pt a.policy.iterate >>= fun t => saveAssertions (rest.map _) >>= fun ts =>
      Outcome.ok (t ++ ts)) = _
    rw [saveAssertions_move ρ rest]
    rfl

theorem policyText_move (hk : IterOrder.ByKeys ‹_›) (ρ : Nat → Nat) (m : Model) :
    policyText (m.move ρ) = policyText m := by
  unfold policyText
  rw [Model.secMap_move, Model.secMap_move]
  unfold UMap.mapVals
  rw [hk (Assertion.move ρ), hk (Assertion.move ρ), saveAssertions_move, saveAssertions_move]

theorem savePolicy_move (hk : IterOrder.ByKeys ‹_›) (ρ : Nat → Nat) (m : Model) :
    Adapter.savePolicy (m.move ρ) = Adapter.savePolicy m := by
  unfold Adapter.savePolicy
  rw [policyText_move hk]

theorem Adapter.Blind.save {a : Adapter} (h : a.Blind) (m : Model) : (savePolicy m a).2.Blind := by
  obtain ⟨kind, log⟩ := a
  unfold savePolicy
  cases kind with
  | string line =>
    dsimp only
    split
    · trivial
    · cases policyText m <;> trivial
  | file path disk w b =>
    dsimp only
    split
    · trivial
    · cases policyText m with
      | ok t => dsimp only; split <;> trivial
      | throw e => trivial
      | ub u => trivial
  | custom v f b load resp => exact h

omit [IterOrder] in
theorem Adapter.Blind.edit {a : Adapter} (h : a.Blind) (c : AdapterCall) : (edit c a).2.Blind := by
  obtain ⟨kind, log⟩ := a
  unfold Adapter.edit
  cases kind with
  | string line => cases c <;> trivial
  | file path disk w b => trivial
  | custom v f b load resp => exact h

namespace Enforcer

/-- The enforcer with its role managers in the larger heap. -/
def move (ε : Embedding) (E : Enforcer) : Enforcer :=
  { E with model := E.model.move ε.ptr, heap := ε.heap E.heap, rm := ε.ptr E.rm,
           eval := (if ε.fresh then some E.evaluator else E.eval).map (Evaluator.move ε.ptr) }

/-- The adapter, if there is one, does not look at the role managers of the model. -/
def AdBlind (E : Enforcer) : Prop := ∀ a, E.adapter = some a → a.Blind

/-- Nothing looks at pointers that should not, and the heap is one of those meant. -/
def Fits (ε : Embedding) (E : Enforcer) : Prop := E.AdBlind ∧ ε.Ok E.heap

/-- Further role manager objects make no difference to `f`. -/
def Indep {α : Type} (f : M Enforcer α) : Prop := ∀ ε, Sim (Fits ε) (move ε) f f

omit [IterOrder] in
theorem indep_pure {α : Type} (a : α) : Indep (Pure.pure a : M Enforcer α) := fun _ => .pure a

omit [IterOrder] in
theorem indep_lift {α : Type} (o : Outcome α) : Indep (M.lift o) := fun _ => .lift o

omit [IterOrder] in
theorem Indep.bind {α β : Type} {f : M Enforcer α} {k : α → M Enforcer β} (h : Indep f)
    (hk : ∀ a, Indep (k a)) : Indep (f >>= k) := fun ε => .bind (h ε) fun a => hk a ε

omit [IterOrder] in
theorem Indep.ite {α : Type} {c : Prop} [Decidable c] {f g : M Enforcer α} (h : Indep f)
    (h' : Indep g) : Indep (if c then f else g) := fun ε => .ite (h ε) (h' ε)

omit [IterOrder] in
theorem indep_onModel {α : Type} {f : M Model α} (h : Model.Blind f) : Indep (onModel f) := by
  intro ε E hE
  refine ⟨?_, hE⟩
  unfold onModel
  rw [show (move ε E).model = E.model.move ε.ptr from rfl, (h _ E.model trivial).1]
  rfl

omit [IterOrder] in
theorem sim_onRm {α : Type} (ε : Embedding) (p : Nat) (f : M RM α) :
    Sim (Fits ε) (move ε) (onRm p f) (onRm (ε.ptr p) f) := by
  intro E hE
  obtain ⟨h1, h2⟩ := sim_onHeap ε p f E.heap hE.2
  refine ⟨?_, hE.1, h2⟩
  unfold onRm
  rw [show (move ε E).heap = ε.heap E.heap from rfl, h1]
  rfl

omit [IterOrder] in
theorem indep_ownRm {α : Type} (f : M RM α) : Indep (M.get >>= fun E => onRm E.rm f) := fun ε =>
  .get fun E _ => sim_onRm ε E.rm f

omit [IterOrder] in
theorem indep_onAdapter {α : Type} {f : M Adapter α} (h : ∀ a : Adapter, a.Blind → (f a).2.Blind) :
    Indep (onAdapter f) := by
  intro ε E hE
  unfold onAdapter
  rw [show (move ε E).adapter = E.adapter from rfl]
  cases ha : E.adapter with
  | none => exact ⟨rfl, hE⟩
  | some a =>
    refine ⟨rfl, ?_, hE.2⟩
    intro b hb
    obtain rfl : (f a).2 = b := Option.some.inj hb
    exact h a (hE.1 a ha)

omit [IterOrder] in
theorem indep_modifyRest {f : Enforcer → Enforcer}
    (h1 : ∀ ε E, f (move ε E) = move ε (f E)) (h2 : ∀ E, E.AdBlind → (f E).AdBlind)
    (h3 : ∀ E, (f E).heap = E.heap) : Indep (M.modify f) := fun ε =>
  .modify fun E hE => ⟨h1 ε E, h2 E hE.1, by rw [h3]; exact hE.2⟩

omit [IterOrder] in
theorem indep_put {a : Assertion} (t : Str) {k : Enforcer → M Enforcer Unit}
    (ε : Embedding) (E : Enforcer) (hk : Sim (Fits ε) (move ε) (k E) (k (move ε E))) :
    Sim (Fits ε) (move ε)
      (onModel (M.modify fun m => m.put c!"g" t { a with rm := some E.rm }) >>= fun _ => k E)
      (onModel (M.modify fun m =>
          m.put c!"g" t { a.move ε.ptr with rm := some (move ε E).rm }) >>= fun _ =>
        k (move ε E)) := by
  refine .bind ?_ fun _ => hk
  intro E' hE'
  refine ⟨?_, hE'⟩
  unfold onModel
  simp only [M.modify_run]
  rw [show (move ε E').model = E'.model.move ε.ptr from rfl,
    show ({ a.move ε.ptr with rm := some (move ε E).rm } : Assertion) =
      ({ a with rm := some E.rm } : Assertion).move ε.ptr from rfl, Model.put_move]
  rfl

theorem indep_buildIncremental (op : PolicyOp) (t : Str) (rules : List Rule) :
    Indep (buildIncremental op t rules) := by
  intro ε
  refine .get fun E _ => ?_
  rw [show (move ε E).model = E.model.move ε.ptr from rfl, Model.find_move]
  cases E.model.find c!"g" t with
  | none => exact .ub _
  | some a =>
    exact indep_put t (k := fun E => onRm E.rm (Assertion.buildLinks a.value op rules)) ε E
      (sim_onRm ε E.rm _)

theorem indep_buildAll : ∀ ts : List Str, Indep (buildAll ts)
  | [] => indep_pure _
  | t :: ts => by
    intro ε
    refine .get fun E _ => ?_
    rw [show (move ε E).model = E.model.move ε.ptr from rfl, Model.find_move]
    cases E.model.find c!"g" t with
    | none => exact .ub _
    | some a =>
      exact indep_put t (k := fun E => onRm E.rm (Assertion.buildLinks a.value .add a.policy.iterate) >>=
        fun _ => buildAll ts) ε E (.bind (sim_onRm ε E.rm _) fun _ => indep_buildAll ts ε)

theorem indep_buildRoleLinks : Indep buildRoleLinks := by
  intro ε
  refine .get fun E _ => .bind (sim_onRm ε E.rm _) fun _ => .bind ?_ fun _ => .get fun E _ => ?_
  · exact indep_onModel (fun ρ => .modify fun m _ => ⟨Model.ensureSec_move ρ m _, trivial⟩) ε
  · rw [show (move ε E).model = E.model.move ε.ptr from rfl, Model.secMap_move,
      UMap.keys_mapVals]
    exact indep_buildAll _ ε

omit [IterOrder] in
theorem indep_clearPolicy : Indep clearPolicy :=
  indep_onModel fun ρ => .modify fun m _ => ⟨Model.clearPolicy_move ρ m, trivial⟩

theorem indep_loadPolicy : Indep loadPolicy := by
  intro ε
  refine .bind (indep_clearPolicy ε) fun _ => .get fun E hE => ?_
  rw [show (move ε E).adapter = E.adapter from rfl]
  cases ha : E.adapter with
  | none => exact .ub _
  | some a =>
    refine .bind (indep_onAdapter (fun b hb => hb) ε) fun _ =>
      .bind (indep_onModel (hE.1 a ha).load ε) fun _ => .get fun E _ => ?_
    exact .ite (indep_buildRoleLinks ε) (.pure _)

theorem indep_savePolicy (hk : IterOrder.ByKeys ‹_›) : Indep savePolicy := by
  intro ε
  refine .get fun E _ => ?_
  rw [show (move ε E).adapter = E.adapter from rfl]
  cases ha : E.adapter with
  | none => exact .ub _
  | some a =>
    refine .ite (.throw _) (.bind (indep_onModel (fun ρ => .modify fun m _ =>
      ⟨by rw [Model.ensureSec_move, Model.ensureSec_move], trivial⟩) ε) fun _ => .get fun E _ => ?_)
    rw [show (move ε E).model = E.model.move ε.ptr from rfl, savePolicy_move hk]
    exact .bind (indep_onAdapter (fun b hb => hb.save _) ε) fun _ =>
      .modify fun E hE => ⟨rfl, hE⟩

omit [IterOrder] in
theorem indep_autoSaveCall (c : AdapterCall) : Indep (autoSaveCall c) := by
  intro ε
  refine .get fun E _ => ?_
  rw [show (move ε E).adapter = E.adapter from rfl]
  cases E.adapter with
  | none => exact .pure _
  | some a => exact .ite (.catchOnly (indep_onAdapter (fun b hb => hb.edit _) ε)) (.pure _)

omit [IterOrder] in
theorem indep_autoSaveBatch (c : AdapterCall) : Indep (autoSaveBatch c) := by
  intro ε
  refine .get fun E _ => ?_
  rw [show (move ε E).adapter = E.adapter from rfl]
  cases E.adapter with
  | none => exact .pure _
  | some a =>
    exact .ite (.ite (.catchOnly (indep_onAdapter (fun b hb => hb.edit _) ε)) (.ub _)) (.pure _)

omit [IterOrder] in
theorem indep_notify : Indep notify := by
  refine indep_modifyRest (fun ε E => ?_) (fun E hE => ?_) fun E => ?_
  · show (if E.autoNotify = true then _ else _) = _
    split <;> rfl
  · split <;> exact hE
  · split <;> rfl

theorem indep_linkIfG (sec : Str) (op : PolicyOp) (t : Str) (rules : List Rule) :
    Indep (linkIfG sec op t rules) := .ite (indep_buildIncremental op t rules) (indep_pure _)

theorem indep_addPolicyI (sec t : Str) (r : Rule) : Indep (addPolicyI sec t r) :=
  (indep_onModel (Model.blind_addPolicy sec t r)).bind fun _ => .ite (indep_pure _) <|
    (indep_linkIfG _ _ _ _).bind fun _ => (indep_autoSaveCall _).bind fun _ => indep_notify.bind fun _ =>
      indep_pure _

theorem indep_addPoliciesI (sec t : Str) (rs : List Rule) : Indep (addPoliciesI sec t rs) :=
  (indep_onModel (Model.blind_addPolicies sec t rs)).bind fun _ => .ite (indep_pure _) <|
    (indep_linkIfG _ _ _ _).bind fun _ => (indep_autoSaveBatch _).bind fun _ => indep_notify.bind fun _ =>
      indep_pure _

theorem indep_removePolicyI (sec t : Str) (r : Rule) : Indep (removePolicyI sec t r) :=
  (indep_onModel (Model.blind_eraseRule sec t r)).bind fun _ => .ite (indep_pure _) <|
    (indep_linkIfG _ _ _ _).bind fun _ => (indep_autoSaveCall _).bind fun _ => indep_notify.bind fun _ =>
      indep_pure _

theorem indep_removePoliciesI (sec t : Str) (rs : List Rule) : Indep (removePoliciesI sec t rs) :=
  (indep_onModel (Model.blind_addPolicies sec t rs)).bind fun _ => .ite (indep_pure _) <|
    (indep_linkIfG _ _ _ _).bind fun _ => (indep_autoSaveBatch _).bind fun _ => indep_notify.bind fun _ =>
      indep_pure _

theorem indep_removeFilteredI (sec t : Str) (i : Nat) (vs : List Str) :
    Indep (removeFilteredI sec t i vs) :=
  (indep_onModel (Model.blind_removeFilteredPolicy sec t i vs)).bind fun _ => .ite (indep_pure _) <|
    (indep_linkIfG _ _ _ _).bind fun _ => (indep_autoSaveCall _).bind fun _ => indep_notify.bind fun _ =>
      indep_pure _

theorem indep_updatePolicyI (sec t : Str) (o n : Rule) : Indep (updatePolicyI sec t o n) :=
  (indep_onModel (Model.blind_updatePolicy sec t o n)).bind fun _ => .ite (indep_pure _) <|
    (indep_linkIfG _ _ _ _).bind fun _ => (indep_linkIfG _ _ _ _).bind fun _ => indep_notify.bind fun _ =>
      indep_pure _

theorem indep_updatePoliciesI (sec t : Str) (o n : List Rule) : Indep (updatePoliciesI sec t o n) :=
  (indep_onModel (Model.blind_updatePolicies sec t o n)).bind fun _ => .ite (indep_pure _) <|
    (indep_linkIfG _ _ _ _).bind fun _ => (indep_linkIfG _ _ _ _).bind fun _ => indep_notify.bind fun _ =>
      indep_pure _

omit [IterOrder] in
theorem indep_ifAuto {α : Type} {f : M Enforcer Unit} (h : Indep f) (a : α) :
    Indep (do
      let E ← M.get
      if E.autoBuild then f else pure ()
      pure a) := by
  intro ε
  refine .get fun E _ => ?_
  exact .ite (.bind (h ε) fun _ => .pure _) (.pure _)

theorem indep_addNamedGroupingPolicy (t : Str) (r : Rule) : Indep (addNamedGroupingPolicy t r) :=
  (indep_addPolicyI _ _ _).bind fun _ => indep_ifAuto (indep_buildIncremental _ _ _) _

theorem indep_removeNamedGroupingPolicy (t : Str) (r : Rule) : Indep (removeNamedGroupingPolicy t r) :=
  (indep_removePolicyI _ _ _).bind fun _ => indep_ifAuto indep_buildRoleLinks _

theorem indep_removeFilteredNamedGroupingPolicy (t : Str) (i : Nat) (vs : List Str) :
    Indep (removeFilteredNamedGroupingPolicy t i vs) :=
  (indep_removeFilteredI _ _ _ _).bind fun _ => indep_ifAuto indep_buildRoleLinks _

theorem indep_edit (e : Edit) : Indep e.run := by
  cases e with
  | add g t r => cases g; exacts [indep_addPolicyI _ _ _, indep_addNamedGroupingPolicy _ _]
  | addMany g t rs => cases g; exacts [indep_addPoliciesI _ _ _, indep_addPoliciesI _ _ _]
  | remove g t r => cases g; exacts [indep_removePolicyI _ _ _, indep_removeNamedGroupingPolicy _ _]
  | removeMany g t rs => cases g; exacts [indep_removePoliciesI _ _ _, indep_removePoliciesI _ _ _]
  | removeFiltered g t i vs =>
    cases g; exacts [indep_removeFilteredI _ _ _ _, indep_removeFilteredNamedGroupingPolicy _ _ _]
  | update g t o n => cases g; exacts [indep_updatePolicyI _ _ _ _, indep_updatePolicyI _ _ _ _]
  | updateMany t o n => exact indep_updatePoliciesI _ _ _ _

omit [IterOrder] in
theorem evaluator_move (ε : Embedding) (E : Enforcer) :
    (move ε E).evaluator = E.evaluator.move ε.ptr := by
  unfold evaluator
  show (match (if ε.fresh = true then some E.evaluator else E.eval).map (Evaluator.move ε.ptr) with
    | some ev => ev | none => _) = _
  unfold evaluator
  cases ε.fresh <;> cases E.eval <;> rfl

omit [IterOrder] in
theorem sim_runRequest (ε : Embedding) (ex : Rule) {f g : M ReqSt Bool}
    (h : Sim (ReqSt.Fits ε) (ReqSt.move ε) f g) :
    Sim (Fits ε) (move ε) (runRequest ex f) (runRequest ex g) := by
  intro E hE
  obtain ⟨h1, h2⟩ := h ⟨E.evaluator, E.heap, ex⟩ hE.2
  refine ⟨?_, hE.1, h2⟩
  unfold runRequest
  dsimp only
  rw [evaluator_move, show (⟨E.evaluator.move ε.ptr, (move ε E).heap, ex⟩ : ReqSt) =
    ReqSt.move ε ⟨E.evaluator, E.heap, ex⟩ from rfl, h1]
  simp only [move, evaluator, ite_self]
  rfl

theorem indep_enforceEx (hk : IterOrder.ByKeys ‹_›) (lib : ExprLib) (matcher : Str)
    (vals : List ReqVal) (ex : Rule) : Indep (enforceEx lib matcher vals ex) := by
  intro ε
  refine .get fun E _ => ?_
  rw [show (move ε E).model = E.model.move ε.ptr from rfl, Model.find_move]
  cases E.model.find c!"r" c!"r" with
  | none => exact .ub _
  | some r =>
    exact .ite (.pure _) (sim_runRequest ε ex (.bind (sim_onEv ε (sim_pushRequest _ _ _)) fun _ =>
      sim_mEnforce hk lib ε E.model E.enabled matcher))

theorem indep_enforceExMap (hk : IterOrder.ByKeys ‹_›) (lib : ExprLib) (matcher : Str)
    (vals : UMap Str ReqVal) (ex : Rule) : Indep (enforceExMap lib matcher vals ex) := by
  intro ε
  refine .get fun E _ => ?_
  exact sim_runRequest ε ex (.bind (sim_onEv ε (sim_pushMap _ _)) fun _ =>
      sim_mEnforce hk lib ε E.model E.enabled matcher)

theorem indep_enforceWithMatcher (hk : IterOrder.ByKeys ‹_›) (lib : ExprLib) (matcher : Str)
    (vals : List ReqVal) : Indep (enforceWithMatcher lib matcher vals) :=
  (indep_enforceEx hk lib matcher vals []).bind fun _ => indep_pure _

theorem indep_batchEnforce (hk : IterOrder.ByKeys ‹_›) (lib : ExprLib) : ∀ rs : List (List ReqVal),
    Indep (batchEnforce lib rs)
  | [] => indep_pure _
  | r :: rs => (indep_enforceWithMatcher hk lib [] r).bind fun _ =>
      (indep_batchEnforce hk lib rs).bind fun _ => indep_pure _

theorem indep_batchEnforceWithMatcher (hk : IterOrder.ByKeys ‹_›) (lib : ExprLib) (matcher : Str) :
    ∀ rs : List (List ReqVal), Indep (batchEnforceWithMatcher lib matcher rs)
  | [] => indep_pure _
  | r :: rs => (indep_enforceWithMatcher hk lib matcher r).bind fun _ =>
      (indep_batchEnforceWithMatcher hk lib matcher rs).bind fun _ => indep_pure _

omit [IterOrder] in
theorem indep_onGRm {α : Type} (f : M RM α) : Indep (onGRm f) := by
  intro ε
  refine .get fun E _ => ?_
  rw [show (move ε E).model = E.model.move ε.ptr from rfl, Model.find_move]
  cases E.model.find c!"g" c!"g" with
  | none => exact .ub _
  | some a =>
    show Sim (Fits ε) (move ε) (match a.rm with | none => _ | some p => _)
      (match a.rm.map ε.ptr with | none => _ | some p => _)
    cases a.rm with
    | none => exact .ub _
    | some p => exact sim_onRm ε p f

theorem indep_addRolesForUser (u : Str) : ∀ rs : List Str, Indep (addRolesForUser u rs)
  | [] => indep_pure _
  | _ :: rs => (indep_addNamedGroupingPolicy _ _).bind fun _ =>
      (indep_addRolesForUser u rs).bind fun _ => indep_pure _

theorem indep_getFilteredPolicy (i : Nat) (vs : List Str) : Indep (getFilteredPolicy i vs) :=
  indep_onModel (Model.blind_getFilteredPolicy _ _ _ _)

theorem indep_implicitPermLoop (d : List Str) : ∀ rs : List Str, Indep (implicitPermLoop d rs)
  | [] => indep_pure _
  | r :: rs => by
    unfold implicitPermLoop
    have h1 : ∀ vs : List Str, Indep (getFilteredPolicy 0 vs >>= fun perms =>
        implicitPermLoop d rs >>= fun rest => pure (perms.items ++ rest)) := fun vs =>
      (indep_getFilteredPolicy 0 vs).bind fun _ =>
        (indep_implicitPermLoop d rs).bind fun _ => indep_pure _
    split
    · exact h1 _
    · exact h1 _

theorem indep_getImplicitPermissionsForUser (u : Str) (d : List Str) :
    Indep (getImplicitPermissionsForUser u d) :=
  (indep_ownRm _).bind fun _ => .ite (fun _ => .throw _) (indep_implicitPermLoop d _)

theorem indep_implicitUsersLoop (hk : IterOrder.ByKeys ‹_›) (lib : ExprLib) (perm : List Str) :
    ∀ ss : List Str, Indep (implicitUsersLoop lib perm ss)
  | [] => indep_pure _
  | _ :: ss => (indep_lift _).bind fun _ => (indep_lift _).bind fun _ =>
      (indep_enforceWithMatcher hk lib [] _).bind fun _ =>
        (indep_implicitUsersLoop hk lib perm ss).bind fun _ => indep_pure _

theorem indep_getImplicitUsersForPermission (hk : IterOrder.ByKeys ‹_›) (lib : ExprLib)
    (perm : List Str) : Indep (getImplicitUsersForPermission lib perm) :=
  (indep_onModel (Model.blind_getValuesForFieldAllTypes _ _)).bind fun _ =>
    (indep_onModel (Model.blind_getValuesForFieldAllTypes _ _)).bind fun _ =>
      (indep_onModel (Model.blind_getValuesForFieldAllTypes _ _)).bind fun _ =>
        (indep_implicitUsersLoop hk lib perm _).bind fun _ => indep_pure _

omit [IterOrder] in
theorem indep_addNamedMatchingFunc (f : Str → Str → Bool) : Indep (addNamedMatchingFunc f) := fun ε =>
  .get fun E _ => .bind (sim_onRm ε E.rm _) fun _ => .pure _

end Enforcer
end Casbin
