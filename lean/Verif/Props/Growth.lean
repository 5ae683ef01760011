import Verif.GrowthLemmas
import Verif.StdLib
import Verif.Fixtures
import Verif.RoleManagerLemmas

/-!
# C145: what an enforcer keeps of its requests
-/

namespace Casbin
namespace Custom
namespace Growth

open CallSt

variable [IterOrder]

/-- The evaluator with `Functions` and the one without. -/
def Under (a : Obj) (b : LibObj) : Prop := a.1 = b

omit [IterOrder] in
theorem under_onLib {α : Type} (f : M LibObj α) : Alike Under (onLib f) f := by
  intro a b h
  cases h
  exact ⟨rfl, rfl⟩

omit [IterOrder] in
theorem under_addFunction (name : Str) (f : FunRef) :
    Alike Under (addFunction name f) (onEv (Evaluator.addFunction name f)) := by
  intro a b h
  cases h
  exact ⟨rfl, rfl⟩

omit [IterOrder] in
theorem onEv_bind {α β : Type} (f : M Evaluator α) (g : α → M Evaluator β) :
    onEv (f >>= g) = onEv f >>= fun a => onEv (g a) := by
  funext s
  simp only [onEv, M.bind_run]
  cases h : (f s.1).1 <;> rcases hf : f s.1 with ⟨o, s1⟩ <;> rw [hf] at h <;>
    simp only at h <;> subst h <;> rfl

omit [IterOrder] in
theorem under_addFunctions (fs : List (Str × FunRef)) :
    Alike Under (addFunctions fs) (onEv (Evaluator.addFunctions fs)) := by
  induction fs with
  | nil => exact fun a b h => ⟨rfl, h⟩
  | cons nf fs ih =>
    obtain ⟨n, f⟩ := nf
    simp only [addFunctions, Evaluator.addFunctions, onEv_bind]
    exact Alike.bind (under_addFunction n f) fun _ => ih

theorem under_exprtk (lib : ExprLib) : EvalAlike Under (exprtk lib) (Custom.exprtk lib) where
  eval _ := under_onLib _
  initialObject _ := under_onLib _
  pushString _ _ _ := under_onLib _
  loadFunctions := under_addFunctions _
  loadG _ name _ := under_addFunction name _
  isBool := under_onLib _
  getBoolean := under_onLib _
  getFloat := under_onLib _
  clean := under_onLib _
  requestValues := under_onLib _

theorem alike_serve {σ τ : Type} {R : σ → τ → Prop} {ev : EvalImpl σ} {ev' : EvalImpl τ}
    {ef : EffImpl σ} {ef' : EffImpl τ} (H : EvalAlike R ev ev') (G : EffAlike R ef ef') (m : Model)
    (enabled : Bool) (q : Ask) :
    Alike (Both R) (serve ev ef m enabled q) (serve ev' ef' m enabled q) := by
  have hp : ∀ l, Alike R (pushAll ev l) (pushAll ev' l) := by
    intro l
    induction l with
    | nil => exact Alike.pure _
    | cons kv l ih => exact Alike.bind (H.pushString _ _ _) fun _ => ih
  exact Alike.bind (H.initialObject _).on fun _ => Alike.bind (hp _).on fun _ =>
    alike_mEnforce H G m enabled q.matcher

/-- **C145 (the same answers).** The evaluator with the vector `Functions` answers every series of
requests as the evaluator of the other properties, and ends with the same tables. -/
theorem C145_same (lib : ExprLib) (m : Model) (enabled : Bool) (qs : List Ask) (s : LibObj)
    (held : List FunRef) (x : Rule) :
    (serveAll (exprtk lib) default m enabled qs { obj := (s, held), explain := x }).1 =
      (serveAll (Custom.exprtk lib) default m enabled qs { obj := s, explain := x }).1 ∧
    (serveAll (exprtk lib) default m enabled qs { obj := (s, held), explain := x }).2.obj.1 =
      (serveAll (Custom.exprtk lib) default m enabled qs { obj := s, explain := x }).2.obj := by
  have h : ∀ (qs : List Ask) (a : CallSt Obj) (b : CallSt LibObj), Both Under a b →
      (serveAll (exprtk lib) default m enabled qs a).1 =
        (serveAll (Custom.exprtk lib) default m enabled qs b).1 ∧
      Both Under (serveAll (exprtk lib) default m enabled qs a).2
        (serveAll (Custom.exprtk lib) default m enabled qs b).2 := by
    intro qs
    induction qs with
    | nil => intro a b h; exact ⟨rfl, h⟩
    | cons q qs ih =>
      intro a b h
      obtain ⟨h1, h2⟩ := alike_serve (under_exprtk lib) alike_default m enabled q a b h
      obtain ⟨h3, h4⟩ := ih _ _ h2
      exact ⟨by simp only [serveAll, h1, h3], h4⟩
  obtain ⟨h1, h2⟩ := h qs { obj := (s, held), explain := x } { obj := s, explain := x } ⟨rfl, rfl⟩
  exact ⟨h1, h2.1⟩

/-- The names of the fields of the request can be entered into the symbol table. -/
def Ask.Plain (q : Ask) : Prop :=
  ∀ kv ∈ q.fields, Evaluator.validSymbol (c!"r." ++ kv.1) = true

omit [IterOrder] in
theorem addFunctions_held (fs : List (Str × FunRef)) (s : Obj) :
    ∃ t, addFunctions fs s = (.ok (), t) ∧ t.2 = s.2 ++ fs.map Prod.snd := by
  induction fs generalizing s with
  | nil => exact ⟨s, rfl, by simp⟩
  | cons nf fs ih =>
    obtain ⟨n, f⟩ := nf
    obtain ⟨t1, h1, e1⟩ : ∃ t1, addFunction n f s = (.ok (), t1) ∧ t1.2 = s.2 ++ [f] :=
      ⟨_, rfl, rfl⟩
    obtain ⟨t, h, e⟩ := ih t1
    exact ⟨t, by simp only [addFunctions, M.bind_run, h1, h], by rw [e, e1]; simp⟩

theorem loadGs_held (lib : ExprLib) (l : List (Str × Assertion)) (s : Obj) :
    ∃ t, loadGs (exprtk lib) l s = (.ok (), t) ∧
      t.2 = s.2 ++ l.map fun ka => .g ka.2.rm (countChar '_' ka.2.value) := by
  induction l generalizing s with
  | nil => exact ⟨s, rfl, by simp⟩
  | cons ka l ih =>
    obtain ⟨n, a⟩ := ka
    obtain ⟨t1, h1, e1⟩ : ∃ t1, (exprtk lib).loadG a.rm n (countChar '_' a.value) s = (.ok (), t1) ∧
        t1.2 = s.2 ++ [.g a.rm (countChar '_' a.value)] := ⟨_, rfl, rfl⟩
    obtain ⟨t, h, e⟩ := ih t1
    exact ⟨t, by simp only [loadGs, M.bind_run, h1, h], by rw [e, e1]; simp⟩

omit [IterOrder] in
theorem keeps_held {α : Type} (l : List FunRef) (f : M LibObj α) :
    Keeps (fun s : Obj => s.2 = l) (onLib f) := fun _ h => h

theorem keepsEv_held (lib : ExprLib) (l : List FunRef) (tokens : List Str) :
    KeepsEv (fun s : Obj => s.2 = l) (exprtk lib) tokens where
  eval _ := keeps_held l _
  initialObject _ := keeps_held l _
  pushString _ _ _ := keeps_held l _
  isBool := keeps_held l _
  getBoolean := keeps_held l _
  getFloat := keeps_held l _
  clean := keeps_held l _
  requestValues := keeps_held l _

omit [IterOrder] in
theorem keeps_default {σ : Type} (P : σ → Prop) (x : Str) (es : List Effect) (ms : List Bool)
    (i n : Nat) : Keeps P ((default : EffImpl σ).merge x es ms i n) :=
  Keeps.bind (Keeps.lift _) fun _ => Keeps.pure _

theorem pushAll_plain (lib : ExprLib) (l : List (Str × Str))
    (h : ∀ kv ∈ l, Evaluator.validSymbol (c!"r." ++ kv.1) = true) (s : Obj) :
    ∃ t, pushAll (exprtk lib) l s = (.ok (), t) ∧ t.2 = s.2 := by
  induction l generalizing s with
  | nil => exact ⟨s, rfl, rfl⟩
  | cons kv l ih =>
    obtain ⟨k, v⟩ := kv
    have hv : Evaluator.validSymbol (c!"r" ++ c!"." ++ k) = true := h (k, v) (by simp)
    obtain ⟨t1, h1, e1⟩ : ∃ t1, (exprtk lib).pushString c!"r" k v s = (.ok (), t1) ∧
        t1.2 = s.2 := by
      refine ⟨((exprtk lib).pushString c!"r" k v s).2, ?_, rfl⟩
      refine Prod.ext ?_ rfl
      show (Evaluator.addIdentifier (c!"r" ++ c!"." ++ k) v s.1.1).1 = .ok ()
      simp only [Evaluator.addIdentifier, hv, if_true]
      split <;> rfl
    obtain ⟨t, h2, e2⟩ := ih (fun kv hkv => h kv (by simp [hkv])) t1
    exact ⟨t, by simp only [pushAll, M.bind_run, h1, h2], by rw [e2, e1]⟩

/-- The objects one request adds to `Functions`. -/
def added (m : Model) : List FunRef :=
  Evaluator.builtins.map Prod.snd ++
    (IterOrder.iter (m.secMap c!"g")).map fun ka => .g ka.2.rm (countChar '_' ka.2.value)

theorem added_length (m : Model) : (added m).length = 9 + (m.secMap c!"g").length := by
  simp only [added, List.length_append, List.length_map, (IterOrder.iter_perm _).length_eq]
  rfl

theorem serve_held (lib : ExprLib) (m : Model) (q : Ask) (hq : q.Plain) (s : CallSt Obj) :
    (serve (exprtk lib) default m true q s).2.obj.2 = s.obj.2 ++ added m := by
  obtain ⟨t0, h0, e0⟩ := pushAll_plain lib q.fields hq s.obj
  obtain ⟨t1, h1, e1⟩ := addFunctions_held Evaluator.builtins t0
  obtain ⟨t2, h2, e2⟩ := loadGs_held lib (IterOrder.iter (m.secMap c!"g")) t1
  have hi : on ((exprtk lib).initialObject c!"r") s = (.ok (), s) := rfl
  have hp : on (pushAll (exprtk lib) q.fields) s = (.ok (), { s with obj := t0 }) := by
    simp only [on, h0]
  simp only [serve, M.bind_run, hi, hp]
  refine mEnforce_keeps (P := fun o : Obj => o.2 = s.obj.2 ++ added m) m
    (fun p _ => keepsEv_held lib _ p.tokens) (keeps_held _ _) (keeps_default _) q.matcher _ t1 t2 h1
    h2 ?_
  rw [e2, e1, e0, added, List.append_assoc]

/-- **C145 (growth).** Every request to an enabled enforcer, whatever its answer, leaves nine function
objects more in the evaluator, and one more for each grouping type: after `n` requests they are
`n * (9 + g)` more. -/
theorem C145_growth (lib : ExprLib) (m : Model) (qs : List Ask) (hq : ∀ q ∈ qs, q.Plain)
    (s : CallSt Obj) :
    (serveAll (exprtk lib) default m true qs s).2.obj.2.length =
      s.obj.2.length + qs.length * (9 + (m.secMap c!"g").length) := by
  induction qs generalizing s with
  | nil => simp [serveAll]
  | cons q qs ih =>
    simp only [serveAll]
    rw [ih (fun q' h => hq q' (by simp [h])), serve_held lib m q (hq q (by simp))]
    simp only [List.length_append, added_length, List.length_cons, Nat.add_mul, Nat.one_mul]
    omega

/-- **C145 (fails).** There is no bound on what the evaluator keeps: for every number there is a series
of equal requests after which it holds more function objects than that. -/
theorem C145_fails (lib : ExprLib) (m : Model) (q : Ask) (hq : q.Plain) (s : CallSt Obj)
    (bound : Nat) : ∃ n, bound < (serveAll (exprtk lib) default m true (List.replicate n q) s).2.obj.2.length := by
  refine ⟨bound + 1, ?_⟩
  rw [C145_growth lib m _ (fun q' h => by rw [List.eq_of_mem_replicate h]; exact hq) s,
    List.length_replicate, Nat.mul_add]
  omega

/-- The tables of an evaluator hold names of these lists only, each once. -/
structure Within (V F : List Str) (ev : Evaluator) : Prop where
  vars : ev.vars.keys.Nodup ∧ ∀ x ∈ ev.vars.keys, x ∈ V
  funs : ev.funs.keys.Nodup ∧ ∀ x ∈ ev.funs.keys, x ∈ F
  names : ev.names.length = ev.vars.length

omit [IterOrder] in
theorem within_addIdentifier {V F : List Str} {x : Str} (hx : lower x ∈ V) (v : Str) :
    Keeps (Within V F) (Evaluator.addIdentifier x v) := by
  intro ev h
  have hlen : ∀ m : UMap Str Str, m.length = m.keys.length := fun m => by simp [UMap.keys]
  have hset : ∀ m : UMap Str Str, (∀ y ∈ m.keys, y ∈ V) → ∀ y ∈ (m.set (lower x) v).keys, y ∈ V := by
    intro m hm y hy
    rcases (UMap.mem_keys_set m (lower x) y v).mp hy with rfl | hy
    · exact hx
    · exact hm y hy
  simp only [Evaluator.addIdentifier]
  by_cases hh : ev.vars.has (lower x) = true
  · rw [if_pos hh]
    refine ⟨⟨UMap.nodup_keys_set h.vars.1 _ _, hset _ h.vars.2⟩, h.funs, ?_⟩
    have := h.names
    rw [hlen] at this ⊢
    rw [this, UMap.keys_set, if_pos ((UMap.has_iff _ _).mp hh)]
  · rw [if_neg hh]
    by_cases hv : Evaluator.validSymbol x = true
    · rw [if_pos hv]
      refine ⟨⟨UMap.nodup_keys_set h.vars.1 _ _, hset _ h.vars.2⟩, h.funs, ?_⟩
      have := h.names
      rw [hlen] at this ⊢
      rw [UMap.keys_set, if_neg (fun hm => hh ((UMap.has_iff _ _).mpr hm))]
      simp [this]
    · rw [if_neg hv]; exact h

omit [IterOrder] in
theorem within_addFunction {V F : List Str} {name : Str} (hx : lower name ∈ F) (f : FunRef) :
    Keeps (Within V F) (Evaluator.addFunction name f) := by
  intro ev h
  simp only [Evaluator.addFunction, M.modify_run]
  split
  · exact h
  · refine ⟨h.vars, ⟨UMap.nodup_keys_set h.funs.1 _ _, ?_⟩, h.names⟩
    intro y hy
    rcases (UMap.mem_keys_set ev.funs (lower name) y f).mp hy with rfl | hy
    · exact hx
    · exact h.funs.2 y hy

omit [IterOrder] in
theorem within_eval (lib : ExprLib) {V F : List Str} (text : Str) :
    Keeps (Within V F) (Evaluator.eval lib text) := by
  intro ev h
  simp only [Evaluator.eval]
  split
  · split <;> exact ⟨h.vars, h.funs, h.names⟩
  · exact h

omit [IterOrder] in
theorem keeps_onEv {α : Type} {Q : Evaluator → Prop} {f : M Evaluator α} (h : Keeps Q f) :
    Keeps (fun s : LibObj => Q s.1) (onEv f) := fun s hs => h s.1 hs

theorem keeps_exprValue (lib : ExprLib) {Q : Evaluator → Prop} :
    Keeps (fun s : LibObj => Q s.1) (Custom.exprValue lib) := by
  intro s hs
  simp only [Custom.exprValue]
  cases h : s.1.compiled <;> exact hs

/-- The names a request can enter into the tables. -/
def varNames (m : Model) (fields : List Str) : List Str :=
  (fields.map fun k => lower (c!"r." ++ k)) ++
    match m.find c!"p" c!"p" with
    | some p => p.tokens.map fun t => lower (c!"p." ++ tokenName t)
    | none => []

def funNames (m : Model) : List Str :=
  (Evaluator.builtins.map fun nf => lower nf.1) ++ (m.secMap c!"g").map fun ka => lower ka.1

theorem keepsEv_within (lib : ExprLib) (m : Model) (fields : List Str) (p : Assertion)
    (hp : m.find c!"p" c!"p" = some p) :
    KeepsEv (fun s : LibObj => Within (varNames m fields) (funNames m) s.1) (Custom.exprtk lib)
      p.tokens where
  eval text := keeps_onEv (within_eval lib text)
  initialObject _ := Keeps.pure _
  pushString t ht v := by
    refine keeps_onEv (within_addIdentifier ?_ v)
    simp only [varNames, hp]
    exact List.mem_append_right _ (List.mem_map.mpr ⟨t, ht, rfl⟩)
  isBool := by
    refine Keeps.bind (fun s hs => hs) fun s => ?_
    exact Keeps.ite _ (Keeps.throw _) (Keeps.bind (keeps_exprValue lib) fun _ =>
      Keeps.ite _ (Keeps.pure _) (Keeps.bind (keeps_exprValue lib) fun _ => Keeps.pure _))
  getBoolean := Keeps.bind (keeps_exprValue lib) fun _ => Keeps.pure _
  getFloat := Keeps.bind (keeps_exprValue lib) fun _ => Keeps.pure _
  clean := Keeps.pure _
  requestValues := fun _ h => h

omit [IterOrder] in
theorem addFunctions_within {V F : List Str} (fs : List (Str × FunRef))
    (h : ∀ nf ∈ fs, lower nf.1 ∈ F) : Keeps (Within V F) (Evaluator.addFunctions fs) := by
  induction fs with
  | nil => exact Keeps.pure _
  | cons nf fs ih =>
    exact Keeps.bind (within_addFunction (h nf (by simp)) _) fun _ =>
      ih fun nf' hnf => h nf' (by simp [hnf])

omit [IterOrder] in
theorem addFunctions_ok (fs : List (Str × FunRef)) (ev : Evaluator) :
    (Evaluator.addFunctions fs ev).1 = .ok () := by
  induction fs generalizing ev with
  | nil => rfl
  | cons nf fs ih =>
    simp only [Evaluator.addFunctions, M.bind_run, Evaluator.addFunction, M.modify_run]
    exact ih _

theorem loadGs_within (lib : ExprLib) {V F : List Str} (l : List (Str × Assertion))
    (h : ∀ ka ∈ l, lower ka.1 ∈ F) (s : LibObj) (hs : Within V F s.1) :
    ∃ t, loadGs (Custom.exprtk lib) l s = (.ok (), t) ∧ Within V F t.1 := by
  induction l generalizing s with
  | nil => exact ⟨s, rfl, hs⟩
  | cons ka l ih =>
    obtain ⟨n, a⟩ := ka
    have h1 := within_addFunction (V := V) (h (n, a) (by simp)) (.g a.rm (countChar '_' a.value))
      s.1 hs
    obtain ⟨t, h2, e2⟩ := ih (fun ka hka => h ka (by simp [hka]))
      ((Custom.exprtk lib).loadG a.rm n (countChar '_' a.value) s).2 h1
    refine ⟨t, ?_, e2⟩
    have h3 : (Custom.exprtk lib).loadG a.rm n (countChar '_' a.value) s =
        (.ok (), ((Custom.exprtk lib).loadG a.rm n (countChar '_' a.value) s).2) := rfl
    simp only [loadGs, M.bind_run]
    rw [h3]
    exact h2

theorem serve_within (lib : ExprLib) (m : Model) (enabled : Bool) (fields : List Str) (q : Ask)
    (hq : ∀ kv ∈ q.fields, kv.1 ∈ fields) :
    Keeps (fun s : CallSt LibObj => Within (varNames m fields) (funNames m) s.obj.1)
      (serve (Custom.exprtk lib) default m enabled q) := by
  have hpush : ∀ l : List (Str × Str), (∀ kv ∈ l, kv.1 ∈ fields) →
      Keeps (fun s : LibObj => Within (varNames m fields) (funNames m) s.1)
        (pushAll (Custom.exprtk lib) l) := by
    intro l
    induction l with
    | nil => intro _; exact Keeps.pure _
    | cons kv l ih =>
      intro h
      refine Keeps.bind (keeps_onEv (within_addIdentifier ?_ _)) fun _ =>
        ih fun kv' hkv => h kv' (by simp [hkv])
      exact List.mem_append_left _ (List.mem_map.mpr ⟨kv.1, h kv (by simp), rfl⟩)
  refine Keeps.bind (Keeps.pure _) fun _ => Keeps.bind (hpush _ hq).on fun _ => ?_
  intro s hs
  cases enabled with
  | false => exact hs
  | true =>
    obtain ⟨t1, h3, h1⟩ : ∃ t1, (Custom.exprtk lib).loadFunctions s.obj = (.ok (), t1) ∧
        Within (varNames m fields) (funNames m) t1.1 := by
      have hk := keeps_onEv (addFunctions_within (V := varNames m fields) (F := funNames m)
        Evaluator.builtins (fun nf hnf => List.mem_append_left _
          (List.mem_map.mpr ⟨nf, hnf, rfl⟩))) s.obj hs
      have ho : (onEv (Evaluator.addFunctions Evaluator.builtins) s.obj).1 = .ok () :=
        addFunctions_ok _ _
      have hl : (Custom.exprtk lib).loadFunctions =
        onEv (Evaluator.addFunctions Evaluator.builtins) := rfl
      rw [hl]
      generalize onEv (Evaluator.addFunctions Evaluator.builtins) s.obj = r at hk ho
      obtain ⟨o, t1⟩ := r
      cases ho
      exact ⟨t1, rfl, hk⟩
    obtain ⟨t2, h2, e2⟩ := loadGs_within lib (IterOrder.iter (m.secMap c!"g"))
      (fun ka hka => List.mem_append_right _
        (List.mem_map.mpr ⟨ka, (IterOrder.iter_perm _).mem_iff.mp hka, rfl⟩)) t1 h1
    have hreq : Keeps (fun s : LibObj => Within (varNames m fields) (funNames m) s.1)
        (Custom.exprtk lib).requestValues := fun _ h => h
    exact mEnforce_keeps (P := fun s : LibObj => Within (varNames m fields) (funNames m) s.1) m
      (fun p hp => keepsEv_within lib m fields p hp) hreq (keeps_default _) q.matcher s t1 t2 h3
      h2 e2

/-- **C145 (partial: the tables).** The symbol table does not grow: however many requests are served,
with fields of the given names, the variables are at most those fields and the fields of the
policy definition, and the functions at most the nine and the grouping types. -/
theorem C145_tables_partial (lib : ExprLib) (m : Model) (enabled : Bool) (fields : List Str)
    (qs : List Ask) (hq : ∀ q ∈ qs, ∀ kv ∈ q.fields, kv.1 ∈ fields) (heap : List RM) (x : Rule) :
    let ev := (serveAll (Custom.exprtk lib) default m enabled qs
      { obj := (Evaluator.new, heap), explain := x }).2.obj.1
    ev.vars.length ≤ (varNames m fields).length ∧ ev.names.length ≤ (varNames m fields).length ∧
      ev.funs.length ≤ 9 + (m.secMap c!"g").length := by
  have hkeep : ∀ (qs : List Ask), (∀ q ∈ qs, ∀ kv ∈ q.fields, kv.1 ∈ fields) → ∀ s : CallSt LibObj,
      Within (varNames m fields) (funNames m) s.obj.1 → Within (varNames m fields) (funNames m)
        (serveAll (Custom.exprtk lib) default m enabled qs s).2.obj.1 := by
    intro qs
    induction qs with
    | nil => intro _ s h; exact h
    | cons q qs ih =>
      intro hq s h
      exact ih (fun q' h' => hq q' (by simp [h'])) _
        (serve_within lib m enabled fields q (hq q (by simp)) s h)
  have h := hkeep qs hq { obj := (Evaluator.new, heap), explain := x }
    ⟨⟨List.nodup_nil, by simp [Evaluator.new]⟩, ⟨List.nodup_nil, by simp [Evaluator.new]⟩, rfl⟩
  intro ev
  have hv : ev.vars.length ≤ (varNames m fields).length := by
    have := (List.subperm_of_subset h.vars.1 h.vars.2).length_le
    simpa [UMap.keys] using this
  refine ⟨hv, by rw [show ev.names.length = ev.vars.length from h.names]; exact hv, ?_⟩
  have := (List.subperm_of_subset h.funs.1 h.funs.2).length_le
  have hl : (funNames m).length = 9 + (m.secMap c!"g").length := by
    simp only [funNames, List.length_append, List.length_map]
    rfl
  rw [hl] at this
  simpa [UMap.keys] using this

open Fixtures

/-- The request of `alice`. -/
def askAlice : Ask :=
  { matcher := [], fields := [(c!"sub", c!"alice"), (c!"obj", c!"data1"), (c!"act", c!"read")] }

omit [IterOrder] in
theorem plain_alice : askAlice.Plain := by
  intro kv h
  simp only [askAlice, List.mem_cons, List.not_mem_nil, or_false] at h
  rcases h with rfl | rfl | rfl <;> decide

/-- A thousand requests to the model with roles leave ten thousand function objects. -/
example (lib : ExprLib) (s : LibObj) :
    (serveAll (exprtk lib) default (rbacModel [alice] []) true (List.replicate 1000 askAlice)
      { obj := (s, []), explain := [] }).2.obj.2.length = 10000 := by
  rw [C145_growth lib _ _ (fun q h => by rw [List.eq_of_mem_replicate h]; exact plain_alice)]
  simp only [List.length_replicate]
  rfl

/-- And six variables. -/
example (lib : ExprLib) (n : Nat) (heap : List RM) :
    (serveAll (Custom.exprtk lib) default (rbacModel [alice] []) true (List.replicate n askAlice)
      { obj := (Evaluator.new, heap), explain := [] }).2.obj.1.vars.length ≤ 6 :=
  (C145_tables_partial lib (rbacModel [alice] []) true [c!"sub", c!"obj", c!"act"]
    (List.replicate n askAlice) (fun q h kv hkv => by
      rw [List.eq_of_mem_replicate h] at hkv
      simp only [askAlice, List.mem_cons, List.not_mem_nil, or_false] at hkv
      rcases hkv with rfl | rfl | rfl <;> simp) heap []).1

end Growth
end Custom
end Casbin
