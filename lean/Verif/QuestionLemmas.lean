import Verif.GrowthLemmas
import Verif.SectionLemmas
import Verif.Calls

/-!
# What a question leaves as it is

Helper lemmas for `Props/Questions`.
-/

namespace Casbin
namespace Custom
namespace Questions

open Growth CallSt

/-! ### Role managers -/

/-- A property of role managers that entering a name that is known keeps. -/
def Closed [IterOrder] (P : RM → Prop) : Prop :=
  ∀ rm n, rm.hasRole n = true → P rm → P (rm.createRole n)

variable [IterOrder]

theorem closed_hasLink {P : RM → Prop} (h : Closed P) (a b : Str) (d : List Str) :
    Keeps P (RM.hasLink a b d) := by
  unfold RM.hasLink
  refine Keeps.bind (Keeps.lift _) fun n1 => Keeps.bind (Keeps.lift _) fun n2 => ?_
  refine Keeps.ite _ (Keeps.pure _) fun rm hP => ?_
  simp only [M.bind_run, M.get_run]
  by_cases hk : (!rm.hasRole n1 || !rm.hasRole n2) = true
  · rw [if_pos hk]
    exact hP
  · rw [if_neg hk]
    have h1 : rm.hasRole n1 = true := by
      cases hr : rm.hasRole n1
      · exact absurd (by simp [hr]) hk
      · rfl
    exact h rm n1 h1 hP

theorem closed_getRoles {P : RM → Prop} (h : Closed P) (a : Str) (d : List Str) :
    Keeps P (RM.getRoles a d) := by
  unfold RM.getRoles
  refine Keeps.bind (Keeps.lift _) fun n rm hP => ?_
  simp only [M.bind_run, M.get_run]
  cases hk : rm.hasRole n
  · simpa using hP
  · simp only [Bool.not_true, Bool.false_eq_true, if_false]
    have := h rm n hk hP
    simp only [M.bind_run, M.modify_run, M.get_run]
    exact Keeps.lift _ _ this

theorem closed_getUsers (P : RM → Prop) (a : Str) (d : List Str) : Keeps P (RM.getUsers a d) := by
  unfold RM.getUsers
  refine Keeps.bind (Keeps.lift _) fun n rm hP => ?_
  simp only [M.bind_run, M.get_run]
  cases rm.hasRole n
  · exact hP
  · exact Keeps.lift _ rm hP

theorem closed_implicitLoop {P : RM → Prop} (h : Closed P) (d : List Str) :
    ∀ fuel seen q, Keeps P (Enforcer.implicitLoop d fuel seen q)
  | _, _, [] => by unfold Enforcer.implicitLoop; exact Keeps.pure _
  | 0, _, _ :: _ => Keeps.ub _
  | fuel + 1, _, _ :: _ => by
    unfold Enforcer.implicitLoop
    exact Keeps.bind (closed_getRoles h _ _) fun _ =>
      Keeps.bind (closed_implicitLoop h d fuel _ _) fun _ => Keeps.pure _

/-- The role managers at their places have the properties, and there are `n` of them. -/
def All (P : Nat → RM → Prop) (n : Nat) (h : List RM) : Prop :=
  h.length = n ∧ ∀ p R, h[p]? = some R → P p R

omit [IterOrder] in
theorem keeps_onHeap {α : Type} {P : Nat → RM → Prop} {n : Nat} (p : Nat) {f : M RM α}
    (hf : Keeps (P p) f) : Keeps (All P n) (onHeap p f) := by
  intro h hh
  unfold onHeap
  split
  · exact hh
  · rename_i rm hrm
    refine ⟨by simpa using hh.1, fun q R hq => ?_⟩
    simp only [List.getElem?_set] at hq
    split at hq
    · rename_i he
      subst he
      split at hq
      · cases hq
        exact hf _ (hh.2 _ _ hrm)
      · cases hq
    · exact hh.2 _ _ hq

variable {P : Nat → RM → Prop} {n : Nat}

theorem keeps_callFun (hP : ∀ p, Closed (P p)) (lib : ExprLib) (f : FunRef) (args : List Val) :
    Keeps (All P n) (callFun lib f args) := by
  cases f with
  | builtin b =>
    simp only [callFun]
    split
    · exact Keeps.pure _
    · split
      · exact Keeps.pure _
      · exact Keeps.lift _
  | g rm k =>
    simp only [callFun]
    split
    · split
      · exact Keeps.pure _
      · exact Keeps.bind (keeps_onHeap _ (closed_hasLink (hP _) _ _ _)) fun _ => Keeps.pure _
    · split
      · exact Keeps.pure _
      · exact Keeps.bind (keeps_onHeap _ (closed_hasLink (hP _) _ _ _)) fun _ => Keeps.pure _
    · exact Keeps.pure _

mutual
theorem keeps_evalExpr (hP : ∀ p, Closed (P p)) (lib : ExprLib) (vars : UMap Str Str)
    (funs : UMap Str FunRef) : ∀ e, Keeps (All P n) (evalExpr lib vars funs e)
  | .str _ => by simp only [evalExpr]; exact Keeps.pure _
  | .num _ => by simp only [evalExpr]; exact Keeps.pure _
  | .var x => by
    simp only [evalExpr]
    split
    · exact Keeps.pure _
    · exact Keeps.ub _
  | .call f args => by
    simp only [evalExpr]
    refine Keeps.bind (keeps_evalArgs hP lib vars funs args) fun vs => ?_
    split
    · exact keeps_callFun hP lib _ _
    · exact Keeps.ub _
  | .op o args => by
    simp only [evalExpr]
    exact Keeps.bind (keeps_evalArgs hP lib vars funs args) fun vs => Keeps.pure _

theorem keeps_evalArgs (hP : ∀ p, Closed (P p)) (lib : ExprLib) (vars : UMap Str Str)
    (funs : UMap Str FunRef) : ∀ es, Keeps (All P n) (evalArgs lib vars funs es)
  | [] => by simp only [evalArgs]; exact Keeps.pure _
  | e :: es => by
    simp only [evalArgs]
    exact Keeps.bind (keeps_evalExpr hP lib vars funs e) fun _ =>
      Keeps.bind (keeps_evalArgs hP lib vars funs es) fun _ => Keeps.pure _
end

/-! ### A request -/

omit [IterOrder] in
theorem keeps_onEv {α : Type} {Q : List RM → Prop} (f : M Evaluator α) :
    Keeps (fun s : LibObj => Q s.2) (onEv f) := fun _ h => h

theorem keeps_exprValue (hP : ∀ p, Closed (P p)) (lib : ExprLib) :
    Keeps (fun s : LibObj => All P n s.2) (Custom.exprValue lib) := by
  intro s hs
  unfold Custom.exprValue
  split
  · exact hs
  · exact keeps_evalExpr hP lib _ _ _ _ hs

theorem keeps_exprtk (hP : ∀ p, Closed (P p)) (lib : ExprLib) (tokens : List Str) :
    KeepsEv (fun s : LibObj => All P n s.2) (exprtk lib) tokens where
  eval _ := keeps_onEv _
  initialObject _ := Keeps.pure _
  pushString _ _ _ := keeps_onEv _
  isBool := by
    have hv := keeps_exprValue (n := n) hP lib
    intro s hs
    simp only [exprtk, M.bind_run, M.get_run]
    split
    · exact hs
    · exact Keeps.bind hv (fun _ => Keeps.ite _ (Keeps.pure _) (Keeps.bind hv fun _ => Keeps.pure _)) s hs
  getBoolean := Keeps.bind (keeps_exprValue hP lib) fun _ => Keeps.pure _
  getFloat := Keeps.bind (keeps_exprValue hP lib) fun _ => Keeps.pure _
  clean := Keeps.pure _
  requestValues := fun _ h => h

omit [IterOrder] in
theorem keeps_loadGs {σ : Type} {Q : σ → Prop} {ev : EvalImpl σ}
    (h : ∀ rm name k, Keeps Q (ev.loadG rm name k)) : ∀ gs, Keeps Q (loadGs ev gs)
  | [] => Keeps.pure _
  | (_, _) :: rest => Keeps.bind (h _ _ _) fun _ => keeps_loadGs h rest

/-- A request keeps what all methods of the evaluator and the effector keep. -/
theorem keeps_mEnforce {σ : Type} {Q : σ → Prop} {ev : EvalImpl σ} {ef : EffImpl σ}
    (H : ∀ tokens, KeepsEv Q ev tokens) (hl : Keeps Q ev.loadFunctions)
    (hg : ∀ rm name k, Keeps Q (ev.loadG rm name k))
    (G : ∀ x es ms i n, Keeps Q (ef.merge x es ms i n)) (m : Model) (enabled : Bool)
    (matcher : Str) : Keeps (fun s : CallSt σ => Q s.obj) (mEnforce ev ef m enabled matcher) := by
  intro s hs
  cases enabled with
  | false => exact hs
  | true =>
    cases h1 : ev.loadFunctions s.obj with
    | mk o t1 =>
      have hq1 := hl _ hs
      rw [h1] at hq1
      cases o with
      | ok u =>
        cases h2 : loadGs ev (IterOrder.iter (m.secMap c!"g")) t1 with
        | mk o t2 =>
          have hq2 := keeps_loadGs hg (IterOrder.iter (m.secMap c!"g")) _ hq1
          rw [h2] at hq2
          cases o with
          | ok u =>
            exact mEnforce_keeps m (fun p _ => H p.tokens) (H []).requestValues G matcher s t1 t2 h1
              h2 hq2
          | throw e =>
            simp only [mEnforce, M.bind_run, M.modify_run, Bool.not_true, Bool.false_eq_true, if_false]
            simp only [on, h1, h2]
            exact hq2
          | ub e =>
            simp only [mEnforce, M.bind_run, M.modify_run, Bool.not_true, Bool.false_eq_true, if_false]
            simp only [on, h1, h2]
            exact hq2
      | throw e =>
        simp only [mEnforce, M.bind_run, M.modify_run, Bool.not_true, Bool.false_eq_true, if_false]
        simp only [on, h1]
        exact hq1
      | ub e =>
        simp only [mEnforce, M.bind_run, M.modify_run, Bool.not_true, Bool.false_eq_true, if_false]
        simp only [on, h1]
        exact hq1

theorem keeps_request (hP : ∀ p, Closed (P p)) (lib : ExprLib) (m : Model) (enabled : Bool)
    (matcher : Str) : Keeps (fun s : ReqSt => All P n s.heap) (Casbin.mEnforce lib m enabled matcher) := by
  intro s hs
  have h := keeps_mEnforce (Q := fun s : LibObj => All P n s.2) (ev := exprtk lib) (ef := default)
    (keeps_exprtk hP lib) (keeps_onEv _) (fun _ _ _ => keeps_onEv _)
    (fun _ _ _ _ _ => Keeps.bind (Keeps.lift _) fun _ => Keeps.pure _) m enabled matcher
    { obj := (s.ev, s.heap), explain := s.explain } hs
  have h2 := (sim_mEnforce lib m enabled matcher { obj := (s.ev, s.heap), explain := s.explain }).2
  have h3 : (Casbin.mEnforce lib m enabled matcher s).2.heap =
      (mEnforce (exprtk lib) default m enabled matcher
        { obj := (s.ev, s.heap), explain := s.explain }).2.obj.2 := by
    rw [show s = toReq { obj := (s.ev, s.heap), explain := s.explain } from rfl, ← h2]
    rfl
  show All P n _
  rw [h3]
  exact h

/-! ### The methods of the enforcer -/

/-- The two models have the same definitions and rules; one may have more empty sections. -/
def SameDefs (m m' : Model) : Prop := ∀ sec, m.secMap sec = m'.secMap sec

omit [IterOrder] in
theorem secMap_ensureSec (m : Model) (s s' : Str) : (m.ensureSec s).secMap s' = m.secMap s' := by
  unfold Model.ensureSec
  split
  · rfl
  · rename_i h
    unfold Model.secMap
    rw [UMap.get_set]
    by_cases h1 : s = s'
    · subst h1
      simp only [if_true]
      have : UMap.get m s = none := by
        simpa [UMap.has] using h
      rw [this]
    · simp [h1]

omit [IterOrder] in
theorem SameDefs.find {m m' : Model} (h : SameDefs m m') (s t : Str) : m.find s t = m'.find s t := by
  have : ∀ m : Model, m.find s t = (m.secMap s).get t := by
    intro m
    unfold Model.find Model.secMap
    split <;> rfl
  rw [this, this, h]

/-- What a question keeps of the enforcer `E0`. -/
structure Kept (E0 : Enforcer) (P : Nat → RM → Prop) (E : Enforcer) : Prop where
  model : SameDefs E0.model E.model
  rm : E.rm = E0.rm
  adapter : E.adapter = E0.adapter
  watcher : E.watcher = E0.watcher
  enabled : E.enabled = E0.enabled
  autoSave : E.autoSave = E0.autoSave
  autoBuild : E.autoBuild = E0.autoBuild
  autoNotify : E.autoNotify = E0.autoNotify
  heap : All P E0.heap.length E.heap

variable {E0 : Enforcer}

omit [IterOrder] in
theorem kept_onModel {α : Type} {f : M Model α} (h : ∀ m, SameDefs m (f m).2) :
    Keeps (Kept E0 P) (Enforcer.onModel f) := by
  intro E hE
  exact { hE with model := fun s => (hE.model s).trans (h E.model s) }

omit [IterOrder] in
theorem kept_read {α : Type} {f : M Model α} (h : ∀ m, (f m).2 = m) :
    Keeps (Kept E0 P) (Enforcer.onModel f) := kept_onModel fun m s => by rw [h]

theorem kept_allValues (sec : Str) (i : Nat) :
    Keeps (Kept E0 P) (Enforcer.onModel (Model.getValuesForFieldAllTypes sec i)) := by
  refine kept_onModel fun m s => ?_
  have : (Model.getValuesForFieldAllTypes sec i m).2 = m.ensureSec sec := by
    unfold Model.getValuesForFieldAllTypes
    simp only [M.bind_run, M.modify_run, M.get_run]
    have h := Model.same_valuesAllTypes sec i (m.ensureSec sec)
      (IterOrder.iter ((m.ensureSec sec).secMap sec).keys)
    rcases hv : Model.valuesAllTypes sec i (IterOrder.iter ((m.ensureSec sec).secMap sec).keys)
      (m.ensureSec sec) with ⟨o, m'⟩
    rw [hv] at h
    simp only at h
    subst h
    cases o <;> rfl
  rw [this, secMap_ensureSec]

omit [IterOrder] in
theorem kept_onRm {α : Type} (p : Nat) {f : M RM α} (hf : Keeps (P p) f) :
    Keeps (Kept E0 P) (Enforcer.onRm p f) :=
  fun E hE => { hE with heap := keeps_onHeap p hf E.heap hE.heap }

omit [IterOrder] in
theorem kept_onGRm {α : Type} {f : M RM α} (hf : ∀ p, Keeps (P p) f) :
    Keeps (Kept E0 P) (Enforcer.onGRm f) := by
  intro E hE
  simp only [Enforcer.onGRm, M.bind_run, M.get_run]
  cases E.model.find c!"g" c!"g" with
  | none => exact hE
  | some a =>
    simp only
    cases a.rm with
    | none => exact hE
    | some p => exact kept_onRm _ (hf _) E hE

omit [IterOrder] in
theorem kept_runRequest {f : M ReqSt Bool} (x : Rule)
    (hf : Keeps (fun s : ReqSt => All P E0.heap.length s.heap) f) :
    Keeps (Kept E0 P) (Enforcer.runRequest x f) :=
  fun E hE => { hE with
    heap := hf { ev := E.evaluator, heap := E.heap, explain := x } hE.heap }

omit [IterOrder] in
theorem keeps_reqOnEv {α : Type} {Q : List RM → Prop} (f : M Evaluator α) :
    Keeps (fun s : ReqSt => Q s.heap) (ReqSt.onEv f) := fun _ h => h

theorem kept_enforceEx (hP : ∀ p, Closed (P p)) (lib : ExprLib) (matcher : Str)
    (vals : List ReqVal) (x : Rule) : Keeps (Kept E0 P) (Enforcer.enforceEx lib matcher vals x) := by
  intro E hE
  simp only [Enforcer.enforceEx, M.bind_run, M.get_run]
  cases E.model.find c!"r" c!"r" with
  | none => exact hE
  | some r =>
    simp only
    split
    · exact hE
    · exact kept_runRequest x (Keeps.bind (keeps_reqOnEv _) fun _ => keeps_request hP lib _ _ _) E hE

theorem kept_enforceExMap (hP : ∀ p, Closed (P p)) (lib : ExprLib) (matcher : Str)
    (vals : UMap Str ReqVal) (x : Rule) :
    Keeps (Kept E0 P) (Enforcer.enforceExMap lib matcher vals x) := by
  intro E hE
  simp only [Enforcer.enforceExMap, M.bind_run, M.get_run]
  exact kept_runRequest x (Keeps.bind (keeps_reqOnEv _) fun _ => keeps_request hP lib _ _ _) E hE

theorem kept_ask (hP : ∀ p, Closed (P p)) (lib : ExprLib) (matcher : Str) (vals : List ReqVal) :
    Keeps (Kept E0 P) (Enforcer.enforceWithMatcher lib matcher vals) :=
  Keeps.bind (kept_enforceEx hP lib _ _ _) fun _ => Keeps.pure _

theorem kept_batch (hP : ∀ p, Closed (P p)) (lib : ExprLib) (matcher : Str) :
    ∀ rs, Keeps (Kept E0 P) (Enforcer.batchEnforceWithMatcher lib matcher rs)
  | [] => Keeps.pure _
  | _ :: rs => Keeps.bind (kept_ask hP lib _ _) fun _ =>
      Keeps.bind (kept_batch hP lib matcher rs) fun _ => Keeps.pure _

theorem kept_implicitUsersLoop (hP : ∀ p, Closed (P p)) (lib : ExprLib) (perm : List Str) :
    ∀ ss, Keeps (Kept E0 P) (Enforcer.implicitUsersLoop lib perm ss)
  | [] => Keeps.pure _
  | _ :: ss => Keeps.bind (Keeps.lift _) fun _ => Keeps.bind (Keeps.lift _) fun _ =>
      Keeps.bind (kept_ask hP lib _ _) fun _ =>
      Keeps.bind (kept_implicitUsersLoop hP lib perm ss) fun _ => Keeps.pure _

theorem kept_implicitRoles (hP : ∀ p, Closed (P p)) (name : Str) (d : List Str) :
    Keeps (Kept E0 P) (Enforcer.getImplicitRolesForUser name d) := by
  intro E hE
  simp only [Enforcer.getImplicitRolesForUser, M.bind_run, M.get_run]
  refine kept_onRm E.rm (fun rm h => ?_) E hE
  simp only [M.bind_run, M.get_run]
  exact closed_implicitLoop (hP _) d _ _ _ rm h

theorem kept_implicitPermLoop (d : List Str) :
    ∀ names, Keeps (Kept E0 P) (Enforcer.implicitPermLoop d names)
  | [] => Keeps.pure _
  | r :: rs => by
    unfold Enforcer.implicitPermLoop
    have h : ∀ perms : Policies, Keeps (Kept E0 P) (do
        let rest ← Enforcer.implicitPermLoop d rs
        pure (perms.items ++ rest)) := fun perms =>
      Keeps.bind (kept_implicitPermLoop d rs) fun b => Keeps.pure _
    split <;> exact Keeps.bind (kept_read (Model.same_getFiltered _ _ _ _)) h

/-! ### The answers -/

theorem mEnforce_congr (lib : ExprLib) {m m' : Model} (h : SameDefs m m') (enabled : Bool)
    (matcher : Str) : Casbin.mEnforce lib m enabled matcher = Casbin.mEnforce lib m' enabled matcher := by
  unfold Casbin.mEnforce Casbin.needAssertion gFunctions Casbin.selectPolicies
  simp only [h _, h.find]

/-- Two enforcers that a question does not tell apart; with `ev`, with the same evaluator. -/
structure Like (ev : Prop) (E E' : Enforcer) : Prop where
  model : SameDefs E.model E'.model
  heap : E.heap = E'.heap
  rm : E.rm = E'.rm
  enabled : E.enabled = E'.enabled
  eval : ev → E.eval = E'.eval

variable {ev : Prop}

omit [IterOrder] in
theorem like_onModel {α : Type} {f : M Model α} (h : Alike SameDefs f f) :
    Alike (Like ev) (Enforcer.onModel f) (Enforcer.onModel f) := by
  intro E E' hE
  obtain ⟨h1, h2⟩ := h _ _ hE.model
  exact ⟨h1, { hE with model := h2 }⟩

omit [IterOrder] in
theorem like_onRm {α : Type} (p : Nat) (f : M RM α) :
    Alike (Like ev) (Enforcer.onRm p f) (Enforcer.onRm p f) := by
  intro E E' hE
  unfold Enforcer.onRm
  rw [← hE.heap]
  exact ⟨rfl, { hE with heap := rfl }⟩

omit [IterOrder] in
theorem like_onGRm {α : Type} (f : M RM α) :
    Alike (Like ev) (Enforcer.onGRm f) (Enforcer.onGRm f) := by
  intro E E' hE
  simp only [Enforcer.onGRm, M.bind_run, M.get_run, hE.model.find]
  cases E'.model.find c!"g" c!"g" with
  | none => exact ⟨rfl, hE⟩
  | some a =>
    simp only
    cases a.rm with
    | none => exact ⟨rfl, hE⟩
    | some p => exact like_onRm p f E E' hE

omit [IterOrder] in
theorem like_at (s t : Str) : Alike SameDefs (Model.at_ s t) (Model.at_ s t) := by
  intro m m' h
  unfold Model.at_
  rw [h.find]
  cases m'.find s t <;> exact ⟨rfl, h⟩

theorem like_values (s t : Str) (i : Nat) :
    Alike SameDefs (Model.getValuesForField s t i) (Model.getValuesForField s t i) :=
  Alike.bind (like_at _ _) fun _ => Alike.bind (Alike.lift _) fun _ => Alike.pure _

theorem like_valuesAllTypes (s : Str) (i : Nat) : ∀ ts,
    Alike SameDefs (Model.valuesAllTypes s i ts) (Model.valuesAllTypes s i ts)
  | [] => Alike.pure _
  | _ :: ts => Alike.bind (like_values _ _ _) fun _ => Alike.bind (like_valuesAllTypes s i ts) fun _ =>
      Alike.pure _

theorem like_allValues (s : Str) (i : Nat) :
    Alike SameDefs (Model.getValuesForFieldAllTypes s i) (Model.getValuesForFieldAllTypes s i) := by
  intro m m' h
  have h' : SameDefs (m.ensureSec s) (m'.ensureSec s) := fun sec => by
    rw [secMap_ensureSec, secMap_ensureSec, h]
  unfold Model.getValuesForFieldAllTypes
  simp only [M.bind_run, M.modify_run, M.get_run]
  rw [h' s]
  exact Alike.bind (like_valuesAllTypes s i _) (fun _ => Alike.pure _) _ _ h'

theorem like_enforceEx (lib : ExprLib) (matcher : Str) (vals : List ReqVal) (x : Rule) :
    Alike (Like True) (Enforcer.enforceEx lib matcher vals x) (Enforcer.enforceEx lib matcher vals x) := by
  intro E E' hE
  simp only [Enforcer.enforceEx, M.bind_run, M.get_run, hE.model.find, hE.enabled,
    mEnforce_congr lib hE.model]
  cases E'.model.find c!"r" c!"r" with
  | none => exact ⟨rfl, hE⟩
  | some r =>
    simp only
    split
    · exact ⟨rfl, hE⟩
    · simp only [Enforcer.runRequest, Enforcer.evaluator, hE.heap, hE.eval trivial]
      exact ⟨trivial, { hE with heap := rfl, eval := fun _ => rfl }⟩

theorem like_enforceExMap (lib : ExprLib) (matcher : Str) (vals : UMap Str ReqVal) (x : Rule) :
    Alike (Like True) (Enforcer.enforceExMap lib matcher vals x)
      (Enforcer.enforceExMap lib matcher vals x) := by
  intro E E' hE
  simp only [Enforcer.enforceExMap, M.bind_run, M.get_run, hE.enabled, mEnforce_congr lib hE.model]
  simp only [Enforcer.runRequest, Enforcer.evaluator, hE.heap, hE.eval trivial]
  exact ⟨trivial, { hE with heap := rfl, eval := fun _ => rfl }⟩

theorem like_ask (lib : ExprLib) (matcher : Str) (vals : List ReqVal) :
    Alike (Like True) (Enforcer.enforceWithMatcher lib matcher vals)
      (Enforcer.enforceWithMatcher lib matcher vals) :=
  Alike.bind (like_enforceEx _ _ _ _) fun _ => Alike.pure _

theorem like_batch (lib : ExprLib) (matcher : Str) : ∀ rs,
    Alike (Like True) (Enforcer.batchEnforceWithMatcher lib matcher rs)
      (Enforcer.batchEnforceWithMatcher lib matcher rs)
  | [] => Alike.pure _
  | _ :: rs => Alike.bind (like_ask _ _ _) fun _ => Alike.bind (like_batch lib matcher rs) fun _ =>
      Alike.pure _

theorem like_implicitUsersLoop (lib : ExprLib) (perm : List Str) : ∀ ss,
    Alike (Like True) (Enforcer.implicitUsersLoop lib perm ss) (Enforcer.implicitUsersLoop lib perm ss)
  | [] => Alike.pure _
  | _ :: ss => Alike.bind (Alike.lift _) fun _ => Alike.bind (Alike.lift _) fun _ =>
      Alike.bind (like_ask _ _ _) fun _ => Alike.bind (like_implicitUsersLoop lib perm ss) fun _ =>
      Alike.pure _

theorem like_getFiltered (s t : Str) (i : Nat) (vs : List Str) :
    Alike SameDefs (Model.getFilteredPolicy s t i vs) (Model.getFilteredPolicy s t i vs) :=
  Alike.bind (like_at _ _) fun _ => Alike.bind (Alike.lift _) fun _ => Alike.pure _

theorem like_implicitRoles (name : Str) (d : List Str) :
    Alike (Like ev) (Enforcer.getImplicitRolesForUser name d)
      (Enforcer.getImplicitRolesForUser name d) := by
  intro E E' hE
  simp only [Enforcer.getImplicitRolesForUser, M.bind_run, M.get_run, hE.rm]
  exact like_onRm _ _ E E' hE

theorem like_implicitPermLoop (d : List Str) : ∀ names,
    Alike (Like ev) (Enforcer.implicitPermLoop d names) (Enforcer.implicitPermLoop d names)
  | [] => Alike.pure _
  | r :: rs => by
    unfold Enforcer.implicitPermLoop
    have h : ∀ perms : Policies, Alike (Like ev) (do
        let rest ← Enforcer.implicitPermLoop d rs
        pure (perms.items ++ rest)) (do
        let rest ← Enforcer.implicitPermLoop d rs
        pure (perms.items ++ rest)) := fun perms =>
      Alike.bind (like_implicitPermLoop d rs) fun b => Alike.pure _
    split <;> exact Alike.bind (like_onModel (like_getFiltered _ _ _ _)) h

end Questions
end Custom
end Casbin
