import Verif.Effectors
import Verif.DecisionMain

/-! # Lemmas for C163 -/

namespace Casbin
namespace Owner

open Custom

variable {ω : Type}

/-! ## The effector of the library -/

/-- The program does on an enforcer with the effector of the library what the other does on the enforcer
of `Enforcer.lean`. -/
def Same {α : Type} (f : M (Owner ω) α) (g : M Enforcer α) : Prop :=
  ∀ E w, f (new E w) = ((g E).1, new (g E).2 w)

theorem Same.pure {α : Type} (a : α) : Same (ω := ω) (Pure.pure a) (Pure.pure a) := fun _ _ => rfl

theorem Same.lift {α : Type} (o : Outcome α) : Same (ω := ω) (M.lift o) (M.lift o) := fun _ _ => rfl

theorem Same.onBase {α : Type} (f : M Enforcer α) : Same (ω := ω) (onBase f) f := fun _ _ => rfl

theorem Same.bind {α β : Type} {f : M (Owner ω) α} {g : M Enforcer α} {f' : α → M (Owner ω) β}
    {g' : α → M Enforcer β} (h : Same f g) (h' : ∀ a, Same (f' a) (g' a)) :
    Same (f >>= f') (g >>= g') := by
  intro E w
  have h1 := h E w
  simp only [M.bind_run]
  rcases hg : g E with ⟨o, E1⟩
  rw [hg] at h1
  rw [h1]
  cases o with
  | ok a => exact h' a E1 w
  | throw e => rfl
  | ub u => rfl

theorem alike_left {σ α : Type} (w : ω) (f : M σ α) :
    Alike (fun (s : σ × ω) t => s = (t, w)) (left f) f := by
  rintro s t rfl
  exact ⟨rfl, rfl⟩

theorem evalAlike {σ : Type} (w : ω) (ev : EvalImpl σ) :
    EvalAlike (fun (s : σ × ω) t => s = (t, w)) (evLeft ev) ev where
  eval _ := alike_left w _
  initialObject _ := alike_left w _
  pushString _ _ _ := alike_left w _
  loadFunctions := alike_left w _
  loadG _ _ _ := alike_left w _
  isBool := alike_left w _
  getBoolean := alike_left w _
  getFloat := alike_left w _
  clean := alike_left w _
  requestValues := alike_left w _

theorem effAlike {σ : Type} (w : ω) :
    EffAlike (fun (s : σ × ω) (t : σ) => s = (t, w)) (effRight (some Custom.default))
      Custom.default := by
  intro x es ms i n s t h
  subst h
  simp only [effRight, right, Custom.default, M.bind_run, M.lift_run]
  cases mergeEffects x es ms i n <;> exact ⟨rfl, rfl⟩

variable [IterOrder]

theorem same_request (lib : ExprLib) (push : M Evaluator Unit) (matcher : Str) (X : Rule)
    (E : Enforcer) (w : ω) :
    request lib push matcher X (new E w) =
      ((Enforcer.runRequest X (do
          ReqSt.onEv push
          Casbin.mEnforce lib E.model E.enabled matcher) E).1,
        new (Enforcer.runRequest X (do
          ReqSt.onEv push
          Casbin.mEnforce lib E.model E.enabled matcher) E).2 w) := by
  have h1 := (Alike.bind (Alike.on (alike_left w (Custom.onEv push)))
    (fun _ => alike_mEnforce (evalAlike w (exprtk lib)) (effAlike w) E.model E.enabled matcher))
      { obj := ((E.evaluator, E.heap), w), explain := X } { obj := (E.evaluator, E.heap), explain := X }
      ⟨rfl, rfl⟩
  have h2 := (Custom.Sim.bind (sim_onEv push) (fun _ => Custom.sim_mEnforce lib E.model E.enabled matcher))
      { obj := (E.evaluator, E.heap), explain := X }
  obtain ⟨a1, a2, a3⟩ := h1
  obtain ⟨b1, b2⟩ := h2
  simp only [request, new, Enforcer.runRequest]
  have e1 := a1.trans b1
  have e2 := a2
  have b3 := congrArg ReqSt.ev b2
  have b4 := congrArg ReqSt.heap b2
  have b5 := congrArg ReqSt.explain b2
  have e3 := a3.trans b5
  simp only [toReq] at b3 b4 b5 e1 e3
  rw [e1, e3, e2, b3, b4]

theorem same_enforceEx (lib : ExprLib) (matcher : Str) (vals : List ReqVal) (X : Rule) :
    Same (ω := ω) (enforceEx lib matcher vals X) (Enforcer.enforceEx lib matcher vals X) := by
  intro E w
  unfold enforceEx Enforcer.enforceEx
  simp only [M.bind_run, M.get_run]
  show (match E.model.find c!"r" c!"r" with | none => _ | some r => _) = _
  cases E.model.find c!"r" c!"r" with
  | none => rfl
  | some r =>
    simp only
    split
    · rfl
    · exact same_request lib _ matcher X E w

theorem same_enforceExMap (lib : ExprLib) (matcher : Str) (vals : UMap Str ReqVal) (X : Rule) :
    Same (ω := ω) (enforceExMap lib matcher vals X) (Enforcer.enforceExMap lib matcher vals X) :=
  fun E w => same_request lib _ matcher X E w

theorem same_enforceWithMatcher (lib : ExprLib) (matcher : Str) (vals : List ReqVal) :
    Same (ω := ω) (enforceWithMatcher lib matcher vals)
      (Enforcer.enforceWithMatcher lib matcher vals) :=
  (same_enforceEx lib matcher vals []).bind fun _ => Same.pure _

theorem same_batch (lib : ExprLib) (matcher : Str) (rs : List (List ReqVal)) :
    Same (ω := ω) (batch lib matcher rs) (Enforcer.batchEnforceWithMatcher lib matcher rs) := by
  induction rs with
  | nil => exact Same.pure _
  | cons r rs ih =>
    exact (same_enforceWithMatcher lib matcher r).bind fun _ => ih.bind fun _ => Same.pure _

theorem same_usersLoop (lib : ExprLib) (perm : List Str) (ss : List Str) :
    Same (ω := ω) (usersLoop lib perm ss) (Enforcer.implicitUsersLoop lib perm ss) := by
  induction ss with
  | nil => exact Same.pure _
  | cons s ss ih =>
    exact (Same.lift _).bind fun _ => (Same.lift _).bind fun _ =>
      (same_enforceWithMatcher lib _ _).bind fun _ => ih.bind fun _ => Same.pure _

theorem same_run (lib : ExprLib) (c : Method) : Same (ω := ω) (run lib c) (c.run lib) := by
  cases c with
  | ask matcher vals => exact (same_enforceWithMatcher lib _ _).bind fun _ => Same.pure _
  | askEx matcher vals ex => exact (same_enforceEx lib _ _ _).bind fun _ => Same.pure _
  | askMap matcher vals ex => exact (same_enforceExMap lib _ _ _).bind fun _ => Same.pure _
  | batch matcher rs => exact (same_batch lib _ _).bind fun _ => Same.pure _
  | implicitUsers perm =>
    exact ((Same.onBase _).bind fun _ => (Same.onBase _).bind fun _ => (Same.onBase _).bind fun _ =>
      (same_usersLoop lib _ _).bind fun _ => Same.pure _).bind fun _ => Same.pure _
  | setModel m => intro E w; rfl
  | _ => exact Same.onBase _

/-! ## The effector stays -/

/-- The program leaves the effector as it is. -/
def Leaves {α : Type} (f : M (Owner ω) α) : Prop := ∀ W, (f W).2.eft = W.eft

omit [IterOrder] in
theorem Leaves.bind {α β : Type} {f : M (Owner ω) α} {g : α → M (Owner ω) β} (h : Leaves f)
    (h' : ∀ a, Leaves (g a)) : Leaves (f >>= g) := by
  intro W
  have h1 := h W
  simp only [M.bind_run]
  rcases hf : f W with ⟨o, W1⟩
  rw [hf] at h1
  cases o with
  | ok a => exact (h' a W1).trans h1
  | throw e => exact h1
  | ub u => exact h1

omit [IterOrder] in
theorem Leaves.pure {α : Type} (a : α) : Leaves (ω := ω) (Pure.pure a) := fun _ => rfl

omit [IterOrder] in
theorem Leaves.onBase {α : Type} (f : M Enforcer α) : Leaves (ω := ω) (onBase f) := fun _ => rfl

theorem leaves_enforceEx (lib : ExprLib) (matcher : Str) (vals : List ReqVal) (X : Rule) :
    Leaves (ω := ω) (enforceEx lib matcher vals X) := by
  intro W
  unfold enforceEx
  cases W.base.model.find c!"r" c!"r" with
  | none => rfl
  | some r => simp only; split <;> rfl

theorem leaves_enforceWithMatcher (lib : ExprLib) (matcher : Str) (vals : List ReqVal) :
    Leaves (ω := ω) (enforceWithMatcher lib matcher vals) :=
  (leaves_enforceEx lib matcher vals []).bind fun _ => Leaves.pure _

theorem leaves_batch (lib : ExprLib) (matcher : Str) (rs : List (List ReqVal)) :
    Leaves (ω := ω) (batch lib matcher rs) := by
  induction rs with
  | nil => exact Leaves.pure _
  | cons r rs ih =>
    exact (leaves_enforceWithMatcher lib matcher r).bind fun _ => ih.bind fun _ => Leaves.pure _

theorem leaves_usersLoop (lib : ExprLib) (perm ss : List Str) :
    Leaves (ω := ω) (usersLoop lib perm ss) := by
  induction ss with
  | nil => exact Leaves.pure _
  | cons s ss ih =>
    refine Leaves.bind (fun _ => rfl) fun _ => Leaves.bind (fun _ => rfl) fun _ => ?_
    exact (leaves_enforceWithMatcher lib _ _).bind fun _ => ih.bind fun _ => Leaves.pure _

/-- Every call but `SetModel` leaves the effector as it is. -/
theorem leaves_run (lib : ExprLib) {c : Method} (h : c.Stays) : Leaves (ω := ω) (run lib c) := by
  cases c with
  | ask matcher vals => exact (leaves_enforceWithMatcher lib _ _).bind fun _ => Leaves.pure _
  | askEx matcher vals ex => exact (leaves_enforceEx lib _ _ _).bind fun _ => Leaves.pure _
  | askMap matcher vals ex => exact Leaves.bind (fun _ => rfl) fun _ => Leaves.pure _
  | batch matcher rs => exact (leaves_batch lib _ _).bind fun _ => Leaves.pure _
  | implicitUsers perm =>
    exact ((Leaves.onBase _).bind fun _ => (Leaves.onBase _).bind fun _ =>
      (Leaves.onBase _).bind fun _ => (leaves_usersLoop lib _ _).bind fun _ => Leaves.pure _).bind
        fun _ => Leaves.pure _
  | setModel m => exact h.elim
  | _ => exact Leaves.onBase _

/-! ## A request with the evaluator of the library and any effector -/

/-- A request up to the choice of the rules. -/
theorem start_lib (lib : ExprLib) (ef : EffImpl LibObj) {m : Model} {r p e : Assertion}
    (hW : WellDefined m r p) (he : m.find c!"e" c!"e" = some e) {vals : List Str}
    (hvl : r.tokens.length = vals.length) {matcher exp : Str}
    (hm : matcherOf m matcher = some exp) (s : CallSt LibObj) (hev : EvOK lib m r p s.obj.1)
    (hr : ∀ x v, UMap.get ((r.tokens.map reqName).zip vals) x = some v →
      s.obj.1.vars.get x = some v) :
    ∃ s1 : LibObj, Live lib m r p s.obj.2 [] vals { ev := s1.1, heap := s1.2, explain := [] } ∧
      Custom.mEnforce (exprtk lib) ef m true matcher s =
      (if candidates p vals ≠ [] then do
        let res ← CallSt.on (Custom.runRules ef (Custom.ruleStep (exprtk lib) exp p.tokens) e.value
          (candidates p vals))
        Custom.finish (candidates p vals) res
      else Custom.enforceEmpty (exprtk lib) ef exp p.tokens e.value) { obj := s1, explain := [] } := by
  set s1 : LibObj := ({ s.obj.1 with
    funs := addAllFuns (addAllFuns s.obj.1.funs Evaluator.builtins) (gFunctions m) }, s.obj.2) with hs1
  have hlive : Live lib m r p s.obj.2 [] vals { ev := s1.1, heap := s1.2, explain := [] } :=
    ⟨rfl, rfl, get_loaded hW.gNodup hW.gLower _ hev.funs, hr, hev.vars,
      hev.names.congr rfl rfl, ⟨hev.text.bad, hev.text.good⟩⟩
  refine ⟨s1, hlive, ?_⟩
  have hsel : CallSt.on (Custom.selectPolicies (exprtk lib) m) { obj := s1, explain := [] } =
      (.ok (candidates p vals), { obj := s1, explain := [] }) := by
    have h := sim_selectPolicies lib m { obj := s1, explain := [] }
    have h0 := selectPolicies_run hW hvl hlive.rvars hlive.names
    have hrun : (do let s ← M.get; M.lift (Casbin.selectPolicies m s.ev) : M ReqSt (List Rule))
        (toReq { obj := s1, explain := [] }) =
        (.ok (candidates p vals), toReq { obj := s1, explain := [] }) := by
      simp only [M.bind_run, M.get_run, toReq, h0, M.lift_run]
    rw [hrun] at h
    obtain ⟨h1, h2⟩ := h
    rcases hx : CallSt.on (Custom.selectPolicies (exprtk lib) m) { obj := s1, explain := [] } with
      ⟨o, ⟨⟨a, b⟩, c⟩⟩
    rw [hx] at h1 h2
    simp only [toReq, ReqSt.mk.injEq] at h1 h2
    obtain ⟨rfl, rfl, rfl⟩ := h2
    rw [h1]
  have h1 : CallSt.on (exprtk lib).loadFunctions { obj := s.obj, explain := [] } =
      (.ok (), { obj := ({ s.obj.1 with funs := addAllFuns s.obj.1.funs Evaluator.builtins },
                  s.obj.2), explain := [] }) := by
    simp [CallSt.on, exprtk, Custom.onEv, Evaluator.loadFunctions, addFunctions_run]
  have h2 : CallSt.on (Custom.onEv (Evaluator.addFunctions (gFunctions m)))
      { obj := (({ s.obj.1 with funs := addAllFuns s.obj.1.funs Evaluator.builtins } : Evaluator),
          s.obj.2), explain := [] } = (.ok (), { obj := s1, explain := [] }) := by
    simp [CallSt.on, Custom.onEv, addFunctions_run, hs1]
  unfold Custom.mEnforce
  rw [loadGs_eq]
  simp only [M.bind_run, M.modify_run, Bool.not_true, Bool.false_eq_true, if_false, h1]
  rw [show (IterOrder.iter (m.secMap c!"g")).map (fun ka : Str × Assertion =>
    (ka.1, FunRef.g ka.2.rm (countChar '_' ka.2.value))) = gFunctions m from rfl, h2]
  simp only
  unfold matcherOf at hm
  by_cases hmt : matcher = []
  · simp only [hmt, if_true, Option.map_eq_some_iff] at hm ⊢
    obtain ⟨a, ha, hx⟩ := hm
    simp only [Custom.needAssertion, ha, hx, hW.findR, hW.findP, he, M.bind_run, M.pure_run, hsel]
  · simp only [hmt, if_false, Option.some.injEq] at hm ⊢
    simp only [Custom.needAssertion, hm, hW.findR, hW.findP, he, M.bind_run, M.pure_run, hsel]

/-- What the rules of a request contribute: each has the declared length, its text is not empty, the
matcher is true or false for it, and it has an effect, as `g` says. -/
def Judged (lib : ExprLib) (E : Enforcer) (exp : Str) (r p : Assertion) (vals : List Str)
    (g : Rule → Bool × Effect) : Prop :=
  ∀ rule ∈ candidates p vals, rule.length = p.tokens.length ∧ ruleText exp p.tokens rule ≠ .ok [] ∧
    verdict lib E.model E.heap exp r.tokens p.tokens vals rule = .ok (g rule).1 ∧
    HasEffect p.tokens rule (g rule).2

omit [IterOrder] in
theorem judge_judged {lib : ExprLib} {E : Enforcer} {exp : Str} {r p : Assertion} {vals : List Str}
    {g : Rule → Bool × Effect} (hn : p.tokens.Nodup) (J : Judged lib E exp r p vals g) :
    ∀ rule ∈ candidates p vals, judge lib E.model E.heap exp r p vals rule = .ok (g rule) := by
  intro rule hrule
  obtain ⟨hl, _, hv, he⟩ := J rule hrule
  obtain ⟨e, h1, h2⟩ := ruleEffect_spec hn hl
  unfold judge
  rw [if_neg (by omega), hv, h1, ← (h2 _).mp he]
  rfl

theorem step_lib (lib : ExprLib) {m : Model} {r p : Assertion} (hW : WellDefined m r p)
    {heap : List RM} (hG : GoodRoles m heap) {vals : List Str}
    (hvl : r.tokens.length = vals.length) (exp : Str) (rule : Rule)
    (htext : ruleText exp p.tokens rule ≠ .ok []) {x : Bool × Effect}
    (hj : judge lib m heap exp r p vals rule = .ok x) (s : LibObj)
    (hs : Live lib m r p heap [] vals { ev := s.1, heap := s.2, explain := [] }) :
    ∃ s' : LibObj, Custom.ruleStep (exprtk lib) exp p.tokens rule s = (.ok x, s') ∧
      Live lib m r p heap [] vals { ev := s'.1, heap := s'.2, explain := [] } := by
  obtain ⟨t, h1, h2⟩ := ruleStep_sim lib hW hG hvl [] exp rule
    (fun _ t ht h => htext (h ▸ ht)) _ hs
  have h := Custom.sim_ruleStep lib exp p.tokens rule { obj := s, explain := [] }
  simp only [toReq] at h
  rw [h1, hj] at h
  obtain ⟨h3, h4⟩ := h
  refine ⟨(Custom.ruleStep (exprtk lib) exp p.tokens rule s).2, Prod.ext h3 rfl, ?_⟩
  have : ({ ev := (Custom.ruleStep (exprtk lib) exp p.tokens rule s).2.1
            heap := (Custom.ruleStep (exprtk lib) exp p.tokens rule s).2.2
            explain := [] } : ReqSt) = t := h4
  rw [this]
  exact h2

omit [IterOrder] in
theorem effAlike_fun {σ : Type} (w : ω)
    (f : Str → List Effect → List Bool → Nat → Nat → Effect × Option (Option Nat)) :
    EffAlike (fun (s : σ × ω) (t : σ) => s = (t, w)) (effRight (some (EffImpl.ofFun f)))
      (EffImpl.ofFun f) := by
  rintro x es ms i n s t rfl
  exact ⟨rfl, rfl⟩

omit [IterOrder] in
theorem effAlike_null {σ : Type} (w : ω) :
    EffAlike (fun (s : σ × ω) (t : σ) => s = (t, w)) (effRight none)
      { merge := fun _ _ _ _ _ => M.ub .nullDeref } := by
  rintro x es ms i n s t rfl
  exact ⟨rfl, rfl⟩

/-- The answer of a request, without the objects of the effector. -/
theorem request_alike (lib : ExprLib) (push : M Evaluator Unit) (matcher : Str) (X : Rule)
    (W : Owner ω) {ef : EffImpl LibObj}
    (h : EffAlike (fun (s : LibObj × ω) t => s = (t, W.own)) (effRight W.eft) ef) :
    (request lib push matcher X W).1 =
      (((do
        CallSt.on (Custom.onEv push)
        Custom.mEnforce (exprtk lib) ef W.base.model W.base.enabled matcher)
          { obj := (W.base.evaluator, W.base.heap), explain := X }).1).map
      (fun b => (b, ((do
        CallSt.on (Custom.onEv push)
        Custom.mEnforce (exprtk lib) ef W.base.model W.base.enabled matcher)
          { obj := (W.base.evaluator, W.base.heap), explain := X }).2.explain)) := by
  have h1 := (Alike.bind (Alike.on (alike_left W.own (Custom.onEv push)))
    (fun _ => alike_mEnforce (evalAlike W.own (exprtk lib)) h W.base.model W.base.enabled matcher))
      { obj := ((W.base.evaluator, W.base.heap), W.own), explain := X }
      { obj := (W.base.evaluator, W.base.heap), explain := X } ⟨rfl, rfl⟩
  obtain ⟨a1, a2, a3⟩ := h1
  simp only [request]
  rw [a1, a3]

/-- A request with the right number of values, up to the choice of the rules. -/
theorem enforceEx_start (lib : ExprLib) {W : Owner ω} {r p e : Assertion} {matcher exp : Str}
    {vals : List Str} (R : Request lib W.base r p e matcher exp vals) {ef : EffImpl LibObj}
    (h : EffAlike (fun (s : LibObj × ω) t => s = (t, W.own)) (effRight W.eft) ef) (X : Rule) :
    ∃ s1 : LibObj, Live lib W.base.model r p W.base.heap [] vals
        { ev := s1.1, heap := s1.2, explain := [] } ∧
      let prog : M (CallSt LibObj) Bool := (if candidates p vals ≠ [] then do
        let res ← CallSt.on (Custom.runRules ef (Custom.ruleStep (exprtk lib) exp p.tokens) e.value
          (candidates p vals))
        Custom.finish (candidates p vals) res
      else Custom.enforceEmpty (exprtk lib) ef exp p.tokens e.value)
      (enforceEx lib matcher (vals.map ReqVal.str) X W).1 =
        (prog { obj := s1, explain := [] }).1.map
          (fun b => (b, (prog { obj := s1, explain := [] }).2.explain)) := by
  have hC := R.state
  have hvl := R.arity
  have hpush := pushRequest_run hC.defs.rLen hC.defs.rValid vals W.base.evaluator hvl.symm
  set ev1 : Evaluator := W.base.evaluator.enterAll ((r.tokens.map reqRaw).zip vals) with hev1
  have hpv : ev1.vars = putAll W.base.evaluator.vars ((r.tokens.map reqName).zip vals) :=
    Evaluator.enterAll_zip reqRaw _ _ _
  have hkr : UMap.keys ((r.tokens.map reqName).zip vals) = r.tokens.map reqName :=
    keys_zip _ _ (by simpa using hvl.symm)
  obtain ⟨s1, hlive, hrun⟩ := start_lib lib ef hC.defs R.effect hvl.symm R.matcher
    { obj := (ev1, W.base.heap), explain := X }
    ⟨by
      intro x hx
      rw [show ({ obj := (ev1, W.base.heap), explain := X } : CallSt LibObj).obj.1.vars = _ from hpv] at hx
      rcases (mem_keys_putAll _ _ _).mp hx with h | h
      · rw [hkr] at h; simp [stdNames, h]
      · exact hC.eval.vars x h,
      hC.eval.names.enterAll _ fun kv hkv => mem_rawNames_req hkv,
      by
        rw [show ({ obj := (ev1, W.base.heap), explain := X } : CallSt LibObj).obj.1.funs = _ from
          Evaluator.enterAll_funs _ _]
        exact hC.eval.funs,
      hC.eval.text.enterAll _⟩
    (by
      intro x v h
      rw [show ({ obj := (ev1, W.base.heap), explain := X } : CallSt LibObj).obj.1.vars = _ from hpv,
        get_putAll _ (by rw [hkr]; exact hC.defs.rNodup), h])
  refine ⟨s1, hlive, ?_⟩
  intro prog
  unfold enforceEx
  simp only [hC.defs.findR, List.length_map, hvl, ne_eq, not_true_eq_false, if_false]
  rw [request_alike lib _ matcher X W h]
  have hon : CallSt.on (Custom.onEv (pushRequest r.tokens (vals.map ReqVal.str)))
      { obj := (W.base.evaluator, W.base.heap), explain := X } =
      (.ok (), { obj := (ev1, W.base.heap), explain := X }) := by
    simp only [CallSt.on, Custom.onEv, hpush, hev1]
  simp only [M.bind_run, hon, R.enabled, hrun]
  rfl

end Owner
end Casbin
