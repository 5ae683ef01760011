import Verif.WorldInv
import Verif.MapLemmas
import Verif.Props.EndToEnd

/-!
# C117: requests through an evaluator of the caller
-/

namespace Casbin
namespace CallerProps

open Enforcer Fixtures World DecisionProps EndToEnd

variable [IterOrder] {lib : ExprLib}

/-- What the caller does: give a column of the request a value, ask with a matcher (none for the
matcher of the model), or edit the policy or ask as usual. -/
inductive Use
  | push (x v : Str)
  | ask (matcher : Str)
  | act (a : Act)

/-- The steps with enforcer `i` and evaluator `k`. -/
def Use.run (lib : ExprLib) (i k : Nat) : Use → World → World
  | .push x v, W => (World.push k x v W).2
  | .ask matcher, W => (World.askWith lib i k matcher [] W).2
  | .act (.edit e), W => (World.call lib i (.edit e) W).2
  | .act (.ask vals), W => (World.call lib i (.ask [] (vals.map .str)) W).2

def runUses (lib : ExprLib) (i k : Nat) : List Use → World → World
  | [], W => W
  | u :: us, W => runUses lib i k us (u.run lib i k W)

/-- The value given last to each column. -/
def given : List Use → UMap Str Str → UMap Str Str
  | [], g => g
  | .push x v :: us, g => given us (g.set x v)
  | _ :: us, g => given us g

/-- What is done to the enforcer as usual. -/
def acts : List Use → List Act
  | [] => []
  | .act a :: us => a :: acts us
  | _ :: us => acts us

/-- Only columns of the request are given values, all of them before it is asked, and matchers do not
contain `eval(`. -/
def Proper (ts : List Str) : List Use → UMap Str Str → Prop
  | [], _ => True
  | .push x v :: us, g => (∃ t ∈ ts, t.drop 2 = x) ∧ Proper ts us (g.set x v)
  | .ask matcher :: us, g => (∀ t ∈ ts, (UMap.get g (t.drop 2)).isSome) ∧
      hasEval matcher = false ∧ Proper ts us g
  | .act _ :: us, g => Proper ts us g

/-- The evaluator holds what it was given. -/
structure Holds (lib : ExprLib) (m : Model) (r p : Assertion) (g : UMap Str Str) (ev : Evaluator) :
    Prop where
  ok : EvOK lib m r p ev
  vars : ∀ t ∈ r.tokens, ∀ v, UMap.get g (t.drop 2) = some v → ev.vars.get (reqName t) = some v

/-- Enforcer `i` stands for `E`, and evaluator `k` is not its own. -/
structure Beside (W : World) (i k : Nat) (E : Enforcer) (ev : Evaluator) : Prop where
  obj : ∃ o, W.objs[i]? = some (some o) ∧ W.view o = some E ∧ Unshared o.eval (some k)
  eval : W.evals[k]? = some ev

omit [IterOrder] in
theorem Holds.push {m : Model} {r p : Assertion} {g : UMap Str Str} {ev : Evaluator}
    (h : Holds lib m r p g ev) (hr : ∀ t ∈ r.tokens, Evaluator.validSymbol (reqName t) = true)
    (hn : (r.tokens.map reqName).Nodup) {x v : Str} (hx : ∃ t ∈ r.tokens, t.drop 2 = x) :
    Evaluator.pushString c!"r" x v ev = (.ok (), ev.enter (c!"r." ++ x) v) ∧
      Holds lib m r p (g.set x v) (ev.enter (c!"r." ++ x) v) := by
  obtain ⟨t, ht, rfl⟩ := hx
  refine ⟨addIdentifier_run (x := reqRaw t) (by rw [← validSymbol_lower]; exact hr t ht) v ev, ?_⟩
  have ho := h.ok
  refine ⟨⟨?_, ?_, ho.funs, ?_⟩, ?_⟩
  · intro y hy
    simp only [Evaluator.enter, UMap.mem_keys_set] at hy
    rcases hy with hy | hy
    · subst hy
      exact List.mem_append_left _ (List.mem_map_of_mem (f := reqName) ht)
    · exact ho.vars y hy
  · exact ho.names.enterAll [(reqRaw t, v)] fun kv hkv => by
      rw [List.mem_singleton.mp hkv]
      exact List.mem_append_left _ (List.mem_map_of_mem ht)
  · exact ho.text.enterAll [(reqRaw t, v)]
  · intro t' ht' w hw
    show UMap.get (ev.vars.set (reqName t) v) (reqName t') = some w
    rw [UMap.get_set] at hw ⊢
    by_cases he : reqName t = reqName t'
    · obtain rfl := List.inj_on_of_nodup_map hn ht ht' he
      rw [if_pos rfl] at hw ⊢
      exact hw
    · rw [if_neg he]
      have hne : t.drop 2 ≠ t'.drop 2 := fun h2 => he (by unfold reqName reqRaw; rw [h2])
      rw [if_neg hne] at hw
      exact h.vars t' ht' w hw

omit [IterOrder] in
theorem matcherOf_use {E : Enforcer} {r p e : Assertion} {exp : Str} (h : Setup lib E r p e exp)
    {matcher : Str} (hm : hasEval matcher = false) :
    ∃ x, matcherOf E.model matcher = some x ∧ x ≠ [] ∧ hasEval x = false := by
  by_cases hmt : matcher = []
  · subst hmt
    exact ⟨exp, h.matcher, h.nonempty, h.noEval⟩
  · exact ⟨matcher, by simp [matcherOf, hmt], hmt, hm⟩

/-- A request through the evaluator. -/
theorem ask_run {E : Enforcer} {r p e : Assertion} {exp : Str} (h : Setup lib E r p e exp)
    {g : UMap Str Str} {ev : Evaluator} (hv : Holds lib E.model r p g ev) {W : World} {i k : Nat}
    (hb : Beside W i k E ev) {matcher : Str} (hm : hasEval matcher = false) {vals : List Str}
    (hg : r.tokens.map (fun t => UMap.get g (t.drop 2)) = vals.map some) (X : Rule) :
    ∃ ev', World.askWith lib i k matcher X W =
        ((E.enforceEx lib matcher (vals.map .str) X).1, { W with evals := W.evals.set k ev' }) ∧
      Holds lib E.model r p g ev' := by
  obtain ⟨x, hx, hne, hev⟩ := matcherOf_use h hm
  have hlen : r.tokens.length = vals.length := by simpa using congrArg List.length hg
  have htext : ∀ rule ∈ candidates p vals, rule.length = p.tokens.length →
      ∀ t, ruleText x p.tokens rule = .ok t → t ≠ [] := by
    intro rule _ _ t ht
    simp only [ruleText, hev, Bool.false_eq_true, if_false, Outcome.ok.injEq] at ht
    rw [← ht]; exact hne
  obtain ⟨o, ho, hview, -⟩ := hb.obj
  obtain ⟨v1, v2, v3, v4, v5, v6, v7, v8, v9, v10⟩ := view_eq hview
  obtain ⟨s', h1, h2, h3, h4⟩ := mEnforce_run lib h.ready.state.defs h.effect h.ready.state.roles hlen
    hx hne htext ⟨ev, E.heap, X⟩ rfl hv.ok (by
      intro y v hy
      have hmem := UMap.mem_of_get hy
      obtain ⟨j, hj⟩ := List.mem_iff_getElem?.mp hmem
      rw [List.getElem?_zip_eq_some] at hj
      obtain ⟨hj1, hj2⟩ := hj
      rw [List.getElem?_map, Option.map_eq_some_iff] at hj1
      obtain ⟨t, ht, rfl⟩ := hj1
      have hgj := congrArg (fun l => l[j]?) hg
      simp only [List.getElem?_map, ht, hj2, Option.map_some, Option.some.injEq] at hgj
      exact hv.vars t (List.mem_of_getElem? ht) v hgj)
  obtain ⟨ev2, e1, -⟩ := enforceEx_run lib h.ready.state h.enabled h.effect hlen.symm hx hne htext X
  refine ⟨s'.ev, ?_, h3, ?_⟩
  · have hen : o.enabled = true := v7.symm.trans h.enabled
    rw [e1]
    unfold World.askWith withObj
    simp only [ho, v1, hb.eval, hen, ← v5, h1, h2]
    congr 1
    cases hd : decisionOf lib E.model E.heap x e.value r p vals with
    | throw e => rfl
    | ub u => rfl
    | ok bx =>
      obtain ⟨b, y⟩ := bx
      simp only [Outcome.map_ok]
      rw [h4 b y hd]
  · intro t ht v hw
    have hk := keeps_mEnforce (lib := lib) (lower ('.' :: t.drop 2)) E.model true matcher ⟨ev, E.heap, X⟩
    rw [h1] at hk
    exact (hk.trans (hv.vars t ht v hw) : UMap.get s'.ev.vars (reqName t) = some v)

omit [IterOrder] in
theorem complete {ts : List Str} {g : UMap Str Str} (h : ∀ t ∈ ts, (UMap.get g (t.drop 2)).isSome) :
    ∃ vals : List Str, ts.map (fun t => UMap.get g (t.drop 2)) = vals.map some := by
  induction ts with
  | nil => exact ⟨[], rfl⟩
  | cons t ts ih =>
    obtain ⟨v, hv⟩ := Option.isSome_iff_exists.mp (h t List.mem_cons_self)
    obtain ⟨vs, hvs⟩ := ih fun t ht => h t (List.mem_cons_of_mem _ ht)
    exact ⟨v :: vs, by simp only [List.map_cons, hv, hvs]⟩

omit [IterOrder] in
/-- A method of the enforcer. -/
theorem Beside.onObj {W : World} {i k : Nat} {E : Enforcer} {ev : Evaluator} (h : Beside W i k E ev)
    {α : Type} (f : M Enforcer α) : Beside (World.onObj i f W).2 i k (f E).2 ev := by
  obtain ⟨o, ho, hview, hu⟩ := h.obj
  have hd : deref W.evals (some k) = some (some ev) := by simp [deref, h.eval]
  obtain ⟨o', h1, h2, -⟩ := view_store hview (i := i) (f E).2
  have hlt := (List.getElem?_eq_some_iff.mp ho).1
  have hrun : (World.onObj i f W).2 = W.store i o (f E).2 := by
    simp only [World.onObj, withObj, ho, hview]
  rw [hrun]
  have hget : (W.store i o (f E).2).objs[i]? = some (some o') := by
    rw [h1]; exact List.getElem?_set_self hlt
  have heval : o'.eval = (putBack W.evals o.eval (f E).2.eval).2 := by
    have := hget
    rw [World.store, List.getElem?_set_self hlt] at this
    rw [← Option.some.inj (Option.some.inj this)]
  refine ⟨⟨o', hget, h2, ?_⟩, ?_⟩
  · rw [heval]; exact unshared_putBack hd hu _
  · have := deref_putBack_other hd hu (f E).2.eval
    simp only [deref, Option.map_eq_some_iff, Option.some.injEq, exists_eq_right] at this
    exact this

omit [IterOrder] in
theorem Beside.evals {W : World} {i k : Nat} {E : Enforcer} {ev : Evaluator} (h : Beside W i k E ev)
    (ev' : Evaluator) : Beside { W with evals := W.evals.set k ev' } i k E ev' := by
  obtain ⟨o, ho, hview, hu⟩ := h.obj
  obtain ⟨v1, v2, v3, v4, v5, v6, v7, v8, v9, v10⟩ := view_eq hview
  refine ⟨⟨o, ho, ?_, hu⟩, List.getElem?_set_self (List.getElem?_eq_some_iff.mp h.eval).1⟩
  rw [view_of (W := { W with evals := W.evals.set k ev' }) (m := E.model) (a := E.adapter) (w := E.watcher)
    (ev := E.eval) v1 v2 v3]
  · rw [← v5, ← v6, ← v7, ← v8, ← v9, ← v10]
  · cases hoe : o.eval with
    | none => rw [hoe] at v4; exact v4
    | some j =>
      rw [hoe] at v4
      have hne : k ≠ j := fun he => hu j hoe (by rw [he])
      simpa only [deref, List.getElem?_set_ne hne] using v4

theorem functions_act {E : Enforcer} {r p e : Assertion} {exp : Str} (h : Setup lib E r p e exp)
    (a : Act) : functions (a.run lib E).model = functions E.model := by
  cases a with
  | ask vals =>
    obtain ⟨ev, h1, -⟩ := ask_state h vals
    rw [h1]
  | edit ed => exact Stable.functions h.ready (Edit.keeps ed E h.ready.stable)

theorem act_run (i k : Nat) (a : Act) (W : World) :
    ∃ (α : Type) (f : M Enforcer α), (Use.act a).run lib i k W = (World.onObj i f W).2 ∧
      ∀ E, (f E).2 = a.run lib E := by
  cases a with
  | edit e =>
    refine ⟨_, (Method.edit e).run lib, rfl, fun E => ?_⟩
    simp only [Method.run, M.bind_run, Act.run]
    generalize e.run E = x
    rcases x with ⟨_ | _ | _, _⟩ <;> rfl
  | ask vals =>
    refine ⟨_, (Method.ask [] (vals.map .str)).run lib, rfl, fun E => ?_⟩
    simp only [Method.run, M.bind_run, Act.run, Enforcer.enforce]
    generalize Enforcer.enforceWithMatcher lib [] (vals.map ReqVal.str) E = x
    rcases x with ⟨_ | _ | _, _⟩ <;> rfl

theorem uses_run {r e : Assertion} {exp : Str} {i k : Nat} : ∀ (us : List Use) {W : World} {E : Enforcer}
    {p : Assertion} {g : UMap Str Str} {ev : Evaluator}, Setup lib E r p e exp → Beside W i k E ev →
    Holds lib E.model r p g ev → Proper r.tokens us g →
    ∃ p' ev', Setup lib (runActs lib (acts us) E) r p' e exp ∧
      Beside (runUses lib i k us W) i k (runActs lib (acts us) E) ev' ∧
      Holds lib (runActs lib (acts us) E).model r p' (given us g) ev'
  | [], _, _, p, _, ev, h, hb, hv, _ => ⟨p, ev, h, hb, hv⟩
  | .push x v :: us, W, E, p, g, ev, h, hb, hv, hp => by
    obtain ⟨h1, h2⟩ := hv.push (v := v) h.ready.state.defs.rValid h.ready.state.defs.rNodup hp.1
    refine uses_run us (W := (Use.push x v).run lib i k W) h ?_ h2 hp.2
    have : (Use.push x v).run lib i k W =
        { W with evals := W.evals.set k (ev.enter (c!"r." ++ x) v) } := by
      simp only [Use.run, World.push, hb.eval, h1]
    rw [this]
    exact hb.evals _
  | .ask matcher :: us, W, E, p, g, ev, h, hb, hv, hp => by
    obtain ⟨vals, hvals⟩ := complete hp.1
    obtain ⟨ev', h1, h2⟩ := ask_run h hv hb hp.2.1 hvals []
    refine uses_run us (W := (Use.ask matcher).run lib i k W) h ?_ h2 hp.2.2
    have : (Use.ask matcher).run lib i k W = { W with evals := W.evals.set k ev' } := by
      simp only [Use.run, h1]
    rw [this]
    exact hb.evals _
  | .act a :: us, W, E, p, g, ev, h, hb, hv, hp => by
    obtain ⟨p1, ht, h1⟩ := h.act a
    obtain ⟨α, f, hr, hf⟩ := act_run (lib := lib) i k a W
    refine uses_run us (W := (Use.act a).run lib i k W) h1 ?_ ⟨?_, hv.vars⟩ hp
    · rw [hr, ← hf E]
      exact hb.onObj f
    · exact EvOK.congr (functions_act h a) ht hv.ok

/-- C117 (partial): a caller makes an evaluator and uses it with one enforcer: gives columns of the
request values, asks with matchers, and in between edits the policy and asks as usual. Then a request
through the evaluator is answered, and explained, as the enforcer answers the values that were given
last; and the enforcer is as if it had never been asked through the evaluator. Missing: an evaluator
used with two enforcers (`C117_fails`), and matchers with `eval(`. -/
theorem C117_caller_partial {W : World} {i : Nat} {o : Obj} (ho : W.objs[i]? = some (some o))
    {E : Enforcer} (hE : W.view o = some E) {r p e : Assertion} {exp : Str}
    (h : Setup lib E r p e exp) {us : List Use} (hp : Proper r.tokens us []) {matcher : Str}
    (hm : hasEval matcher = false) {vals : List Str}
    (hg : r.tokens.map (fun t => UMap.get (given us []) (t.drop 2)) = vals.map some) (X : Rule) :
    let W' := runUses lib i W.evals.length us (World.newEval W).2
    (World.askWith lib i W.evals.length matcher X W').1 =
        ((runActs lib (acts us) E).enforceEx lib matcher (vals.map .str) X).1 ∧
      ∃ o', W'.objs[i]? = some (some o') ∧ W'.view o' = some (runActs lib (acts us) E) := by
  intro W'
  obtain ⟨v1, v2, v3, v4, v5, v6, v7, v8, v9, v10⟩ := view_eq hE
  have hb : Beside (World.newEval W).2 i W.evals.length E Evaluator.new := by
    refine ⟨⟨o, ho, ?_, (unshared_new v4).symm⟩, by simp [World.newEval, M.modify_run]⟩
    rw [view_of (W := (World.newEval W).2) (m := E.model) (a := E.adapter) (w := E.watcher) (ev := E.eval)
      v1 v2 v3 (deref_append v4 _)]
    rw [← v6, ← v7, ← v8, ← v9, ← v10]
    rw [show (World.newEval W).2.rms = E.heap from v5.symm]
  obtain ⟨p', ev', h1, h2, h3⟩ := uses_run us h hb (g := [])
    ⟨evOK_new lib E.model r p, fun t _ v hv => by simp [UMap.get] at hv⟩ hp
  obtain ⟨ev2, e1, -⟩ := ask_run h1 h3 h2 hm hg X
  obtain ⟨o', ho', hv', -⟩ := h2.obj
  exact ⟨congrArg Prod.fst e1, o', ho', hv'⟩

/-- C117 while enforcement is switched off: everything is granted without explanation, as with values
(C08), and nothing changes. -/
theorem C117_disabled {W : World} {i k : Nat} {o : Obj} (ho : W.objs[i]? = some (some o)) {E : Enforcer}
    (hE : W.view o = some E) (hk : k < W.evals.length) (hen : E.enabled = false) (matcher : Str)
    (X : Rule) : World.askWith lib i k matcher X W = (.ok (true, []), W) := by
  obtain ⟨v1, v2, v3, v4, v5, v6, v7, v8, v9, v10⟩ := view_eq hE
  unfold World.askWith withObj
  simp only [ho, v1, List.getElem?_eq_getElem hk, ← v7, hen, mEnforce, M.bind_run, M.modify_run,
    Bool.not_false, if_true, M.pure_run, Outcome.map_ok, List.set_getElem_self]

/-- Two enforcers with links built; alice has the role only in the first. -/
def two : World :=
  let _ := insertionOrder
  let lib := stdLib noRx
  let P := [[c!"admin", c!"data1", c!"read"]]
  let W := (World.make (rbacModel P [[c!"alice", c!"admin"]]) none World.empty).2
  let W := (World.make (rbacModel P []) none W).2
  let W := (World.call lib 0 .buildRoleLinks W).2
  (World.call lib 1 .buildRoleLinks W).2

omit [IterOrder] in
/-- C117 is false for an evaluator used with two enforcers: the second grants what it denies when asked
as usual, because the evaluator keeps the roles of the first. -/
theorem C117_fails : (let _ := insertionOrder
    let lib := stdLib noRx
    let q := [Use.push c!"sub" c!"alice", .push c!"obj" c!"data1", .push c!"act" c!"read"]
    let W := runUses lib 0 0 q (World.newEval two).2
    (World.askWith lib 0 0 [] [] W).1.map Prod.fst = .ok true ∧
    (World.askWith lib 1 0 [] [] W).1.map Prod.fst = .ok false ∧
    (World.askWith lib 1 0 [] [] (World.askWith lib 0 0 [] [] W).2).1.map Prod.fst = .ok true ∧
    (World.call lib 1 (.ask [] (alice.map .str)) (World.askWith lib 0 0 [] [] W).2).1 =
      .ok (.bool false)) := by
  intro _ lib q W
  exact ⟨by decide +kernel, by decide +kernel, by decide +kernel, by decide +kernel⟩

omit [IterOrder] in
/-- Non-vacuity of C117: one column is changed between two requests and a rule is added. -/
example : (let _ := insertionOrder
    let W := (World.make (aclModel (.vector [alice])) none World.empty).2
    let us := [Use.push c!"sub" c!"alice", .push c!"obj" c!"data1", .push c!"act" c!"read", .ask [],
      .act (.edit (.add false c!"p" bob)), .act (.ask alice), .push c!"sub" c!"bob",
      .ask c!"r.sub == p.sub", .push c!"obj" c!"data2", .push c!"act" c!"write"]
    Proper rA.tokens us [] ∧
    rA.tokens.map (fun t => UMap.get (given us []) (t.drop 2)) = bob.map some ∧
    (World.askWith (stdLib noRx) 0 0 [] [] (runUses (stdLib noRx) 0 0 us (World.newEval W).2)).1 =
      .ok (true, bob) ∧
    (∃ o, W.objs[0]? = some (some o) ∧ W.view o = some (enforcer (aclModel (.vector [alice])))) ∧
    Setup (stdLib noRx) (enforcer (aclModel (.vector [alice]))) rA (pA (.vector [alice])) eA mAcl) := by
  intro _ W us
  refine ⟨?_, by decide +kernel, by decide +kernel, ⟨_, rfl, rfl⟩, setup_acl _ _⟩
  exact ⟨by decide, by decide, by decide, by decide, by decide, by decide, by decide, by decide,
    by decide, by decide, trivial⟩

end CallerProps
end Casbin
