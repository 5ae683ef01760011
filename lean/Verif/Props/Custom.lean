import Verif.CustomRun
import Verif.CustomAgree
import Verif.Fixtures

/-!
# C143, C144: effectors and evaluators of the user

The specification of an evaluator is a function `ask` from a text and what the evaluator has been
told (`View`) to a truth value; `Lawful` ties an implementation to it. An effector is any function.
-/

namespace Casbin
namespace Custom

open CallSt

variable {σ : Type} {ev : EvalImpl σ} {view : σ → View} {ask : Str → View → Outcome Bool}

/-- The parts of a model a request looks at, with the rules in a vector. -/
structure Setup (m : Model) (matcher exp expr : Str) (tokens : List Str) (rules : List Rule) :
    Prop where
  r : ∃ a, m.find c!"r" c!"r" = some a
  p : ∃ a, m.find c!"p" c!"p" = some a ∧ a.tokens = tokens ∧ a.policy = .vector rules
  e : ∃ a, m.find c!"e" c!"e" = some a ∧ a.value = expr
  m : (matcher ≠ [] ∧ exp = matcher) ∨
    (matcher = [] ∧ ∃ a, m.find c!"m" c!"m" = some a ∧ a.value = exp)

/-- What the evaluator has been told before the rules are looked at. -/
def startView [IterOrder] (m : Model) (w : View) : View :=
  w.addGs (IterOrder.iter (m.secMap c!"g"))

/-- A request up to the choice of the rules, with any evaluator that can be told things. -/
theorem start [IterOrder] (L : Lawful ev view ask) (ef : EffImpl σ) {m : Model}
    {matcher exp expr : Str} {tokens : List Str} {rules : List Rule}
    (S : Setup m matcher exp expr tokens rules) (s : CallSt σ) :
    ∃ s1, view s1 = startView m (view s.obj) ∧ mEnforce ev ef m true matcher s =
      (if rules ≠ [] then do
        let res ← on (runRules ef (ruleStep ev exp tokens) expr rules)
        finish rules res
      else enforceEmpty ev ef exp tokens expr) { obj := s1, explain := [] } := by
  obtain ⟨ra, hr⟩ := S.r
  obtain ⟨pa, hp, ht, hpol⟩ := S.p
  obtain ⟨ea, he, hv⟩ := S.e
  obtain ⟨s0, h0, e0⟩ := L.loadFunctions s.obj
  obtain ⟨s1, h1, e1⟩ := loadGs_lawful L (IterOrder.iter (m.secMap c!"g")) s0
  refine ⟨s1, by rw [e1, e0]; rfl, ?_⟩
  have hsel : ∀ t : CallSt σ, on (selectPolicies ev m) t = (.ok rules, t) := by
    intro t
    simp only [on, selectPolicies, hp, hpol]
    rfl
  simp only [mEnforce, M.bind_run, M.modify_run, Bool.not_true, Bool.false_eq_true, if_false]
  simp only [on, h0, h1]
  rcases S.m with ⟨hm, rfl⟩ | ⟨rfl, a, hm, rfl⟩
  · simp only [if_neg hm, M.bind_run, needAssertion, hr, hp, he, M.pure_run, hsel, ht, hv]
  · simp only [if_true, M.bind_run, needAssertion, hm, hr, hp, he, M.pure_run, hsel, ht, hv]

/-- Every rule has the length of the definition, is found true or false by the evaluator and has an
effect, as `g` says. -/
def Judged (ask : Str → View → Outcome Bool) (w : View) (exp : Str) (tokens : List Str)
    (rules : List Rule) (g : Rule → Bool × Effect) : Prop :=
  ∀ r ∈ rules, r.length = tokens.length ∧ ruleVerdict ask w exp tokens r = .ok (g r).1 ∧
    HasEffect tokens r (g r).2

theorem step_judged (L : Lawful ev view ask) {w : View} {exp : Str} {tokens : List Str}
    (hn : tokens.Nodup) {rules : List Rule} {g : Rule → Bool × Effect}
    (J : Judged ask w exp tokens rules g) : ∀ r ∈ rules, ∀ s, During w tokens (view s) →
      ∃ s', ruleStep ev exp tokens r s = (.ok (g r), s') ∧ During w tokens (view s') := by
  intro r hr s hd
  obtain ⟨hl, hv, he⟩ := J r hr
  obtain ⟨s', h1, h2⟩ := ruleStep_lawful L w exp tokens r s hd
  obtain ⟨e, h3, h4⟩ := ruleEffect_spec hn hl
  rw [if_neg (by omega), hv, h3, ← (h4 _).mp he] at h1
  exact ⟨s', h1, h2⟩

/-- The explanation a written index stands for. -/
def explained (rules : List Rule) : Option Nat → Rule
  | none => []
  | some i => (rules[i]?).getD []

theorem finish_run (rules : List Rule) (x : Effect) (i : Option Nat) (s : σ) :
    finish rules (some x, some i) { obj := s, explain := [] } =
      (.ok (decide (x = .allow)), { obj := s, explain := explained rules i }) := by
  cases i with
  | none => rfl
  | some i =>
    simp only [finish, explained]
    cases rules[i]? <;> rfl

/-- **C143 (partial: the effector decides).** Any effector without objects of its own, any evaluator
that evaluates, any policy kept in a vector whose rules are all found true or false: let `k` be the
first rule after which the effector, given the effects and results of the rules up to it, answers
other than indeterminate (or the last rule), and let it name the rule `i` or none. Then the request
is granted exactly if that answer is allow, and is explained by the rule `i`. -/
theorem C143_decides_partial [IterOrder] (L : Lawful ev view ask)
    (f : Str → List Effect → List Bool → Nat → Nat → Effect × Option (Option Nat)) {m : Model}
    {matcher exp expr : Str} {tokens : List Str} {rules : List Rule} (hn : tokens.Nodup)
    (S : Setup m matcher exp expr tokens rules) (s : CallSt σ) (g : Rule → Bool × Effect)
    (J : Judged ask (startView m (view s.obj)) exp tokens rules g) (k : Nat) (hk : k < rules.length)
    (hbefore : ∀ j < k, (asked f expr (rules.map g) j).1 = .indeterminate)
    (hlast : (asked f expr (rules.map g) k).1 ≠ .indeterminate ∨ k + 1 = rules.length)
    (i : Option Nat) (hi : (asked f expr (rules.map g) k).2 = some i) :
    (mEnforce ev (EffImpl.ofFun f) m true matcher s).1 =
        .ok (decide ((asked f expr (rules.map g) k).1 = .allow)) ∧
      (mEnforce ev (EffImpl.ofFun f) m true matcher s).2.explain = explained rules i := by
  obtain ⟨s1, hw, hrun⟩ := start L (EffImpl.ofFun f) S s
  have hne : rules ≠ [] := by rintro rfl; simp at hk
  obtain ⟨s', hloop, _⟩ := loop_decides (ruleStep ev exp tokens)
    (fun t => During (startView m (view s.obj)) tokens (view t)) g f expr (rules.map g) k
    (by simpa using hk) i hi (by simpa using hlast) hbefore rules [] none none s1 (by simp)
    (by simp) (Or.inl hw) (step_judged L hn J)
  have hloop' : runRules (EffImpl.ofFun f) (ruleStep ev exp tokens) expr rules s1 =
      (.ok (some (asked f expr (rules.map g) k).1, some i), s') := by
    simpa [runRules] using hloop
  rw [hrun, if_pos hne]
  simp only [M.bind_run, on, hloop', finish_run, and_self]

/-! ### An evaluator for every `ask` -/

/-- What the evaluator `oracle` keeps: the view, the fields of the request, its last finding. -/
structure Told where
  view : View
  req : UMap Str Str
  found : Outcome Bool

/-- An evaluator that remembers what it is told and finds what `ask` says. -/
def oracle (ask : Str → View → Outcome Bool) : EvalImpl Told where
  eval text s := (.ok (match ask text s.view with | .ok _ => true | _ => false),
    { s with found := ask text s.view })
  initialObject _ := pure ()
  pushString t p v := M.modify fun s =>
    { s with view := s.view.bind (t ++ c!"." ++ p) v
             req := if t = c!"r" then s.req.set p v else s.req }
  loadFunctions := pure ()
  loadG rm name n := M.modify fun s => { s with view := s.view.addG name rm n }
  isBool s := (s.found.map fun _ => true, s)
  getBoolean s := (s.found, s)
  getFloat s := (s.found, s)
  clean := pure ()
  requestValues s := (.ok s.req, s)

theorem oracle_lawful (ask : Str → View → Outcome Bool) : Lawful (oracle ask) Told.view ask where
  clean s := ⟨s, rfl, rfl⟩
  initialObject _ s := ⟨s, rfl, rfl⟩
  pushString _ _ _ _ := ⟨_, rfl, rfl⟩
  loadFunctions s := ⟨s, rfl, rfl⟩
  loadG _ _ _ _ := ⟨_, rfl, rfl⟩
  eval text s := by
    refine ⟨_, _, rfl, rfl, ?_⟩
    cases h : ask text s.view with
    | ok b => exact Or.inl ⟨by simp [oracle, Outcome.map], by simp [oracle]⟩
    | throw e => simp [Says, oracle, Outcome.map]
    | ub u => simp [Says, oracle, Outcome.map]

/-- Finds the matcher true when the subject of the request is that of the rule. -/
def sameSub (_ : Str) (w : View) : Outcome Bool := .ok (w.vars c!"r.sub" == w.vars c!"p.sub")

/-- The state in which the request `r` has been pushed. -/
def pushed (r : Rule) : CallSt Told :=
  (on (do
    (oracle sameSub).pushString c!"r" c!"sub" ((r[0]?).getD [])
    (oracle sameSub).pushString c!"r" c!"obj" ((r[1]?).getD [])
    (oracle sameSub).pushString c!"r" c!"act" ((r[2]?).getD []))
    { obj := { view := { vars := fun _ => none, gs := [] }, req := [], found := .ok false },
      explain := [] }).2

/-- An effector that wants two matching rules: it allows at the second one and names it. -/
def quorum (_ : Str) (_ : List Effect) (ms : List Bool) (i _ : Nat) : Effect × Option (Option Nat) :=
  if 2 ≤ (ms.filter id).length then (.allow, some (some i)) else (.indeterminate, some none)

open Fixtures

/-- A further rule for the subject of `alice`. -/
def alice2 : Rule := [c!"alice", c!"data2", c!"write"]

theorem acl_setup (l : List Rule) : Setup (aclModel (.vector l)) [] mAcl c!"some(where (p.eft == allow))"
    [c!"p_sub", c!"p_obj", c!"p_act"] l where
  r := ⟨_, rfl⟩
  p := ⟨_, rfl, rfl, rfl⟩
  e := ⟨_, rfl, rfl⟩
  m := Or.inr ⟨rfl, _, rfl, rfl⟩

/-- What is found about a rule for the request of `alice`. -/
def forAlice (r : Rule) : Bool × Effect := (r[0]? == some c!"alice", .allow)

theorem acl_judged [IterOrder] : Judged sameSub
    (startView (aclModel (.vector [alice, bob, alice2])) (pushed alice).obj.view) mAcl
    [c!"p_sub", c!"p_obj", c!"p_act"] [alice, bob, alice2] forAlice := by
  have hs : startView (aclModel (.vector [alice, bob, alice2])) (pushed alice).obj.view =
      (pushed alice).obj.view := by
    simp only [startView]
    have : IterOrder.iter ((aclModel (.vector [alice, bob, alice2])).secMap c!"g") = [] := by
      have := IterOrder.iter_perm ((aclModel (.vector [alice, bob, alice2])).secMap c!"g")
      exact List.Perm.eq_nil (this.trans (by exact List.Perm.refl []))
    rw [this]; rfl
  rw [hs]
  intro r hr
  simp only [List.mem_cons, List.not_mem_nil, or_false] at hr
  rcases hr with rfl | rfl | rfl <;>
    exact ⟨rfl, by decide +kernel, Or.inl (by decide)⟩

/-- Two of the three rules are the subject's: the effector allows at the third and names it. -/
example [IterOrder] :
    (mEnforce (oracle sameSub) (EffImpl.ofFun quorum) (aclModel (.vector [alice, bob, alice2])) true
      [] (pushed alice)).1 = .ok true ∧
    (mEnforce (oracle sameSub) (EffImpl.ofFun quorum) (aclModel (.vector [alice, bob, alice2])) true
      [] (pushed alice)).2.explain = alice2 :=
  C143_decides_partial (oracle_lawful sameSub) quorum (by decide) (acl_setup _) (pushed alice)
    forAlice acl_judged 2 (by decide) (by decide) (Or.inr rfl) (some 2) (by decide)

/-- **C143 (fails: an effector that leaves the index alone).** `explainIndex` is not initialised and
is read after the loop: an effector that allows without naming a rule leads to undefined
behaviour, whatever it was asked. -/
theorem C143_index_fails [IterOrder] (L : Lawful ev view ask)
    (f : Str → List Effect → List Bool → Nat → Nat → Effect) {m : Model}
    {matcher exp expr : Str} {tokens : List Str} {r : Rule} {rules : List Rule} (hn : tokens.Nodup)
    (S : Setup m matcher exp expr tokens (r :: rules)) (s : CallSt σ) (g : Rule → Bool × Effect)
    (J : Judged ask (startView m (view s.obj)) exp tokens (r :: rules) g) :
    (mEnforce ev (EffImpl.ofFun fun x es ms i n => (f x es ms i n, none)) m true matcher s).1 =
      .ub .uninit := by
  obtain ⟨s1, hw, hrun⟩ := start L (EffImpl.ofFun fun x es ms i n => (f x es ms i n, none)) S s
  have hloop : ∀ (rs : List Rule) (idx : Nat) (es : List Effect) (ms : List Bool)
      (last : Option Effect) (t : σ), (∀ r' ∈ rs, r' ∈ r :: rules) →
      During (startView m (view s.obj)) tokens (view t) →
      ∃ x t', ruleLoop (EffImpl.ofFun fun x es ms i n => (f x es ms i n, none))
        (ruleStep ev exp tokens) expr (r :: rules).length rs idx es ms last none t =
        (.ok (x, none), t') := by
    intro rs
    induction rs with
    | nil => intro idx es ms last t _ _; exact ⟨last, t, rfl⟩
    | cons r' rs ih =>
      intro idx es ms last t hmem hd
      obtain ⟨t1, h1, h2⟩ := step_judged L hn J r' (hmem r' (by simp)) t hd
      simp only [ruleLoop, M.bind_run, h1, EffImpl.ofFun, M.pure_run, written]
      split
      · exact ⟨_, t1, rfl⟩
      · exact ih _ _ _ _ t1 (fun r'' h => hmem r'' (by simp [h])) h2
  obtain ⟨x, t', h⟩ := hloop (r :: rules) 0 (List.replicate (r :: rules).length .indeterminate)
    (List.replicate (r :: rules).length false) none s1 (fun _ h => h) (Or.inl hw)
  rw [hrun, if_pos (by simp)]
  simp only [M.bind_run, on, runRules, h]
  rfl

/-- The effector allows at the first rule, and names none. -/
example [IterOrder] :
    (mEnforce (oracle sameSub) (EffImpl.ofFun fun _ _ _ _ _ => (.allow, none))
      (aclModel (.vector [alice, bob, alice2])) true [] (pushed alice)).1 = .ub .uninit :=
  C143_index_fails (oracle_lawful sameSub) (fun _ _ _ _ _ => .allow) (by decide) (acl_setup _)
    (pushed alice) forAlice acl_judged

/-- An effector that allows when any rule matched, and names none. -/
def anyMatch (_ : Str) (_ : List Effect) (ms : List Bool) (_ _ : Nat) :
    Effect × Option (Option Nat) :=
  if ms.any id then (.allow, some none) else (.indeterminate, some none)

/-- **C143 (fails: an empty policy).** The effector is told of one rule that matched although there is
no rule and the matcher was found false: one that allows when a rule matches grants the request. -/
theorem C143_empty_fails : (letI := insertionOrder
    mEnforce (oracle sameSub) (EffImpl.ofFun anyMatch) (aclModel (.vector [])) true []
      (pushed alice)).1 = .ok true ∧
    (letI := insertionOrder
    mEnforce (oracle sameSub) (EffImpl.ofFun anyMatch) (aclModel (.vector [bob])) true []
      (pushed alice)).1 = .ok false := by decide +kernel

/-- **C143 (fails: a policy in a set).** When the rules are kept in a set, the effector is told only of
the rule equal to the request: of the two rules that match one is left out. -/
theorem C143_set_fails : (letI := insertionOrder
    mEnforce (oracle sameSub) (EffImpl.ofFun quorum) (aclModel (.vector [alice, alice2])) true []
      (pushed alice)).1 = .ok true ∧
    (letI := insertionOrder
    mEnforce (oracle sameSub) (EffImpl.ofFun quorum)
      (aclModel { hash := true, items := [alice, alice2] }) true [] (pushed alice)).1 = .ok false := by
  decide +kernel

/-! ### C144 -/

/-- **C144 (the library).** With the classes of the library the request is the one of the other
properties: the same answer, explanation, evaluator and role managers. -/
theorem C144_library [IterOrder] (lib : ExprLib) (m : Model) (enabled : Bool) (matcher : Str)
    (s : CallSt LibObj) :
    (mEnforce (exprtk lib) default m enabled matcher s).1 =
      (Casbin.mEnforce lib m enabled matcher
        { ev := s.obj.1, heap := s.obj.2, explain := s.explain }).1 ∧
    toReq (mEnforce (exprtk lib) default m enabled matcher s).2 =
      (Casbin.mEnforce lib m enabled matcher
        { ev := s.obj.1, heap := s.obj.2, explain := s.explain }).2 :=
  sim_mEnforce lib m enabled matcher s

/-- **C144 (evaluators that answer alike).** Two evaluators, of any classes, whose methods give the
same answers on corresponding objects give the same decisions and explanations, with any two
effectors that answer alike; in particular one that answers as `ExprtkEvaluator` decides as it
does. -/
theorem C144_agree [IterOrder] {τ : Type} {R : σ → τ → Prop} {ev : EvalImpl σ} {ev' : EvalImpl τ}
    {ef : EffImpl σ} {ef' : EffImpl τ} (H : EvalAlike R ev ev') (G : EffAlike R ef ef') (m : Model)
    (enabled : Bool) (matcher : Str) (s : CallSt σ) (t : CallSt τ) (hr : R s.obj t.obj)
    (hx : s.explain = t.explain) :
    (mEnforce ev ef m enabled matcher s).1 = (mEnforce ev' ef' m enabled matcher t).1 ∧
    (mEnforce ev ef m enabled matcher s).2.explain =
      (mEnforce ev' ef' m enabled matcher t).2.explain :=
  have h := alike_mEnforce H G m enabled matcher s t ⟨hr, hx⟩
  ⟨h.1, h.2.2⟩

/-- An evaluator that also counts the texts it is asked about decides as the one that does not. -/
example [IterOrder] (m : Model) (s : CallSt (Told × Nat)) :
    (mEnforce
      { eval := fun text s => (((oracle sameSub).eval text s.1).1,
          ((oracle sameSub).eval text s.1).2, s.2 + 1)
        initialObject := fun _ => pure ()
        pushString := fun t p v s => (.ok (), ((oracle sameSub).pushString t p v s.1).2, s.2)
        loadFunctions := pure ()
        loadG := fun rm name n s => (.ok (), ((oracle sameSub).loadG rm name n s.1).2, s.2)
        isBool := fun s => (((oracle sameSub).isBool s.1).1, s)
        getBoolean := fun s => (((oracle sameSub).getBoolean s.1).1, s)
        getFloat := fun s => (((oracle sameSub).getFloat s.1).1, s)
        clean := pure ()
        requestValues := fun s => (.ok s.1.req, s) } default m true [] s).1 =
    (mEnforce (oracle sameSub) default m true [] { obj := s.obj.1, explain := s.explain }).1 :=
  (C144_agree (R := fun (a : Told × Nat) b => a.1 = b)
    ⟨fun _ a b h => by subst h; exact ⟨rfl, rfl⟩, fun _ a b h => ⟨rfl, h⟩,
     fun _ _ _ a b h => by subst h; exact ⟨rfl, rfl⟩, fun a b h => ⟨rfl, h⟩,
     fun _ _ _ a b h => by subst h; exact ⟨rfl, rfl⟩, fun a b h => by subst h; exact ⟨rfl, rfl⟩,
     fun a b h => by subst h; exact ⟨rfl, rfl⟩, fun a b h => by subst h; exact ⟨rfl, rfl⟩,
     fun a b h => ⟨rfl, h⟩, fun a b h => by subst h; exact ⟨rfl, rfl⟩⟩
    alike_default m true [] s { obj := s.obj.1, explain := s.explain } rfl rfl).1

/-- The default loop of the general model is that of the library's. -/
theorem runRules_default (step : Rule → M σ (Bool × Effect)) (expr : Str) (rules : List Rule)
    (s : σ) : runRules default step expr rules s =
      (do let r ← Casbin.runRules step expr rules; pure (pairUp r)) s := by
  have h : ∀ (len : Nat) (rs : List Rule) (idx : Nat) (es : List Effect) (ms : List Bool)
      (last : Option (Effect × Option Nat)),
      ruleLoop default step expr len rs idx es ms (pairUp last).1 (pairUp last).2 =
      (do let r ← Casbin.ruleLoop step expr len rs idx es ms last; pure (pairUp r)) := by
    intro len rs
    induction rs with
    | nil => intro idx es ms last; rfl
    | cons r rs ih =>
      intro idx es ms last
      simp only [ruleLoop, Casbin.ruleLoop, bind_bind, default, pure_then]
      congr 1
      funext me
      congr 1
      funext res
      by_cases hres : res.1 ≠ .indeterminate
      · rw [if_pos hres, if_pos hres]; rfl
      · rw [if_neg hres, if_neg hres]; exact ih _ _ _ (some res)
  exact congrFun (h rules.length rules 0 _ _ none) s

/-- **C144 (partial: the rules that count).** Any evaluator that evaluates, the effector of the library
with a supported effect, a policy kept in a vector whose rules are all found true or false: the
decision is that of the first rule that decides, where a rule counts exactly if the evaluator finds
the matcher true with the fields of the request and of that rule. -/
theorem C144_rules_partial [IterOrder] (L : Lawful ev view ask) {m : Model}
    {matcher exp expr : Str} {tokens : List Str} {rules : List Rule} (hn : tokens.Nodup)
    (S : Setup m matcher exp expr tokens rules) (hne : rules ≠ []) (hs : Supported expr)
    (s : CallSt σ) (g : Rule → Bool × Effect)
    (J : Judged ask (startView m (view s.obj)) exp tokens rules g) :
    ∃ x i, FirstDecides (DecPair expr (rules.map g)) (defaultEffect expr) (rules.map g) (x, i) ∧
      (mEnforce ev default m true matcher s).1 = .ok (decide (x = .allow)) ∧
      (mEnforce ev default m true matcher s).2.explain = explained rules i := by
  obtain ⟨s1, hw, hrun⟩ := start L default S s
  obtain ⟨s', hloop, _⟩ := runRules_sim (ruleStep ev exp tokens)
    (fun t => During (startView m (view s.obj)) tokens (view t)) (fun r => .ok (g r)) expr rules
    (step_judged L hn J) s1 (Or.inl hw)
  obtain ⟨⟨x, i⟩, hpure, hdec⟩ := pureRules_decide hs g rules hne
  refine ⟨x, i, hdec, ?_⟩
  rw [hrun, if_pos hne]
  have : runRules default (ruleStep ev exp tokens) expr rules s1 = (.ok (some x, some i), s') := by
    rw [runRules_default, M.bind_run, hloop, hpure]
    rfl
  simp only [M.bind_run, on, this, finish_run, and_self]

/-- The first rule of the subject decides. -/
example [IterOrder] : ∃ x i, FirstDecides
    (DecPair exprAllowOverride ([alice, bob, alice2].map forAlice)) (defaultEffect exprAllowOverride)
    ([alice, bob, alice2].map forAlice) (x, i) ∧
    (mEnforce (oracle sameSub) default (aclModel (.vector [alice, bob, alice2])) true []
      (pushed alice)).1 = .ok (decide (x = .allow)) ∧
    (mEnforce (oracle sameSub) default (aclModel (.vector [alice, bob, alice2])) true []
      (pushed alice)).2.explain = explained [alice, bob, alice2] i :=
  C144_rules_partial (oracle_lawful sameSub) (by decide) (acl_setup _) (by simp) (Or.inl rfl)
    (pushed alice) forAlice acl_judged

/-- The text is one the evaluator may be asked about: the matcher, or the matcher with the `eval(...)`
calls replaced for some rule. -/
def AskedAbout (m : Model) (matcher text : Str) : Prop :=
  ∃ exp pa, ((matcher ≠ [] ∧ exp = matcher) ∨
      (matcher = [] ∧ ∃ a, m.find c!"m" c!"m" = some a ∧ exp = a.value)) ∧
    m.find c!"p" c!"p" = some pa ∧ (text = exp ∨ ∃ r, ruleText exp pa.tokens r = .ok text)

theorem on_ok {α : Type} {f : M σ α} {s s' : CallSt σ} {a : α} (h : on f s = (.ok a, s')) :
    (f s.obj).1 = .ok a := congrArg Prod.fst h

/-- **C144 (partial: a matcher that is refused).** Any evaluator, any effector, any model. If `Eval`
never accepts the texts of the request, and `CheckType` does not return after an `Eval` that
refused, the request is not granted. -/
theorem C144_refused_partial [IterOrder] (ev : EvalImpl σ) (ef : EffImpl σ) (m : Model)
    (matcher : Str) (s : CallSt σ)
    (hno : ∀ text, AskedAbout m matcher text → ∀ s, (ev.eval text s).1 ≠ .ok true)
    (hchk : ∀ text s, (ev.eval text s).1 = .ok false → ∀ b, (ev.isBool (ev.eval text s).2).1 ≠ .ok b) :
    (mEnforce ev ef m true matcher s).1 ≠ .ok true := by
  intro h
  have hstep : ∀ exp tokens r t, (∀ text, ruleText exp tokens r = .ok text →
      ∀ s, (ev.eval text s).1 ≠ .ok true) → ∀ x, (ruleStep ev exp tokens r t).1 ≠ .ok x := by
    intro exp tokens r t hnt x hx
    simp only [ruleStep] at hx
    split at hx
    · cases hx
    · obtain ⟨_, t1, _, hx⟩ := M.bind_ok_inv hx
      obtain ⟨_, t2, _, hx⟩ := M.bind_ok_inv hx
      obtain ⟨_, t3, _, hx⟩ := M.bind_ok_inv hx
      obtain ⟨text, t4, htext, hx⟩ := M.bind_ok_inv hx
      obtain ⟨b, t5, hev, hx⟩ := M.bind_ok_inv hx
      obtain ⟨_, t6, hm, hx⟩ := M.bind_ok_inv hx
      have htext' : ruleText exp tokens r = .ok text := by
        rw [M.lift_run] at htext
        exact congrArg Prod.fst htext
      have hb : (ev.eval text t4).1 = .ok false := by
        rw [hev]
        cases b with
        | false => rfl
        | true => exact absurd (by rw [hev]) (hnt text htext' t4)
      have hm' : (matcherResult ev t5).1 = .ok _ := congrArg Prod.fst hm
      simp only [matcherResult] at hm'
      obtain ⟨c, t7, hc, _⟩ := M.bind_ok_inv hm'
      refine hchk text t4 hb c ?_
      rw [hev]
      exact congrArg Prod.fst hc
  have hmain : ∀ exp, ((matcher ≠ [] ∧ exp = matcher) ∨
      (matcher = [] ∧ ∃ a, m.find c!"m" c!"m" = some a ∧ exp = a.value)) → ∀ t : CallSt σ,
      ((do
        let _ ← needAssertion m c!"r" c!"r"
        let p ← needAssertion m c!"p" c!"p"
        let rules ← on (selectPolicies ev m)
        let e ← needAssertion m c!"e" c!"e"
        if rules ≠ [] then do
          let res ← on (runRules ef (ruleStep ev exp p.tokens) e.value rules)
          finish rules res
        else enforceEmpty ev ef exp p.tokens e.value : M (CallSt σ) Bool) t).1 ≠ .ok true := by
    intro exp hexp t h
    obtain ⟨_, t1, _, h⟩ := M.bind_ok_inv h
    obtain ⟨p, t2, hp, h⟩ := M.bind_ok_inv h
    obtain ⟨rules, t3, _, h⟩ := M.bind_ok_inv h
    obtain ⟨e, t4, _, h⟩ := M.bind_ok_inv h
    have hp' : m.find c!"p" c!"p" = some p := by
      simp only [needAssertion] at hp
      cases hf : m.find c!"p" c!"p" with
      | none => rw [hf] at hp; cases hp
      | some a => rw [hf] at hp; cases hp; rfl
    split at h
    · obtain ⟨res, t5, hr, _⟩ := M.bind_ok_inv h
      have hr' := on_ok hr
      cases rules with
      | nil => contradiction
      | cons r rs =>
        simp only [runRules, ruleLoop] at hr'
        obtain ⟨me, t6, hme, _⟩ := M.bind_ok_inv hr'
        exact hstep exp p.tokens r t4.obj
          (fun text ht => hno text ⟨exp, p, hexp, hp', Or.inr ⟨r, ht⟩⟩) me (by rw [hme])
    · simp only [enforceEmpty] at h
      split at h
      · cases h
      · obtain ⟨_, t5, _, h⟩ := M.bind_ok_inv h
        obtain ⟨_, t6, _, h⟩ := M.bind_ok_inv h
        obtain ⟨_, t7, _, h⟩ := M.bind_ok_inv h
        obtain ⟨b, t8, hb, h⟩ := M.bind_ok_inv h
        cases b with
        | false => cases h
        | true => exact hno exp ⟨exp, p, hexp, hp', Or.inl rfl⟩ t7.obj (on_ok hb)
  simp only [mEnforce] at h
  obtain ⟨_, t1, _, h⟩ := M.bind_ok_inv h
  rw [if_neg (by simp)] at h
  obtain ⟨_, t2, _, h⟩ := M.bind_ok_inv h
  obtain ⟨_, t3, _, h⟩ := M.bind_ok_inv h
  split at h
  · rename_i hm
    obtain ⟨a, t4, ha, h⟩ := M.bind_ok_inv h
    have ha' : m.find c!"m" c!"m" = some a := by
      simp only [needAssertion] at ha
      cases hf : m.find c!"m" c!"m" with
      | none => rw [hf] at ha; cases ha
      | some a' => rw [hf] at ha; cases ha; rfl
    exact hmain a.value (Or.inr ⟨hm, a, ha', rfl⟩) t4 h
  · rename_i hm
    exact hmain matcher (Or.inl ⟨hm, rfl⟩) t3 h

/-- An evaluator that finds no text to be a matcher. -/
example [IterOrder] (m : Model) (matcher : Str) (ef : EffImpl Told) (s : CallSt Told) :
    (mEnforce (oracle fun _ _ => .throw .parse) ef m true matcher s).1 ≠ .ok true :=
  C144_refused_partial _ ef m matcher s (fun _ _ _ h => by cases h) (fun _ _ _ _ h => by cases h)

/-- An evaluator whose `Eval` refuses every text, and whose other methods do not look at that. -/
def careless : EvalImpl Told :=
  { oracle sameSub with eval := fun text s => (.ok false, { s with found := sameSub text s.view }) }

/-- **C144 (fails: what `Eval` returns).** In the loop over the rules the return value of `Eval` is not
looked at: an evaluator that refuses the matcher but whose other methods return grants the request,
and does not when the policy is empty. -/
theorem C144_refused_fails :
    (∀ text s, (careless.eval text s).1 = .ok false) ∧
    (letI := insertionOrder
    mEnforce careless default (aclModel (.vector [alice])) true [] (pushed alice)).1 = .ok true ∧
    (letI := insertionOrder
    mEnforce careless default (aclModel (.vector [])) true [] (pushed [])).1 = .ok false :=
  ⟨fun _ _ => rfl, by decide +kernel, by decide +kernel⟩

end Custom
end Casbin
