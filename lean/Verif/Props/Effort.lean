import Verif.EffortLemmas
import Verif.Props.Growth
import Verif.Props.Custom
import Verif.MiniLib

/-!
# C159, C160: how often a matcher is compiled and evaluated

C159: a matcher is compiled when its text is not the one of the evaluation before; a series of
requests with one matcher compiles it once. C160: a request evaluates the matcher once for each rule
it looks at. It does not: it does so two, three or five times.
-/

namespace Casbin
namespace Custom
namespace Effort

open CallSt Growth

variable [IterOrder]

/-! ## The record does not change the answers -/

/-- The evaluator with the record and the one without. -/
def Under (a : Obj) (b : LibObj) : Prop := a.1 = b

omit [IterOrder] in
theorem under_onLib {α : Type} (f : M LibObj α) : Alike Under (onLib f) f := by
  rintro a b rfl
  exact ⟨rfl, rfl⟩

theorem under_value (lib : ExprLib) : Alike Under (value lib) (exprValue lib) := by
  rintro a b rfl
  exact ⟨rfl, rfl⟩

theorem under_truth (lib : ExprLib) : Alike Under (truth lib)
    (do let v ← exprValue lib; pure v.truthy) :=
  Alike.bind (under_value lib) fun _ => Alike.pure _

theorem under_isBool (lib : ExprLib) : Alike Under (isBool lib) (Custom.exprtk lib).isBool := by
  rintro a b rfl
  have h := Alike.ite (R := Under) (a.1.1.err = true) (Alike.throw .parse)
    (Alike.bind (under_value lib) fun v => Alike.ite (v = .num 0) (Alike.pure true)
      (Alike.bind (under_value lib) fun v => Alike.pure (decide (v = .num 1)))) a a.1 rfl
  exact h

theorem under_exprtk (lib : ExprLib) : EvalAlike Under (exprtk lib) (Custom.exprtk lib) where
  eval _ := by rintro a b rfl; exact ⟨rfl, rfl⟩
  initialObject _ := under_onLib _
  pushString _ _ _ := under_onLib _
  loadFunctions := under_onLib _
  loadG _ _ _ := under_onLib _
  isBool := under_isBool lib
  getBoolean := under_truth lib
  getFloat := under_truth lib
  clean := under_onLib _
  requestValues := under_onLib _

/-- **C159 (the same answers).** The evaluator with the record answers every series of requests as
the evaluator of the other properties, and ends with the same tables. -/
theorem C159_same (lib : ExprLib) (m : Model) (enabled : Bool) (qs : List Ask) (s : LibObj)
    (done : List Event) (x : Rule) :
    (serveAll (exprtk lib) default m enabled qs { obj := (s, done), explain := x }).1 =
      (serveAll (Custom.exprtk lib) default m enabled qs { obj := s, explain := x }).1 ∧
    (serveAll (exprtk lib) default m enabled qs { obj := (s, done), explain := x }).2.obj.1 =
      (serveAll (Custom.exprtk lib) default m enabled qs { obj := s, explain := x }).2.obj := by
  have h : ∀ (qs : List Ask) (a : CallSt Obj) (b : CallSt LibObj), Both Under a b →
      (serveAll (exprtk lib) default m enabled qs a).1 =
        (serveAll (Custom.exprtk lib) default m enabled qs b).1 ∧
      Both Under (serveAll (exprtk lib) default m enabled qs a).2
        (serveAll (Custom.exprtk lib) default m enabled qs b).2 := by
    intro qs
    induction qs with
    | nil => intro a b h; exact ⟨rfl, h⟩
    | cons q qs ih =>
      intro a b h
      obtain ⟨h1, h2⟩ := alike_serve (under_exprtk lib) alike_default m enabled q a b h
      obtain ⟨h3, h4⟩ := ih _ _ h2
      exact ⟨by simp only [serveAll, h1, h3], h4⟩
  obtain ⟨h1, h2⟩ := h qs { obj := (s, done), explain := x } { obj := s, explain := x } ⟨rfl, rfl⟩
  exact ⟨h1, h2.1⟩

/-! ## Compilations -/

/-- The texts of a list that differ from the one before them, the first one from `before`. -/
def changed : Str → List Str → List Str
  | _, [] => []
  | before, t :: ts => if t = before then changed t ts else t :: changed t ts

/-- The last text of a list, or `before`. -/
def lastOf : Str → List Str → Str
  | before, [] => before
  | _, t :: ts => lastOf t ts

omit [IterOrder] in
theorem changed_snoc (b : Str) (ts : List Str) (t : Str) :
    changed b (ts ++ [t]) = changed b ts ++ if t = lastOf b ts then [] else [t] := by
  induction ts generalizing b with
  | nil =>
    by_cases h : t = b <;> simp [changed, lastOf, h]
  | cons a ts ih =>
    change (if a = b then changed a (ts ++ [t]) else a :: changed a (ts ++ [t])) =
      (if a = b then changed a ts else a :: changed a ts) ++ if t = lastOf a ts then [] else [t]
    rw [ih a]
    split <;> rfl

omit [IterOrder] in
theorem lastOf_snoc (b : Str) (ts : List Str) (t : Str) : lastOf b (ts ++ [t]) = t := by
  induction ts generalizing b with
  | nil => rfl
  | cons a ts ih => exact ih a

/-- The compiled texts of the record are those that changed, and the evaluator has the last one. -/
def Recorded (before : Str) (s : Obj) : Prop :=
  compiledTexts s.2 = changed before (texts s.2) ∧ s.1.1.exprStr = lastOf before (texts s.2)

omit [IterOrder] in
theorem recorded_onEv {α : Type} {f : M Evaluator α} (h : ∀ ev, (f ev).2.exprStr = ev.exprStr) (before : Str) :
    Keeps (Recorded before) (onLib (onEv f)) := by
  intro s hs
  exact ⟨hs.1, (h _).trans hs.2⟩

omit [IterOrder] in
theorem recorded_eval (lib : ExprLib) (before t : Str) : Keeps (Recorded before) (eval lib t) := by
  intro s hs
  have he : ((Evaluator.eval lib t s.1.1).2).exprStr = t := by
    simp only [Evaluator.eval]
    split
    · split <;> rfl
    · rename_i h; simpa using h
  have ht : texts (s.2 ++ .text t :: if s.1.1.exprStr ≠ t then [.compiled t] else []) = texts s.2 ++ [t] := by
    simp only [texts, List.filterMap_append]
    split <;> simp
  refine ⟨?_, ?_⟩
  · change compiledTexts (s.2 ++ .text t :: if s.1.1.exprStr ≠ t then [.compiled t] else []) =
      changed before (texts (s.2 ++ .text t :: if s.1.1.exprStr ≠ t then [.compiled t] else []))
    rw [ht, changed_snoc, ← hs.1, ← hs.2]
    simp only [compiledTexts, List.filterMap_append]
    by_cases h : s.1.1.exprStr = t
    · simp [h]
    · simp [h, Ne.symm h]
  · change ((Evaluator.eval lib t s.1.1).2).exprStr = lastOf before
      (texts (s.2 ++ .text t :: if s.1.1.exprStr ≠ t then [.compiled t] else []))
    rw [ht, lastOf_snoc, he]

theorem recorded_value (lib : ExprLib) (before : Str) : Keeps (Recorded before) (value lib) := by
  intro s hs
  have h1 : texts (s.2 ++ [.value (exprValue lib s.1).1]) = texts s.2 := by simp [texts]
  have h2 : compiledTexts (s.2 ++ [.value (exprValue lib s.1).1]) = compiledTexts s.2 := by
    simp [compiledTexts]
  have h3 : (exprValue lib s.1).2.1 = s.1.1 := by
    simp only [exprValue]
    cases s.1.1.compiled <;> rfl
  refine ⟨?_, ?_⟩
  · change compiledTexts (s.2 ++ [.value (exprValue lib s.1).1]) = changed before (texts (s.2 ++ [.value (exprValue lib s.1).1]))
    rw [h1, h2]; exact hs.1
  · change (exprValue lib s.1).2.1.exprStr = lastOf before (texts (s.2 ++ [.value (exprValue lib s.1).1]))
    rw [h1, h3]; exact hs.2

omit [IterOrder] in
theorem addIdentifier_exprStr (x v : Str) (ev : Evaluator) :
    (Evaluator.addIdentifier x v ev).2.exprStr = ev.exprStr := by
  simp only [Evaluator.addIdentifier]
  split
  · rfl
  · split <;> rfl

omit [IterOrder] in
theorem addFunction_exprStr (x : Str) (f : FunRef) (ev : Evaluator) :
    (Evaluator.addFunction x f ev).2.exprStr = ev.exprStr := by
  simp only [Evaluator.addFunction, M.modify_run]
  split <;> rfl

omit [IterOrder] in
theorem addFunctions_exprStr (fs : List (Str × FunRef)) (ev : Evaluator) :
    (Evaluator.addFunctions fs ev).2.exprStr = ev.exprStr := by
  induction fs generalizing ev with
  | nil => rfl
  | cons nf fs ih =>
    have h := addFunction_exprStr nf.1 nf.2 ev
    simp only [Evaluator.addFunctions, M.bind_run]
    rw [show Evaluator.addFunction nf.1 nf.2 ev = (.ok (), (Evaluator.addFunction nf.1 nf.2 ev).2) from rfl]
    rw [ih, h]

theorem recorded_isBool (lib : ExprLib) (before : Str) : Keeps (Recorded before) (isBool lib) :=
  Keeps.bind (fun _ h => h) fun _ => Keeps.ite _ (Keeps.throw _) (Keeps.bind (recorded_value lib before)
    fun _ => Keeps.ite _ (Keeps.pure _) (Keeps.bind (recorded_value lib before) fun _ => Keeps.pure _))

theorem recorded_truth (lib : ExprLib) (before : Str) : Keeps (Recorded before) (truth lib) :=
  Keeps.bind (recorded_value lib before) fun _ => Keeps.pure _

theorem recorded_methods (lib : ExprLib) (before : Str) (tokens : List Str) :
    KeepsEv (Recorded before) (exprtk lib) tokens where
  eval t := recorded_eval lib before t
  initialObject _ := fun _ h => h
  pushString _ _ v := recorded_onEv (addIdentifier_exprStr _ v) before
  isBool := recorded_isBool lib before
  getBoolean := recorded_truth lib before
  getFloat := recorded_truth lib before
  clean := fun _ h => h
  requestValues := fun _ h => h

theorem recorded_loadGs (lib : ExprLib) (before : Str) (l : List (Str × Assertion)) (s : Obj)
    (hs : Recorded before s) :
    ∃ t, loadGs (exprtk lib) l s = (.ok (), t) ∧ Recorded before t := by
  induction l generalizing s with
  | nil => exact ⟨s, rfl, hs⟩
  | cons ka l ih =>
    obtain ⟨n, a⟩ := ka
    obtain ⟨t, h, ht⟩ := ih _ (recorded_onEv (addFunction_exprStr n (.g a.rm (countChar '_' a.value))) before s hs)
    exact ⟨t, h, ht⟩

theorem recorded_serve (lib : ExprLib) (before : Str) (m : Model) (enabled : Bool) (q : Ask) :
    Keeps (fun s : CallSt Obj => Recorded before s.obj) (serve (exprtk lib) default m enabled q) := by
  have hp : ∀ l, Keeps (Recorded before) (pushAll (exprtk lib) l) := by
    intro l
    induction l with
    | nil => exact Keeps.pure _
    | cons kv l ih => exact Keeps.bind (recorded_onEv (addIdentifier_exprStr _ _) before) fun _ => ih
  refine Keeps.bind (Keeps.on fun _ h => h) fun _ => Keeps.bind (hp _).on fun _ => ?_
  intro s hs
  cases enabled with
  | false => exact hs
  | true =>
    have h1 : Recorded before ((exprtk lib).loadFunctions s.obj).2 :=
      recorded_onEv (addFunctions_exprStr Evaluator.builtins) before s.obj hs
    obtain ⟨t2, h2, ht2⟩ := recorded_loadGs lib before (IterOrder.iter (m.secMap c!"g")) _ h1
    refine mEnforce_keeps m (fun p _ => recorded_methods lib before p.tokens) (fun _ h => h)
      (fun x es ms i n => keeps_default _ x es ms i n) q.matcher s _ t2 ?_ h2 ht2
    exact Prod.ext (addFunctions_ok Evaluator.builtins s.obj.1.1) rfl

/-- **C159 (when a text is compiled).** Any series of requests to one enforcer, with any matchers, and
whatever they are answered: the texts compiled are those that differ from the text evaluated
before. -/
theorem C159_compiled (lib : ExprLib) (m : Model) (enabled : Bool) (qs : List Ask) (s : LibObj)
    (x : Rule) :
    let l := (serveAll (exprtk lib) default m enabled qs { obj := (s, []), explain := x }).2.obj.2
    compiledTexts l = changed s.1.exprStr (texts l) := by
  have h : ∀ (qs : List Ask) (a : CallSt Obj), Recorded s.1.exprStr a.obj →
      Recorded s.1.exprStr (serveAll (exprtk lib) default m enabled qs a).2.obj := by
    intro qs
    induction qs with
    | nil => exact fun a h => h
    | cons q qs ih => exact fun a h => ih _ (recorded_serve lib _ m enabled q a h)
  exact (h qs { obj := (s, []), explain := x } ⟨rfl, rfl⟩).1

/-! ## What a request adds -/

theorem kept_true (lib : ExprLib) : Kept lib fun _ => True := ⟨fun _ _ _ => trivial, fun _ _ => trivial⟩

/-- Any evaluations, up to five. -/
theorem trace_any (lib : ExprLib) : Trace (fun _ => True)
    (fun b l => ∃ xs : List (Outcome Val), l = xs.map .value ∧ (fun (_ : Option Bool) (xs : List (Outcome Val)) =>
      xs.length ≤ 5) b xs) (matcherResult (exprtk lib)) :=
  trace_matcherResult (kept_true lib)

/-- A request before the rules are looked at. -/
theorem trace_serve {I : LibObj → Prop} {lib : ExprLib} (K : Kept lib I) {V : Option Bool → List (Outcome Val) → Prop}
    (hV : Trace I (fun b l => ∃ xs : List (Outcome Val), l = xs.map .value ∧ V b xs)
      (matcherResult (exprtk lib))) (m : Model) (q : Ask) :
    TraceOn I (RequestPart m q.matcher V) (serve (exprtk lib) default m true q) := by
  have hp : ∀ l, Trace I (fun _ l => l = []) (pushAll (exprtk lib) l) := by
    intro l
    induction l with
    | nil => exact (Trace.pure _).mono fun _ _ h => h.2
    | cons kv l ih => exact Trace.silent (silent_onLib fun s h => K.onEv _ s h) (fun _ => ih) rfl
  have hsil : ∀ {α : Type} {f : M Obj α}, Trace I (fun _ l => l = []) f →
      TraceOn I (fun o l => l = [] ∧ ∀ a, o = some a → True) (on f) :=
    fun h => (Trace.on h).mono fun o l h => ⟨h, by simp⟩
  refine TraceOn.silent (Q := fun _ _ => True) (hsil (silent_onLib fun s h => h)) (fun _ _ => ?_) (Or.inl ⟨rfl, rfl⟩)
  refine TraceOn.silent (Q := fun _ _ => True) (hsil (hp _)) (fun _ _ => ?_) (Or.inl ⟨rfl, rfl⟩)
  exact trace_request K hV m q.matcher

omit [IterOrder] in
theorem texts_part (t : Str) (c : Bool) (xs : List (Outcome Val)) :
    texts ((.text t :: if c = true then [.compiled t] else []) ++ xs.map .value) = [t] := by
  have h : texts (xs.map Event.value) = [] := by
    simp [texts]
  simp only [texts] at h
  simp only [texts, List.filterMap_append, h]
  cases c <;> simp

omit [IterOrder] in
theorem results_part (t : Str) (c : Bool) (xs : List (Outcome Val)) :
    results ((.text t :: if c = true then [.compiled t] else []) ++ xs.map .value) = xs := by
  have h : results (xs.map Event.value) = xs := by
    simp only [results, List.filterMap_map]
    exact List.filterMap_some
  simp only [results] at h
  simp only [results, List.filterMap_append, h]
  cases c <;> simp

omit [IterOrder] in
theorem texts_flatten (ls : List (List Event)) : texts ls.flatten = (ls.map texts).flatten := by
  simp only [texts, List.filterMap_flatten]
  rfl

omit [IterOrder] in
theorem results_flatten (ls : List (List Event)) : results ls.flatten = (ls.map results).flatten := by
  simp only [results, List.filterMap_flatten]
  rfl

omit [IterOrder] in
theorem ruleText_plain {exp : Str} (h : hasEval exp = false) (tokens : List Str) (rule : Rule) :
    ruleText exp tokens rule = .ok exp := by
  simp [ruleText, h]

omit [IterOrder] in
/-- Every text a request evaluates is its matcher, if that has no `eval(`. -/
theorem texts_request {m : Model} {matcher : Str} {V : Option Bool → List (Outcome Val) → Prop}
    {o : Option Bool} {l : List Event} (h : RequestPart m matcher V o l)
    (hm : ∀ exp, MatcherOf m matcher exp → hasEval exp = false) :
    ∀ t ∈ texts l, MatcherOf m matcher t := by
  rcases h with ⟨rfl, _⟩ | ⟨exp, p, rules, he, _, _, _, h⟩
  · intro t ht; simp [texts] at ht
  · intro t ht
    rcases h with ⟨_, parts, rfl, _, hs, _⟩ | ⟨_, _, c, xs, rfl, _⟩
    · rw [texts_flatten, List.mem_flatten] at ht
      obtain ⟨ts, h1, h2⟩ := ht
      obtain ⟨l, h3, rfl⟩ := List.mem_map.mp h1
      obtain ⟨q, hq, rfl⟩ := List.mem_map.mp h3
      obtain ⟨x, hx⟩ := hs q hq
      rcases hx with ⟨hx, _⟩ | ⟨t', c, xs, b, ht', hx, _⟩
      · rw [hx] at h2; simp [texts] at h2
      · rw [hx, texts_part] at h2
        rw [ruleText_plain (hm exp he)] at ht'
        cases ht'
        rw [List.mem_singleton.mp h2]
        exact he
    · rw [texts_part] at ht
      rw [List.mem_singleton.mp ht]
      exact he

omit [IterOrder] in
theorem changed_one {before exp : Str} {ts : List Str} (h : ∀ t ∈ ts, t = exp) :
    (changed before ts).length ≤ 1 := by
  have h1 : ∀ ts : List Str, (∀ t ∈ ts, t = exp) → changed exp ts = [] := by
    intro ts
    induction ts with
    | nil => intro _; rfl
    | cons t ts ih =>
      intro h
      have ht := h t (by simp)
      subst ht
      simp only [changed, if_pos]
      exact ih fun t ht => h t (by simp [ht])
  cases ts with
  | nil => simp [changed]
  | cons t ts =>
    have ht := h t (by simp)
    subst ht
    simp only [changed, h1 ts fun t ht => h t (by simp [ht])]
    split <;> simp

/-- **C159 (one matcher).** A series of requests with one and the same matcher that has no `eval(`
compiles it at most once, whatever the requests are answered. -/
theorem C159_once (lib : ExprLib) (m : Model) (matcher : Str)
    (hm : ∀ exp, MatcherOf m matcher exp → hasEval exp = false) (qs : List Ask)
    (hq : ∀ q ∈ qs, q.matcher = matcher) (s : LibObj) (x : Rule) :
    (compiledTexts (serveAll (exprtk lib) default m true qs { obj := (s, []), explain := x }).2.obj.2).length
      ≤ 1 := by
  rw [C159_compiled lib m true qs s x]
  have hone : ∃ exp, ∀ t, MatcherOf m matcher t → t = exp := by
    by_cases h : matcher = []
    · cases ha : m.find c!"m" c!"m" with
      | none => exact ⟨[], fun t ht => by rcases ht with ⟨h1, _⟩ | ⟨_, a, h2, _⟩ <;> simp_all⟩
      | some a => exact ⟨a.value, fun t ht => by rcases ht with ⟨h1, _⟩ | ⟨_, a, h2, _⟩ <;> simp_all⟩
    · exact ⟨matcher, fun t ht => by rcases ht with ⟨_, h1⟩ | ⟨h1, _⟩ <;> simp_all⟩
  obtain ⟨exp, hone⟩ := hone
  refine changed_one (exp := exp) ?_
  have h : ∀ (qs : List Ask), (∀ q ∈ qs, q.matcher = matcher) → ∀ a : CallSt Obj, (∀ t ∈ texts a.obj.2, t = exp) →
      ∀ t ∈ texts (serveAll (exprtk lib) default m true qs a).2.obj.2, t = exp := by
    intro qs
    induction qs with
    | nil => exact fun _ a h => h
    | cons q qs ih =>
      intro hq a ha
      refine ih (fun q' h' => hq q' (by simp [h'])) _ ?_
      obtain ⟨l, h1, _, h2⟩ := trace_serve (kept_true lib) (trace_any lib) m q a trivial
      rw [h1]
      intro t ht
      simp only [texts, List.filterMap_append, List.mem_append] at ht
      rcases ht with ht | ht
      · exact ha t ht
      · rw [hq q (by simp)] at h2
        exact hone t (texts_request h2 hm t ht)
  exact h qs hq { obj := (s, []), explain := x } (by simp [texts])

/-! ## Evaluations -/

omit [IterOrder] in
theorem results_bound {ls : List (List Event)} (h : ∀ l ∈ ls, (results l).length ≤ 5) :
    (results ls.flatten).length ≤ 5 * ls.length := by
  rw [results_flatten]
  induction ls with
  | nil => simp
  | cons l ls ih =>
    have h1 := h l (by simp)
    have h2 := ih fun l hl => h l (by simp [hl])
    simp only [List.map_cons, List.flatten_cons, List.length_append, List.length_cons]
    omega

/-- **C160 (upper bound).** A request evaluates the matcher at most five times for each rule of the
policy, and at most once if there is none, with any role managers and whatever it is answered. -/
theorem C160_bound (lib : ExprLib) (m : Model) (q : Ask) (s : LibObj) (x : Rule) {p : Assertion}
    (hp : m.find c!"p" c!"p" = some p) :
    (results (serve (exprtk lib) default m true q { obj := (s, []), explain := x }).2.obj.2).length ≤
      max 1 (5 * p.policy.items.length) := by
  obtain ⟨l, h1, _, h2⟩ := trace_serve (kept_true lib) (trace_any lib) m q
    { obj := (s, []), explain := x } trivial
  rw [h1, List.nil_append]
  rcases h2 with ⟨rfl, _⟩ | ⟨exp, p', rules, _, hp', hlen, _, h⟩
  · simp [results]
  · rw [hp] at hp'
    cases hp'
    rcases h with ⟨_, parts, rfl, hpre, hs, _⟩ | ⟨_, _, c, xs, rfl, hx⟩
    · have h3 := results_bound (ls := parts.map Prod.snd) (by
        intro l hl
        obtain ⟨q', hq, rfl⟩ := List.mem_map.mp hl
        obtain ⟨y, hy⟩ := hs q' hq
        rcases hy with ⟨hy, _⟩ | ⟨t, c, xs, b, _, hy, hv, _⟩
        · rw [hy]; simp [results]
        · rw [hy, results_part]; exact hv)
      have h4 := hpre.length_le
      simp only [List.length_map] at h3 h4
      omega
    · rw [results_part]; omega

/-- The role managers have no matching function. -/
def Plain (s : LibObj) : Prop := ∀ R ∈ s.2, R.pattern = none

theorem hasLink_same {R : RM} (h : R.pattern = none) (a b : Str) (d : List Str) :
    (RM.hasLink a b d R).2 = R := by
  simp only [RM.hasLink, M.bind_run, M.lift_run]
  cases RM.qualify d a with
  | throw e => rfl
  | ub u => rfl
  | ok n1 =>
    simp only
    cases RM.qualify d b with
    | throw e => rfl
    | ub u => rfl
    | ok n2 =>
      simp only
      split
      · rfl
      · simp only [M.bind_run, M.get_run]
        split
        · rfl
        · rename_i hr
          simp only [M.modify_run, M.bind_run, M.get_run, M.pure_run]
          have h1 : R.hasRole n1 = true := by
            cases h' : R.hasRole n1 <;> simp_all
          have h2 : R.roles.has n1 = true := by
            simpa [RM.hasRole, h] using h1
          obtain ⟨roles, lvl, pat⟩ := R
          simp only at h
          subst h
          simp only [RM.createRole]
          rw [if_pos h2]

theorem onHeap_same {heap : List RM} (h : ∀ R ∈ heap, R.pattern = none) (i : Nat) (a b : Str) (d : List Str) :
    (onHeap i (RM.hasLink a b d) heap).2 = heap := by
  simp only [onHeap]
  cases hi : heap[i]? with
  | none => rfl
  | some R =>
    simp only
    rw [hasLink_same (h R (List.mem_of_getElem? hi))]
    obtain ⟨hl, rfl⟩ := List.getElem?_eq_some_iff.mp hi
    exact List.set_getElem_self hl

theorem callFun_same (lib : ExprLib) {heap : List RM} (h : ∀ R ∈ heap, R.pattern = none) (f : FunRef)
    (args : List Val) : (callFun lib f args heap).2 = heap := by
  have hl : ∀ i a b d, (((do
      let b ← onHeap i (RM.hasLink a b d)
      pure (Val.ofBool b)) : M (List RM) Val) heap).2 = heap := by
    intro i a b d
    have h1 := onHeap_same h i a b d
    simp only [M.bind_run]
    rcases hx : onHeap i (RM.hasLink a b d) heap with ⟨o, t⟩
    rw [hx] at h1
    cases o <;> exact h1
  cases f with
  | builtin b =>
    unfold callFun
    simp only
    split
    · rfl
    · cases allStrs args with
      | none => rfl
      | some ss => simp only [M.lift_run]
  | g rm n =>
    unfold callFun
    simp only
    generalize allStrs args = os
    match os with
    | none => rfl
    | some [] => rfl
    | some [_] => rfl
    | some [a, b] =>
      cases rm with
      | none => rfl
      | some i => exact hl i a b []
    | some [a, b, d] =>
      cases rm with
      | none => rfl
      | some i => exact hl i a b [d]
    | some (_ :: _ :: _ :: _ :: _) => rfl

mutual
theorem evalExpr_same (lib : ExprLib) {heap : List RM} (h : ∀ R ∈ heap, R.pattern = none)
    (vars : UMap Str Str) (funs : UMap Str FunRef) :
    ∀ e : Expr, (evalExpr lib vars funs e heap).2 = heap
  | .str s => rfl
  | .num n => rfl
  | .var x => by
    simp only [evalExpr]
    cases vars.get (lower x) <;> rfl
  | .call f args => by
    simp only [evalExpr, M.bind_run]
    have h1 := evalArgs_same lib h vars funs args
    rcases hx : evalArgs lib vars funs args heap with ⟨o, t⟩
    rw [hx] at h1
    simp only at h1
    subst h1
    cases o with
    | ok vs =>
      simp only
      cases funs.get (lower f) with
      | none => rfl
      | some fr => exact callFun_same lib h fr vs
    | throw e => rfl
    | ub u => rfl
  | .op o args => by
    simp only [evalExpr, M.bind_run]
    have h1 := evalArgs_same lib h vars funs args
    rcases hx : evalArgs lib vars funs args heap with ⟨o, t⟩
    rw [hx] at h1
    simp only at h1
    subst h1
    cases o <;> rfl

theorem evalArgs_same (lib : ExprLib) {heap : List RM} (h : ∀ R ∈ heap, R.pattern = none)
    (vars : UMap Str Str) (funs : UMap Str FunRef) :
    ∀ es : List Expr, (evalArgs lib vars funs es heap).2 = heap
  | [] => rfl
  | e :: es => by
    simp only [evalArgs, M.bind_run]
    have h1 := evalExpr_same lib h vars funs e
    rcases hx : evalExpr lib vars funs e heap with ⟨o, t⟩
    rw [hx] at h1
    simp only at h1
    subst h1
    cases o with
    | ok v =>
      simp only
      have h2 := evalArgs_same lib h vars funs es
      rcases hy : evalArgs lib vars funs es t with ⟨o, t'⟩
      rw [hy] at h2
      simp only at h2
      subst h2
      cases o <;> rfl
    | throw e => rfl
    | ub u => rfl
end

theorem exprValue_same (lib : ExprLib) {s : LibObj} (h : Plain s) : (exprValue lib s).2 = s := by
  simp only [exprValue]
  cases s.1.compiled with
  | none => rfl
  | some e => exact Prod.ext rfl (evalExpr_same lib h _ _ e)

theorem kept_plain (lib : ExprLib) : Kept lib Plain where
  onEv _ _ h := h
  value s h := by rw [exprValue_same lib h]; exact h

/-- How often the matcher is evaluated for a rule on which it has the value `v`. -/
def times (v : Val) : Nat := if v = .num 0 then 2 else if v = .num 1 then 3 else 5

theorem trace_steady (lib : ExprLib) : Trace Plain
    (fun b l => ∃ xs : List (Outcome Val), l = xs.map .value ∧ (fun (b : Option Bool) (xs : List (Outcome Val)) =>
      b.isSome = true → ∃ v, xs = List.replicate (times v) (.ok v)) b xs) (matcherResult (exprtk lib)) := by
  intro s hs
  obtain ⟨l, h1, h2, xs, h3, h4⟩ := trace_matcherResult (kept_plain lib) s hs
  refine ⟨l, h1, h2, xs, h3, ?_⟩
  intro ho
  -- the value does not change between the evaluations
  have hv : ∀ w, value lib (s.1, w) = ((exprValue lib s.1).1, s.1, w ++ [.value (exprValue lib s.1).1]) := by
    intro w
    simp only [value, exprValue_same lib hs]
  have hxs : (matcherResult (exprtk lib) s).2.2 = s.2 ++ xs.map .value := by rw [h1, h3]
  have hinj : ∀ {ys : List (Outcome Val)}, s.2 ++ xs.map Event.value = s.2 ++ ys.map Event.value → xs = ys := by
    intro ys h
    have := congrArg results (List.append_cancel_left h)
    simpa [results, List.filterMap_map] using this
  obtain ⟨o, d⟩ := s
  cases he : o.1.err with
  | true =>
    simp [matcherResult, exprtk, isBool, M.bind_run, he, okOf] at ho
  | false =>
    cases hval : (exprValue lib o).1 with
    | throw e => simp [matcherResult, exprtk, isBool, M.bind_run, he, hv, hval, okOf] at ho
    | ub u => simp [matcherResult, exprtk, isBool, M.bind_run, he, hv, hval, okOf] at ho
    | ok v =>
      refine ⟨v, hinj (hxs.symm.trans ?_)⟩
      by_cases h0 : v = .num 0
      · subst h0
        simp [matcherResult, exprtk, isBool, truth, M.bind_run, he, hv, hval, times, List.replicate_succ]
      · by_cases hone : v = .num 1
        · subst hone
          simp [matcherResult, exprtk, isBool, truth, M.bind_run, he, hv, hval, times, List.replicate_succ]
        · simp [matcherResult, exprtk, isBool, truth, M.bind_run, he, hv, hval, times, h0, hone,
            List.replicate_succ]

/-- **C160 (exactly, without matching functions).** A request that is answered and has rules to look
at evaluates the matcher for each rule it looks at, one text after the other: twice where its value is 0,
three times where it is 1, five times where it is anything else. Missing: role managers with a matching
function, where two evaluations may differ, and requests that end in an exception (`C160_bound`). -/
theorem C160_exact_partial (lib : ExprLib) (m : Model) (q : Ask) (s : LibObj) (x : Rule) (hs : Plain s)
    {p : Assertion} (hp : m.find c!"p" c!"p" = some p) (hv : p.policy.hash = false)
    (hne : p.policy.items ≠ []) {b : Bool}
    (ho : (serve (exprtk lib) default m true q { obj := (s, []), explain := x }).1 = .ok b) :
    let l := (serve (exprtk lib) default m true q { obj := (s, []), explain := x }).2.obj.2
    ∃ vs : List Val, vs ≠ [] ∧ vs.length ≤ p.policy.items.length ∧ (texts l).length = vs.length ∧
      results l = vs.flatMap fun v => List.replicate (times v) (.ok v) := by
  obtain ⟨l, h1, _, h2⟩ := trace_serve (kept_plain lib) (trace_steady lib) m q
    { obj := (s, []), explain := x } hs
  rw [ho] at h2
  simp only
  rw [h1, List.nil_append]
  rcases h2 with ⟨_, h⟩ | ⟨exp, p', rules, _, hp', _, hr, h⟩
  · cases h
  rw [hp] at hp'
  cases hp'
  have hrules := hr hv
  subst hrules
  rcases h with ⟨_, parts, rfl, hpre, _, hs⟩ | ⟨h, _⟩
  · obtain ⟨hpne, hs⟩ := hs rfl
    have hlen := hpre.length_le
    rw [List.length_map] at hlen
    have hex : ∀ parts : List (Rule × List Event),
        (∀ q ∈ parts, ∃ y, StepPart exp p.tokens q.1 (fun b xs => b.isSome = true →
          ∃ v, xs = List.replicate (times v) (.ok v)) (some y) q.2) →
        ∃ vs : List Val, vs.length = parts.length ∧ (texts (parts.map Prod.snd).flatten).length = vs.length ∧
          results (parts.map Prod.snd).flatten = vs.flatMap fun v => List.replicate (times v) (.ok v) := by
      intro parts
      induction parts with
      | nil => exact fun _ => ⟨[], rfl, rfl, rfl⟩
      | cons q parts ih =>
        intro h
        obtain ⟨vs, h1, h2, h3⟩ := ih fun q hq => h q (by simp [hq])
        obtain ⟨y, hy⟩ := h q (by simp)
        rcases hy with ⟨_, hy⟩ | ⟨t, c, xs, b, _, hy, hb, hb'⟩
        · cases hy
        · obtain ⟨v, rfl⟩ := hb (hb' rfl)
          refine ⟨v :: vs, by simp [h1], ?_, ?_⟩
          · rw [texts_flatten] at h2 ⊢
            simp only [List.map_cons, List.flatten_cons, List.length_append, h2, List.length_cons]
            rw [hy, texts_part]
            simp; omega
          · rw [results_flatten] at h3 ⊢
            simp only [List.map_cons, List.flatten_cons, List.flatMap_cons, h3]
            rw [hy, results_part]
    obtain ⟨vs, e1, e2, e3⟩ := hex parts hs
    refine ⟨vs, ?_, by omega, e2, e3⟩
    rintro rfl
    simp only [List.length_nil] at e1
    exact hpne (List.length_eq_zero_iff.mp e1.symm)
  · exact absurd h hne

/-- **C160 is false**: every answered request with rules to look at evaluates the matcher at least twice as often
as it looks at rules. -/
theorem C160_fails (lib : ExprLib) (m : Model) (q : Ask) (s : LibObj) (x : Rule) (hs : Plain s)
    {p : Assertion} (hp : m.find c!"p" c!"p" = some p) (hv : p.policy.hash = false)
    (hne : p.policy.items ≠ []) {b : Bool}
    (ho : (serve (exprtk lib) default m true q { obj := (s, []), explain := x }).1 = .ok b) :
    let l := (serve (exprtk lib) default m true q { obj := (s, []), explain := x }).2.obj.2
    (texts l).length < (results l).length ∧ 2 * (texts l).length ≤ (results l).length := by
  obtain ⟨vs, h1, _, h2, h3⟩ := C160_exact_partial lib m q s x hs hp hv hne ho
  have h : ∀ vs : List Val, 2 * vs.length ≤
      (vs.flatMap fun v => List.replicate (times v) (Outcome.ok v)).length := by
    intro vs
    induction vs with
    | nil => simp
    | cons v vs ih =>
      have hv : 2 ≤ times v := by
        unfold times
        split
        · omega
        · split <;> omega
      simp only [List.flatMap_cons, List.length_append, List.length_replicate, List.length_cons]
      omega
  have h4 := h vs
  have h5 : 0 < vs.length := List.length_pos_iff.mpr h1
  simp only at h2 h3 ⊢
  rw [h2, h3]
  omega

/-! ## Examples -/

open Fixtures

omit [IterOrder] in
theorem plain_rbac (matcher exp : Str) (h : matcher = []) (hm : MatcherOf (rbacModel [bob, alice] []) matcher exp) :
    hasEval exp = false := by
  subst h
  rcases hm with ⟨h, _⟩ | ⟨_, a, ha, rfl⟩
  · exact absurd rfl h
  · cases ha
    decide +kernel

/-- Non-vacuity of `C159_once`: a thousand requests, one compilation. -/
example (lib : ExprLib) (s : LibObj) :
    (compiledTexts (serveAll (exprtk lib) default (rbacModel [bob, alice] []) true
      (List.replicate 1000 askAlice) { obj := (s, []), explain := [] }).2.obj.2).length ≤ 1 :=
  C159_once lib _ [] (fun exp h => plain_rbac [] exp rfl h) _
    (fun q h => by rw [List.eq_of_mem_replicate h]; rfl) s []

omit [IterOrder] in
/-- And it is not none. -/
example : letI := insertionOrder
    (compiledTexts (serveAll (exprtk miniLib) default (rbacModel [bob, alice] []) true
      [askAlice, askAlice] { obj := ((Evaluator.new, [RM.new 10]), []), explain := [] }).2.obj.2) = [mRbac] := by
  decide +kernel

/-- A library for which every text is the number 0. -/
def zero : ExprLib where
  parse _ := some (.num 0)
  prim _ _ := .num 0
  builtin _ _ := .ok (.num 0)

/-- A model whose matcher has an `eval(`. -/
def evalModel : Model :=
  [(c!"m", [(c!"m", asrt c!"m" c!"eval(p.sub)" [])]), (c!"r", rDef),
   (c!"p", pDef (.vector [alice, bob])), (c!"e", eDef)]

omit [IterOrder] in
/-- With an `eval(` each of two requests compiles a text for each of the two rules. -/
example : letI := insertionOrder
    (compiledTexts (serveAll (exprtk zero) default evalModel true
      [askAlice, askAlice] { obj := ((Evaluator.new, []), []), explain := [] }).2.obj.2) =
      [c!"alice", c!"bob", c!"alice", c!"bob"] := by
  decide +kernel

omit [IterOrder] in
/-- Non-vacuity of `C160_exact_partial` and `C160_fails`: the request looks at two rules and evaluates the
matcher five times. -/
example : letI := insertionOrder
    (serve (exprtk miniLib) default (rbacModel [bob, alice] []) true askAlice
      { obj := ((Evaluator.new, [RM.new 10]), []), explain := [] }).1 = .ok true ∧
    Plain (Evaluator.new, [RM.new 10]) ∧
    texts (serve (exprtk miniLib) default (rbacModel [bob, alice] []) true askAlice
      { obj := ((Evaluator.new, [RM.new 10]), []), explain := [] }).2.obj.2 = [mRbac, mRbac] ∧
    results (serve (exprtk miniLib) default (rbacModel [bob, alice] []) true askAlice
      { obj := ((Evaluator.new, [RM.new 10]), []), explain := [] }).2.obj.2 =
        [.ok (.num 0), .ok (.num 0), .ok (.num 1), .ok (.num 1), .ok (.num 1)] := by
  refine ⟨by decide +kernel, ?_, by decide +kernel, by decide +kernel⟩
  intro R hR
  rw [List.mem_singleton.mp hR]
  rfl

end Effort
end Custom
end Casbin
