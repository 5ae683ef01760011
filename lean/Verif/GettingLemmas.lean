import Verif.Getting
import Verif.DirectLemmas
import Mathlib.Data.List.Induction

/-!
# Lemmas for the string an evaluator gets

The names that were entered are written down here from the list of calls alone.
-/

namespace Casbin
namespace Getting

open Custom Direct

/-- The calls that concern identifiers and functions. -/
def Call.plain : Call → List Use
  | .ident x v => [.ident x v]
  | .func n f => [.func n f]
  | .load => [.load]
  | _ => []

/-- Those of several calls. -/
def plain (cs : List Call) : List Use := cs.flatMap Call.plain

/-- The names, in lower case, a call gives the evaluator's own variable. -/
def Call.owns : Call → List Str
  | .enable x =>
    let n := if x = [] then c!"key_get_result" else x
    if Evaluator.validSymbol n = true ∧ lower n ∉ taken then [lower n] else []
  | _ => []

/-- Those of several calls. -/
def owns (cs : List Call) : List Str := cs.flatMap Call.owns

/-- The text given last to `Eval`, `t` if there was none. -/
def lastText : List Call → Str → Str
  | [], t => t
  | .eval s :: cs, _ => lastText cs s
  | _ :: cs, t => lastText cs t

/-- The evaluator without what it has compiled. -/
def blank (ev : Evaluator) : Evaluator := { ev with exprStr := [], compiled := none, err := true }

theorem blank_addFunction (n : Str) (f : FunRef) (ev : Evaluator) :
    addFunction n f (blank ev) = ((addFunction n f ev).1, blank (addFunction n f ev).2) := by
  unfold addFunction accepts blank
  simp only [Evaluator.addFunction, M.modify_run]
  split
  · split <;> rfl
  · rfl

theorem blank_addFunctions : ∀ (L : List (Str × FunRef)) (ev : Evaluator),
    addFunctions L (blank ev) = ((addFunctions L ev).1, blank (addFunctions L ev).2)
  | [], ev => rfl
  | (n, f) :: L, ev => by
    simp only [addFunctions, M.bind_run, blank_addFunction]
    rcases addFunction n f ev with ⟨o, ev'⟩
    cases o with
    | ok _ => exact blank_addFunctions L ev'
    | throw _ => rfl
    | ub _ => rfl

theorem blank_addIdentifier (x v : Str) (ev : Evaluator) :
    addIdentifier x v (blank ev) = ((addIdentifier x v ev).1, blank (addIdentifier x v ev).2) := by
  unfold addIdentifier Evaluator.addIdentifier blank
  simp only
  split
  · rfl
  · split
    · rfl
    · split <;> rfl

theorem addFunction_keeps (n : Str) (f : FunRef) (ev : Evaluator) :
    let ev' := (addFunction n f ev).2
    ev'.exprStr = ev.exprStr ∧ ev'.compiled = ev.compiled ∧ ev'.err = ev.err := by
  simp only [addFunction, Evaluator.addFunction, M.modify_run]
  split
  · split <;> exact ⟨rfl, rfl, rfl⟩
  · exact ⟨rfl, rfl, rfl⟩

theorem addFunctions_keeps : ∀ (L : List (Str × FunRef)) (ev : Evaluator),
    let ev' := (addFunctions L ev).2
    ev'.exprStr = ev.exprStr ∧ ev'.compiled = ev.compiled ∧ ev'.err = ev.err
  | [], ev => ⟨rfl, rfl, rfl⟩
  | (n, f) :: L, ev => by
    have h := addFunction_keeps n f ev
    simp only [addFunctions, M.bind_run]
    rcases hr : addFunction n f ev with ⟨o, ev'⟩
    rw [hr] at h
    cases o with
    | ok _ =>
      have h2 := addFunctions_keeps L ev'
      exact ⟨h2.1.trans h.1, h2.2.1.trans h.2.1, h2.2.2.trans h.2.2⟩
    | throw _ => exact h
    | ub _ => exact h

theorem addIdentifier_keeps (x v : Str) (ev : Evaluator) :
    let ev' := (addIdentifier x v ev).2
    ev'.exprStr = ev.exprStr ∧ ev'.compiled = ev.compiled ∧ ev'.err = ev.err := by
  simp only [addIdentifier, Evaluator.addIdentifier]
  split
  · exact ⟨rfl, rfl, rfl⟩
  · split
    · exact ⟨rfl, rfl, rfl⟩
    · split <;> exact ⟨rfl, rfl, rfl⟩

/-- The names together with the evaluator's own, which mean `w`. -/
def withOwn (N : Naming) (names : List Str) (w : Str) : Naming :=
  { N with var := fun k => if k ∈ names then some w else N.var k }

theorem tables_get (s : Obj) (names : List Str) (k : Str) :
    (tables s names).get k = if k ∈ names then some s.result else s.ev.vars.get k := by
  unfold tables
  induction names with
  | nil => simp
  | cons n names ih =>
    simp only [List.map_cons, List.cons_append, UMap.get]
    by_cases h : n = k
    · simp [h]
    · have hk : (k ∈ n :: names) ↔ k ∈ names := by
        simp [Ne.symm h]
      simp only [h, if_false, ih, hk]

mutual
/-- Names an expression does not have do not matter. -/
theorem denote_own (lib : ExprLib) (h : List RM) {N : Naming} {names : List Str} {w : Str}
    (hd : ∀ k ∈ names, N.var k = none) : ∀ e : Expr, N.Knows e →
      denote lib h (withOwn N names w) e = denote lib h N e
  | .str _, _ => by simp [denote]
  | .num _, _ => by simp [denote]
  | .var x, hk => by
    simp only [Naming.Knows] at hk
    obtain ⟨v, hv⟩ := hk
    have : lower x ∉ names := fun hm => by rw [hd _ hm] at hv; cases hv
    simp only [denote, withOwn, this, if_false]
  | .call f args, hk => by
    simp only [Naming.Knows] at hk
    simp only [denote, denoteAll_own lib h hd args hk.2]
    rfl
  | .op o args, hk => by
    simp only [Naming.Knows] at hk
    simp only [denote, denoteAll_own lib h hd args hk]
theorem denoteAll_own (lib : ExprLib) (h : List RM) {N : Naming} {names : List Str} {w : Str}
    (hd : ∀ k ∈ names, N.var k = none) : ∀ es : List Expr, N.KnowsAll es →
      denoteAll lib h (withOwn N names w) es = denoteAll lib h N es
  | [], _ => by simp [denoteAll]
  | e :: es, hk => by
    simp only [Naming.KnowsAll] at hk
    simp only [denoteAll, denote_own lib h hd e hk.1, denoteAll_own lib h hd es hk.2]
end

/-- The evaluator after some calls. -/
structure Stands (lib : ExprLib) (N : Naming) (names : List Str) (t : Str) (h : List RM) (s : Obj) : Prop where
  heap : s.heap = h
  tab : Direct.Stands lib N [] (blank s.ev)
  own : ∀ k, (k ∈ s.own ∧ k ∉ constants) ↔ k ∈ names
  text : s.ev.exprStr = t
  bound : ∀ k ∈ s.bound, k ∈ names
  good : s.ev.err = false → t ≠ [] → ∃ e, lib.parse t = some e ∧ s.ev.compiled = some e
  aim : ∀ e x e', s.ev.compiled = some e → assignment e = some (x, e') → lower x ∈ s.bound

theorem stands_new (lib : ExprLib) (h : List RM) : Stands lib (namesOf []) [] [] h (Obj.new h) where
  heap := rfl
  tab := ⟨rfl, rfl, rfl, fun h => (by cases h), fun _ h => (by cases h)⟩
  own k := by simp [Obj.new]
  text := rfl
  bound k hk := by simp [Obj.new] at hk
  good _ h := absurd rfl h
  aim e x e' h := by cases h

/-- What compiles is known with the evaluator's own names. -/
theorem visible_iff {lib : ExprLib} {N : Naming} {names : List Str} {t : Str} {h : List RM} {s : Obj}
    (hs : Stands lib N names t h s) (hap : ∀ k ∈ names, N.var k = none) (k : Str) :
    k ∈ visible s ↔ k ∈ names := by
  have hv : s.ev.vars.get = N.var := hs.tab.vars
  unfold visible
  rw [List.mem_filter, ← hs.own k]
  constructor
  · rintro ⟨h1, h2⟩
    refine ⟨h1, ?_⟩
    simp only [Bool.and_eq_true, Bool.not_eq_true', decide_eq_false_iff_not] at h2
    exact h2.2
  · rintro h1
    have := hap k ((hs.own k).mp h1)
    refine ⟨h1.1, ?_⟩
    simp only [UMap.has, hv, this, Option.isSome_none, Bool.not_false, Bool.true_and, Bool.not_eq_true',
      decide_eq_false_iff_not]
    exact h1.2

/-- `Eval`. -/
theorem eval_run {lib : ExprLib} {N : Naming} {names : List Str} {t : Str} {h : List RM} {s : Obj}
    (hs : Stands lib N names t h s) (hap : ∀ k ∈ names, N.var k = none) (s' : Str)
    (haim : ∀ x e', (lib.parse s').bind assignment = some (x, e') → N.var (lower x) = none) :
    (∃ b, (Getting.eval lib s' s).1 = .ok b ∧ (Getting.eval lib s' s).2.ev.err = !b) ∧
    Stands lib N names s' h (Getting.eval lib s' s).2 ∧ (Getting.eval lib s' s).2.result = s.result := by
  have hv : s.ev.vars.get = N.var := hs.tab.vars
  have hf : s.ev.funs.get = N.fn := hs.tab.funs
  have htab : ∀ ev : Evaluator, ev.vars = s.ev.vars → ev.funs = s.ev.funs →
      Direct.Stands lib N [] (blank ev) := by
    intro ev h1 h2
    refine ⟨?_, ?_, rfl, fun h => (by cases h), fun _ h => (by cases h)⟩
    · show ev.vars.get = _
      rw [h1]; exact hv
    · show ev.funs.get = _
      rw [h2]; exact hf
  unfold Getting.eval Evaluator.eval
  simp only
  by_cases hne : s.ev.exprStr = s'
  · simp only [hne, ne_eq, not_true_eq_false, if_false, false_and]
    refine ⟨⟨_, rfl, (Bool.not_not _).symm⟩, ⟨hs.heap, htab _ rfl rfl, hs.own, rfl, hs.bound, ?_, hs.aim⟩, trivial⟩
    have : t = s' := hs.text.symm.trans hne
    subst this
    exact hs.good
  · simp only [hne, ne_eq, not_false_eq_true, if_true, true_and]
    cases hc : compile lib (tables s (visible s)) s.ev.funs s' with
    | none =>
      simp only [Bool.true_eq_false, if_false]
      exact ⟨⟨_, rfl, rfl⟩, ⟨hs.heap, htab _ rfl rfl, hs.own, rfl, hs.bound, fun he => (by cases he), hs.aim⟩, trivial⟩
    | some e =>
      simp only [if_true]
      have hpe : lib.parse s' = some e ∧ resolves (tables s (visible s)) s.ev.funs e = true := by
        unfold compile at hc
        split at hc
        · cases hc
        · split at hc
          · cases hc
          · next e' he =>
            split at hc
            · next hr => cases hc; exact ⟨he, hr⟩
            · cases hc
      refine ⟨⟨_, rfl, rfl⟩, ⟨hs.heap, htab _ rfl rfl, hs.own, rfl,
        fun k hk => (visible_iff hs hap k).mp hk, fun _ _ => ⟨e, hpe.1, rfl⟩, ?_⟩, trivial⟩
      intro e1 x e' h1 h2
      cases h1
      have hx := haim x e' (by rw [hpe.1]; exact h2)
      have hres : (tables s (visible s)).has (lower x) = true := by
        have hr := hpe.2
        unfold assignment at h2
        split at h2
        · split at h2
          · cases h2
            simp only [resolves, resolvesAll, Bool.and_eq_true] at hr
            exact hr.1
          · cases h2
        · cases h2
      simp only [UMap.has, tables_get, hv, hx] at hres
      by_contra hcon
      simp only [hcon, if_false, Option.isSome_none, Bool.false_eq_true] at hres

variable [IterOrder]

/-- The value of what is compiled. -/
theorem value_run {lib : ExprLib} {N : Naming} {names : List Str} {t : Str} {h : List RM} {s : Obj}
    (hs : Stands lib N names t h s) (hh : Sound N h) {o : Outcome Val} {s' : Obj}
    (hrun : exprValue lib s = (o, s')) :
    Stands lib N names t h s' ∧ s'.ev = s.ev ∧ s'.bound = s.bound ∧
    (∀ e, s.ev.compiled = some e → ∀ x e', assignment e = some (x, e') →
      ∀ v, denote lib h (withOwn N s.bound s.result) e' = .ok v → o = .ok .nan ∧ s'.result = text v) ∧
    (∀ e, s.ev.compiled = some e → assignment e = none → s'.result = s.result ∧
      o = denote lib h (withOwn N s.bound s.result) e) := by
  have hden : ∀ e, evalExpr lib (tables s s.bound) s.ev.funs e s.heap =
      (denote lib h (withOwn N s.bound s.result) e, h) := by
    intro e
    rw [hs.heap]
    refine evalExpr_denote lib (N := withOwn N s.bound s.result) hh.wf hh.plain (funext fun k => ?_) hs.tab.funs hh.ptr e
    rw [tables_get]
    simp only [withOwn]
    rw [← congrFun hs.tab.vars k]
    rfl
  unfold exprValue at hrun
  cases hc : s.ev.compiled with
  | none =>
    simp only [hc, Prod.mk.injEq] at hrun
    obtain ⟨rfl, rfl⟩ := hrun
    exact ⟨hs, rfl, rfl, fun e he => (by cases he), fun e he => (by cases he)⟩
  | some e =>
    simp only [hc] at hrun
    cases ha : assignment e with
    | none =>
      simp only [ha, hden, Prod.mk.injEq] at hrun
      obtain ⟨rfl, rfl⟩ := hrun
      refine ⟨⟨rfl, hs.tab, hs.own, hs.text, hs.bound, hs.good, hs.aim⟩, rfl, rfl, ?_, ?_⟩
      · intro e1 h1 x e' h2
        cases h1
        rw [ha] at h2; cases h2
      · intro e1 h1 _
        cases h1
        exact ⟨rfl, rfl⟩
    | some p =>
      obtain ⟨x, e'⟩ := p
      simp only [ha, hden] at hrun
      have hin := hs.aim e x e' hc ha
      have hkeep : ∀ w, Stands lib N names t h { s with heap := h, result := w } := fun w =>
        ⟨rfl, hs.tab, hs.own, hs.text, hs.bound, hs.good, hs.aim⟩
      cases hd : denote lib h (withOwn N s.bound s.result) e' with
      | ok v =>
        simp only [hd, store, hin, if_true, Prod.mk.injEq] at hrun
        obtain ⟨rfl, rfl⟩ := hrun
        refine ⟨hkeep _, rfl, rfl, ?_, ?_⟩
        · intro e1 h1 y e2 h2 w hw
          cases h1
          rw [ha] at h2
          cases h2
          rw [hd] at hw
          cases hw
          exact ⟨rfl, rfl⟩
        · intro e1 h1 h2
          cases h1
          rw [ha] at h2; cases h2
      | throw _ =>
        simp only [hd, Prod.mk.injEq] at hrun
        obtain ⟨rfl, rfl⟩ := hrun
        refine ⟨hkeep _, rfl, rfl, ?_, ?_⟩
        · intro e1 h1 y e2 h2 w hw
          cases h1
          rw [ha] at h2
          cases h2
          rw [hd] at hw
          cases hw
        · intro e1 h1 h2
          cases h1
          rw [ha] at h2; cases h2
      | ub _ =>
        simp only [hd, Prod.mk.injEq] at hrun
        obtain ⟨rfl, rfl⟩ := hrun
        refine ⟨hkeep _, rfl, rfl, ?_, ?_⟩
        · intro e1 h1 y e2 h2 w hw
          cases h1
          rw [ha] at h2
          cases h2
          rw [hd] at hw
          cases hw
        · intro e1 h1 h2
          cases h1
          rw [ha] at h2; cases h2

/-- The calls keep the names apart: no name is that of two of an identifier, a function and the evaluator's
own variable, and no text assigns to an identifier. -/
structure Tidy (lib : ExprLib) (cs : List Call) (h : List RM) : Prop where
  managed : Managed (plain cs) h
  apart : Apart (plain cs)
  own : ∀ k ∈ owns cs, given (plain cs) k = none ∧ ∀ nf ∈ entered (plain cs), lower nf.1 ≠ k
  aims : ∀ t, Call.eval t ∈ cs → ∀ x e, lib.parse t = some (.op c!":=" [.var x, e]) →
    given (plain cs) (lower x) = none

omit [IterOrder] in
theorem assignment_some {e : Expr} {x : Str} {e' : Expr} (h : assignment e = some (x, e')) :
    e = .op c!":=" [.var x, e'] := by
  unfold assignment at h
  split at h
  · split at h
    · next ho => cases h; rw [ho]
    · cases h
  · cases h

omit [IterOrder] in
theorem given_append (us vs : List Use) (k : Str) : given (us ++ vs) k = (given vs k).or (given us k) := by
  induction us with
  | nil => simp only [List.nil_append, given, Option.or_none]
  | cons u us ih => simp only [List.cons_append, given, ih, Option.or_assoc]

omit [IterOrder] in
theorem given_none {us vs : List Use} {k : Str} (h : given (us ++ vs) k = none) :
    given us k = none ∧ given vs k = none := by
  rw [given_append] at h
  cases hv : given vs k with
  | none => rw [hv] at h; exact ⟨h, rfl⟩
  | some w => rw [hv] at h; cases h

omit [IterOrder] in
theorem tidy_init {lib : ExprLib} {cs : List Call} {c : Call} {h : List RM} (ht : Tidy lib (cs ++ [c]) h) :
    Tidy lib cs h := by
  have hp : plain (cs ++ [c]) = plain cs ++ c.plain := by simp [plain]
  have he : entered (plain (cs ++ [c])) = entered (plain cs) ++ entered c.plain := by
    rw [hp]; simp [entered]
  have hin : ∀ nf ∈ entered (plain cs), nf ∈ entered (plain (cs ++ [c])) := fun nf hnf => by
    rw [he]; exact List.mem_append_left _ hnf
  refine ⟨fun nf hnf => ht.managed nf (hin nf hnf), fun x v hx nf hnf => ht.apart x v ?_ nf (hin nf hnf),
    fun k hk => ?_, fun t htx x e hpx => ?_⟩
  · rw [hp]; exact List.mem_append_left _ hx
  · have := ht.own k (by
      show k ∈ (cs ++ [c]).flatMap Call.owns
      rw [List.flatMap_append]; exact List.mem_append_left _ hk)
    rw [hp] at this
    exact ⟨(given_none this.1).1, fun nf hnf => ht.own k (by
      show k ∈ (cs ++ [c]).flatMap Call.owns
      rw [List.flatMap_append]; exact List.mem_append_left _ hk) |>.2 nf (hin nf hnf)⟩
  · have := ht.aims t (List.mem_append_left _ htx) x e hpx
    rw [hp] at this
    exact (given_none this).1

theorem runAll_snoc (lib : ExprLib) (c : Call) : ∀ (cs : List Call) (s s' : Obj),
    runAll lib (cs ++ [c]) s = (.ok (), s') →
    ∃ s1, runAll lib cs s = (.ok (), s1) ∧ c.run lib s1 = (.ok (), s')
  | [], s, s', h => by
    simp only [List.nil_append, runAll, M.bind_run] at h
    rcases hr : c.run lib s with ⟨o, s1⟩
    rw [hr] at h
    cases o with
    | ok _ =>
      simp only [M.pure_run, Prod.mk.injEq, true_and] at h
      subst h
      exact ⟨s, rfl, hr⟩
    | throw _ => simp only [Prod.mk.injEq, reduceCtorEq, false_and] at h
    | ub _ => simp only [Prod.mk.injEq, reduceCtorEq, false_and] at h
  | d :: cs, s, s', h => by
    simp only [List.cons_append, runAll, M.bind_run] at h ⊢
    rcases hr : d.run lib s with ⟨o, s1⟩
    rw [hr] at h
    cases o with
    | ok _ => exact runAll_snoc lib c cs s1 s' h
    | throw _ => simp only [Prod.mk.injEq, reduceCtorEq, false_and] at h
    | ub _ => simp only [Prod.mk.injEq, reduceCtorEq, false_and] at h

omit [IterOrder] in
theorem namesOf_snoc (us : List Use) (u : Use) : namesOf (us ++ [u]) = grow (namesOf us) u := by
  have h1 : given (us ++ [u]) = fun k => (u.gives k).or (given us k) := funext fun k => by
    rw [given_append]
    simp only [given, Option.none_or]
  have h2 : provided (us ++ [u]) = fun k => (provided us k).or (firstNamed u.enters k) := funext fun k => by
    simp only [provided, entered, List.flatMap_append, firstNamed_append, List.flatMap_cons, List.flatMap_nil,
      List.append_nil]
  simp only [namesOf, grow, h1, h2]

omit [IterOrder] in
theorem lastText_snoc (c : Call) : ∀ (cs : List Call) (t : Str),
    lastText (cs ++ [c]) t = lastText [c] (lastText cs t)
  | [], _ => rfl
  | d :: cs, t => by
    cases d <;> exact lastText_snoc c cs _

omit [IterOrder] in
/-- The role managers behind the names. -/
theorem sound_names {lib : ExprLib} {cs : List Call} {h : List RM} (hwf : ∀ R ∈ h, R.WF)
    (hpl : ∀ R ∈ h, R.pattern = none) (ht : Tidy lib cs h) : Sound (namesOf (plain cs)) h := by
  refine ⟨hwf, hpl, fun f i n hfn => ?_⟩
  obtain ⟨nm, hnm⟩ := firstNamed_mem hfn
  exact ht.managed _ hnm i n rfl

/-- After any calls on a new evaluator. -/
theorem runAll_new {lib : ExprLib} {h : List RM} (hwf : ∀ R ∈ h, R.WF) (hpl : ∀ R ∈ h, R.pattern = none)
    (cs : List Call) : ∀ {s : Obj}, Tidy lib cs h → runAll lib cs (Obj.new h) = (.ok (), s) →
    Stands lib (namesOf (plain cs)) (owns cs) (lastText cs []) h s := by
  induction cs using List.reverseRecOn with
  | nil =>
    intro s _ hrun
    simp only [runAll, M.pure_run, Prod.mk.injEq, true_and] at hrun
    subst hrun
    exact stands_new lib h
  | append_singleton cs c ih =>
    intro s ht hrun
    obtain ⟨s1, hr1, hr2⟩ := runAll_snoc lib c cs _ _ hrun
    have hin := tidy_init ht
    have hs := ih hin hr1
    have hh := sound_names hwf hpl hin
    have hap : ∀ k ∈ owns cs, (namesOf (plain cs)).var k = none := fun k hk => (hin.own k hk).1
    have hp : plain (cs ++ [c]) = plain cs ++ c.plain := by simp [plain]
    have ho : owns (cs ++ [c]) = owns cs ++ c.owns := by simp [owns]
    rw [hp, ho, lastText_snoc]
    -- calls that only concern the tables
    have htab : ∀ (u : Use) (f : M Evaluator Unit), c.plain = [u] → c.owns = [] → lastText [c] (lastText cs []) = lastText cs [] →
        s = { s1 with ev := (f s1.ev).2 } →
        (f s1.ev).2.exprStr = s1.ev.exprStr ∧ (f s1.ev).2.compiled = s1.ev.compiled ∧ (f s1.ev).2.err = s1.ev.err →
        Direct.Stands lib (grow (namesOf (plain cs)) u) [] (blank (f s1.ev).2) →
        Stands lib (namesOf (plain cs ++ c.plain)) (owns cs ++ c.owns) (lastText [c] (lastText cs [])) h s := by
      intro u f h1 h2 h3 h4 h5 h6
      rw [h1, h2, h3, namesOf_snoc, List.append_nil, h4]
      exact ⟨hs.heap, h6, hs.own, h5.1.trans hs.text, hs.bound,
        fun he hne => by
          obtain ⟨e, e1, e2⟩ := hs.good (h5.2.2 ▸ he) hne
          exact ⟨e, e1, h5.2.1.trans e2⟩,
        fun e x e' he => hs.aim e x e' (h5.2.1 ▸ he)⟩
    have hfree : ∀ nf ∈ entered c.plain, s1.ev.vars.get (lower nf.1) = none := by
      intro nf hnf
      have hall : nf ∈ entered (plain (cs ++ [c])) := by
        rw [hp]
        simp only [entered, List.flatMap_append]
        exact List.mem_append_right _ hnf
      have hv : s1.ev.vars.get = given (plain cs) := hs.tab.vars
      rw [hv]
      have hno : ∀ us : List Use, (∀ x v, Use.ident x v ∈ us → lower x ≠ lower nf.1) → given us (lower nf.1) = none := by
        intro us
        induction us with
        | nil => intro _; rfl
        | cons u us ih =>
          intro hu
          simp only [given, ih fun x v hx => hu x v (List.mem_cons_of_mem _ hx), Option.none_or]
          cases u with
          | ident x v => simp only [Use.gives, if_neg (hu x v (List.mem_cons_self ..))]
          | _ => rfl
      refine hno _ fun x v hx => ht.apart x v ?_ nf hall
      rw [hp]; exact List.mem_append_left _ hx
    cases c with
    | ident x v =>
      simp only [Call.run, onEv, Prod.mk.injEq] at hr2
      refine htab (.ident x v) (addIdentifier x v) rfl rfl rfl hr2.2.symm (addIdentifier_keeps x v s1.ev) ?_
      have h1 := Direct.addIdentifier_run (x := x) (v := v) hs.tab (by rw [blank_addIdentifier]; exact hr2.1)
      rw [blank_addIdentifier] at h1
      exact h1
    | func n f =>
      simp only [Call.run, onEv, Prod.mk.injEq] at hr2
      refine htab (.func n f) (addFunction n f) rfl rfl rfl hr2.2.symm (addFunction_keeps n f s1.ev) ?_
      have h1 := (Direct.addFunction_run hs.tab (n := n) f (hfree (n, f) (by simp [Call.plain, entered, Use.enters]))).2.2
      rw [blank_addFunction] at h1
      exact h1
    | load =>
      simp only [Call.run, onEv, Prod.mk.injEq] at hr2
      refine htab .load (addFunctions Evaluator.builtins) rfl rfl rfl hr2.2.symm (addFunctions_keeps _ s1.ev) ?_
      have h1 := (Direct.addFunctions_run Evaluator.builtins hs.tab (fun nf hnf => hfree nf (by
        simpa [Call.plain, entered, Use.enters] using hnf))).2
      rw [blank_addFunctions] at h1
      exact h1
    | enable x =>
      simp only [Call.run, enableGet, M.modify_run, Prod.mk.injEq, true_and] at hr2
      simp only [Call.plain, List.append_nil, lastText, Call.owns]
      generalize hn : (if x = [] then c!"key_get_result" else x) = n at hr2 ⊢
      have htk : ∀ k, k ∉ taken ↔ k ∉ Exprtk.reservedSymbols ∧ k ∉ constants := by
        intro k
        simp only [taken, constants, List.mem_append, not_or]
      have hmk : ∀ L M : List Str, (∀ k, (k ∈ L ∧ k ∉ constants) ↔ k ∈ M) → (∀ k ∈ owns cs, k ∈ M) →
          Stands lib (namesOf (plain cs)) M (lastText cs []) h { s1 with own := L } := by
        intro L M hL hM
        exact ⟨hs.heap, hs.tab, hL, hs.text, fun k hk => hM k (hs.bound k hk), hs.good, hs.aim⟩
      by_cases hf : free s1 n = true
      · rw [if_pos hf] at hr2
        subst hr2
        simp only [free, Bool.and_eq_true, Bool.not_eq_true', decide_eq_false_iff_not] at hf
        refine hmk _ _ (fun k => ?_) (fun k hk => List.mem_append_left _ hk)
        rw [List.mem_append, List.mem_append, ← hs.own k, List.mem_singleton]
        by_cases hk : k = lower n
        · subst hk
          by_cases hc : lower n ∈ constants
          · have : lower n ∉ taken ↔ False := by rw [htk]; simp [hc]
            simp [hc, this]
          · have : lower n ∉ taken := (htk _).mpr ⟨hf.2, hc⟩
            simp [hc, this, hf.1.1]
        · have : k ∉ (if Evaluator.validSymbol n = true ∧ lower n ∉ taken then [lower n] else []) := by
            split <;> simp [hk]
          simp only [hk, or_false, this]
      · rw [if_neg hf] at hr2
        subst hr2
        refine hmk s1.own _ (fun k => ?_) (fun k hk => List.mem_append_left _ hk)
        rw [List.mem_append, ← hs.own k]
        constructor
        · exact Or.inl
        · rintro (h1 | h1)
          · exact h1
          · split at h1
            · next hg =>
              rw [List.mem_singleton] at h1
              subst h1
              refine ⟨?_, ((htk _).mp hg.2).2⟩
              by_contra hcon
              exact hf (by simp [free, hg.1, hcon, ((htk _).mp hg.2).1])
            · cases h1
    | eval t =>
      have hq := eval_run hs hap t (fun x e' hb => by
        cases hpt : lib.parse t with
        | none => rw [hpt] at hb; cases hb
        | some e =>
          rw [hpt] at hb
          have := assignment_some hb
          subst this
          have := ht.aims t (List.mem_append_right _ (List.mem_singleton.mpr rfl)) x e' hpt
          rw [hp] at this
          exact (given_none this).1)
      obtain ⟨⟨b, hb, _⟩, h2, _⟩ := hq
      simp only [Call.run, M.bind_run] at hr2
      rcases he : Getting.eval lib t s1 with ⟨o, s2⟩
      rw [he] at hb h2 hr2
      simp only at hb h2
      subst hb
      simp only [M.pure_run, Prod.mk.injEq, true_and] at hr2
      subst hr2
      simp only [Call.plain, Call.owns, List.append_nil, lastText]
      exact h2
    | value =>
      simp only [Call.run, getBoolean, M.bind_run] at hr2
      rcases he : exprValue lib s1 with ⟨o, s2⟩
      have h2 := (value_run hs hh he).1
      rw [he] at hr2
      simp only [Call.plain, Call.owns, List.append_nil, lastText]
      cases o with
      | ok v =>
        simp only [M.pure_run, Prod.mk.injEq, true_and] at hr2
        subst hr2
        exact h2
      | throw _ => simp only [Prod.mk.injEq, reduceCtorEq, false_and] at hr2
      | ub _ => simp only [Prod.mk.injEq, reduceCtorEq, false_and] at hr2
    | string =>
      simp only [Call.run, getString, M.bind_run] at hr2
      rcases he : exprValue lib s1 with ⟨o, s2⟩
      have h2 := (value_run hs hh he).1
      rw [he] at hr2
      simp only [Call.plain, Call.owns, List.append_nil, lastText]
      cases o with
      | ok v =>
        simp only [M.get_run, M.pure_run, Prod.mk.injEq, true_and] at hr2
        subst hr2
        exact h2
      | throw _ => simp only [Prod.mk.injEq, reduceCtorEq, false_and] at hr2
      | ub _ => simp only [Prod.mk.injEq, reduceCtorEq, false_and] at hr2

end Getting
end Casbin
