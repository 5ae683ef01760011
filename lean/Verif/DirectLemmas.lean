import Verif.Direct

/-!
# Lemmas for the evaluator used directly

What has been entered is written down here from the list of calls alone.
-/

namespace Casbin
namespace Direct

open Custom

/-- The value a call gives to the identifier with this name in lower case. -/
def Use.gives : Use → Str → Option Str
  | .ident y v, k => if lower y = k then some v else none
  | _, _ => none

/-- The value given last. -/
def given : List Use → Str → Option Str
  | [], _ => none
  | u :: us, k => (given us k).or (u.gives k)

/-- The functions a call enters. -/
def Use.enters : Use → List (Str × FunRef)
  | .func n f => [(n, f)]
  | .load => Evaluator.builtins
  | _ => []

/-- All functions that were entered, in order. -/
def entered (us : List Use) : List (Str × FunRef) := us.flatMap Use.enters

/-- The first function with this name in lower case, and a name exprtk takes. -/
def firstNamed : List (Str × FunRef) → Str → Option FunRef
  | [], _ => none
  | (n, f) :: fs, k =>
    if lower n = k ∧ Evaluator.validSymbol n = true ∧ lower n ∉ taken then some f else firstNamed fs k

/-- The function entered first. -/
def provided (us : List Use) : Str → Option FunRef := firstNamed (entered us)

/-- The text given last to `Eval`, `t` if there was none. -/
def lastText : List Use → Str → Str
  | [], t => t
  | .eval s :: us, _ => lastText us s
  | _ :: us, t => lastText us t

/-- The names after the calls. -/
def namesOf (us : List Use) : Naming := { var := given us, fn := provided us }

/-- No identifier has the name of a function. -/
def Apart (us : List Use) : Prop :=
  ∀ x v, Use.ident x v ∈ us → ∀ nf ∈ entered us, lower x ≠ lower nf.1

/-- The role managers the functions were made with exist. -/
def Managed (us : List Use) (h : List RM) : Prop :=
  ∀ nf ∈ entered us, ∀ i n, nf.2 = .g (some i) n → i < h.length

theorem firstNamed_append (a b : List (Str × FunRef)) (k : Str) :
    firstNamed (a ++ b) k = (firstNamed a k).or (firstNamed b k) := by
  induction a with
  | nil => rfl
  | cons p a ih =>
    obtain ⟨n, f⟩ := p
    simp only [List.cons_append, firstNamed]
    split
    · rfl
    · exact ih

theorem firstNamed_mem {a : List (Str × FunRef)} {k : Str} {f : FunRef} (h : firstNamed a k = some f) :
    ∃ n, (n, f) ∈ a := by
  induction a with
  | nil => cases h
  | cons p a ih =>
    obtain ⟨n, f'⟩ := p
    simp only [firstNamed] at h
    split at h
    · cases h; exact ⟨n, List.mem_cons_self ..⟩
    · obtain ⟨n', hn⟩ := ih h
      exact ⟨n', List.mem_cons_of_mem _ hn⟩

mutual
theorem knows_mono {N N' : Naming} (hv : ∀ x, (∃ v, N.var x = some v) → ∃ v, N'.var x = some v)
    (hf : ∀ f fr, N.fn f = some fr → N'.fn f = some fr) : ∀ e : Expr, N.Knows e → N'.Knows e
  | .str _, _ => by simp [Naming.Knows]
  | .num _, _ => by simp [Naming.Knows]
  | .var x, h => by
    simp only [Naming.Knows] at h ⊢
    exact hv _ h
  | .call f args, h => by
    simp only [Naming.Knows] at h ⊢
    obtain ⟨⟨fr, h1, h2⟩, h3⟩ := h
    exact ⟨⟨fr, hf _ _ h1, h2⟩, knowsAll_mono hv hf args h3⟩
  | .op o args, h => by
    simp only [Naming.Knows] at h ⊢
    exact knowsAll_mono hv hf args h
theorem knowsAll_mono {N N' : Naming} (hv : ∀ x, (∃ v, N.var x = some v) → ∃ v, N'.var x = some v)
    (hf : ∀ f fr, N.fn f = some fr → N'.fn f = some fr) : ∀ es : List Expr, N.KnowsAll es → N'.KnowsAll es
  | [], _ => by simp [Naming.KnowsAll]
  | e :: es, h => by
    simp only [Naming.KnowsAll] at h ⊢
    exact ⟨knows_mono hv hf e h.1, knowsAll_mono hv hf es h.2⟩
end

/-- The evaluator knows these names, and what it has compiled is the text it remembers. -/
structure Stands (lib : ExprLib) (N : Naming) (t : Str) (ev : Evaluator) : Prop where
  vars : ev.vars.get = N.var
  funs : ev.funs.get = N.fn
  text : ev.exprStr = t
  good : ev.err = false → t ≠ [] → ∃ e, lib.parse t = some e ∧ ev.compiled = some e ∧ N.Knows e
  known : ∀ e, ev.compiled = some e → N.Knows e

theorem stands_new (lib : ExprLib) : Stands lib (namesOf []) [] Evaluator.new :=
  ⟨rfl, rfl, rfl, fun _ h => absurd rfl h, fun _ h => by cases h⟩

/-- The names with what a call adds. -/
def grow (N : Naming) (u : Use) : Naming :=
  { var := fun k => (u.gives k).or (N.var k), fn := fun k => (N.fn k).or (firstNamed u.enters k) }

/-- The names with what several calls add. -/
def growAll (N : Naming) (us : List Use) : Naming :=
  { var := fun k => (given us k).or (N.var k), fn := fun k => (N.fn k).or (provided us k) }

theorem grow_knows {N : Naming} {u : Use} {e : Expr} (h : N.Knows e) : (grow N u).Knows e := by
  refine knows_mono (fun x hx => ?_) (fun f fr hf => ?_) e h
  · obtain ⟨v, hv⟩ := hx
    simp only [grow, hv]
    cases u.gives x with
    | none => exact ⟨v, rfl⟩
    | some w => exact ⟨w, rfl⟩
  · simp only [grow, hf]; rfl

theorem addFunction_run {lib : ExprLib} {N : Naming} {t : Str} {ev : Evaluator} (h : Stands lib N t ev)
    {n : Str} (f : FunRef) (hn : ev.vars.get (lower n) = none) :
    (addFunction n f ev).1 = .ok () ∧ (addFunction n f ev).2.vars = ev.vars ∧
      Stands lib { N with fn := fun k => (N.fn k).or (firstNamed [(n, f)] k) } t (addFunction n f ev).2 := by
  have hk : ∀ {e : Expr}, N.Knows e →
      ({ N with fn := fun k => (N.fn k).or (firstNamed [(n, f)] k) } : Naming).Knows e := fun he =>
    knows_mono (N := N) (N' := { N with fn := fun k => (N.fn k).or (firstNamed [(n, f)] k) })
      (fun _ hx => hx) (fun f fr hf => by simp only [hf]; rfl) _ he
  have hhas : ev.vars.has (lower n) = false := by simp only [UMap.has, hn]; rfl
  have hfuns : ∀ k, ev.funs.get k = N.fn k := fun k => congrFun h.funs k
  have hmk : ∀ ev' : Evaluator, ev'.vars = ev.vars → ev'.exprStr = ev.exprStr → ev'.compiled = ev.compiled →
      ev'.err = ev.err → (∀ k, ev'.funs.get k = (N.fn k).or (firstNamed [(n, f)] k)) →
      Stands lib { N with fn := fun k => (N.fn k).or (firstNamed [(n, f)] k) } t ev' := by
    intro ev' h1 h2 h3 h4 h5
    refine ⟨by rw [h1]; exact h.vars, funext h5, by rw [h2]; exact h.text, fun he ht => ?_, fun e he => ?_⟩
    · obtain ⟨e, e1, e2, e3⟩ := h.good (h4 ▸ he) ht
      exact ⟨e, e1, by rw [h3]; exact e2, hk e3⟩
    · exact hk (h.known e (h3 ▸ he))
  unfold addFunction accepts
  by_cases hgood : Evaluator.validSymbol n = true ∧ lower n ∉ taken
  · simp only [hgood.1, hgood.2, hhas, decide_false, Bool.not_false, Bool.and_self, if_true]
    simp only [Evaluator.addFunction, M.modify_run]
    refine ⟨trivial, by split <;> rfl, ?_⟩
    by_cases hh : ev.funs.has (lower n) = true
    · simp only [hh, if_true]
      refine hmk ev rfl rfl rfl rfl fun k => ?_
      rw [hfuns]
      by_cases hkn : lower n = k
      · subst hkn
        have : (N.fn (lower n)).isSome := by rw [← hfuns]; exact hh
        obtain ⟨fr, hfr⟩ := Option.isSome_iff_exists.mp this
        rw [hfr]; rfl
      · simp only [firstNamed, hkn, false_and, if_false]
        cases N.fn k <;> rfl
    · have hnone : ev.funs.get (lower n) = none := by
        simp only [UMap.has] at hh
        cases hg : ev.funs.get (lower n) with
        | none => rfl
        | some _ => rw [hg] at hh; exact absurd rfl hh
      simp only [hh, Bool.false_eq_true, if_false]
      refine hmk _ rfl rfl rfl rfl fun k => ?_
      show (ev.funs.set (lower n) f).get k = _
      rw [UMap.get_set]
      by_cases hkn : lower n = k
      · subst hkn
        rw [← hfuns, hnone]
        simp only [firstNamed, hgood, if_true, not_false_eq_true, and_self]
        rfl
      · simp only [firstNamed, hkn, false_and, if_false, hfuns]
        cases N.fn k <;> rfl
  · have hno : (Evaluator.validSymbol n && !decide (lower n ∈ taken) && !ev.vars.has (lower n)) = false := by
      rw [Bool.and_eq_false_iff, Bool.and_eq_false_iff]
      left
      by_cases hv : Evaluator.validSymbol n = true
      · right
        have : lower n ∈ taken := by
          by_contra hc
          exact hgood ⟨hv, hc⟩
        simp [this]
      · left; simpa using hv
    simp only [hno, Bool.false_eq_true, if_false]
    refine ⟨trivial, trivial, hmk ev rfl rfl rfl rfl fun k => ?_⟩
    rw [hfuns]
    have : firstNamed [(n, f)] k = none := by
      simp only [firstNamed]
      rw [if_neg fun hc => hgood hc.2]
    rw [this]
    cases N.fn k <;> rfl

theorem addFunctions_run {lib : ExprLib} {t : Str} : ∀ (L : List (Str × FunRef)) {N : Naming} {ev : Evaluator},
    Stands lib N t ev → (∀ nf ∈ L, ev.vars.get (lower nf.1) = none) →
    (addFunctions L ev).1 = .ok () ∧
      Stands lib { N with fn := fun k => (N.fn k).or (firstNamed L k) } t (addFunctions L ev).2
  | [], N, ev, h, _ => by
    refine ⟨rfl, ?_⟩
    have : ({ N with fn := fun k => (N.fn k).or (firstNamed [] k) } : Naming) = N := by
      have hh : (fun k => (N.fn k).or (firstNamed [] k)) = N.fn := funext fun k => by
        simp only [firstNamed]; cases N.fn k <;> rfl
      rw [hh]
    rw [this]; exact h
  | (n, f) :: L, N, ev, h, hn => by
    obtain ⟨h1, h2, h3⟩ := addFunction_run h f (hn _ (List.mem_cons_self ..))
    have h4 := addFunctions_run L h3 (fun nf hnf => by rw [h2]; exact hn _ (List.mem_cons_of_mem _ hnf))
    simp only [addFunctions, M.bind_run]
    rcases hr : addFunction n f ev with ⟨o, ev'⟩
    rw [hr] at h1 h4
    simp only at h1 h4
    subst h1
    refine ⟨h4.1, ?_⟩
    have : (fun k => ((N.fn k).or (firstNamed [(n, f)] k)).or (firstNamed L k)) =
        (fun k => (N.fn k).or (firstNamed ((n, f) :: L) k)) := funext fun k => by
      rw [show (n, f) :: L = [(n, f)] ++ L from rfl, firstNamed_append, Option.or_assoc]
    have h5 := h4.2
    simp only [this] at h5
    exact h5

theorem addIdentifier_run {lib : ExprLib} {N : Naming} {t : Str} {ev : Evaluator} (h : Stands lib N t ev)
    {x v : Str} (hok : (addIdentifier x v ev).1 = .ok ()) :
    Stands lib (grow N (.ident x v)) t (addIdentifier x v ev).2 := by
  have hvars : ∀ k, ev.vars.get k = N.var k := fun k => congrFun h.vars k
  have hmk : ∀ ev' : Evaluator, ev'.funs = ev.funs → ev'.exprStr = ev.exprStr → ev'.compiled = ev.compiled →
      ev'.err = ev.err → ev'.vars = ev.vars.set (lower x) v → Stands lib (grow N (.ident x v)) t ev' := by
    intro ev' h1 h2 h3 h4 h5
    refine ⟨funext fun k => ?_, funext fun k => ?_, by rw [h2]; exact h.text, fun he ht => ?_, fun e he => ?_⟩
    · rw [h5, UMap.get_set, hvars]
      simp only [grow, Use.gives]
      split <;> rfl
    · rw [h1, congrFun h.funs k]
      simp only [grow, Use.enters, firstNamed]
      cases N.fn k <;> rfl
    · obtain ⟨e, e1, e2, e3⟩ := h.good (h4 ▸ he) ht
      exact ⟨e, e1, by rw [h3]; exact e2, grow_knows e3⟩
    · exact grow_knows (h.known e (h3 ▸ he))
  unfold addIdentifier Evaluator.addIdentifier at hok ⊢
  split at hok
  · cases hok
  · next hc =>
    simp only [hc, Bool.false_eq_true, if_false]
    split
    · exact hmk _ rfl rfl rfl rfl rfl
    · next hh =>
      simp only [hh, Bool.false_eq_true, if_false] at hok
      split
      · exact hmk _ rfl rfl rfl rfl rfl
      · next hs =>
        simp only [hs, Bool.false_eq_true, if_false] at hok
        cases hok

theorem compile_iff {lib : ExprLib} {N : Naming} {t : Str} {ev : Evaluator} (h : Stands lib N t ev) (s : Str)
    (e : Expr) : compile lib ev.vars ev.funs s = some e ↔ s ≠ [] ∧ lib.parse s = some e ∧ N.Knows e := by
  unfold compile
  by_cases hs : s = []
  · simp [hs]
  · simp only [hs, if_false, ne_eq, not_false_eq_true, true_and]
    cases hp : lib.parse s with
    | none => simp
    | some e' =>
      simp only [Option.some.injEq]
      split
      · next hr =>
        rw [resolves_iff h.vars h.funs] at hr
        constructor
        · rintro h'; cases h'; exact ⟨rfl, hr⟩
        · rintro ⟨rfl, _⟩; rfl
      · next hr =>
        rw [resolves_iff h.vars h.funs] at hr
        constructor
        · intro h'; cases h'
        · rintro ⟨rfl, h'⟩; exact absurd h' hr

theorem eval_run {lib : ExprLib} {N : Naming} {t : Str} {ev : Evaluator} (h : Stands lib N t ev) (s : Str) :
    (∃ b, (Evaluator.eval lib s ev).1 = .ok b) ∧ Stands lib N s (Evaluator.eval lib s ev).2 := by
  unfold Evaluator.eval
  split
  · split
    · next e he =>
      obtain ⟨_, e2, e3⟩ := (compile_iff h s e).mp he
      exact ⟨⟨_, rfl⟩, h.vars, h.funs, rfl, fun _ _ => ⟨e, e2, rfl, e3⟩, fun e' he' => by cases he'; exact e3⟩
    · exact ⟨⟨_, rfl⟩, h.vars, h.funs, rfl, fun he => (by cases he), h.known⟩
  · next hs =>
    have hs : ev.exprStr = s := by simpa using hs
    have : t = s := h.text.symm.trans hs
    subst this
    exact ⟨⟨_, rfl⟩, h⟩

variable [IterOrder]

/-- Role managers as they are made: no matching functions, well formed, and the functions point to
them. -/
structure Sound (N : Naming) (h : List RM) : Prop where
  wf : ∀ R ∈ h, R.WF
  plain : ∀ R ∈ h, R.pattern = none
  ptr : ∀ f i n, N.fn f = some (.g (some i) n) → i < h.length

theorem value_run {lib : ExprLib} {N : Naming} {t : Str} {ev : Evaluator} {h : List RM}
    (hs : Stands lib N t ev) (hh : Sound N h) :
    Custom.exprValue lib (ev, h) = ((match ev.compiled with
      | none => .ok .nan
      | some e => denote lib h N e), ev, h) := by
  unfold Custom.exprValue
  cases hc : ev.compiled with
  | none => rfl
  | some e => simp only [evalExpr_denote lib hh.wf hh.plain hs.vars hs.funs hh.ptr]

/-- Which identifiers the evaluator may have before a call. -/
def Free (N : Naming) (us : List Use) : Prop := ∀ nf ∈ entered us, N.var (lower nf.1) = none

theorem run_stands {lib : ExprLib} {N : Naming} {t : Str} {ev : Evaluator} {h : List RM} {u : Use}
    (hs : Stands lib N t ev) (hh : Sound N h) (hfree : ∀ nf ∈ u.enters, N.var (lower nf.1) = none)
    {st : LibObj} (hrun : u.run lib (ev, h) = (.ok (), st)) :
    st.2 = h ∧ Stands lib (grow N u) (lastText [u] t) st.1 := by
  have hsame : ∀ u : Use, (∀ k, u.gives k = none) → u.enters = [] → grow N u = N := by
    intro u h1 h2
    have e1 : (fun k => (u.gives k).or (N.var k)) = N.var := funext fun k => by rw [h1]; rfl
    have e2 : (fun k => (N.fn k).or (firstNamed u.enters k)) = N.fn := funext fun k => by
      rw [h2]; cases N.fn k <;> rfl
    simp only [grow, e1, e2]
  have hfun : ∀ L : List (Str × FunRef), u.enters = L → (∀ k, u.gives k = none) →
      grow N u = { N with fn := fun k => (N.fn k).or (firstNamed L k) } := by
    intro L h1 h2
    have e1 : (fun k => (u.gives k).or (N.var k)) = N.var := funext fun k => by rw [h2]; rfl
    simp only [grow, e1, h1]
  have hv : ∀ k, ev.vars.get k = N.var k := fun k => congrFun hs.vars k
  cases u with
  | ident x v =>
    simp only [Use.run, onEv, Prod.mk.injEq] at hrun
    obtain ⟨h1, rfl⟩ := hrun
    exact ⟨rfl, addIdentifier_run hs h1⟩
  | func n f =>
    simp only [Use.run, onEv, Prod.mk.injEq] at hrun
    obtain ⟨h1, rfl⟩ := hrun
    refine ⟨rfl, ?_⟩
    rw [hfun _ rfl fun _ => rfl]
    exact (addFunction_run hs f (by rw [hv]; exact hfree _ (List.mem_cons_self ..))).2.2
  | load =>
    simp only [Use.run, onEv, Prod.mk.injEq] at hrun
    obtain ⟨h1, rfl⟩ := hrun
    refine ⟨rfl, ?_⟩
    rw [hfun _ rfl fun _ => rfl]
    exact (addFunctions_run _ hs (fun nf hnf => by rw [hv]; exact hfree _ hnf)).2
  | eval s =>
    obtain ⟨⟨b, hb⟩, h2⟩ := eval_run hs s
    simp only [Use.run, exprtk, M.bind_run, onEv, hb, M.pure_run, Prod.mk.injEq, true_and] at hrun
    subst hrun
    rw [hsame _ (fun _ => rfl) rfl]
    exact ⟨rfl, h2⟩
  | value =>
    rw [hsame _ (fun _ => rfl) rfl]
    simp only [Use.run, exprtk, M.bind_run, value_run hs hh] at hrun
    generalize (match ev.compiled with
      | none => Outcome.ok Val.nan
      | some e => denote lib h N e) = o at hrun
    cases o with
    | ok v =>
      simp only [M.pure_run, Prod.mk.injEq, true_and] at hrun
      subst hrun
      exact ⟨rfl, hs⟩
    | throw _ => simp only [Prod.mk.injEq, reduceCtorEq, false_and] at hrun
    | ub _ => simp only [Prod.mk.injEq, reduceCtorEq, false_and] at hrun

theorem runAll_stands {lib : ExprLib} {h : List RM} (hwf : ∀ R ∈ h, R.WF) (hpl : ∀ R ∈ h, R.pattern = none) :
    ∀ (us : List Use) {N : Naming} {t : Str} {ev : Evaluator} {st : LibObj}, Stands lib N t ev →
    (∀ f i n, N.fn f = some (.g (some i) n) → i < h.length) → Managed us h → Apart us →
    (∀ nf ∈ entered us, N.var (lower nf.1) = none) → runAll lib us (ev, h) = (.ok (), st) →
    st.2 = h ∧ Stands lib (growAll N us) (lastText us t) st.1
  | [], N, t, ev, st, hs, _, _, _, _, hrun => by
    simp only [runAll, M.pure_run, Prod.mk.injEq, true_and] at hrun
    subst hrun
    refine ⟨rfl, ?_⟩
    have e2 : (fun k => (N.fn k).or (provided [] k)) = N.fn := funext fun k => by
      cases hk : N.fn k <;> rfl
    simp only [growAll, e2]
    exact hs
  | u :: us, N, t, ev, st, hs, hptr, hm, ha, hf, hrun => by
    simp only [runAll, M.bind_run] at hrun
    rcases hr : u.run lib (ev, h) with ⟨o, s1⟩
    rw [hr] at hrun
    cases o with
    | throw _ => simp only [Prod.mk.injEq, reduceCtorEq, false_and] at hrun
    | ub _ => simp only [Prod.mk.injEq, reduceCtorEq, false_and] at hrun
    | ok _ =>
      simp only at hrun
      have hent : entered (u :: us) = u.enters ++ entered us := by simp [entered]
      have hin : ∀ nf ∈ entered us, nf ∈ entered (u :: us) := fun nf hnf => by
        rw [hent]; exact List.mem_append_right _ hnf
      have hin1 : ∀ nf ∈ u.enters, nf ∈ entered (u :: us) := fun nf hnf => by
        rw [hent]; exact List.mem_append_left _ hnf
      obtain ⟨h1, h2⟩ := run_stands hs ⟨hwf, hpl, hptr⟩ (fun nf hnf => hf nf (hin1 nf hnf)) hr
      obtain ⟨ev1, h'⟩ := s1
      simp only at h1 h2
      subst h1
      have hptr1 : ∀ f i n, (grow N u).fn f = some (.g (some i) n) → i < h'.length := by
        intro f i n hfn
        simp only [grow] at hfn
        cases hN : N.fn f with
        | some fr =>
          rw [hN] at hfn
          cases hfn
          exact hptr f i n hN
        | none =>
          rw [hN] at hfn
          have hfn : firstNamed u.enters f = some (.g (some i) n) := hfn
          obtain ⟨nm, hnm⟩ := firstNamed_mem hfn
          exact hm _ (hin1 _ hnm) i n rfl
      have hf1 : ∀ nf ∈ entered us, (grow N u).var (lower nf.1) = none := by
        intro nf hnf
        have hno : u.gives (lower nf.1) = none := by
          cases u with
          | ident x v =>
            have := ha x v (List.mem_cons_self ..) nf (hin nf hnf)
            simp only [Use.gives, if_neg this]
          | _ => rfl
        simp only [grow, hno, hf nf (hin nf hnf)]
        rfl
      have ih := runAll_stands hwf hpl us h2 hptr1 (fun nf hnf => hm nf (hin nf hnf))
        (fun x v hx nf hnf => ha x v (List.mem_cons_of_mem _ hx) nf (hin nf hnf)) hf1 hrun
      refine ⟨ih.1, ?_⟩
      have e1 : (fun k => (given us k).or ((grow N u).var k)) = fun k => (given (u :: us) k).or (N.var k) :=
        funext fun k => by simp only [grow, given, Option.or_assoc]
      have e2 : (fun k => ((grow N u).fn k).or (provided us k)) = fun k => (N.fn k).or (provided (u :: us) k) :=
        funext fun k => by simp only [grow, provided, hent, firstNamed_append, Option.or_assoc]
      have e3 : lastText us (lastText [u] t) = lastText (u :: us) t := by cases u <;> rfl
      have := ih.2
      simp only [growAll, e1, e2, e3] at this ⊢
      exact this

/-- After any calls on a new evaluator. -/
theorem runAll_new {lib : ExprLib} {h : List RM} (hwf : ∀ R ∈ h, R.WF) (hpl : ∀ R ∈ h, R.pattern = none)
    {us : List Use} {st : LibObj} (hm : Managed us h) (ha : Apart us)
    (hrun : runAll lib us (Evaluator.new, h) = (.ok (), st)) :
    st.2 = h ∧ Stands lib (namesOf us) (lastText us []) st.1 ∧ Sound (namesOf us) h := by
  obtain ⟨h1, h2⟩ := runAll_stands hwf hpl us (stands_new lib) (fun _ _ _ h => by cases h) hm ha
    (fun _ _ => rfl) hrun
  refine ⟨h1, ?_, hwf, hpl, fun f i n hfn => ?_⟩
  · have e1 : (fun k => (given us k).or ((namesOf []).var k)) = given us := funext fun k => by
      show (given us k).or none = _
      exact Option.or_none
    have e2 : (fun k => ((namesOf []).fn k).or (provided us k)) = provided us := funext fun k => rfl
    simp only [growAll, e1, e2] at h2
    exact h2
  · obtain ⟨nm, hnm⟩ := firstNamed_mem hfn
    exact hm _ hnm i n rfl

end Direct
end Casbin
