import Verif.CachedThreads
import Verif.Props.Linear
import Verif.Props.Cached

/-!
# C121: a caching enforcer used by several threads
-/

namespace Casbin
namespace CachedThreadProps

open Threads CachedEnforcer CachedThreads CachedProps DecisionProps Fixtures

variable [IterOrder] {τ : Type} [DecidableEq τ] {lib : ExprLib} {E : Enforcer} {r p e : Assertion}

/-! ## What is claimed -/

/-- What each thread calls, depending on the results it has got. -/
abbrev Calls (τ : Type) := τ → List (Outcome Ret) → Option Use

/-- Configurations of such threads. -/
abbrev Threads (τ : Type) := Conf τ CachedEnforcer (Outcome Ret)

/-- The threads as a program. -/
def prog (lib : ExprLib) (calls : Calls τ) : Prog τ CachedEnforcer (Outcome Ret) :=
  fun i rs => (calls i rs).map (body lib)

/-- How many results of thread `i` belong to calls begun no later than `c`. -/
def before (c : Threads τ) (i : τ) : Nat :=
  (c.thread i).results.length + if (c.thread i).cur.isSome then 1 else 0

/-- All requests begun after `c` and answered up to `c'` got the answer of `E`. -/
def Fresh (lib : ExprLib) (calls : Calls τ) (E : Enforcer) (c c' : Threads τ) : Prop :=
  ∀ i pre o post m v, (c'.thread i).results = pre ++ o :: post → before c i ≤ pre.length →
    calls i pre = some (.ask m v) → o = (E.enforceWithMatcher lib m v).1.map Ret.bool

/-- A call that changes nothing but the cache; a request is plain (C11) and its texts can be told apart
in a key (C48). -/
def Quiet (E : Enforcer) (r p : Assertion) : Use → Prop
  | .ask m v => SafeReq (m, v) ∧ Plain E.model r p (m, v)
  | .change _ => False
  | .enable _ => True
  | .invalidate => True

/-- From `c` on nothing but the cache is changed: neither by calls in progress nor by later ones. -/
structure NoChanges (lib : ExprLib) (calls : Calls τ) (E : Enforcer) (r p : Assertion)
    (c : Threads τ) : Prop where
  now : ∀ i x, (c.thread i).cur = some x →
    ∃ k l, x = ⟨body lib k, l⟩ ∧ ((∃ o, l = Stand.done o) ∨ Quiet E r p k)
  later : ∀ i rs k, (c.thread i).results <+: rs → calls i rs = some k → Quiet E r p k

/-! ## Steps -/

theorem ask_good (hC : Consistent lib E r p) (hen : E.enabled = true)
    (he : E.model.find c!"e" c!"e" = some e) {c : CachedEnforcer} (hg : Good lib E r p c)
    {m : Str} {v : List ReqVal} (hp : Plain E.model r p (m, v)) :
    (inherited (Enforcer.enforceWithMatcher lib m v) c).1 = (E.enforceWithMatcher lib m v).1 ∧
      Good lib E r p (inherited (Enforcer.enforceWithMatcher lib m v) c).2 := by
  obtain ⟨⟨ev, hb, hC'⟩, hcache⟩ := hg
  obtain ⟨ev', h1, h2⟩ := plain_step hC hC' hen he hp []
  have hask : Enforcer.enforceWithMatcher lib m v c.base =
      ((E.enforceWithMatcher lib m v).1, { E with eval := ev' }) := by
    rw [hb]
    simp only [Enforcer.enforceWithMatcher, M.bind_run, h1]
    cases E.enforceEx lib m v [] with
    | mk o s => cases o <;> rfl
  refine ⟨by simp only [inherited, hask], ?_⟩
  simp only [inherited, hask]
  exact ⟨⟨ev', rfl, h2⟩, hcache⟩

theorem store_good (hC : Consistent lib E r p) {c : CachedEnforcer} (hg : Good lib E r p c)
    {m : Str} {v : List ReqVal} {b : Bool} (hs : SafeReq (m, v)) (hp : Plain E.model r p (m, v))
    (hb : (E.enforceWithMatcher lib m v).1 = .ok b) :
    Good lib E r p { c with cache := c.cache.set (key m v) b } := by
  refine ⟨hg.base, ?_⟩
  intro q' b' hs' hp' hget
  simp only [UMap.get_set] at hget
  split at hget
  · rename_i hk
    simp only [Option.some.injEq] at hget
    subst hget
    rw [← same_key hC hs hs' hp hp' hk]
    exact hb
  · exact hg.cache q' b' hs' hp' hget

/-- What is known of a request in progress: an answer to be stored is right, and so is an answer to be
returned if `fresh`. -/
def Right (lib : ExprLib) (E : Enforcer) (fresh : Prop) : Use → Stand → Prop
  | .ask m v, .store b => (E.enforceWithMatcher lib m v).1 = .ok b
  | .ask m v, .done o => fresh → o = (E.enforceWithMatcher lib m v).1.map Ret.bool
  | _, _ => True

theorem step_right (hC : Consistent lib E r p) (hen : E.enabled = true)
    (he : E.model.find c!"e" c!"e" = some e) {c : CachedEnforcer} (hg : Good lib E r p c)
    {fresh : Prop} {k : Use} {l : Stand} (hq : Quiet E r p k) (hr : Right lib E fresh k l) :
    Right lib E fresh k (step lib k l c).1 ∧ Good lib E r p (step lib k l c).2 := by
  cases k with
  | change f => exact absurd hq id
  | enable b =>
    refine ⟨trivial, ?_⟩
    cases l <;> exact ⟨hg.base, hg.cache⟩
  | invalidate =>
    refine ⟨trivial, ?_⟩
    cases l
    case begun => exact ⟨hg.base, by intro q b _ _ h; simp [step, invalidateCache] at h⟩
    all_goals exact ⟨hg.base, hg.cache⟩
  | ask m v =>
    obtain ⟨hs, hp⟩ := hq
    obtain ⟨ha, hg'⟩ := ask_good hC hen he hg hp
    cases l with
    | begun =>
      refine ⟨?_, hg⟩
      simp only [step, askStep]
      split <;> trivial
    | look =>
      simp only [step, askStep]
      split
      · rename_i b hb
        refine ⟨fun _ => ?_, hg⟩
        rw [hg.cache (m, v) b hs hp hb]
        rfl
      · exact ⟨trivial, hg⟩
    | plain => exact ⟨fun _ => by rw [ha], hg'⟩
    | missed =>
      simp only [step, askStep]
      split
      · rename_i b hb
        exact ⟨ha.symm.trans hb, hg'⟩
      · exact ⟨fun _ => by rw [ha], hg'⟩
    | store b =>
      refine ⟨fun _ => ?_, store_good hC hg hs hp hr⟩
      rw [show (E.enforceWithMatcher lib m v).1 = .ok b from hr]
      rfl
    | done o => exact ⟨hr, hg⟩

/-! ## Executions -/

/-- What holds after a while. -/
structure Inv (lib : ExprLib) (calls : Calls τ) (E : Enforcer) (r p : Assertion)
    (c c' : Threads τ) : Prop where
  good : Good lib E r p c'.mem
  longer : ∀ i, (c.thread i).results <+: (c'.thread i).results
  idle : ∀ i, (c'.thread i).cur = none → before c i ≤ (c'.thread i).results.length
  cur : ∀ i x, (c'.thread i).cur = some x → ∃ k l, x = ⟨body lib k, l⟩ ∧
    ((∃ o, l = Stand.done o) ∨ Quiet E r p k) ∧
    Right lib E (before c i ≤ (c'.thread i).results.length) k l ∧
    (before c i ≤ (c'.thread i).results.length → calls i (c'.thread i).results = some k)
  fresh : Fresh lib calls E c c'

omit [IterOrder] in
theorem put_same (c : Threads τ) (i : τ) (t : Thread CachedEnforcer (Outcome Ret)) : c.put i t i = t := by
  simp [Conf.put]

omit [IterOrder] in
theorem put_other (c : Threads τ) {i j : τ} (t : Thread CachedEnforcer (Outcome Ret)) (h : j ≠ i) :
    c.put i t j = c.thread j := by
  simp [Conf.put, h]

theorem inv_step (hC : Consistent lib E r p) (hen : E.enabled = true)
    (he : E.model.find c!"e" c!"e" = some e) {calls : Calls τ} {c c' c'' : Threads τ}
    (hn : NoChanges lib calls E r p c) {ev : Event τ CachedEnforcer (Outcome Ret)}
    (h : Inv lib calls E r p c c') (hs : Step (prog lib calls) c' ev c'') :
    Inv lib calls E r p c c'' := by
  cases hs with
  | @acquire i op hidle hP hfree =>
    have hk : ∃ k, calls i (c'.thread i).results = some k ∧ body lib k = op := by
      simpa [prog] using hP
    obtain ⟨k, hk, rfl⟩ := hk
    refine ⟨h.good, ?_, ?_, ?_, ?_⟩
    · intro j
      by_cases hj : j = i
      · subst hj; simpa [put_same] using h.longer j
      · simpa [put_other _ _ hj] using h.longer j
    · intro j
      by_cases hj : j = i
      · subst hj; simp [put_same]
      · simpa [put_other _ _ hj] using h.idle j
    · intro j x hx
      by_cases hj : j = i
      · subst hj
        simp only [put_same, Option.some.injEq] at hx
        subst hx
        refine ⟨k, .begun, rfl, .inr (hn.later j _ _ (h.longer j) hk), ?_, ?_⟩
        · cases k <;> trivial
        · intro _; simpa [put_same] using hk
      · simp only [put_other _ _ hj] at hx ⊢
        exact h.cur j x hx
    · intro j pre o post m v hres
      refine h.fresh j pre o post m v ?_
      by_cases hj : j = i
      · subst hj; simpa [put_same] using hres
      · simpa [put_other _ _ hj] using hres
  | @work i x hcur hout =>
    obtain ⟨k, l, rfl, hq, hr, hcall⟩ := h.cur i x hcur
    have key : Right lib E (before c i ≤ (c'.thread i).results.length) k (step lib k l c'.mem).1 ∧
        Good lib E r p (step lib k l c'.mem).2 ∧
        ((∃ o, (step lib k l c'.mem).1 = Stand.done o) ∨ Quiet E r p k) := by
      rcases hq with ⟨o, rfl⟩ | hq
      · have : step lib k (.done o) c'.mem = (.done o, c'.mem) := by cases k <;> rfl
        rw [this]
        exact ⟨hr, h.good, .inl ⟨o, rfl⟩⟩
      · obtain ⟨h1, h2⟩ := step_right hC hen he h.good hq hr
        exact ⟨h1, h2, .inr hq⟩
    obtain ⟨h1, h2, h3⟩ := key
    refine ⟨h2, ?_, ?_, ?_, ?_⟩
    · intro j
      by_cases hj : j = i
      · subst hj; simpa [put_same] using h.longer j
      · simpa [put_other _ _ hj] using h.longer j
    · intro j
      by_cases hj : j = i
      · subst hj; simp [put_same]
      · simpa [put_other _ _ hj] using h.idle j
    · intro j y hy
      by_cases hj : j = i
      · subst hj
        simp only [put_same, Option.some.injEq] at hy
        subst hy
        refine ⟨k, (step lib k l c'.mem).1, rfl, h3, ?_, ?_⟩
        · simpa only [put_same] using h1
        · simpa only [put_same] using hcall
      · simp only [put_other _ _ hj] at hy ⊢
        exact h.cur j y hy
    · intro j pre o post m v hres
      refine h.fresh j pre o post m v ?_
      by_cases hj : j = i
      · subst hj; simpa [put_same] using hres
      · simpa [put_other _ _ hj] using hres
  | @release i x o hcur hout =>
    obtain ⟨k, l, rfl, hq, hr, hcall⟩ := h.cur i x hcur
    have hl : l = .done o := by
      cases l with
      | done o' =>
        have : returned o' = some o := hout
        cases o' <;> simp only [returned, Option.some.injEq, reduceCtorEq] at this <;> rw [this]
      | _ => simp [body] at hout
    subst hl
    refine ⟨h.good, ?_, ?_, ?_, ?_⟩
    · intro j
      by_cases hj : j = i
      · subst hj
        simp only [put_same]
        exact (h.longer j).trans (List.prefix_append _ _)
      · simpa [put_other _ _ hj] using h.longer j
    · intro j
      by_cases hj : j = i
      · subst hj
        intro _
        have := (h.longer j).length_le
        simp only [put_same, before, List.length_append, List.length_cons, List.length_nil]
        split <;> omega
      · simpa [put_other _ _ hj] using h.idle j
    · intro j y hy
      by_cases hj : j = i
      · subst hj; simp [put_same] at hy
      · simp only [put_other _ _ hj] at hy ⊢
        exact h.cur j y hy
    · intro j pre o' post m v hres hpre hask
      by_cases hj : j = i
      · subst hj
        simp only [put_same] at hres
        rcases List.eq_nil_or_concat post with rfl | ⟨post', z, rfl⟩
        · have hh : (c'.thread j).results = pre ∧ o = o' := by
            have := List.append_inj' hres rfl
            simpa using this
          obtain ⟨rfl, rfl⟩ := hh
          have hk := hcall hpre
          rw [hask] at hk
          simp only [Option.some.injEq] at hk
          subst hk
          exact hr hpre
        · refine h.fresh j pre o' post' m v ?_ hpre hask
          have : (c'.thread j).results ++ [o] = (pre ++ o' :: post') ++ [z] := by
            rw [hres]; simp
          exact (List.append_inj' this rfl).1
      · simp only [put_other _ _ hj] at hres
        exact h.fresh j pre o' post m v hres hpre hask

/-- C121: once the policy has been changed and the map emptied, every request begun later by any
thread is answered from the current policy. Missing: a request that was in progress when the map was
emptied and still has to store its answer, which then is one of the old policy (`C121_fails`); the
requests missing in `C48_transparent_partial`; requests that overlap each other (`C52_fails`).
`c` is the configuration after `InvalidateCache`. -/
theorem C121_emptied_partial (hC : Consistent lib E r p) (hen : E.enabled = true)
    (he : E.model.find c!"e" c!"e" = some e) {calls : Calls τ} {c c' : Threads τ}
    (hb : c.mem.base = E) (hm : c.mem.cache = []) (hn : NoChanges lib calls E r p c)
    (hstore : ∀ i x, (c.thread i).cur = some x → ∀ k b, x ≠ ⟨body lib k, Stand.store b⟩)
    {es : List (Event τ CachedEnforcer (Outcome Ret))} (h : Exec (prog lib calls) c es c') :
    Fresh lib calls E c c' := by
  have h0 : Inv lib calls E r p c c := by
    refine ⟨⟨⟨E.eval, by rw [hb], hC⟩, ?_⟩, fun i => List.prefix_rfl, ?_, ?_, ?_⟩
    · intro q b _ _ hg; rw [hm] at hg; simp [UMap.get] at hg
    · intro i hi; simp [before, hi]
    · intro i x hx
      obtain ⟨k, l, hxl, hq⟩ := hn.now i x hx
      have hbusy : ¬ before c i ≤ (c.thread i).results.length := by simp [before, hx]
      refine ⟨k, l, hxl, hq, ?_, fun h => absurd h hbusy⟩
      cases k with
      | ask m v =>
        cases l with
        | store b => exact absurd hxl (hstore i x hx _ b)
        | done o => exact fun h => absurd h hbusy
        | _ => trivial
      | _ => cases l <;> trivial
    · intro i pre o post m v hres hpre
      exfalso
      have hl := congrArg List.length hres
      simp only [before] at hpre
      simp only [List.length_append, List.length_cons] at hl
      split at hpre <;> omega
  have hall : Inv lib calls E r p c c' := by
    induction h with
    | nil => exact h0
    | snoc _ hs ih => exact inv_step hC hen he hn ih hs
  exact hall.fresh

/-! ## Executions chosen by a schedule -/

/-- Thread `i` makes a step, if it can. -/
def advance (lib : ExprLib) (calls : Calls τ) (c : Threads τ) (i : τ) : Threads τ :=
  match (c.thread i).cur with
  | none =>
    match calls i (c.thread i).results with
    | none => c
    | some k => ⟨c.mem, c.put i { c.thread i with cur := some ⟨body lib k, (body lib k).init⟩ }⟩
  | some x =>
    match x.op.out x.loc with
    | none => ⟨(x.op.step x.loc c.mem).2,
        c.put i { c.thread i with cur := some ⟨x.op, (x.op.step x.loc c.mem).1⟩ }⟩
    | some o => ⟨c.mem, c.put i ⟨(c.thread i).results ++ [o], none⟩⟩

theorem exec_advance {calls : Calls τ} {c₀ c : Threads τ}
    {es : List (Event τ CachedEnforcer (Outcome Ret))} (h : Exec (prog lib calls) c₀ es c) (i : τ) :
    ∃ es', Exec (prog lib calls) c₀ es' (advance lib calls c i) := by
  unfold advance
  split
  · rename_i hcur
    split
    · exact ⟨_, h⟩
    · rename_i k hk
      exact ⟨_, h.snoc (.acquire hcur (by simp [prog, hk]) trivial)⟩
  · rename_i x hcur
    split
    · rename_i ho
      exact ⟨_, h.snoc (.work hcur ho)⟩
    · rename_i o ho
      exact ⟨_, h.snoc (.release hcur ho)⟩

theorem exec_schedule {calls : Calls τ} (sched : List τ) {c₀ c : Threads τ}
    {es : List (Event τ CachedEnforcer (Outcome Ret))} (h : Exec (prog lib calls) c₀ es c) :
    ∃ es', Exec (prog lib calls) c₀ es' (sched.foldl (advance lib calls) c) := by
  induction sched generalizing c es with
  | nil => exact ⟨_, h⟩
  | cons i sched ih =>
    obtain ⟨es', h'⟩ := exec_advance h i
    exact ih h'

/-! ## Two threads -/

/-- A configuration of two threads. -/
def two (m : CachedEnforcer) (a b : Thread CachedEnforcer (Outcome Ret)) : Threads Bool :=
  ⟨m, fun i => if i then a else b⟩

theorem begin_true {calls : Calls Bool} {c : CachedEnforcer} {rs : List (Outcome Ret)} {k : Use}
    {b : Thread CachedEnforcer (Outcome Ret)} (h : calls true rs = some k) :
    advance lib calls (two c ⟨rs, none⟩ b) true = two c ⟨rs, some ⟨body lib k, Stand.begun⟩⟩ b := by
  simp only [advance, two, if_true, h, Conf.mk.injEq, true_and]
  funext j
  cases j <;> simp [Conf.put, body]

theorem begin_false {calls : Calls Bool} {c : CachedEnforcer} {rs : List (Outcome Ret)} {k : Use}
    {a : Thread CachedEnforcer (Outcome Ret)} (h : calls false rs = some k) :
    advance lib calls (two c a ⟨rs, none⟩) false = two c a ⟨rs, some ⟨body lib k, Stand.begun⟩⟩ := by
  simp only [advance, two, Bool.false_eq_true, if_false, h, Conf.mk.injEq, true_and]
  funext j
  cases j <;> simp [Conf.put, body]

theorem work_true {calls : Calls Bool} {c c' : CachedEnforcer} {rs : List (Outcome Ret)} {k : Use}
    {b : Thread CachedEnforcer (Outcome Ret)} {l l' : Stand} (ho : (body lib k).out l = none)
    (h : step lib k l c = (l', c')) :
    advance lib calls (two c ⟨rs, some ⟨body lib k, l⟩⟩ b) true
      = two c' ⟨rs, some ⟨body lib k, l'⟩⟩ b := by
  have h1 : (body lib k).step l c = (l', c') := h
  simp only [advance, two, if_true, ho, h1, Conf.mk.injEq, true_and]
  funext j
  cases j <;> simp [Conf.put]

theorem work_false {calls : Calls Bool} {c c' : CachedEnforcer} {rs : List (Outcome Ret)} {k : Use}
    {a : Thread CachedEnforcer (Outcome Ret)} {l l' : Stand} (ho : (body lib k).out l = none)
    (h : step lib k l c = (l', c')) :
    advance lib calls (two c a ⟨rs, some ⟨body lib k, l⟩⟩) false
      = two c' a ⟨rs, some ⟨body lib k, l'⟩⟩ := by
  have h1 : (body lib k).step l c = (l', c') := h
  simp only [advance, two, Bool.false_eq_true, if_false, ho, h1, Conf.mk.injEq, true_and]
  funext j
  cases j <;> simp [Conf.put]

theorem end_true {calls : Calls Bool} {c : CachedEnforcer} {rs : List (Outcome Ret)} {k : Use}
    {b : Thread CachedEnforcer (Outcome Ret)} {o : Ret} :
    advance lib calls (two c ⟨rs, some ⟨body lib k, Stand.done (.ok o)⟩⟩ b) true
      = two c ⟨rs ++ [.ok o], none⟩ b := by
  have h : (body lib k).out (Stand.done (.ok o)) = some (.ok o) := rfl
  simp only [advance, two, if_true, h, Conf.mk.injEq, true_and]
  funext j
  cases j <;> simp [Conf.put]

theorem end_false {calls : Calls Bool} {c : CachedEnforcer} {rs : List (Outcome Ret)} {k : Use}
    {a : Thread CachedEnforcer (Outcome Ret)} {o : Ret} :
    advance lib calls (two c a ⟨rs, some ⟨body lib k, Stand.done (.ok o)⟩⟩) false
      = two c a ⟨rs ++ [.ok o], none⟩ := by
  have h : (body lib k).out (Stand.done (.ok o)) = some (.ok o) := rfl
  simp only [advance, two, Bool.false_eq_true, if_false, h, Conf.mk.injEq, true_and]
  funext j
  cases j <;> simp [Conf.put]

/-- Thread `true` asks; thread `false` changes the policy, empties the map and asks the same. -/
def revoke (f : Enforcer → Enforcer) (m : Str) (v : List ReqVal) : Calls Bool := fun i rs =>
  if i then (if rs = [] then some (.ask m v) else none)
  else match rs with
    | [] => some (.change f)
    | [_] => some .invalidate
    | [_, _] => some (.ask m v)
    | _ => none

/-- Thread `true` stands at `l` when the other one has changed the policy and emptied the map. -/
def emptied (lib : ExprLib) (m : Str) (v : List ReqVal) (l : Stand) (E : Enforcer) : Threads Bool :=
  two (.new E) ⟨[], some ⟨body lib (.ask m v), l⟩⟩ ⟨[.ok .unit, .ok .unit], none⟩

variable {f : Enforcer → Enforcer} {m : Str} {v : List ReqVal}

/-- The other thread changes the policy and empties the map. -/
theorem to_emptied {c : CachedEnforcer} (hc : c.enableCache = true) (l : Stand) :
    (List.replicate 6 false).foldl (advance lib (revoke f m v))
      (two c ⟨[], some ⟨body lib (.ask m v), l⟩⟩ ⟨[], none⟩) = emptied lib m v l (f c.base) := by
  simp only [List.replicate, List.foldl_cons, List.foldl_nil]
  rw [begin_false (k := .change f) rfl,
    work_false (c' := ⟨f c.base, c.cache, c.enableCache⟩) (l' := .done (.ok .unit)) rfl rfl, end_false,
    begin_false (k := .invalidate) rfl,
    work_false (c' := ⟨f c.base, [], c.enableCache⟩) (l' := .done (.ok .unit)) rfl rfl, end_false, hc]
  rfl

/-- Thread `true` gets as far as having looked the request up in vain. -/
theorem to_missed (E : Enforcer) :
    [true, true, true].foldl (advance lib (revoke f m v)) (.start (.new E)) =
      two (.new E) ⟨[], some ⟨body lib (.ask m v), .missed⟩⟩ ⟨[], none⟩ := by
  simp only [List.foldl_cons, List.foldl_nil]
  have h0 : (.start (.new E) : Threads Bool) = two (.new E) ⟨[], none⟩ ⟨[], none⟩ := by
    simp only [Conf.start, two, Conf.mk.injEq, true_and]
    funext j
    cases j <;> rfl
  rw [h0, begin_true (k := .ask m v) rfl, work_true (c' := .new E) (l' := .look) rfl rfl,
    work_true (c' := .new E) (l' := .missed) rfl rfl]

/-- It asks and is about to store the answer. -/
theorem to_store (E : Enforcer) {b : Bool} (hb : (E.enforceWithMatcher lib m v).1 = .ok b) :
    advance lib (revoke f m v) (two (.new E) ⟨[], some ⟨body lib (.ask m v), .missed⟩⟩ ⟨[], none⟩) true =
      two (.new (E.enforceWithMatcher lib m v).2) ⟨[], some ⟨body lib (.ask m v), .store b⟩⟩
        ⟨[], none⟩ := by
  refine work_true rfl ?_
  simp only [step, askStep, inherited, CachedEnforcer.new, hb]

/-- It stores the answer and returns; then the other thread gets it. -/
theorem to_stale (E : Enforcer) (b : Bool) :
    [true, true, false, false, false, false].foldl (advance lib (revoke f m v))
        (emptied lib m v (.store b) E) =
      two ⟨E, UMap.set [] (key m v) b, true⟩ ⟨[.ok (.bool b)], none⟩
        ⟨[.ok .unit, .ok .unit, .ok (.bool b)], none⟩ := by
  simp only [List.foldl_cons, List.foldl_nil, emptied]
  rw [work_true (l' := .done (.ok (.bool b))) rfl rfl, end_true, begin_false (k := .ask m v) rfl,
    work_false (l' := .look) rfl rfl, work_false (l' := .done (.ok (.bool b))) rfl ?_, end_false]
  · rfl
  · simp [step, askStep, CachedEnforcer.new]

theorem exec_emptied (E : Enforcer) {b : Bool} (hb : (E.enforceWithMatcher lib m v).1 = .ok b) :
    ∃ es, Exec (prog lib (revoke f m v)) (.start (.new E)) es
      (emptied lib m v (.store b) (f (E.enforceWithMatcher lib m v).2)) := by
  obtain ⟨es, h⟩ := exec_schedule (lib := lib) (calls := revoke f m v) [true, true, true]
    (c₀ := .start (.new E)) Exec.nil
  rw [to_missed] at h
  obtain ⟨es, h⟩ := exec_advance h true
  rw [to_store E hb] at h
  obtain ⟨es, h⟩ := exec_schedule (List.replicate 6 false) h
  rw [to_emptied rfl] at h
  exact ⟨es, h⟩

theorem exec_stale (E : Enforcer) (b : Bool) {c₀ : Threads Bool}
    {es : List (Event Bool CachedEnforcer (Outcome Ret))}
    (h : Exec (prog lib (revoke f m v)) c₀ es (emptied lib m v (.store b) E)) :
    ∃ es' c', Exec (prog lib (revoke f m v)) c₀ es' c' ∧ c'.mem.base = E ∧
      (c'.thread false).results = [.ok .unit, .ok .unit, .ok (.bool b)] := by
  obtain ⟨es', h'⟩ := exec_schedule [true, true, false, false, false, false] h
  rw [to_stale] at h'
  exact ⟨es', _, h', rfl, rfl⟩

/-- C121 is violated for every policy, every request and every change: a thread has the old answer and
is about to store it; another one makes the change, calls `InvalidateCache`, asks, and gets the old
answer. -/
theorem C121_stale (f : Enforcer → Enforcer) (E : Enforcer) {b : Bool}
    (hb : (E.enforceWithMatcher lib m v).1 = .ok b) :
    ∃ es c, Exec (prog lib (revoke f m v)) (.start (.new E)) es c ∧
      c.mem.base = f (E.enforceWithMatcher lib m v).2 ∧
      (c.thread false).results = [.ok .unit, .ok .unit, .ok (.bool b)] := by
  obtain ⟨es, h⟩ := exec_emptied (f := f) E hb
  exact exec_stale _ b h

example : letI := insertionOrder
    ((acl [alice]).enforceWithMatcher miniLib [] ([c!"alice", c!"data1", c!"read"].map ReqVal.str)).1
      = .ok true := by decide +kernel

theorem not_fresh {E : Enforcer} {b : Bool} {l : Stand} {c' : Threads Bool}
    (hr : (c'.thread false).results = [.ok .unit, .ok .unit, .ok (.bool b)])
    (hb : (E.enforceWithMatcher lib m v).1 ≠ .ok b) :
    ¬ Fresh lib (revoke f m v) E (emptied lib m v l E) c' := by
  intro h
  have := h false [.ok .unit, .ok .unit] (.ok (.bool b)) [] m v hr (Nat.le_refl 2) rfl
  refine hb ?_
  cases ho : (E.enforceWithMatcher lib m v).1 with
  | ok b' => simp_all [Outcome.map]
  | throw x => simp_all [Outcome.map]
  | ub u => simp_all [Outcome.map]

/-! ## The witness and an instance -/

omit [IterOrder] in
theorem revoke_later {E : Enforcer} {r p : Assertion}
    (h : SafeReq (m, v) ∧ Plain E.model r p (m, v)) (rs : List (Outcome Ret)) :
    ∀ i k, (if i = true then 0 else 2) ≤ rs.length → revoke f m v i rs = some k → Quiet E r p k := by
  intro i k hl hk
  cases i with
  | true =>
    simp only [revoke, if_true] at hk
    split at hk
    · simp only [Option.some.injEq] at hk; subst hk; exact h
    · exact absurd hk (by simp)
  | false =>
    simp only [revoke, Bool.false_eq_true, if_false] at hk hl
    split at hk
    · simp at hl
    · simp at hl
    · simp only [Option.some.injEq] at hk; subst hk; exact h
    · exact absurd hk (by simp)

theorem emptied_quiet {E : Enforcer} {r p : Assertion}
    (h : SafeReq (m, v) ∧ Plain E.model r p (m, v)) (l : Stand) :
    NoChanges lib (revoke f m v) E r p (emptied lib m v l E) := by
  refine ⟨?_, ?_⟩
  · intro i x hx
    cases i with
    | true =>
      cases hx
      exact ⟨.ask m v, l, rfl, .inr h⟩
    | false => cases hx
  · intro i rs k hpre hk
    refine revoke_later h rs i k ?_ hk
    cases i with
    | true => exact Nat.zero_le _
    | false => exact hpre.length_le

/-- The request of both threads. -/
def readData1 : List ReqVal := [c!"alice", c!"data1", c!"read"].map ReqVal.str

omit [IterOrder] in
theorem plain_readData1 (P : Policies) :
    SafeReq ([], readData1) ∧ Plain (aclModel P) rA (pA P) ([], readData1) :=
  ⟨safe_strings (by decide), plain_acl _ _ rfl⟩

/-- Thread `true` has looked the request up in vain when the other one empties the map: whatever the
schedule, the latter gets the answer of the new policy. -/
example (f : Enforcer → Enforcer) (sched : List Bool) :
    Fresh miniLib (revoke f [] readData1) (acl []) (emptied miniLib [] readData1 .missed (acl []))
      (sched.foldl (advance miniLib (revoke f [] readData1))
        (emptied miniLib [] readData1 .missed (acl []))) := by
  obtain ⟨es, h⟩ := exec_schedule (lib := miniLib) (calls := revoke f [] readData1) sched
    (c₀ := emptied miniLib [] readData1 .missed (acl [])) Exec.nil
  refine C121_emptied_partial (r := rA) (p := pA (.vector [])) (e := eA) (consistent_acl _ _) rfl rfl
    rfl rfl (emptied_quiet (plain_readData1 _) _) ?_ h
  intro i x hx k b hne
  cases i with
  | true =>
    cases hx
    injection hne with _ h2
    cases h2
  | false => cases hx

/-- The right is taken away. -/
def takeAway : Enforcer → Enforcer := fun E =>
  letI := insertionOrder
  (Enforcer.removePolicy alice E).2

/-- The enforcer after the request. -/
def answered : Enforcer :=
  letI := insertionOrder
  ((acl [alice]).enforceWithMatcher miniLib [] readData1).2

omit [IterOrder] in
theorem answered_eq : ∃ ev, answered = { acl [alice] with eval := ev } ∧
    EvOK miniLib (aclModel (.vector [alice])) rA (pA (.vector [alice]))
      ({ acl [alice] with eval := ev } : Enforcer).evaluator := by
  let _ := insertionOrder
  have hg := (ask_good (lib := miniLib) (E := acl [alice]) (r := rA) (p := pA (.vector [alice]))
    (e := eA) (consistent_acl _ _) rfl rfl (c := .new (acl [alice]))
    ⟨⟨none, rfl, consistent_acl _ _⟩, by intro q b _ _ h; cases h⟩ (plain_readData1 _).2).2
  obtain ⟨ev, hb, hC⟩ := hg.base
  refine ⟨ev, ?_, hC.eval⟩
  simp only [inherited, CachedEnforcer.new] at hb
  unfold answered
  rw [hb]

omit [IterOrder] in
theorem takeAway_eq (ev : Option Evaluator) :
    takeAway { acl [alice] with eval := ev } = { acl [] with eval := ev } := rfl

omit [IterOrder] in
theorem takeAway_consistent : Consistent miniLib (takeAway answered) rA (pA (.vector [])) := by
  obtain ⟨ev, h, hev⟩ := answered_eq
  have h0 := consistent_acl miniLib (.vector [])
  rw [h, takeAway_eq]
  exact ⟨h0.defs, h0.roles, EvOK.congr (m := aclModel (.vector [alice])) (p := pA (.vector [alice]))
    rfl rfl hev⟩

omit [IterOrder] in
/-- C121 is violated by a request in progress: one thread has been told that its request is granted and
is about to store this; another one takes the right away, calls `InvalidateCache`, and afterwards is
told that the request is granted. -/
theorem C121_fails : ¬ ∀ (_ : IterOrder) (lib : ExprLib) (E₀ E : Enforcer) (r p e : Assertion)
    (calls : Calls Bool) (c c' : Threads Bool) (es es' : List (Event Bool CachedEnforcer (Outcome Ret))),
    Exec (prog lib calls) (.start (.new E₀)) es c → Consistent lib E r p → E.enabled = true →
    E.model.find c!"e" c!"e" = some e → c.mem.base = E → c.mem.cache = [] →
    NoChanges lib calls E r p c → Exec (prog lib calls) c es' c' → Fresh lib calls E c c' := by
  intro hall
  let _ := insertionOrder
  have hb : ((acl [alice]).enforceWithMatcher miniLib [] readData1).1 = .ok true := by decide +kernel
  have hE : takeAway answered = { acl [] with eval := (takeAway answered).eval } := by
    obtain ⟨ev, h, _⟩ := answered_eq
    rw [h, takeAway_eq]
  obtain ⟨es, h⟩ := exec_emptied (f := takeAway) (acl [alice]) hb
  change Exec _ _ _ (emptied miniLib [] readData1 (.store true) (takeAway answered)) at h
  have hn : ((takeAway answered).enforceWithMatcher miniLib [] readData1).1 ≠ .ok true := by
    decide +kernel
  have hC := takeAway_consistent
  generalize takeAway answered = E at *
  obtain ⟨es', c', h', _, hr⟩ := exec_stale E true (c₀ := emptied miniLib [] readData1 (.store true) E)
    (f := takeAway) Exec.nil
  have he : E.enabled = true := by rw [hE]; rfl
  have hf : E.model.find c!"e" c!"e" = some eA := by rw [hE]; rfl
  have hp : Plain E.model rA (pA (.vector [])) ([], readData1) := by
    rw [hE]; exact (plain_readData1 _).2
  exact not_fresh hr hn (hall insertionOrder miniLib (acl [alice]) E rA (pA (.vector [])) eA
    (revoke takeAway [] readData1) _ _ _ _ h hC he hf rfl rfl
    (emptied_quiet ⟨safe_strings (by decide), hp⟩ _) h')

/-! ## One thread -/

theorem alone_step {k : Use} {c c' c'' : CachedEnforcer} {l l' : Stand}
    (h : Alone (body lib k) Stand.begun c l c') (ho : (body lib k).out l = none)
    (hs : step lib k l c' = (l', c'')) : Alone (body lib k) Stand.begun c l' c'' := by
  have h1 : (body lib k).step l c' = (l', c'') := hs
  have h2 := Alone.tail h ho
  rw [h1] at h2
  exact h2

/-- C121, the model: without interference a request is `EnforceWithMatcher` as modelled in
`Cached.lean`, provided it returns. -/
theorem C121_alone (c : CachedEnforcer) (m : Str) (v : List ReqVal) {o : Outcome Ret}
    (ho : returned ((CachedEnforcer.enforceWithMatcher lib m v c).1.map Ret.bool) = some o) :
    Returns (body lib (.ask m v)) c o (CachedEnforcer.enforceWithMatcher lib m v c).2 := by
  have h0 : Alone (body lib (.ask m v)) Stand.begun c Stand.begun c := .refl
  cases hc : c.enableCache with
  | false =>
    have h1 := alone_step (l' := .plain) (c'' := c) h0 rfl (by simp [step, askStep, hc])
    have h2 := alone_step h1 rfl (Prod.mk.eta.symm)
    have he : CachedEnforcer.enforceWithMatcher lib m v c =
        inherited (Enforcer.enforceWithMatcher lib m v) c := by
      simp [CachedEnforcer.enforceWithMatcher, throughCache, M.bind_run, hc]
    rw [he] at ho ⊢
    exact ⟨_, h2, ho⟩
  | true =>
    have h1 := alone_step (l' := .look) (c'' := c) h0 rfl (by simp [step, askStep, hc])
    cases hg : c.cache.get (key m v) with
    | some b =>
      have h2 := alone_step (l' := .done (.ok (.bool b))) (c'' := c) h1 rfl
        (by simp [step, askStep, hg])
      have he : CachedEnforcer.enforceWithMatcher lib m v c = (.ok b, c) := by
        simp [CachedEnforcer.enforceWithMatcher, throughCache, M.bind_run, hc, hg]
      rw [he] at ho ⊢
      exact ⟨_, h2, ho⟩
    | none =>
      have h2 := alone_step (l' := .missed) (c'' := c) h1 rfl (by simp [step, askStep, hg])
      cases hi : inherited (Enforcer.enforceWithMatcher lib m v) c with
      | mk w c' =>
        have he : CachedEnforcer.enforceWithMatcher lib m v c = (w, match w with
            | .ok b => { c' with cache := c'.cache.set (key m v) b }
            | _ => c') := by
          cases w <;>
            simp [CachedEnforcer.enforceWithMatcher, throughCache, M.bind_run, hc, hg, hi]
        rw [he] at ho ⊢
        cases w with
        | ok b =>
          have h3 := alone_step (l' := .store b) (c'' := c') h2 rfl (by simp [step, askStep, hi])
          have h4 := alone_step (l' := .done (.ok (.bool b))) h3 rfl rfl
          exact ⟨_, h4, ho⟩
        | throw x =>
          have h3 := alone_step (l' := .done (.throw x)) (c'' := c') h2 rfl
            (by simp [step, askStep, hi, Outcome.map])
          exact ⟨_, h3, ho⟩
        | ub u =>
          have h3 := alone_step (l' := .done (.ub u)) (c'' := c') h2 rfl
            (by simp [step, askStep, hi, Outcome.map])
          exact ⟨_, h3, ho⟩

example : letI := insertionOrder
    returned ((CachedEnforcer.enforceWithMatcher miniLib [] readData1 (.new (acl [alice]))).1.map Ret.bool)
      = some (.ok (.bool true)) := by decide +kernel

end CachedThreadProps
end Casbin
