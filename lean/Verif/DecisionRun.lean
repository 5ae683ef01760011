import Verif.DecisionLemmas

/-!
# A whole request computes the specification

`decisionOf` is the answer and the explanation of a request as a function of the policy, the roles
and the request; `enforceEx_run` says that the code computes it and leaves a consistent state.
-/

namespace Casbin

/-- What one rule contributes: whether it satisfies the matcher, and its effect. -/
noncomputable def judge (lib : ExprLib) (m : Model) (heap : List RM) (exp : Str) (r p : Assertion)
    (vals : List Str) (rule : Rule) : Outcome (Bool × Effect) :=
  if p.tokens.length ≠ rule.length then .throw .enforcer
  else do
    let b ← verdict lib m heap exp r.tokens p.tokens vals rule
    let e ← ruleEffect p.tokens rule
    .ok (b, e)

/-- The rules a request looks at: all that are stored in a vector; in a set only the request itself,
its values cut at the first NUL character. -/
def candidates (p : Assertion) (vals : List Str) : List Rule :=
  if p.policy.hash then
    (if vals.map Evaluator.cString ∈ p.policy.items then [vals.map Evaluator.cString] else [])
  else p.policy.items

/-- Every value reads the same as a C string: none has a NUL character. -/
def NoNul (vals : List Str) : Prop := ∀ v ∈ vals, '\x00' ∉ v

theorem cString_of_noNul {vals : List Str} (h : NoNul vals) : vals.map Evaluator.cString = vals := by
  have : ∀ v ∈ vals, Evaluator.cString v = v := by
    intro v hv
    have key : ∀ v : Str, '\x00' ∉ v → Evaluator.cString v = v := by
      intro v
      induction v with
      | nil => intro _; rfl
      | cons c v ih =>
        intro h
        simp only [List.mem_cons, not_or] at h
        have h1 : (c != '\x00') = true := bne_iff_ne.mpr fun e => h.1 e.symm
        have h2 := ih h.2
        unfold Evaluator.cString at h2 ⊢
        rw [List.takeWhile_cons, h1, if_pos rfl, h2]
    exact key v (h v hv)
  exact (List.map_congr_left this).trans (List.map_id _)

/-- The rule with the given index, if there is one. -/
def explained (rules : List Rule) : Option Nat → Rule
  | none => []
  | some i =>
    match rules[i]? with
    | some r => r
    | none => []

/-- Answer and explanation from the result of the rule loop. -/
def conclude (rules : List Rule) : Outcome (Option (Effect × Option Nat)) → Outcome (Bool × Rule)
  | .ok none => .ub .uninit
  | .ok (some (e, i)) => .ok (decide (e = .allow), explained rules i)
  | .throw e => .throw e
  | .ub u => .ub u

/-- The text is an expression over known names. -/
def Compiles (lib : ExprLib) (N : Naming) (text : Str) : Prop :=
  ∃ e, lib.parse text = some e ∧ N.Knows e

open Classical in
/-- The decision when there are no candidate rules: the matcher is evaluated on empty values. -/
noncomputable def emptyDecision (lib : ExprLib) (m : Model) (heap : List RM) (exp eff : Str)
    (r p : Assertion) (vals : List Str) : Outcome (Bool × Rule) :=
  if hasEval exp then .throw .enforcer
  else
    let N := naming m r.tokens p.tokens vals (p.tokens.map fun _ => [])
    if Compiles lib N exp then
      match holds lib heap N exp with
      | .ok b => conclude [] ((mergeEmpty eff b).map some)
      | .throw e => .throw e
      | .ub u => .ub u
    else .ok (false, [])

/-- Answer and explanation of a request. -/
noncomputable def decisionOf (lib : ExprLib) (m : Model) (heap : List RM) (exp eff : Str)
    (r p : Assertion) (vals : List Str) : Outcome (Bool × Rule) :=
  if candidates p vals ≠ [] then
    conclude (candidates p vals)
      (pureRules (judge lib m heap exp r p vals) eff (candidates p vals))
  else emptyDecision lib m heap exp eff r p vals

variable [IterOrder]

omit [IterOrder] in
theorem ptr_functions {m : Model} {heap : List RM} (hG : GoodRoles m heap) :
    ∀ f i n, functions m f = some (.g (some i) n) → i < heap.length := by
  intro f i n h
  unfold functions at h
  cases hb : UMap.get lowBuiltins f with
  | some fr =>
    simp only [hb, Option.some.injEq] at h
    subst h
    have := UMap.mem_of_get hb
    simp [lowBuiltins, Evaluator.builtins] at this
  | none =>
    simp only [hb, Option.map_eq_some_iff, FunRef.g.injEq] at h
    obtain ⟨a, ha, hr, _⟩ := h
    exact hG.ptr f a i ha hr

/-- One round of the rule loop. -/
theorem ruleStep_sim (lib : ExprLib) {m : Model} {r p : Assertion} (hW : WellDefined m r p)
    {heap : List RM} (hG : GoodRoles m heap) {vals : List Str}
    (hvl : r.tokens.length = vals.length) (X : Rule) (exp : Str) (rule : Rule)
    (htext : rule.length = p.tokens.length → ∀ t, ruleText exp p.tokens rule = .ok t → t ≠ [])
    (s : ReqSt) (hs : Live lib m r p heap X vals s) :
    ∃ s', ruleStep lib exp p.tokens rule s = (judge lib m heap exp r p vals rule, s') ∧
      Live lib m r p heap X vals s' := by
  unfold ruleStep judge
  by_cases hl : p.tokens.length = rule.length
  · replace htext := htext hl.symm
    simp only [hl, ne_eq, not_true_eq_false, if_false]
    have hpush := pushPolicy_run hW.pValid rule s.ev hl
    set ev1 : Evaluator := s.ev.enterAll ((p.tokens.map polRaw).zip rule) with hev1
    have hpv : ev1.vars = putAll s.ev.vars ((p.tokens.map polName).zip rule) :=
      Evaluator.enterAll_zip polRaw _ _ _
    have hnm1 : NamesOK r p ev1 := hs.names.enterAll _ fun kv hkv => mem_rawNames_pol hkv
    set s1 : ReqSt := { s with ev := ev1 } with hs1
    have hrun1 : ReqSt.onEv (pushPolicy p.tokens rule) s = (.ok (), s1) := by
      simp [ReqSt.onEv, hpush, hs1, hev1]
    have hkp : UMap.keys ((p.tokens.map polName).zip rule) = p.tokens.map polName :=
      keys_zip _ _ (by simpa using hl)
    have hvars1 : ev1.vars.get = (naming m r.tokens p.tokens vals rule).var :=
      by rw [hpv]; exact vars_after_push hW hvl hl hs.rvars hs.vars
    have hfn1 : ev1.funs.get = functions m := by rw [hev1, Evaluator.enterAll_funs]; exact hs.funs
    have hfuns1 : ev1.funs.get = (naming m r.tokens p.tokens vals rule).fn := hfn1
    have hN := fullNaming_naming (m := m) (r := r) (p := p) hvl hl
    have hrv1 : ∀ x v, UMap.get ((r.tokens.map reqName).zip vals) x = some v →
        ev1.vars.get x = some v := by
      intro x v h
      rw [hvars1]
      simp only [naming, bindings, UMap.get_append, h]
    have hvs1 : ∀ x ∈ ev1.vars.keys, x ∈ stdNames r p := by
      intro x hx
      rw [hpv] at hx
      rcases (mem_keys_putAll _ _ _).mp hx with h | h
      · rw [hkp] at h; simp [stdNames, h]
      · exact hs.vars x h
    have ht1 : TextOK lib m r p ev1 := hs.text.enterAll _
    have hlive1 : Live lib m r p heap X vals s1 := ⟨hs.heap, hs.explain, hfn1, hrv1, hvs1, hnm1, ht1⟩
    simp only [M.bind_run, hrun1, M.lift_run, verdict]
    cases htx : ruleText exp p.tokens rule with
    | throw e => exact ⟨s1, rfl, hlive1⟩
    | ub u => exact ⟨s1, rfl, hlive1⟩
    | ok text =>
      obtain ⟨b, ev2, hev, hv2, hf2, hn2, ht2, hx2, _⟩ :=
        eval_run lib hN hvars1 hfuns1 ht1 (htext text htx)
      set s2 : ReqSt := { s1 with ev := ev2 } with hs2
      have hrun2 : ReqSt.onEv (Evaluator.eval lib text) s1 = (.ok b, s2) := by
        simp [ReqSt.onEv, hs2, hs1, hev]
      have hlive2 : Live lib m r p heap X vals s2 :=
        ⟨hs.heap, hs.explain, by rw [show s2.ev.funs = ev1.funs from hf2]; exact hfn1,
          by rw [show s2.ev.vars = ev1.vars from hv2]; exact hrv1,
          by rw [show s2.ev.vars = ev1.vars from hv2]; exact hvs1, hnm1.congr hv2 hn2, ht2⟩
      have hm := matcherResult_run lib hG.wf hG.plain (N := naming m r.tokens p.tokens vals rule)
        (ptr_functions hG) hN s2 hs.heap
        (by rw [show s2.ev.vars = ev1.vars from hv2]; exact hvars1)
        (by rw [show s2.ev.funs = ev1.funs from hf2]; exact hfuns1) ht2
        (by rw [show s2.ev.exprStr = text from hx2]; exact htext text htx)
      rw [show s2.ev.exprStr = text from hx2] at hm
      refine ⟨s2, ?_, hlive2⟩
      simp only [hrun2, hm, Outcome.ok_bind]
      cases holds lib heap (naming m r.tokens p.tokens vals rule) text with
      | throw e => rfl
      | ub u => rfl
      | ok b =>
        simp only [Outcome.ok_bind]
        cases ruleEffect p.tokens rule <;> rfl
  · simp only [ne_eq, hl, not_false_eq_true, if_true]
    exact ⟨s, rfl, hs⟩

omit [IterOrder] in
/-- `requestValues` on a consistent table. -/
theorem requestValues_run {r p : Assertion} {vals : List Str}
    (hvl : r.tokens.length = vals.length) (hn : (r.tokens.map reqName).Nodup) {ev : Evaluator}
    (hr : ∀ x v, UMap.get ((r.tokens.map reqName).zip vals) x = some v → ev.vars.get x = some v)
    (hs : NamesOK r p ev) :
    ∃ out, ev.requestValues = .ok out ∧
      ∀ t ∈ r.tokens, out.get (t.drop 2) = (ev.vars.get (reqName t)).map Evaluator.cString := by
  unfold Evaluator.requestValues
  have hkr : UMap.keys ((r.tokens.map reqName).zip vals) = r.tokens.map reqName :=
    keys_zip _ _ (by simpa using hvl)
  have hval : ∀ t ∈ r.tokens, ∃ v, ev.vars.get (reqName t) = some v := by
    intro t ht
    have : reqName t ∈ UMap.keys ((r.tokens.map reqName).zip vals) := by
      rw [hkr]; exact List.mem_map_of_mem ht
    obtain ⟨v, hv⟩ := Option.isSome_iff_exists.mp ((UMap.get_isSome_iff _ _).mpr this)
    exact ⟨v, hr _ v hv⟩
  have hkeys : ∀ x ∈ ev.names.filter (fun x => x.head? == some 'r'),
      ∃ t ∈ r.tokens, x = reqRaw t := by
    intro x hx
    rw [List.mem_filter] at hx
    have := hs.known x hx.1
    simp only [rawNames, List.mem_append, List.mem_map] at this
    rcases this with ⟨t, ht, rfl⟩ | ⟨t, ht, rfl⟩
    · exact ⟨t, ht, rfl⟩
    · exact absurd hx.2 (by simp [polRaw])
  have hall : ∀ t ∈ r.tokens, reqRaw t ∈ ev.names.filter (fun x => x.head? == some 'r') := by
    intro t ht
    obtain ⟨v, hv⟩ := hval t ht
    rw [List.mem_filter]
    refine ⟨?_, by simp [reqRaw]⟩
    obtain ⟨y, hy, he⟩ := hs.entered _ (UMap.mem_keys_of_get hv)
    have := hs.known y hy
    simp only [rawNames, List.mem_append, List.mem_map] at this
    rcases this with ⟨u, hu, rfl⟩ | ⟨u, hu, rfl⟩
    · rw [List.inj_on_of_nodup_map hn ht hu he.symm]; exact hy
    · exact absurd he.symm (reqName_ne_polName t u)
  -- the fold
  have key : ∀ (l : List Str) (acc : UMap Str Str),
      (∀ x ∈ l, ∃ t ∈ r.tokens, x = reqRaw t) →
      (∀ t ∈ r.tokens, acc.has (t.drop 2) = true → acc.get (t.drop 2) = (ev.vars.get (reqName t)).map Evaluator.cString) →
      ∃ out, l.foldlM (fun acc x =>
          match ev.vars.get (lower (c!"r." ++ x.drop 2)) with
          | some v => Outcome.ok (if acc.has (x.drop 2) then acc else acc.set (x.drop 2) (Evaluator.cString v))
          | none => .ub .nullDeref) acc = .ok out ∧
        (∀ t ∈ r.tokens, (reqRaw t ∈ l ∨ acc.has (t.drop 2) = true) →
          out.get (t.drop 2) = (ev.vars.get (reqName t)).map Evaluator.cString) := by
    intro l
    induction l with
    | nil =>
      intro acc _ hacc
      refine ⟨acc, rfl, ?_⟩
      intro t ht h
      rcases h with h | h
      · simp at h
      · exact hacc t ht h
    | cons x l ih =>
      intro acc hl hacc
      obtain ⟨t, ht, rfl⟩ := hl x (by simp)
      obtain ⟨v, hv⟩ := hval t ht
      have hv' : ev.vars.get (lower (c!"r." ++ (reqRaw t).drop 2)) = some v := by
        rw [show c!"r." ++ (reqRaw t).drop 2 = reqRaw t by simp [reqRaw]]; exact hv
      simp only [List.foldlM_cons, hv', Outcome.ok_bind]
      have hd : (reqRaw t).drop 2 = t.drop 2 := by simp [reqRaw]
      rw [hd]
      by_cases hh : acc.has (t.drop 2) = true
      · simp only [hh, if_true]
        obtain ⟨out, ho, hout⟩ := ih acc (fun x hx => hl x (by simp [hx])) hacc
        refine ⟨out, ho, ?_⟩
        intro t' ht' h
        apply hout t' ht'
        rcases h with h | h
        · rcases List.mem_cons.mp h with h | h
          · right
            have : t'.drop 2 = t.drop 2 := by
              simp only [reqRaw] at h; exact List.append_cancel_left h
            rw [this]; exact hh
          · left; exact h
        · right; exact h
      · simp only [hh]
        obtain ⟨out, ho, hout⟩ := ih (acc.set (t.drop 2) (Evaluator.cString v)) (fun x hx => hl x (by simp [hx]))
          (by
            intro t' ht' h
            by_cases he : t.drop 2 = t'.drop 2
            · have : reqName t' = reqName t := by simp [reqName, reqRaw, he]
              rw [← he, UMap.get_set_self, this, hv]; rfl
            · rw [UMap.get_set_ne _ _ he]
              apply hacc t' ht'
              rw [UMap.has_iff, UMap.mem_keys_set] at h
              rcases h with h | h
              · exact absurd h.symm he
              · exact (UMap.has_iff _ _).mpr h)
        refine ⟨out, ho, ?_⟩
        intro t' ht' h
        apply hout t' ht'
        rcases h with h | h
        · rcases List.mem_cons.mp h with h | h
          · right
            have : t'.drop 2 = t.drop 2 := by
              simp only [reqRaw] at h; exact List.append_cancel_left h
            rw [UMap.has_iff, UMap.mem_keys_set]
            exact Or.inl this
          · left; exact h
        · right
          rw [UMap.has_iff, UMap.mem_keys_set]
          exact Or.inr ((UMap.has_iff _ _).mp h)
  obtain ⟨out, ho, hout⟩ := key _ [] hkeys (by intro t _ h; simp [UMap.has] at h)
  exact ⟨out, ho, fun t ht => hout t ht (Or.inl (hall t ht))⟩

omit [IterOrder] in
theorem requestedPolicy_run {out : UMap Str Str} : ∀ {ts vals : List Str},
    ts.length = vals.length → (∀ t ∈ ts, 2 ≤ t.length) →
    (∀ i (h : i < ts.length) (h' : i < vals.length), out.get (ts[i].drop 2) = some vals[i]) →
    requestedPolicy out ts = .ok vals := by
  intro ts
  induction ts with
  | nil => intro vals h _ _; cases vals <;> simp_all [requestedPolicy]
  | cons t ts ih =>
    intro vals h hl hv
    cases vals with
    | nil => simp at h
    | cons v vals =>
      have h0 := hv 0 (by simp) (by simp)
      have h2 : ¬ t.length < 2 := by have := hl t (by simp); omega
      simp only [List.getElem_cons_zero] at h0
      simp only [requestedPolicy, h2, if_false, h0]
      rw [ih (by simpa using h) (fun t ht => hl t (by simp [ht]))
        (fun i h1 h2 => by
          have := hv (i + 1) (by simp; omega) (by simp; omega)
          simpa using this)]
      rfl

omit [IterOrder] in
theorem get_zip_getElem {ns vals : List Str} (hn : ns.Nodup) (i : Nat) (h : i < ns.length)
    (h' : i < vals.length) (hl : ns.length = vals.length) :
    UMap.get (ns.zip vals) ns[i] = some vals[i] := by
  apply UMap.get_of_mem (zip_keys_nodup hn vals hl)
  rw [List.mem_iff_getElem]
  exact ⟨i, by simp; omega, by simp⟩

omit [IterOrder] in
theorem selectPolicies_run {m : Model} {r p : Assertion} (hW : WellDefined m r p) {vals : List Str}
    (hvl : r.tokens.length = vals.length) {ev : Evaluator}
    (hr : ∀ x v, UMap.get ((r.tokens.map reqName).zip vals) x = some v → ev.vars.get x = some v)
    (hs : NamesOK r p ev) :
    selectPolicies m ev = .ok (candidates p vals) := by
  unfold selectPolicies candidates
  simp only [hW.findP]
  by_cases hh : p.policy.hash = true
  · simp only [hh, if_true, hW.findR]
    obtain ⟨out, ho, hout⟩ := requestValues_run hvl hW.rNodup hr hs
    rw [ho]
    simp only [Outcome.ok_bind]
    rw [requestedPolicy_run (vals := vals.map Evaluator.cString) (by simpa using hvl) hW.rLen]
    · simp [Policies.contains]
    · intro i h h'
      rw [hout _ (List.getElem_mem h)]
      have h' : i < vals.length := by simpa using h'
      have := hr _ _ (get_zip_getElem (vals := vals) hW.rNodup i (by simpa using h) h'
        (by simpa using hvl))
      simp only [List.getElem_map] at this ⊢
      rw [this]
      rfl
  · simp [hh]

omit [IterOrder] in
theorem finish_run (rules : List Rule) (e : Effect) (i : Option Nat) (s : ReqSt)
    (hs : s.explain = []) :
    finish rules (some (e, i)) s
      = (.ok (decide (e = .allow)), { s with explain := explained rules i }) := by
  unfold finish explained
  cases i with
  | none => simp only [M.pure_run]; cases s; simp_all
  | some i =>
    simp only
    cases rules[i]? with
    | none => simp only [M.pure_run]; cases s; simp_all
    | some r => rfl

omit [IterOrder] in
/-- The state between requests. -/
theorem Live.evOK {lib : ExprLib} {m : Model} {r p : Assertion} {heap : List RM} {X : Rule}
    {vals : List Str} {s : ReqSt} (h : Live lib m r p heap X vals s) : EvOK lib m r p s.ev :=
  ⟨h.vars, h.names, fun f fr hf => by rw [h.funs] at hf; exact hf, h.text⟩

theorem enforceEmpty_run (lib : ExprLib) {m : Model} {r p : Assertion} (hW : WellDefined m r p)
    {heap : List RM} (hG : GoodRoles m heap) {vals : List Str}
    (hvl : r.tokens.length = vals.length) (exp eff : Str) (hexp : exp ≠ []) (s : ReqSt)
    (hs : Live lib m r p heap [] vals s) :
    ∃ s', enforceEmpty lib exp p.tokens eff s
        = ((emptyDecision lib m heap exp eff r p vals).map Prod.fst, s') ∧
      s'.heap = heap ∧ EvOK lib m r p s'.ev ∧
      ∀ b x, emptyDecision lib m heap exp eff r p vals = .ok (b, x) → s'.explain = x := by
  unfold enforceEmpty emptyDecision
  by_cases hev : hasEval exp = true
  · simp only [hev, if_true]
    exact ⟨s, rfl, hs.heap, hs.evOK, by intro b x h; simp at h⟩
  · simp only [hev]
    have hl : p.tokens.length = (p.tokens.map fun _ => ([] : Str)).length := by simp
    generalize (p.tokens.map fun _ => ([] : Str)) = rule at hl
    have hpush := pushPolicy_run hW.pValid rule s.ev hl
    set ev1 : Evaluator := s.ev.enterAll ((p.tokens.map polRaw).zip rule) with hev1
    have hpv : ev1.vars = putAll s.ev.vars ((p.tokens.map polName).zip rule) :=
      Evaluator.enterAll_zip polRaw _ _ _
    have hnm1 : NamesOK r p ev1 := hs.names.enterAll _ fun kv hkv => mem_rawNames_pol hkv
    set s1 : ReqSt := { s with ev := ev1 } with hs1
    have hrun1 : ReqSt.onEv (pushPolicy p.tokens rule) s = (.ok (), s1) := by
      simp [ReqSt.onEv, hpush, hs1, hev1]
    have hkp : UMap.keys ((p.tokens.map polName).zip rule) = p.tokens.map polName :=
      keys_zip _ _ (by simpa using hl)
    have hvars1 : ev1.vars.get = (naming m r.tokens p.tokens vals rule).var :=
      by rw [hpv]; exact vars_after_push hW hvl hl hs.rvars hs.vars
    have hfn1 : ev1.funs.get = functions m := by rw [hev1, Evaluator.enterAll_funs]; exact hs.funs
    have hfuns1 : ev1.funs.get = (naming m r.tokens p.tokens vals rule).fn := hfn1
    have hN := fullNaming_naming (m := m) (r := r) (p := p) hvl hl
    have hvs1 : ∀ x ∈ ev1.vars.keys, x ∈ stdNames r p := by
      intro x hx
      rw [hpv] at hx
      rcases (mem_keys_putAll _ _ _).mp hx with h | h
      · rw [hkp] at h; simp [stdNames, h]
      · exact hs.vars x h
    have ht1 : TextOK lib m r p ev1 := hs.text.enterAll _
    obtain ⟨b, ev2, hev, hv2, hf2, hn2, ht2, hx2, hb⟩ := eval_run lib hN hvars1 hfuns1 ht1 hexp
    set s2 : ReqSt := { s1 with ev := ev2 } with hs2
    have hrun2 : ReqSt.onEv (Evaluator.eval lib exp) s1 = (.ok b, s2) := by
      simp [ReqSt.onEv, hs2, hs1, hev]
    have hev2 : EvOK lib m r p ev2 :=
      ⟨by rw [hv2]; exact hvs1, hnm1.congr hv2 hn2, fun f fr hf => by
        rw [hf2, hfn1] at hf; exact hf, ht2⟩
    have hne2 : ev2.exprStr ≠ [] := by rw [hx2]; exact hexp
    simp only [Bool.false_eq_true, if_false, M.bind_run, hrun1, hrun2]
    cases herr : ev2.err with
    | true =>
      have hc : ¬ Compiles lib (naming m r.tokens p.tokens vals rule) exp := by
        rintro ⟨e, he, hk⟩
        exact ht2.bad hne2 herr e (by rw [hx2]; exact he) _ hN hk
      rw [if_neg hc]
      rw [herr] at hb
      refine ⟨s2, by simp [hb], hs.heap, hev2, ?_⟩
      intro b x h
      simp only [Outcome.ok.injEq, Prod.mk.injEq] at h
      rw [← h.2]; exact hs.explain
    | false =>
      have hc : Compiles lib (naming m r.tokens p.tokens vals rule) exp := by
        obtain ⟨e, he, _, hk⟩ := ht2.good hne2 herr
        exact ⟨e, by rw [← hx2]; exact he, hk _ hN⟩
      rw [if_pos hc]
      rw [herr] at hb
      obtain ⟨o, ho, hd⟩ := holds_good lib hG.wf hG.plain
        (N := naming m r.tokens p.tokens vals rule) (ptr_functions hG) hN s2 hs.heap
        (by rw [show s2.ev.vars = ev1.vars from hv2]; exact hvars1)
        (by rw [show s2.ev.funs = ev1.funs from hf2]; exact hfuns1) ht2 hne2 herr
      rw [show s2.ev.exprStr = exp from hx2] at hd
      simp only [hb, Bool.not_false, Bool.not_true, Bool.false_eq_true, if_false, M.bind_run, ho, hd]
      cases o with
      | throw e => exact ⟨s2, rfl, hs.heap, hev2, by intro b x h; simp at h⟩
      | ub u => exact ⟨s2, rfl, hs.heap, hev2, by intro b x h; simp at h⟩
      | ok v =>
        simp only [Outcome.map_ok, M.lift_run]
        cases hme : mergeEmpty eff v.truthy with
        | throw e => exact ⟨s2, rfl, hs.heap, hev2, by intro b x h; simp [conclude] at h⟩
        | ub u => exact ⟨s2, rfl, hs.heap, hev2, by intro b x h; simp [conclude] at h⟩
        | ok res =>
          obtain ⟨e, i⟩ := res
          simp only
          rw [finish_run [] e i s2 hs.explain]
          refine ⟨_, rfl, hs.heap, hev2, ?_⟩
          intro b x h
          simp only [Outcome.map_ok, conclude, Outcome.ok.injEq, Prod.mk.injEq] at h
          exact h.2

/-- The matcher text of a request. -/
def matcherOf (m : Model) (matcher : Str) : Option Str :=
  if matcher = [] then (m.find c!"m" c!"m").map (·.value) else some matcher

theorem mEnforce_run (lib : ExprLib) {m : Model} {r p e : Assertion} (hW : WellDefined m r p)
    (he : m.find c!"e" c!"e" = some e)
    {heap : List RM} (hG : GoodRoles m heap) {vals : List Str}
    (hvl : r.tokens.length = vals.length) {matcher exp : Str} (hm : matcherOf m matcher = some exp)
    (hexp : exp ≠ [])
    (htext : ∀ rule ∈ candidates p vals, rule.length = p.tokens.length →
      ∀ t, ruleText exp p.tokens rule = .ok t → t ≠ [])
    (s : ReqSt) (hheap : s.heap = heap) (hev : EvOK lib m r p s.ev)
    (hr : ∀ x v, UMap.get ((r.tokens.map reqName).zip vals) x = some v → s.ev.vars.get x = some v) :
    ∃ s', mEnforce lib m true matcher s
        = ((decisionOf lib m heap exp e.value r p vals).map Prod.fst, s') ∧
      s'.heap = heap ∧ EvOK lib m r p s'.ev ∧
      ∀ b x, decisionOf lib m heap exp e.value r p vals = .ok (b, x) → s'.explain = x := by
  set s1 : ReqSt := { s with
    explain := []
    ev := { s.ev with
      funs := addAllFuns (addAllFuns s.ev.funs Evaluator.builtins) (gFunctions m) } } with hs1
  have hlive : Live lib m r p heap [] vals s1 :=
    ⟨hheap, rfl, get_loaded hW.gNodup hW.gLower _ hev.funs, hr, hev.vars,
      hev.names.congr rfl rfl, ⟨hev.text.bad, hev.text.good⟩⟩
  have hsel := selectPolicies_run hW hvl hlive.rvars hlive.names
  have hstart : mEnforce lib m true matcher s =
      (if candidates p vals ≠ [] then do
        let res ← runRules (ruleStep lib exp p.tokens) e.value (candidates p vals)
        finish (candidates p vals) res
      else enforceEmpty lib exp p.tokens e.value) s1 := by
    unfold mEnforce
    simp only [M.bind_run, M.modify_run, Bool.not_true, Bool.false_eq_true, if_false, ReqSt.onEv,
      Evaluator.loadFunctions, addFunctions_run]
    rw [← hs1]
    unfold matcherOf at hm
    by_cases hmt : matcher = []
    · simp only [hmt, if_true, Option.map_eq_some_iff] at hm ⊢
      obtain ⟨a, ha, hx⟩ := hm
      simp only [needAssertion, ha, hx, hW.findR, hW.findP, he, M.bind_run, M.pure_run, M.get_run,
        M.lift_run, hsel]
    · simp only [hmt, if_false, Option.some.injEq] at hm ⊢
      simp only [needAssertion, hm, hW.findR, hW.findP, he, M.bind_run, M.pure_run, M.get_run,
        M.lift_run, hsel]
  rw [hstart]
  unfold decisionOf
  by_cases hc : candidates p vals = []
  · simp only [hc, ne_eq, not_true_eq_false, if_false]
    exact enforceEmpty_run lib hW hG hvl exp e.value hexp s1 hlive
  · simp only [ne_eq, hc, not_false_eq_true, if_true, M.bind_run]
    obtain ⟨s2, hrun, hlive2⟩ := runRules_sim (ruleStep lib exp p.tokens)
      (Live lib m r p heap [] vals) (judge lib m heap exp r p vals) e.value (candidates p vals)
      (fun rule hrule s hs => ruleStep_sim lib hW hG hvl [] exp rule (htext rule hrule) s hs)
      s1 hlive
    rw [hrun]
    cases hpr : pureRules (judge lib m heap exp r p vals) e.value (candidates p vals) with
    | throw e => exact ⟨s2, rfl, hlive2.heap, hlive2.evOK, by intro b x h; simp [conclude] at h⟩
    | ub u => exact ⟨s2, rfl, hlive2.heap, hlive2.evOK, by intro b x h; simp [conclude] at h⟩
    | ok res =>
      cases res with
      | none => exact ⟨s2, rfl, hlive2.heap, hlive2.evOK, by intro b x h; simp [conclude] at h⟩
      | some ei =>
        obtain ⟨ef, i⟩ := ei
        simp only
        rw [finish_run _ ef i s2 hlive2.explain]
        refine ⟨_, rfl, hlive2.heap, hlive2.evOK, ?_⟩
        intro b x h
        simp only [conclude, Outcome.ok.injEq, Prod.mk.injEq] at h
        exact h.2

/-! ### Requests on an enforcer -/

/-- The enforcer is in a state in which its answers are those of the specification. -/
structure Consistent (lib : ExprLib) (E : Enforcer) (r p : Assertion) : Prop where
  defs : WellDefined E.model r p
  roles : GoodRoles E.model E.heap
  eval : EvOK lib E.model r p E.evaluator

omit [IterOrder] in
theorem evOK_new (lib : ExprLib) (m : Model) (r p : Assertion) : EvOK lib m r p Evaluator.new :=
  ⟨by intro x hx; simp [Evaluator.new] at hx,
    ⟨by intro x hx; simp [Evaluator.new] at hx, by intro x hx; simp [Evaluator.new] at hx⟩,
    by intro f fr h; simp [Evaluator.new] at h,
    ⟨by intro h; simp [Evaluator.new] at h, by intro h; simp [Evaluator.new] at h⟩⟩

/-- A request with string values of the right number. -/
theorem enforceEx_run (lib : ExprLib) {E : Enforcer} {r p e : Assertion}
    (hC : Consistent lib E r p) (hen : E.enabled = true) (he : E.model.find c!"e" c!"e" = some e)
    {vals : List Str} (hvl : vals.length = r.tokens.length) {matcher exp : Str}
    (hm : matcherOf E.model matcher = some exp) (hexp : exp ≠ [])
    (htext : ∀ rule ∈ candidates p vals, rule.length = p.tokens.length →
      ∀ t, ruleText exp p.tokens rule = .ok t → t ≠ [])
    (X : Rule) :
    ∃ ev', E.enforceEx lib matcher (vals.map ReqVal.str) X
        = (decisionOf lib E.model E.heap exp e.value r p vals, { E with eval := some ev' }) ∧
      EvOK lib E.model r p ev' := by
  unfold Enforcer.enforceEx
  simp only [M.bind_run, M.get_run, hC.defs.findR, List.length_map, hvl, ne_eq, not_true_eq_false,
    if_false, Enforcer.runRequest, hen]
  have hpush := pushRequest_run hC.defs.rLen hC.defs.rValid vals E.evaluator hvl.symm
  set s0 : ReqSt := { ev := E.evaluator, heap := E.heap, explain := X } with hs0
  set ev1 : Evaluator := E.evaluator.enterAll ((r.tokens.map reqRaw).zip vals) with hev1
  have hpv : ev1.vars = putAll E.evaluator.vars ((r.tokens.map reqName).zip vals) :=
    Evaluator.enterAll_zip reqRaw _ _ _
  set s1 : ReqSt := { s0 with ev := ev1 } with hs1
  have hrun1 : ReqSt.onEv (pushRequest r.tokens (vals.map ReqVal.str)) s0 = (.ok (), s1) := by
    simp [ReqSt.onEv, hs0, hs1, hpush]
  have hkr : UMap.keys ((r.tokens.map reqName).zip vals) = r.tokens.map reqName :=
    keys_zip _ _ (by simpa using hvl.symm)
  obtain ⟨s2, hrun2, hheap2, hev2, hx2⟩ := mEnforce_run lib hC.defs he hC.roles hvl.symm hm hexp
    htext s1 rfl
    ⟨by
      intro x hx
      rw [show s1.ev.vars = _ from hpv] at hx
      rcases (mem_keys_putAll _ _ _).mp hx with h | h
      · rw [hkr] at h; simp [stdNames, h]
      · exact hC.eval.vars x h,
      hC.eval.names.enterAll _ fun kv hkv => mem_rawNames_req hkv,
      by rw [show s1.ev.funs = _ from Evaluator.enterAll_funs _ _]; exact hC.eval.funs,
      hC.eval.text.enterAll _⟩
    (by
      intro x v h
      rw [show s1.ev.vars = _ from hpv, get_putAll _ (by rw [hkr]; exact hC.defs.rNodup), h])
  refine ⟨s2.ev, ?_, hev2⟩
  simp only [hrun1, hrun2, hheap2]
  congr 1
  cases hd : decisionOf lib E.model E.heap exp e.value r p vals with
  | throw e => rfl
  | ub u => rfl
  | ok bx =>
    obtain ⟨b, x⟩ := bx
    simp only [Outcome.map_ok]
    rw [hx2 b x hd]

end Casbin
