import Verif.Props.Maps

/-!
# C114: entries of a map that are no fields of the request
-/

namespace Casbin

mutual
/-- The variables an expression mentions. -/
def Expr.mentioned : Expr → List Str
  | .str _ => []
  | .num _ => []
  | .var x => [x]
  | .call _ args => mentionedAll args
  | .op _ args => mentionedAll args
def Expr.mentionedAll : List Expr → List Str
  | [] => []
  | e :: es => e.mentioned ++ mentionedAll es
end

mutual
theorem knows_mentioned {N N' : Naming} (hf : N'.fn = N.fn) : ∀ e : Expr,
    (∀ x ∈ e.mentioned, N'.var (lower x) = N.var (lower x)) → (N'.Knows e ↔ N.Knows e)
  | .str s, _ => by simp [Naming.Knows]
  | .num n, _ => by simp [Naming.Knows]
  | .var x, h => by simp only [Naming.Knows, h x (by simp [Expr.mentioned])]
  | .call f args, h => by
    simp only [Naming.Knows, hf, knowsAll_mentioned hf args (by simpa only [Expr.mentioned] using h)]
  | .op o args, h => by
    simp only [Naming.Knows, knowsAll_mentioned hf args (by simpa only [Expr.mentioned] using h)]
theorem knowsAll_mentioned {N N' : Naming} (hf : N'.fn = N.fn) : ∀ es : List Expr,
    (∀ x ∈ Expr.mentionedAll es, N'.var (lower x) = N.var (lower x)) →
    (N'.KnowsAll es ↔ N.KnowsAll es)
  | [], _ => by simp [Naming.KnowsAll]
  | e :: es, h => by
    simp only [Expr.mentionedAll, List.mem_append] at h
    simp only [Naming.KnowsAll, knows_mentioned hf e fun x hx => h x (.inl hx),
      knowsAll_mentioned hf es fun x hx => h x (.inr hx)]
end

mutual
theorem denote_mentioned (lib : ExprLib) (heap : List RM) {N N' : Naming} (hf : N'.fn = N.fn) :
    ∀ e : Expr, (∀ x ∈ e.mentioned, N'.var (lower x) = N.var (lower x)) →
      denote lib heap N' e = denote lib heap N e
  | .str s, _ => by simp [denote]
  | .num n, _ => by simp [denote]
  | .var x, h => by simp only [denote, h x (by simp [Expr.mentioned])]
  | .call f args, h => by
    simp only [denote, hf, denoteAll_mentioned lib heap hf args (by simpa only [Expr.mentioned] using h)]
  | .op o args, h => by
    simp only [denote, denoteAll_mentioned lib heap hf args (by simpa only [Expr.mentioned] using h)]
theorem denoteAll_mentioned (lib : ExprLib) (heap : List RM) {N N' : Naming} (hf : N'.fn = N.fn) :
    ∀ es : List Expr, (∀ x ∈ Expr.mentionedAll es, N'.var (lower x) = N.var (lower x)) →
      denoteAll lib heap N' es = denoteAll lib heap N es
  | [], _ => by simp [denoteAll]
  | e :: es, h => by
    simp only [Expr.mentionedAll, List.mem_append] at h
    simp only [denoteAll, denote_mentioned lib heap hf e fun x hx => h x (.inl hx),
      denoteAll_mentioned lib heap hf es fun x hx => h x (.inr hx)]
end

namespace MapProps

open Exprtk Enforcer DecisionProps Fixtures EndToEnd MatcherProps ModelProps

/-- The two namings agree on what the text mentions. -/
def AgreeOn (lib : ExprLib) (text : Str) (N N' : Naming) : Prop :=
  N'.fn = N.fn ∧ ∀ t, lib.parse text = some t → ∀ x ∈ t.mentioned, N'.var (lower x) = N.var (lower x)

theorem AgreeOn.holds {lib : ExprLib} {text : Str} {N N' : Naming} (h : AgreeOn lib text N N')
    (heap : List RM) : holds lib heap N' text = Casbin.holds lib heap N text := by
  unfold Casbin.holds
  cases hp : lib.parse text with
  | none => rfl
  | some t =>
    have hk := knows_mentioned h.1 t (h.2 t hp)
    simp only [denote_mentioned lib heap h.1 t (h.2 t hp)]
    by_cases hN : N.Knows t
    · rw [if_pos hN, if_pos (hk.mpr hN)]
    · rw [if_neg hN, if_neg fun h => hN (hk.mp h)]

theorem AgreeOn.compiles {lib : ExprLib} {text : Str} {N N' : Naming} (h : AgreeOn lib text N N') :
    Compiles lib N' text ↔ Compiles lib N text := by
  unfold Compiles
  constructor
  · rintro ⟨t, ht, hk⟩; exact ⟨t, ht, (knows_mentioned h.1 t (h.2 t ht)).mp hk⟩
  · rintro ⟨t, ht, hk⟩; exact ⟨t, ht, (knows_mentioned h.1 t (h.2 t ht)).mpr hk⟩

variable [IterOrder] {lib : ExprLib} {E : Enforcer} {r p e : Assertion} {exp : Str} {vals : List Str}

/-- The request definition with the entries as further fields. -/
def widened (r : Assertion) (extra : List (Str × Str)) : Assertion :=
  { r with tokens := r.tokens ++ extra.map fun kv => c!"r_" ++ kv.1 }

/-- The model with that request definition. -/
def widenedModel (m : Model) (r : Assertion) (extra : List (Str × Str)) : Model :=
  m.put c!"r" c!"r" (widened r extra)

/-- What a request does depends on the model only by its functions, its matcher, its effect, the
columns of the policy definition, and the rules it looks at. -/
theorem mEnforce_select {m m' : Model} {p' r' : Assertion} (hg : m'.secMap c!"g" = m.secMap c!"g")
    (hr : m.find c!"r" c!"r" = some r) (hr' : m'.find c!"r" c!"r" = some r')
    (hp : m.find c!"p" c!"p" = some p) (hp' : m'.find c!"p" c!"p" = some p')
    (ht : p'.tokens = p.tokens) (hm : m'.find c!"m" c!"m" = m.find c!"m" c!"m")
    (he : m'.find c!"e" c!"e" = m.find c!"e" c!"e") {s : ReqSt}
    (hsel : ∀ fs, selectPolicies m' { s.ev with funs := fs } =
      selectPolicies m { s.ev with funs := fs }) (enabled : Bool) (matcher : Str) :
    mEnforce lib m' enabled matcher s = mEnforce lib m enabled matcher s := by
  have h1 : gFunctions m' = gFunctions m := by unfold gFunctions; rw [hg]
  unfold mEnforce
  cases enabled with
  | false => rfl
  | true =>
    simp only [M.bind_run, M.modify_run, Bool.not_true, Bool.false_eq_true, if_false, ReqSt.onEv,
      Evaluator.loadFunctions, addFunctions_run, h1]
    have hrest : ∀ (x : Str) (t : ReqSt), (∃ fs, t.ev = { s.ev with funs := fs }) →
        (do
          let _ ← needAssertion m' c!"r" c!"r"
          let p ← needAssertion m' c!"p" c!"p"
          let s ← M.get
          let rules ← M.lift (selectPolicies m' s.ev)
          let e ← needAssertion m' c!"e" c!"e"
          if rules ≠ [] then do
            let res ← runRules (ruleStep lib x p.tokens) e.value rules
            finish rules res
          else enforceEmpty lib x p.tokens e.value : M ReqSt Bool) t =
        (do
          let _ ← needAssertion m c!"r" c!"r"
          let p ← needAssertion m c!"p" c!"p"
          let s ← M.get
          let rules ← M.lift (selectPolicies m s.ev)
          let e ← needAssertion m c!"e" c!"e"
          if rules ≠ [] then do
            let res ← runRules (ruleStep lib x p.tokens) e.value rules
            finish rules res
          else enforceEmpty lib x p.tokens e.value : M ReqSt Bool) t := by
      rintro x t ⟨fs, hfs⟩
      have h2 := hsel fs
      rw [← hfs] at h2
      simp only [needAssertion, hr, hr', hp, hp', he, M.bind_run, M.pure_run, M.get_run, M.lift_run,
        h2, ht]
    by_cases hmt : matcher = []
    · simp only [hmt, if_true]
      simp only [needAssertion, hm, M.bind_run]
      cases m.find c!"m" c!"m" with
      | none => rfl
      | some a =>
        simp only [M.pure_run]
        exact hrest _ _ ⟨_, rfl⟩
    · simp only [hmt, if_false]
      exact hrest _ _ ⟨_, rfl⟩

/-- Entries of a map that are no fields of the request, in any case, and that the matcher does not
mention; their names are different names of the matcher language. -/
structure Foreign (lib : ExprLib) (r : Assertion) (exp : Str) (extra : List (Str × Str)) : Prop where
  valid : ∀ kv ∈ extra, Evaluator.validSymbol (c!"r." ++ kv.1) = true
  apart : (extra.map fun kv => lower kv.1).Nodup
  noField : ∀ kv ∈ extra, ∀ t ∈ r.tokens, lower kv.1 ≠ lower (t.drop 2)
  unused : ∀ t, lib.parse exp = some t → ∀ x ∈ t.mentioned, ∀ kv ∈ extra,
    lower x ≠ lower (c!"r." ++ kv.1)

section
variable {extra : List (Str × Str)}

omit [IterOrder] in
theorem reqNames_widened (r : Assertion) (extra : List (Str × Str)) :
    (widened r extra).tokens.map reqName =
      r.tokens.map reqName ++ extra.map fun kv => lower (c!"r." ++ kv.1) := by
  simp [widened, List.map_map, Function.comp_def, reqName, reqRaw]

omit [IterOrder] in
theorem wellDefined_widened (hW : WellDefined E.model r p) (hF : Foreign lib r exp extra) :
    WellDefined (widenedModel E.model r extra) (widened r extra) p := by
  have hg : ∀ k, (widenedModel E.model r extra).find c!"g" k = E.model.find c!"g" k := fun k =>
    Model.find_put_ne _ _ (by simp)
  refine ⟨Model.find_put_self .., (Model.find_put_ne _ _ (by simp)).trans hW.findP, ?_, ?_, hW.pValid,
    ?_, hW.pNodup, ?_, ?_⟩
  · intro t ht
    rcases List.mem_append.mp ht with h | h
    · exact hW.rLen t h
    · obtain ⟨kv, -, rfl⟩ := List.mem_map.mp h
      simp
  · intro t ht
    rcases List.mem_append.mp ht with h | h
    · exact hW.rValid t h
    · obtain ⟨kv, hkv, rfl⟩ := List.mem_map.mp h
      unfold reqName
      rw [validSymbol_lower]
      exact hF.valid kv hkv
  · rw [reqNames_widened, List.nodup_append]
    refine ⟨hW.rNodup, ?_, ?_⟩
    · have : (extra.map fun kv => lower (c!"r." ++ kv.1)) =
          (extra.map fun kv => lower kv.1).map (lower c!"r." ++ ·) := by
        simp only [List.map_map, Function.comp_def, lower_append]
      rw [this]
      exact hF.apart.map fun a b h => List.append_cancel_left h
    · intro a ha b hb hab
      obtain ⟨t, ht, rfl⟩ := List.mem_map.mp ha
      obtain ⟨kv, hkv, rfl⟩ := List.mem_map.mp hb
      refine hF.noField kv hkv t ht ?_
      simp only [reqName, reqRaw, lower_append] at hab
      exact (List.append_cancel_left hab).symm
  · unfold widenedModel
    rw [secMap_put_ne _ _ (by decide)]
    exact hW.gNodup
  · intro k a hk
    rw [hg] at hk
    exact hW.gLower k a hk

omit [IterOrder] in
/-- A naming of the widened definition, cut to the names of the model. -/
theorem agree_cut (hF : Foreign lib r exp extra) {m m' : Model} (hm : functions m' = functions m)
    {N' : Naming} (hN : FullNaming m' (widened r extra) p N') :
    ∃ N, FullNaming m r p N ∧ AgreeOn lib exp N N' := by
  refine ⟨⟨fun x => if x ∈ stdNames r p then N'.var x else none, N'.fn⟩, ⟨hN.1.trans hm, ?_⟩, rfl, ?_⟩
  · intro x
    by_cases hx : x ∈ stdNames r p
    · simp only [hx, if_true, iff_true]
      refine (hN.2 x).mpr ?_
      simp only [stdNames, List.mem_append, reqNames_widened] at hx ⊢
      rcases hx with h | h
      · exact .inl (.inl h)
      · exact .inr h
    · simp [hx]
  · intro t ht x hx
    simp only
    split
    · rfl
    · rename_i hn
      cases hv : N'.var (lower x) with
      | none => rfl
      | some v =>
        exfalso
        have := (hN.2 _).mp ⟨v, hv⟩
        simp only [stdNames, List.mem_append, reqNames_widened, not_or] at this hn
        rcases this with (h | h) | h
        · exact hn.1 h
        · obtain ⟨kv, hkv, he⟩ := List.mem_map.mp h
          exact hF.unused t ht x hx kv hkv he.symm
        · exact hn.2 h

omit [IterOrder] in
theorem evOK_widened (hev : EvOK lib E.model r p E.evaluator) (hF : Foreign lib r exp extra)
    (htext : E.evaluator.exprStr = [] ∨ E.evaluator.exprStr = exp) :
    EvOK lib (widenedModel E.model r extra) (widened r extra) p E.evaluator := by
  have hf : functions (widenedModel E.model r extra) = functions E.model :=
    functions_congr fun k => Model.find_put_ne _ _ (by simp)
  refine ⟨?_, ⟨?_, hev.names.entered⟩, by rw [hf]; exact hev.funs, ?_, ?_⟩
  · intro x hx
    have := hev.vars x hx
    simp only [stdNames, List.mem_append, reqNames_widened] at this ⊢
    rcases this with h | h
    · exact .inl (.inl h)
    · exact .inr h
  · intro x hx
    have := hev.names.known x hx
    simp only [rawNames, List.mem_append, widened, List.map_append] at this ⊢
    rcases this with h | h
    · exact .inl (.inl h)
    · exact .inr h
  · intro h1 h2 t ht N' hN' hk
    have h3 := htext.resolve_left h1
    obtain ⟨N, hN, ha⟩ := agree_cut hF hf hN'
    exact hev.text.bad h1 h2 t ht N hN ((knows_mentioned ha.1 t (ha.2 t (h3 ▸ ht))).mp hk)
  · intro h1 h2
    have h3 := htext.resolve_left h1
    obtain ⟨t, ht, hc, hk⟩ := hev.text.good h1 h2
    refine ⟨t, ht, hc, fun N' hN' => ?_⟩
    obtain ⟨N, hN, ha⟩ := agree_cut hF hf hN'
    exact (knows_mentioned ha.1 t (ha.2 t (h3 ▸ ht))).mpr (hk N hN)

omit [IterOrder] in
theorem names_widened (hq : Names r q vals) (hl : vals.length = r.tokens.length)
    (hF : Foreign lib r exp extra) :
    Names (widened r extra) (q ++ extra) (vals ++ extra.map Prod.snd) := by
  have hdis : ∀ kv ∈ extra, kv.1 ∉ UMap.keys q := by
    intro kv hkv h
    obtain ⟨t, ht, he⟩ := hq.only _ h
    exact hF.noField kv hkv t ht (by rw [he])
  have hnd : (UMap.keys extra).Nodup := by
    have := hF.apart
    have e : (extra.map fun kv => lower kv.1) = (UMap.keys extra).map lower := by
      simp [UMap.keys, List.map_map, Function.comp_def]
    rw [e] at this
    exact this.of_map _
  refine ⟨?_, ?_, ?_⟩
  · have : UMap.keys (q ++ extra) = UMap.keys q ++ UMap.keys extra := by simp [UMap.keys]
    rw [this, List.nodup_append]
    refine ⟨hq.once, hnd, ?_⟩
    rintro a ha b hb rfl
    obtain ⟨kv, hkv, rfl⟩ := List.mem_map.mp hb
    exact hdis kv hkv ha
  · intro k hk
    have : k ∈ UMap.keys q ∨ k ∈ UMap.keys extra := by
      simpa only [UMap.keys, List.map_append, List.mem_append] using hk
    rcases this with h | h
    · obtain ⟨t, ht, he⟩ := hq.only k h
      exact ⟨t, List.mem_append_left _ ht, he⟩
    · obtain ⟨kv, hkv, rfl⟩ := List.mem_map.mp h
      exact ⟨c!"r_" ++ kv.1, List.mem_append_right _ (List.mem_map_of_mem hkv), by simp⟩
  · intro i t v ht hv
    simp only [widened] at ht
    rw [UMap.get_append]
    by_cases hi : i < r.tokens.length
    · rw [List.getElem?_append_left hi] at ht
      rw [List.getElem?_append_left (by omega)] at hv
      rw [hq.all i t v ht hv]
    · rw [List.getElem?_append_right (by omega), List.getElem?_map, Option.map_eq_some_iff] at ht
      rw [List.getElem?_append_right (by omega), List.getElem?_map, Option.map_eq_some_iff, hl] at hv
      obtain ⟨kv, hkv, rfl⟩ := ht
      obtain ⟨kv', hkv', rfl⟩ := hv
      rw [hkv] at hkv'
      obtain rfl := Option.some.inj hkv'
      have hmem : kv ∈ extra := List.mem_of_getElem? hkv
      have hnone : UMap.get q kv.1 = none := (UMap.get_eq_none_iff _ _).mpr (hdis kv hmem)
      have hd : (c!"r_" ++ kv.1).drop 2 = kv.1 := rfl
      rw [hd, hnone]
      exact UMap.get_of_mem hnd hmem

/-- C114: entries of a map that are no fields of the request in any case, and that the matcher does
not mention, change neither the answer nor the explanation. Missing: entries whose names are fields
in another case (`C114_case_fails`), names that are no identifiers (`C112_name_fails`), matchers with
`eval`, and evaluators that have compiled another matcher. -/
theorem C114_extra_partial {matcher : Str} (hR : Request lib E r p e matcher exp vals)
    (hev : hasEval exp = false)
    (htext : E.evaluator.exprStr = [] ∨ E.evaluator.exprStr = exp) {q : List (Str × Str)}
    (hq : Names r q vals) (hF : Foreign lib r exp extra) (X : Rule) :
    (E.enforceExMap lib matcher (strMap (q ++ extra)) X).1 =
      (E.enforceExMap lib matcher (strMap q) X).1 := by
  have hW := hR.state.defs
  have hq' := names_widened hq hR.arity hF
  set P : Policies := .vector (candidates p vals) with hP
  set m' : Model := setRules (widenedModel E.model r extra) p P with hm'
  set E' : Enforcer := { E with model := m' } with hE'
  have hfind : ∀ s t, s ≠ c!"p" → s ≠ c!"r" → m'.find s t = E.model.find s t := fun s t h1 h2 =>
    (find_setRules_ne _ _ _ h1).trans (Model.find_put_ne _ _ fun h => h2 h.1.symm)
  have hf : functions m' = functions E.model := functions_congr fun k =>
    hfind _ _ (by decide) (by decide)
  have hW1 := wellDefined_widened hW hF
  have hW' : WellDefined m' (widened r extra) { p with policy := P } := hW1.setRules P
  have hev1 := evOK_widened hR.state.eval hF htext
  have hev' : EvOK lib m' (widened r extra) { p with policy := P } E.evaluator :=
    EvOK.congr (m := widenedModel E.model r extra) (p := p) (functions_congr fun k =>
      find_setRules_ne _ _ _ (by decide)) rfl hev1
  have hR' : Request lib E' (widened r extra) { p with policy := P } e matcher exp
      (vals ++ extra.map Prod.snd) := by
    refine ⟨⟨hW', ?_, hev'⟩, hR.enabled, (hfind _ _ (by decide) (by decide)).trans hR.effect, ?_,
      hR.nonempty, ?_⟩
    · refine ⟨hR.state.roles.wf, hR.state.roles.plain, ?_⟩
      intro k a i hk hi
      refine hR.state.roles.ptr k a i ?_ hi
      rwa [show E'.model.find c!"g" k = E.model.find c!"g" k from
        hfind _ _ (by decide) (by decide)] at hk
    · have := hR.matcher
      unfold matcherOf at this ⊢
      rw [show E'.model.find c!"m" c!"m" = E.model.find c!"m" c!"m" from
        hfind _ _ (by decide) (by decide)]
      exact this
    · simp [widened, hR.arity]
  have hgiven : Given E.evaluator (widened r extra) (q ++ extra) (vals ++ extra.map Prod.snd) :=
    ⟨hR'.arity, fun i t v ht hv => .inl (hq'.all i t v ht hv)⟩
  obtain ⟨ev1, hpush, hevOK1, hvars1⟩ := pushMap_state hW' hev' hq'.once hq'.only hgiven
  have hsel : ∀ fs, selectPolicies m' { ev1 with funs := fs } =
      selectPolicies E.model { ev1 with funs := fs } := by
    intro fs
    have h1 : selectPolicies m' { ev1 with funs := fs } = .ok (candidates p vals) := by
      unfold selectPolicies
      rw [hW'.findP]
      rfl
    rw [h1]
    unfold selectPolicies candidates
    simp only [hW.findP]
    by_cases hh : p.policy.hash = true
    · simp only [hh, if_true, hW.findR]
      obtain ⟨out, ho, hout⟩ := requestValues_run (ev := { ev1 with funs := fs }) hR'.arity.symm
        hW'.rNodup hvars1 (hevOK1.names.congr rfl rfl)
      rw [ho]
      simp only [Outcome.ok_bind]
      rw [requestedPolicy_run (vals := vals.map Evaluator.cString) (by simp [hR.arity]) hW.rLen]
      · simp [Policies.contains]
      · intro i h h'
        have h' : i < vals.length := by simpa using h'
        rw [hout _ (List.mem_append_left _ (List.getElem_mem h))]
        have := hvars1 (reqName r.tokens[i]) vals[i] (by
          rw [reqNames_widened, List.zip_append (by simp [hR.arity]), UMap.get_append]
          have := get_zip_getElem (vals := vals) hW.rNodup i (by simpa using h) h' (by simp [hR.arity])
          simp only [List.getElem_map] at this
          rw [this])
        simp only [this, List.getElem_map, Option.map_some]
    · simp [hh]
  have hsame : (E.enforceExMap lib matcher (strMap (q ++ extra)) X).1 =
      (E'.enforceExMap lib matcher (strMap (q ++ extra)) X).1 := by
    unfold Enforcer.enforceExMap
    simp only [M.bind_run, M.get_run, Enforcer.runRequest, ReqSt.onEv,
      show E'.evaluator = E.evaluator from rfl, hpush]
    simp only [show E'.heap = E.heap from rfl, show E'.enabled = E.enabled from rfl,
      show E'.model = m' from rfl]
    rw [mEnforce_select (m := E.model) (m' := m') (s := { ev := ev1, heap := E.heap, explain := X })
      (by rw [hm', Casbin.setRules, secMap_put_ne _ _ (by decide), widenedModel,
        secMap_put_ne _ _ (by decide)]) hW.findR hW'.findR hW.findP hW'.findP rfl
      (hfind _ _ (by decide) (by decide)) (hfind _ _ (by decide) (by decide)) hsel]
  have hne : ∀ rule : Rule, ruleText exp p.tokens rule ≠ .ok [] := by
    intro rule
    simp [ruleText, hev, hR.nonempty]
  obtain ⟨_, h1, -⟩ := enforceExMap_run hR' (fun rule _ _ => hne rule) hq'.once hq'.only hgiven X
  obtain ⟨_, h2, -⟩ := enforceExMap_run hR (fun rule _ _ => hne rule) hq.once hq.only
    ⟨hR.arity, fun i t v ht hv => .inl (hq.all i t v ht hv)⟩ X
  rw [hsame, h1, h2]
  have hN : ∀ rule : Rule, AgreeOn lib exp (naming E.model r.tokens p.tokens vals rule)
      (naming E'.model (widened r extra).tokens p.tokens (vals ++ extra.map Prod.snd) rule) := by
    intro rule
    refine ⟨hf, fun t ht x hx => ?_⟩
    simp only [naming, bindings, reqNames_widened]
    rw [List.zip_append (by simp [hR.arity]), UMap.get_append, UMap.get_append, UMap.get_append]
    have : UMap.get ((extra.map fun kv => lower (c!"r." ++ kv.1)).zip (extra.map Prod.snd)) (lower x) =
        none := by
      rw [UMap.get_eq_none_iff]
      intro h
      obtain ⟨kv, hkv, hk⟩ := List.mem_map.mp h
      have h3 := (List.of_mem_zip hkv).1
      obtain ⟨kv', h4, h5⟩ := List.mem_map.mp h3
      exact hF.unused t ht x hx kv' h4 (by rw [h5, hk])
    rw [this]
    cases UMap.get ((r.tokens.map reqName).zip vals) (lower x) <;> rfl
  have hc : candidates { p with policy := P } (vals ++ extra.map Prod.snd) = candidates p vals := rfl
  have hj : judge lib E'.model E'.heap exp (widened r extra) { p with policy := P }
      (vals ++ extra.map Prod.snd) = judge lib E.model E.heap exp r p vals := by
    funext rule
    rw [show E'.heap = E.heap from rfl]
    unfold judge
    simp only [verdict, ruleText, hev, Bool.false_eq_true, if_false, Outcome.ok_bind,
      (hN rule).holds E.heap]
  unfold decisionOf
  rw [hc, hj]
  split
  · rfl
  · unfold emptyDecision
    rw [show E'.heap = E.heap from rfl]
    have hcmp := (hN (p.tokens.map fun _ => [])).compiles
    simp only [(hN _).holds E.heap]
    by_cases hk : Compiles lib (naming E.model r.tokens p.tokens vals (p.tokens.map fun _ => [])) exp
    · rw [if_pos hk, if_pos (hcmp.mpr hk)]
    · rw [if_neg hk, if_neg fun h => hk (hcmp.mp h)]

end

/-- A map with an entry that is no field. -/
def addressed : List (Str × Str) := aliceMap ++ [(c!"ip", c!"10.0.0.1"), (c!"time", c!"noon")]

/-- Non-vacuity of C114: further entries. -/
example (P : Policies) (X : Rule) :
    ((enforcer (aclModel P)).enforceExMap miniLib [] (strMap addressed) X).1 =
      ((enforcer (aclModel P)).enforceExMap miniLib [] (strMap aliceMap) X).1 :=
  C114_extra_partial (request_acl P alice rfl) (by decide) (.inl rfl) names_alice
    ⟨by decide, by decide, by decide, by
      intro t ht
      have : miniLib.parse mAcl = some aclTree := rfl
      rw [this] at ht
      obtain rfl := Option.some.inj ht
      decide⟩ X

omit [IterOrder] in
/-- C114 is false: an entry whose name is a field in another case overwrites it when it is entered
later. `mallory` is granted what `alice` may do. -/
theorem C114_case_fails : ¬ ∀ (_ : IterOrder) (lib : ExprLib) (P : List Rule) (q : List (Str × Str))
    (k v : Str), Faithful lib → k ∉ [c!"sub", c!"obj", c!"act"] → k ∉ UMap.keys q →
    ((acl P).enforceMap lib (strMap (q ++ [(k, v)]))).1 = ((acl P).enforceMap lib (strMap q)).1 := by
  intro h
  have := @h insertionOrder (stdLib noRx) [alice]
    [(c!"sub", c!"mallory"), (c!"obj", c!"data1"), (c!"act", c!"read")] c!"SUB" c!"alice"
    (stdLib_faithful _) (by decide) (by decide)
  revert this
  decide +kernel

end MapProps
end Casbin
