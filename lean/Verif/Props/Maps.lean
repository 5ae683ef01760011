import Verif.MapLemmas
import Verif.Props.Examples

/-!
# C111–C113: requests given as a map, and attributes of request objects
-/

namespace Casbin
namespace MapProps

open Exprtk Enforcer DecisionProps Fixtures EndToEnd MatcherProps ModelProps

variable [IterOrder] {lib : ExprLib} {E : Enforcer} {r p e : Assertion} {matcher exp : Str}
  {vals : List Str}

/-! ## C111 -/

/-- The map gives the values `vals` to the fields of the request definition and has no other entry. -/
structure Names (r : Assertion) (q : List (Str × Str)) (vals : List Str) : Prop where
  once : (UMap.keys q).Nodup
  only : ∀ k ∈ UMap.keys q, ∃ t ∈ r.tokens, k = t.drop 2
  all : ∀ (i : Nat) (t v : Str), r.tokens[i]? = some t → vals[i]? = some v →
    UMap.get q (t.drop 2) = some v

/-- C111: a request given as a map from field names to values is answered, and explained, as the
request with the values in the order of the request definition. -/
theorem C111_map (hR : Request lib E r p e matcher exp vals)
    (htext : ∀ rule ∈ candidates p vals, rule.length = p.tokens.length →
      ruleText exp p.tokens rule ≠ .ok [])
    {q : List (Str × Str)} (hq : Names r q vals) (X : Rule) :
    (E.enforceExMap lib matcher (strMap q) X).1 =
      (E.enforceEx lib matcher (vals.map ReqVal.str) X).1 := by
  obtain ⟨_, h1, -⟩ := enforceExMap_run hR htext hq.once hq.only
    ⟨hR.arity, fun i t v ht hv => .inl (hq.all i t v ht hv)⟩ X
  obtain ⟨_, h2, -⟩ := enforceEx_decision hR htext X
  rw [h1, h2]

/-- C111 for `Enforce`, when the matcher does not use `eval`. -/
theorem C111_enforce (h : Setup lib E r p e exp) (hl : vals.length = r.tokens.length)
    {q : List (Str × Str)} (hq : Names r q vals) :
    (E.enforceMap lib (strMap q)).1 = (E.enforce lib (vals.map ReqVal.str)).1 := by
  have := C111_map (h.request hl) (by simp [ruleText, h.noEval, h.nonempty]) hq []
  unfold Enforcer.enforceMap Enforcer.enforce Enforcer.enforceWithMatcher
  simp only [M.bind_run]
  rcases h1 : E.enforceExMap lib [] (strMap q) [] with ⟨o1, E1⟩
  rcases h2 : E.enforceEx lib [] (vals.map ReqVal.str) [] with ⟨o2, E2⟩
  rw [h1, h2] at this
  simp only at this
  subst this
  cases o1 <;> rfl

/-- The request of `alice` as a map, in an order of its own. -/
def aliceMap : List (Str × Str) := [(c!"act", c!"read"), (c!"sub", c!"alice"), (c!"obj", c!"data1")]

omit [IterOrder] in
theorem names_alice : Names rA aliceMap alice where
  once := by decide
  only := by decide
  all i t v ht hv := by
    match i with
    | 0 => simp [rA, asrt, alice] at ht hv; subst ht hv; rfl
    | 1 => simp [rA, asrt, alice] at ht hv; subst ht hv; rfl
    | 2 => simp [rA, asrt, alice] at ht hv; subst ht hv; rfl
    | n + 3 => simp [rA, asrt] at ht

/-- Non-vacuity of C111. -/
example (P : Policies) : ((enforcer (aclModel P)).enforceMap miniLib (strMap aliceMap)).1 =
    ((enforcer (aclModel P)).enforce miniLib (alice.map ReqVal.str)).1 :=
  C111_enforce (vals := alice) (setup_acl miniLib P) rfl names_alice

example : (letI := insertionOrder; ((acl [bob, alice]).enforceMap miniLib (strMap aliceMap)).1) =
    .ok true := by decide +kernel

/-! ## C112 -/

/-- After a request with values for all fields, the symbol table has these values. -/
theorem enforceEx_vars (hC : Consistent lib E r p) (hl : vals.length = r.tokens.length) (X : Rule)
    {i : Nat} {t v : Str} (ht : r.tokens[i]? = some t) (hv : vals[i]? = some v) :
    (E.enforceEx lib matcher (vals.map ReqVal.str) X).2.evaluator.vars.get (reqName t) = some v := by
  have hpush := pushRequest_run hC.defs.rLen hC.defs.rValid vals E.evaluator hl.symm
  unfold Enforcer.enforceEx
  simp only [M.bind_run, M.get_run, hC.defs.findR, List.length_map, hl, ne_eq, not_true_eq_false,
    if_false, Enforcer.runRequest]
  set s0 : ReqSt := { ev := E.evaluator, heap := E.heap, explain := X } with hs0
  set s1 : ReqSt := { s0 with ev := E.evaluator.enterAll ((r.tokens.map reqRaw).zip vals) } with hs1
  have hon : ReqSt.onEv (pushRequest r.tokens (vals.map ReqVal.str)) s0 = (.ok (), s1) := by
    simp [ReqSt.onEv, hs0, hs1, hpush]
  simp only [hon]
  show (mEnforce lib E.model E.enabled matcher _).2.ev.vars.get
    ('r' :: ('.' :: lower (t.drop 2))) = some v
  rw [keeps_mEnforce]
  show (E.evaluator.enterAll ((r.tokens.map reqRaw).zip vals)).vars.get (reqName t) = some v
  rw [Evaluator.enterAll_zip]
  show (putAll _ ((r.tokens.map reqName).zip vals)).get (reqName t) = some v
  have hkr : UMap.keys ((r.tokens.map reqName).zip vals) = r.tokens.map reqName :=
    keys_zip _ _ (by simpa using hl.symm)
  rw [get_putAll _ (by rw [hkr]; exact hC.defs.rNodup)]
  obtain ⟨h1, rfl⟩ := List.getElem?_eq_some_iff.mp ht
  obtain ⟨h2, rfl⟩ := List.getElem?_eq_some_iff.mp hv
  have := get_zip_getElem (vals := vals) hC.defs.rNodup i (by simpa using h1) h2 (by simpa using hl.symm)
  simp only [List.getElem_map] at this
  rw [this]

/-- The values of a map, those it lacks being filled in from `old`. -/
def filled (r : Assertion) (q : List (Str × Str)) (old : List Str) : List Str :=
  List.zipWith (fun t o => match UMap.get q (t.drop 2) with
    | some v => v
    | none => o) r.tokens old

/-- C112 is false: after a request with the values `old`, a map that lacks fields is answered as if it
had the values of `old` there. -/
theorem C112_fills {old : List Str} (hR : Request lib E r p e matcher exp old)
    (htext : ∀ rule, ruleText exp p.tokens rule ≠ .ok [])
    {q : List (Str × Str)} (hn : (UMap.keys q).Nodup)
    (hk : ∀ k ∈ UMap.keys q, ∃ t ∈ r.tokens, k = t.drop 2) (X Y : Rule) :
    ((E.enforceEx lib matcher (old.map ReqVal.str) X).2.enforceExMap lib matcher (strMap q) Y).1 =
      (E.enforceEx lib matcher ((filled r q old).map ReqVal.str) Y).1 := by
  have hfl : (filled r q old).length = r.tokens.length := by
    simp [filled, hR.arity]
  have hvars := fun i t v ht hv =>
    enforceEx_vars (lib := lib) (matcher := matcher) hR.state hR.arity X (i := i) (t := t) (v := v) ht hv
  obtain ⟨ev', h1, hC1⟩ := enforceEx_decision hR (fun rule _ _ => htext rule) X
  rw [h1] at hvars ⊢
  have hR1 : Request lib { E with eval := some ev' } r p e matcher exp (filled r q old) :=
    ⟨hC1, hR.enabled, hR.effect, hR.matcher, hR.nonempty, hfl⟩
  have hR0 : Request lib E r p e matcher exp (filled r q old) :=
    ⟨hR.state, hR.enabled, hR.effect, hR.matcher, hR.nonempty, hfl⟩
  obtain ⟨_, h2, -⟩ := enforceExMap_run hR1 (fun rule _ _ => htext rule) hn hk (by
    refine ⟨hfl, fun i t v ht hv => ?_⟩
    simp only [filled, List.getElem?_zipWith, ht] at hv
    cases ho : old[i]? with
    | none => rw [ho] at hv; simp at hv
    | some o =>
      simp only [ho, Option.some.injEq] at hv
      cases hq : UMap.get q (t.drop 2) with
      | some w => rw [hq] at hv; exact .inl (by rw [← hv])
      | none =>
        rw [hq] at hv
        exact .inr ⟨rfl, hv ▸ hvars i t o ht ho⟩) Y
  obtain ⟨_, h3, -⟩ := enforceEx_decision hR0 (fun rule _ _ => htext rule) Y
  rw [h2, h3]

omit [IterOrder] in
/-- C112 is false: after the granted request of `alice` the empty map is granted. -/
theorem C112_fails : ¬ ∀ (_ : IterOrder) (lib : ExprLib) (P : List Rule) (acts : List Act)
    (q : List (Str × Str)), Faithful lib → UMap.get q c!"sub" = none →
    ((runActs lib acts (acl P)).enforceMap lib (strMap q)).1 ≠ .ok true := by
  intro h
  exact @h insertionOrder (stdLib noRx) [alice] [.ask alice] [] (stdLib_faithful _) rfl
    (by decide +kernel)

omit [IterOrder] in
theorem pushMap_invalid (q : List (Str × Str)) {kv : Str × Str} (hkv : kv ∈ q)
    (hbad : Evaluator.validSymbol (c!"r." ++ kv.1) = false) (ev : Evaluator)
    (hev : ∀ x ∈ ev.vars.keys, Evaluator.validSymbol x = true) :
    (pushMap (strMap q) ev).1 = .ub .nullDeref := by
  induction q generalizing ev with
  | nil => simp at hkv
  | cons e q ih =>
    simp only [strMap, List.map_cons, pushMap, M.bind_run, Evaluator.pushString]
    rcases addIdentifier_cases (c!"r" ++ c!"." ++ e.1) e.2 ev with h1 | ⟨h1, -⟩ <;> rw [h1]
    have hvalid : Evaluator.validSymbol (c!"r" ++ c!"." ++ e.1) = true := by
      by_contra hv
      have hh : ev.vars.has (lower (c!"r" ++ c!"." ++ e.1)) = false := by
        by_contra hh
        refine hv ?_
        rw [← validSymbol_lower]
        exact hev _ ((UMap.has_iff _ _).mp (by simpa using hh))
      rw [Evaluator.addIdentifier, if_neg (by rw [hh]; simp), if_neg hv] at h1
      simp at h1
    rcases List.mem_cons.mp hkv with rfl | hkv
    · exact absurd hvalid (by simpa using hbad)
    · refine ih hkv _ ?_
      intro x hx
      rcases (UMap.mem_keys_set _ _ _ _).mp hx with rfl | hx
      · rw [validSymbol_lower]; exact hvalid
      · exact hev x hx

/-- C112 is false: an entry whose name is no name of the matcher language is a null dereference, on
every consistent enforcer. -/
theorem C112_name_fails (hC : Consistent lib E r p) {q : List (Str × Str)} {kv : Str × Str}
    (hkv : kv ∈ q) (hbad : Evaluator.validSymbol (c!"r." ++ kv.1) = false) (X : Rule) :
    (E.enforceExMap lib matcher (strMap q) X).1 = .ub .nullDeref := by
  obtain ⟨q', hq', hperm⟩ := strMap_perm_of (IterOrder.iter_perm (strMap q))
  have := pushMap_invalid q' (hperm.mem_iff.mpr hkv) hbad E.evaluator (by
    intro x hx
    have := hC.eval.vars x hx
    simp only [stdNames, List.mem_append, List.mem_map] at this
    rcases this with ⟨t, ht, rfl⟩ | ⟨t, ht, rfl⟩
    · exact hC.defs.rValid t ht
    · exact hC.defs.pValid t ht)
  unfold Enforcer.enforceExMap
  simp only [M.bind_run, M.get_run, Enforcer.runRequest, ReqSt.onEv, hq']
  rcases hp : pushMap (strMap q') E.evaluator with ⟨o, ev'⟩
  rw [hp] at this
  simp only at this
  subst this
  rfl

omit [IterOrder] in
theorem pushMap_lacks {x exp : Str} (q : List (Str × ReqVal)) 
    (hx : ∀ kv ∈ q, lower x ≠ lower (c!"r." ++ kv.1))
    {ev ev' : Evaluator} (h : Lacks x exp ev) (hr : pushMap q ev = (.ok (), ev')) :
    Lacks x exp ev' := by
  induction q generalizing ev with
  | nil =>
    simp only [pushMap, M.pure_run, Prod.mk.injEq, true_and] at hr
    exact hr ▸ h
  | cons kv q ih =>
    obtain ⟨k, v⟩ := kv
    cases v with
    | json =>
      exact ih (fun kv hkv => hx kv (by simp [hkv])) h (by simpa [pushMap, M.bind_run] using hr)
    | str s =>
      simp only [pushMap, M.bind_run, Evaluator.pushString] at hr
      rcases addIdentifier_cases (c!"r" ++ c!"." ++ k) s ev with h1 | ⟨h1, -⟩ <;> rw [h1] at hr
      · exact ih (fun kv hkv => hx kv (by simp [hkv])) (h.enter (hx (k, .str s) (by simp))) hr
      · simp at hr

omit [IterOrder] in
/-- A granted request was granted by its run. -/
theorem granted_run {f : M ReqSt Bool} {X : Rule} {bx : Bool × Rule}
    (h : (Enforcer.runRequest X f E).1 = .ok bx) (hb : bx.1 = true) :
    (f { ev := E.evaluator, heap := E.heap, explain := X }).1 = .ok true := by
  unfold Enforcer.runRequest at h
  simp only at h
  cases hf : (f { ev := E.evaluator, heap := E.heap, explain := X }).1 with
  | throw e => rw [hf] at h; cases h
  | ub u => rw [hf] at h; cases h
  | ok b =>
    rw [hf] at h
    simp only [Outcome.map_ok, Outcome.ok.injEq] at h
    rw [← hb, ← h]

/-- C112: on an enforcer that has not answered a request yet, a map that lacks a field of the request
that the matcher mentions is not granted, whatever else it has. Missing: after another request
(`C112_fills`, `C112_fails`), and names that are none (`C112_name_fails`). -/
theorem C112_first_partial (hL : Faithful lib) (h : Setup lib E r p e exp) (hnew : E.eval = none)
    {c : Cond} (hc : c.WrittenAs exp) {f : Str} (hf : c!"r." ++ f ∈ c.fields)
    {q : UMap Str ReqVal} (hq : ∀ k ∈ UMap.keys q, lower k ≠ lower f) :
    (E.enforceMap lib q).1 ≠ .ok true := by
  intro hg
  unfold Enforcer.enforceMap at hg
  obtain ⟨bx, E1, h1, hb⟩ := M.bind_ok_inv hg
  simp only [M.pure_run, Outcome.ok.injEq] at hb
  have h2 := granted_run (f := (ReqSt.onEv (pushMap (IterOrder.iter q)) >>= fun _ =>
    mEnforce lib E.model E.enabled [])) (congrArg Prod.fst h1) hb
  obtain ⟨_, s1, h3, h4⟩ := M.bind_ok_inv h2
  simp only [ReqSt.onEv, Prod.mk.injEq] at h3
  rw [h.enabled] at h4
  refine mEnforce_lacks hL hc hf h.matcher h.noEval h.ready.state.defs.findR h.ready.state.defs.findP
    h.effect (by intro t _ he; simp [polName, polRaw, lower] at he) ?_ h4
  rw [← h3.2]
  refine pushMap_lacks _ ?_ ?_ (Prod.ext h3.1 rfl)
  · intro kv hkv he
    rw [lower_append, lower_append] at he
    exact hq kv.1 (List.mem_map_of_mem ((IterOrder.iter_perm q).subset hkv))
      (List.append_cancel_left he).symm
  · refine ⟨?_, ?_⟩
    · simp [Enforcer.evaluator, hnew, Evaluator.new]
    · intro h0
      simp [Enforcer.evaluator, hnew, Evaluator.new] at h0
      exact absurd h0 h.nonempty

/-- Non-vacuity of C112: the map lacks the subject. -/
example (P : Policies) : ((enforcer (aclModel P)).enforceMap (stdLib noRx)
    [(c!"obj", .str c!"data1"), (c!"act", .json)]).1 ≠ .ok true :=
  C112_first_partial (stdLib_faithful _) (setup_acl _ P) rfl written_acl (f := c!"sub") (by decide)
    (by decide)

example : (letI := insertionOrder
    ((acl [alice]).enforceMap (stdLib noRx) [(c!"obj", .str c!"data1"), (c!"act", .json)]).1) =
      .throw .parse := by decide +kernel

/-! ## C113 -/

omit [IterOrder] in
theorem pushRequest_lacks {x exp : Str} {ts : List Str} {vs : List ReqVal}
    (hx : ∀ t ∈ ts, lower x ≠ reqName t) {ev ev' : Evaluator} (h : Lacks x exp ev)
    (hr : pushRequest ts vs ev = (.ok (), ev')) : Lacks x exp ev' := by
  induction ts generalizing vs ev with
  | nil =>
    simp only [pushRequest, M.pure_run, Prod.mk.injEq, true_and] at hr
    exact hr ▸ h
  | cons t ts ih =>
    cases vs with
    | nil =>
      simp only [pushRequest, M.pure_run, Prod.mk.injEq, true_and] at hr
      exact hr ▸ h
    | cons v vs =>
      have hx' : ∀ t ∈ ts, lower x ≠ reqName t := fun t ht => hx t (by simp [ht])
      unfold pushRequest at hr
      split at hr
      · simp at hr
      · cases v with
        | json => exact ih hx' h (by simpa [M.bind_run] using hr)
        | str s =>
          simp only [M.bind_run, Evaluator.pushString] at hr
          rcases addIdentifier_cases (c!"r" ++ c!"." ++ t.drop 2) s ev with h1 | ⟨h1, -⟩ <;>
            rw [h1] at hr
          · exact ih hx' (h.enter (hx t (by simp))) hr
          · simp at hr

/-- A matcher that mentions a field which is neither a field of the request nor of the policy
definition grants nothing, whatever the values of the request are. -/
theorem unknown_denied (hL : Faithful lib) (h : Setup lib E r p e exp) {c : Cond}
    (hc : c.WrittenAs exp) {x : Str} (hx : x ∈ c.fields) (hn : lower x ∉ stdNames r p)
    (vals : List ReqVal) : (E.enforce lib vals).1 ≠ .ok true := by
  intro hg
  have hW := h.ready.state.defs
  have hxr : ∀ t ∈ r.tokens, lower x ≠ reqName t := by
    intro t ht h
    exact hn (by rw [h]; simp only [stdNames, List.mem_append]; exact .inl (List.mem_map_of_mem ht))
  have hxp : ∀ t ∈ p.tokens, lower x ≠ polName t := by
    intro t ht h
    exact hn (by rw [h]; simp only [stdNames, List.mem_append]; exact .inr (List.mem_map_of_mem ht))
  have hlacks : Lacks x exp E.evaluator := by
    have hev := h.ready.state.eval
    refine ⟨?_, fun ht => ?_⟩
    · cases hgx : E.evaluator.vars.get (lower x) with
      | none => rfl
      | some v => exact absurd (hev.vars _ (UMap.mem_keys_of_get hgx)) hn
    · by_contra herr
      obtain ⟨tr, htr, -, hk⟩ := hev.text.good (by rw [ht]; exact h.nonempty) (by simpa using herr)
      rw [ht, hL.reads _ _ hc.read] at htr
      obtain rfl := Option.some.inj htr
      have hN := fullNaming_naming (m := E.model) (r := r) (p := p)
        (vals := r.tokens.map fun _ => []) (rule := p.tokens.map fun _ => []) (by simp) (by simp)
      refine not_knows_field ?_ c hx (hk _ hN)
      cases hgx : (naming E.model r.tokens p.tokens (r.tokens.map fun _ => [])
          (p.tokens.map fun _ => [])).var (lower x) with
      | none => rfl
      | some v => exact absurd ((hN.2 _).mp ⟨v, hgx⟩) hn
  unfold Enforcer.enforce Enforcer.enforceWithMatcher at hg
  obtain ⟨bx, E1, h1, hb⟩ := M.bind_ok_inv hg
  simp only [M.pure_run, Outcome.ok.injEq] at hb
  unfold Enforcer.enforceEx at h1
  simp only [M.bind_run, M.get_run, hW.findR] at h1
  split at h1
  · simp only [M.pure_run, Prod.mk.injEq, Outcome.ok.injEq] at h1
    rw [← h1.1] at hb
    cases hb
  · have h2 := granted_run (f := (ReqSt.onEv (pushRequest r.tokens vals) >>= fun _ =>
      mEnforce lib E.model E.enabled [])) (congrArg Prod.fst h1) hb
    obtain ⟨_, s1, h3, h4⟩ := M.bind_ok_inv h2
    simp only [ReqSt.onEv, Prod.mk.injEq] at h3
    rw [h.enabled] at h4
    refine mEnforce_lacks hL hc hx h.matcher h.noEval hW.findR hW.findP h.effect hxp ?_ h4
    rw [← h3.2]
    exact pushRequest_lacks hxr hlacks (Prod.ext h3.1 rfl)

/-- The model of examples/abac_model.conf with the given rules. -/
def abacModel (P : List Rule) : Model := plainModel mAbac P

omit [IterOrder] in
theorem setup_abac (lib : ExprLib) (P : List Rule) :
    Setup lib (enforcer (abacModel P)) rA (pA (.vector P)) eA mAbac :=
  ⟨⟨⟨⟨rfl, rfl, by decide, by decide, by show ∀ t ∈ pTok, _; decide, by decide,
      by show (pTok.map polName).Nodup; decide,
      by simp [enforcer, abacModel, plainModel, Model.secMap, UMap.get, UMap.keys], lower_find (by
      simp [enforcer, abacModel, plainModel, Model.secMap, UMap.get, UMap.keys, lower])⟩,
    goodRoles_new (by intro t a ha; simp [Model.find, abacModel, plainModel, UMap.get] at ha),
    evOK_new ..⟩, by
    intro t a ha
    simp [Model.find, enforcer, abacModel, plainModel, UMap.get] at ha, by simp [enforcer]⟩,
    rfl, rfl, rfl, by decide, by decide⟩

/-- C113 is false: with examples/abac_model.conf no request is granted, after any history,
whether its object is a text or a JSON object. -/
theorem C113_fails (hL : Faithful lib) (P : List Rule) (acts : List Deed)
    (hd : LoadableDeeds lib acts (enforcer (abacModel P))) (vals : List ReqVal) :
    ((runDeeds lib acts (enforcer (abacModel P))).enforce lib vals).1 ≠ .ok true := by
  obtain ⟨p, ht, h⟩ := (setup_abac lib P).deeds acts hd
  refine unknown_denied hL h written_abac (x := c!"r.obj.Owner") (by decide) ?_ vals
  simp only [stdNames, ht]
  show _ ∉ List.map reqName rA.tokens ++ List.map polName pTok
  decide

/-- The attributes a request of this model needs, as a map of texts. -/
def ownerMap (sub owner : Str) : List (Str × Str) := [(c!"sub", sub), (c!"obj.Owner", owner)]

/-- The request definition with the attribute as a field. -/
def rOwner : Assertion := asrt c!"r" c!"sub, obj.Owner" [c!"r_sub", c!"r_obj.Owner"]

/-- The model with that request definition. -/
def ownerModel (P : List Rule) : Model :=
  [(c!"m", [(c!"m", asrt c!"m" mAbac [])]), (c!"r", [(c!"r", rOwner)]), (c!"p", pDef (.vector P)),
    (c!"e", eDef)]

theorem enforceMap_owner (P : List Rule) (q : UMap Str ReqVal) :
    ((enforcer (abacModel P)).enforceMap lib q).1 = ((enforcer (ownerModel P)).enforceMap lib q).1 := by
  have h : ∀ s, mEnforce lib (abacModel P) true [] s = mEnforce lib (ownerModel P) true [] s :=
    fun _ => rfl
  unfold Enforcer.enforceMap Enforcer.enforceExMap
  simp only [M.bind_run, M.get_run, Enforcer.runRequest]
  have h1 : (enforcer (abacModel P)).model = abacModel P := rfl
  have h2 : (enforcer (ownerModel P)).model = ownerModel P := rfl
  have h3 : ∀ m, (enforcer m).enabled = true := fun _ => rfl
  have h4 : ∀ m, (enforcer m).heap = [RM.new 10] := fun _ => rfl
  have h5 : ∀ m, (enforcer m).evaluator = Evaluator.new := fun _ => rfl
  simp only [h1, h2, h3, h4, h5, h]
  rcases ReqSt.onEv (pushMap (IterOrder.iter q)) ⟨Evaluator.new, [RM.new 10], []⟩ with ⟨o, s⟩
  cases o with
  | throw e => rfl
  | ub u => rfl
  | ok a =>
    simp only
    rcases mEnforce lib (ownerModel P) true [] s with ⟨o', s'⟩
    cases o' <;> rfl

omit [IterOrder] in
theorem setup_owner (lib : ExprLib) (P : List Rule) :
    Setup lib (enforcer (ownerModel P)) rOwner (pA (.vector P)) eA mAbac :=
  ⟨⟨⟨⟨rfl, rfl, by decide, by decide, by show ∀ t ∈ pTok, _; decide, by decide,
      by show (pTok.map polName).Nodup; decide,
      by simp [enforcer, ownerModel, Model.secMap, UMap.get, UMap.keys], lower_find (by
      simp [enforcer, ownerModel, Model.secMap, UMap.get, UMap.keys, lower])⟩,
    goodRoles_new (by intro t a ha; simp [Model.find, ownerModel, UMap.get] at ha),
    evOK_new ..⟩, by
    intro t a ha
    simp [Model.find, enforcer, ownerModel, UMap.get] at ha, by simp [enforcer]⟩,
    rfl, rfl, rfl, by decide, by decide⟩

/-- C113: what is granted with this model. On an enforcer that has not answered a request yet, a map
with a subject and, as a text, the owner of the object is granted exactly when the two are equal.
Missing: objects (`C113_fails`), and requests after the first. -/
theorem C113_map_partial (hL : Faithful lib) (P : List Rule) (hP : ∀ rule ∈ P, rule.length = 3)
    (sub owner : Str) :
    ((enforcer (abacModel P)).enforceMap lib (strMap (ownerMap sub owner))).1 =
      .ok (decide (sub = owner)) := by
  have hq : Names rOwner (ownerMap sub owner) [sub, owner] := by
    refine ⟨?_, ?_, ?_⟩
    · show [c!"sub", c!"obj.Owner"].Nodup
      decide
    · intro k hk
      have : k = c!"sub" ∨ k = c!"obj.Owner" := by simpa [UMap.keys, ownerMap] using hk
      rcases this with rfl | rfl
      · exact ⟨c!"r_sub", by decide, rfl⟩
      · exact ⟨c!"r_obj.Owner", by decide, rfl⟩
    · intro i t v ht hv
      match i with
      | 0 => simp [rOwner, asrt] at ht hv; subst ht hv; rfl
      | 1 => simp [rOwner, asrt] at ht hv; subst ht hv; rfl
      | n + 2 => simp [rOwner, asrt] at ht
  rw [enforceMap_owner, C111_enforce (setup_owner lib P) (vals := [sub, owner]) rfl hq]
  have hcand : candidates (pA (.vector P)) [sub, owner] = P := by simp [candidates, pA, asrt, Policies.vector]
  rw [C103_answer hL (setup_owner lib P) written_abac rfl (by show _ ∉ pTok; decide)
    (vals := [sub, owner]) rfl (by rw [hcand]; exact hP) (field := fun _ x => if x = c!"r.sub" then sub else owner)
    (fn := fun _ _ => .ok false) (V := fun _ => decide (sub = owner))]
  · rw [hcand]
    congr 1
    cases P with
    | nil => rfl
    | cons a P => simp
  · intro rule hr
    refine ⟨?_, ?_⟩
    · intro x hx
      have : x = c!"r.sub" ∨ x = c!"r.obj.Owner" := by
        simpa [abacCond, Cond.fields, Operand.fields, rSub] using hx
      rcases this with rfl | rfl <;> rfl
    · intro f n hf
      simp [abacCond, Cond.calls] at hf
  · intro rule hr
    rfl

example : (letI := insertionOrder
    ((enforcer (abacModel [])).enforceMap (stdLib noRx)
      (strMap (ownerMap c!"alice" c!"alice"))).1) = .ok true := by decide +kernel

example : (letI := insertionOrder
    ((enforcer (abacModel [alice])).enforce (stdLib noRx) [.str c!"alice", .json, .str c!"read"]).1) =
    .throw .parse := by decide +kernel

end MapProps
end Casbin
