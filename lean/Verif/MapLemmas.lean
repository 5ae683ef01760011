import Verif.Props.Matchers

/-!
# Helper lemmas for requests given as a map
-/

namespace Casbin
namespace DecisionProps

variable [IterOrder] {lib : ExprLib} {E : Enforcer} {r p e : Assertion} {matcher exp : Str}
  {vals : List Str}

/-- The entries of a map of strings as variables. -/
def entries (q : List (Str × Str)) : List (Str × Str) := q.map fun kv => (c!"r." ++ kv.1, kv.2)

/-- A map of strings as a request. -/
def strMap (q : List (Str × Str)) : UMap Str ReqVal := q.map fun kv => (kv.1, .str kv.2)

omit [IterOrder] in
/-- Entering a value works, or the name is none and nothing happens. -/
theorem addIdentifier_cases (x v : Str) (ev : Evaluator) :
    ev.addIdentifier x v = (.ok (), ev.enter x v) ∨
      (ev.addIdentifier x v = (.ub .nullDeref, ev) ∧ Evaluator.validSymbol x = false ∧
        ev.vars.has (lower x) = false) := by
  unfold Evaluator.addIdentifier Evaluator.enter
  by_cases h1 : ev.vars.has (lower x) = true
  · exact .inl (by simp [h1])
  · by_cases h2 : Evaluator.validSymbol x = true
    · exact .inl (by simp [h1, h2])
    · exact .inr (by simp [h1, h2])

omit [IterOrder] in
theorem pushMap_run (q : List (Str × Str))
    (hv : ∀ kv ∈ q, Evaluator.validSymbol (c!"r." ++ kv.1) = true) (ev : Evaluator) :
    pushMap (strMap q) ev = (.ok (), ev.enterAll (entries q)) := by
  induction q generalizing ev with
  | nil => rfl
  | cons kv q ih =>
    have h2 : Evaluator.pushString c!"r" kv.1 kv.2 ev = (.ok (), ev.enter (c!"r." ++ kv.1) kv.2) :=
      addIdentifier_run (hv kv (by simp)) kv.2 ev
    have h3 := ih (fun x hx => hv x (by simp [hx])) (ev.enter (c!"r." ++ kv.1) kv.2)
    simp only [strMap, List.map_cons, pushMap, M.bind_run, h2]
    simp only [strMap] at h3
    rw [h3]
    simp [Evaluator.enterAll, entries]

/-- The entries by the lower case of their names. -/
def lowEntries (q : List (Str × Str)) : List (Str × Str) :=
  (entries q).map fun kv => (lower kv.1, kv.2)

omit [IterOrder] in
theorem keys_lowEntries (q : List (Str × Str)) :
    UMap.keys (lowEntries q) = (UMap.keys q).map fun k => lower (c!"r." ++ k) := by
  simp [UMap.keys, lowEntries, entries, Function.comp_def]

omit [IterOrder] in
theorem get_lowEntries {q : List (Str × Str)} {k : Str}
    (hi : ∀ k' ∈ UMap.keys q, lower (c!"r." ++ k') = lower (c!"r." ++ k) → k' = k) :
    UMap.get (lowEntries q) (lower (c!"r." ++ k)) = UMap.get q k := by
  induction q with
  | nil => rfl
  | cons kv q ih =>
    have ih := ih fun k' hk' => hi k' (by
      simp only [UMap.keys, List.map_cons, List.mem_cons] at hk' ⊢; exact .inr hk')
    simp only [lowEntries, entries, List.map_cons, UMap.get] at ih ⊢
    by_cases h : kv.1 = k
    · rw [if_pos h, if_pos (by rw [h])]
    · rw [if_neg h, if_neg fun h' => h (hi kv.1 (by simp [UMap.keys]) h')]
      exact ih

omit [IterOrder] in
theorem strMap_perm_of {q : List (Str × Str)} {l : UMap Str ReqVal} (h : l.Perm (strMap q)) :
    ∃ q', l = strMap q' ∧ q'.Perm q := by
  have : ∀ l : UMap Str ReqVal, (∀ kv ∈ l, ∃ s, kv.2 = .str s) →
      ∃ q', l = strMap q' := by
    intro l
    induction l with
    | nil => intro _; exact ⟨[], rfl⟩
    | cons kv l ih =>
      intro hl
      obtain ⟨s, hs⟩ := hl kv (by simp)
      obtain ⟨q', rfl⟩ := ih fun x hx => hl x (by simp [hx])
      exact ⟨(kv.1, s) :: q', by simp only [strMap, List.map_cons, ← hs]⟩
  obtain ⟨q', rfl⟩ := this l (by
    intro kv hkv
    have := h.subset hkv
    simp only [strMap, List.mem_map] at this
    obtain ⟨x, _, rfl⟩ := this
    exact ⟨_, rfl⟩)
  refine ⟨q', rfl, ?_⟩
  have := h.map fun kv => (kv.1, match kv.2 with | .str s => s | .json => [])
  simpa [strMap, List.map_map, Function.comp_def] using this

/-- The values a map gives to the fields of the request definition; a field that the map lacks keeps
the value that is in the symbol table. -/
def Given (ev : Evaluator) (r : Assertion) (q : List (Str × Str)) (vals : List Str) : Prop :=
  vals.length = r.tokens.length ∧
  ∀ (i : Nat) (t v : Str), r.tokens[i]? = some t → vals[i]? = some v →
    UMap.get q (t.drop 2) = some v ∨
    (UMap.get q (t.drop 2) = none ∧ ev.vars.get (reqName t) = some v)

omit [IterOrder] in
theorem get_zip {ks : List Str} {vs : List Str} {x v : Str} (h : UMap.get (ks.zip vs) x = some v) :
    ∃ i : Nat, ks[i]? = some x ∧ vs[i]? = some v := by
  induction ks generalizing vs with
  | nil => simp at h
  | cons k ks ih =>
    cases vs with
    | nil => simp at h
    | cons w vs =>
      simp only [List.zip_cons_cons, UMap.get] at h
      by_cases hk : k = x
      · simp only [hk, if_true] at h
        exact ⟨0, by simp [hk], by simpa using h⟩
      · simp only [hk, if_false] at h
        obtain ⟨i, h1, h2⟩ := ih h
        exact ⟨i + 1, by simpa using h1, by simpa using h2⟩

/-- The symbol table after a map of strings whose names are fields of the request definition. -/
theorem pushMap_state {m : Model} {ev : Evaluator} (hW : WellDefined m r p) (hev : EvOK lib m r p ev)
    {q : List (Str × Str)} (hn : (UMap.keys q).Nodup)
    (hk : ∀ k ∈ UMap.keys q, ∃ t ∈ r.tokens, k = t.drop 2) (hg : Given ev r q vals) :
    ∃ ev1, pushMap (IterOrder.iter (strMap q)) ev = (.ok (), ev1) ∧ EvOK lib m r p ev1 ∧
      ∀ x v, UMap.get ((r.tokens.map reqName).zip vals) x = some v → ev1.vars.get x = some v := by
  obtain ⟨q', hq', hperm⟩ := strMap_perm_of (IterOrder.iter_perm (strMap q))
  have hmem : ∀ kv ∈ q', ∃ t ∈ r.tokens, kv.1 = t.drop 2 := fun kv hkv =>
    hk kv.1 (List.mem_map_of_mem (hperm.subset hkv))
  have hkeys : (UMap.keys q').Perm (UMap.keys q) := hperm.map _
  have hinj : ∀ t ∈ r.tokens, ∀ k ∈ UMap.keys q, lower (c!"r." ++ k) = reqName t → k = t.drop 2 := by
    intro t ht k hkq h
    obtain ⟨t', ht', rfl⟩ := hk k hkq
    rw [List.inj_on_of_nodup_map hW.rNodup ht' ht h]
  have hn' : (UMap.keys (lowEntries q')).Nodup := by
    rw [keys_lowEntries]
    refine List.Nodup.map_on ?_ (hkeys.nodup_iff.mpr hn)
    intro a ha b hb h
    obtain ⟨t, ht, rfl⟩ := hk b (hkeys.subset hb)
    exact hinj t ht a (hkeys.subset ha) h
  have hpush := pushMap_run q' (by
    intro kv hkv
    obtain ⟨t, ht, he⟩ := hmem kv hkv
    rw [he, ← validSymbol_lower]
    exact hW.rValid t ht) ev
  have hvars : (ev.enterAll (entries q')).vars = putAll ev.vars (lowEntries q') :=
    Evaluator.enterAll_vars _ _
  have hget : ∀ k, UMap.get q' k = UMap.get q k := fun k =>
    UMap.get_perm hperm (hkeys.nodup_iff.mpr hn) k
  refine ⟨ev.enterAll (entries q'), by rw [hq']; exact hpush, ⟨?_, ?_, ?_, ?_⟩, ?_⟩
  · intro x hx
    rw [hvars] at hx
    rcases (mem_keys_putAll _ _ _).mp hx with h | h
    · rw [keys_lowEntries, List.mem_map] at h
      obtain ⟨k, hkm, rfl⟩ := h
      obtain ⟨t, ht, rfl⟩ := hk k (hkeys.subset hkm)
      simp only [stdNames, List.mem_append, List.mem_map]
      exact .inl ⟨t, ht, rfl⟩
    · exact hev.vars x h
  · refine hev.names.enterAll _ ?_
    intro kv hkv
    obtain ⟨kv', hkv', rfl⟩ := List.mem_map.mp hkv
    obtain ⟨t, ht, he⟩ := hmem kv' hkv'
    simp only [rawNames, List.mem_append, List.mem_map]
    exact .inl ⟨t, ht, by rw [he]; rfl⟩
  · simpa using hev.funs
  · exact hev.text.enterAll _
  · intro x v h
    obtain ⟨i, h1, h2⟩ := get_zip h
    rw [List.getElem?_map, Option.map_eq_some_iff] at h1
    obtain ⟨t, ht, rfl⟩ := h1
    have htm : t ∈ r.tokens := List.mem_of_getElem? ht
    rw [hvars, get_putAll _ hn', show reqName t = lower (c!"r." ++ t.drop 2) from rfl,
      get_lowEntries fun k' hk' h => hinj t htm k' (hkeys.subset hk') h, hget]
    rcases hg.2 i t v ht h2 with h | ⟨h, h'⟩
    · rw [h]
    · rw [h]; exact h'

/-- A map of strings whose names are fields of the request definition is answered as the list of the
values it gives. -/
theorem enforceExMap_run (hR : Request lib E r p e matcher exp vals)
    (htext : ∀ rule ∈ candidates p vals, rule.length = p.tokens.length →
      ruleText exp p.tokens rule ≠ .ok [])
    {q : List (Str × Str)} (hn : (UMap.keys q).Nodup)
    (hk : ∀ k ∈ UMap.keys q, ∃ t ∈ r.tokens, k = t.drop 2)
    (hg : Given E.evaluator r q vals) (X : Rule) :
    ∃ ev', E.enforceExMap lib matcher (strMap q) X
        = (decisionOf lib E.model E.heap exp e.value r p vals, { E with eval := some ev' }) ∧
      Consistent lib { E with eval := some ev' } r p := by
  have hC := hR.state
  obtain ⟨ev1, hpush, hev1, hvars1⟩ := pushMap_state hC.defs hC.eval hn hk hg
  set s0 : ReqSt := { ev := E.evaluator, heap := E.heap, explain := X } with hs0
  set s1 : ReqSt := { s0 with ev := ev1 } with hs1
  have hrun1 : ReqSt.onEv (pushMap (IterOrder.iter (strMap q))) s0 = (.ok (), s1) := by
    simp [ReqSt.onEv, hs0, hs1, hpush]
  obtain ⟨s2, hrun2, hheap2, hev2, hx2⟩ := mEnforce_run lib hC.defs hR.effect hC.roles
    hR.arity.symm hR.matcher hR.nonempty
    (fun rule hr hl t ht hnil => htext rule hr hl (by rw [ht, hnil])) s1 rfl hev1 hvars1
  refine ⟨s2.ev, ?_, ⟨hC.defs, hC.roles, hev2⟩⟩
  unfold Enforcer.enforceExMap
  simp only [M.bind_run, M.get_run, Enforcer.runRequest, hR.enabled]
  simp only [← hs0, hrun1, hrun2, hheap2]
  congr 1
  cases hd : decisionOf lib E.model E.heap exp e.value r p vals with
  | throw e => rfl
  | ub u => rfl
  | ok bx =>
    obtain ⟨b, x⟩ := bx
    simp only [Outcome.map_ok]
    rw [hx2 b x hd]

/-! ## Unknown fields -/

omit [IterOrder] in
theorem not_knows_field {N : Naming} {x : Str} (hN : N.var (lower x) = none) :
    ∀ c : Cond, x ∈ c.fields → ¬ N.Knows c.ast.tree := by
  have hop : ∀ a : Operand, x ∈ a.fields → ¬ N.Knows a.ast.tree := by
    intro a h hk
    cases a with
    | lit t => simp [Operand.fields] at h
    | field y =>
      simp only [Operand.fields, List.mem_singleton] at h
      subst h
      simp [Operand.ast, Exprtk.Ast.tree, Naming.Knows, hN] at hk
  have hops : ∀ more : List Operand, x ∈ more.flatMap Operand.fields →
      ¬ N.KnowsAll (Exprtk.trees (more.map Operand.ast)) := by
    intro more
    induction more with
    | nil => simp
    | cons a more ih =>
      intro h hk
      simp only [List.map_cons, Exprtk.trees, Naming.KnowsAll] at hk
      simp only [List.flatMap_cons, List.mem_append] at h
      rcases h with h | h
      · exact hop _ h hk.1
      · exact ih h hk.2
  intro c
  induction c with
  | eq a b =>
    intro h hk
    simp only [Cond.ast, Exprtk.Ast.tree, Naming.Knows, Naming.KnowsAll] at hk
    rcases List.mem_append.mp h with h | h
    · exact hop _ h hk.1
    · exact hop _ h hk.2.1
  | ne a b =>
    intro h hk
    simp only [Cond.ast, Exprtk.Ast.tree, Naming.Knows, Naming.KnowsAll] at hk
    rcases List.mem_append.mp h with h | h
    · exact hop _ h hk.1
    · exact hop _ h hk.2.1
  | test g a more =>
    intro h hk
    simp only [Cond.ast, Exprtk.Ast.tree, Naming.Knows, Naming.KnowsAll] at hk
    rcases List.mem_append.mp h with h | h
    · exact hop _ h hk.2.1
    · exact hops _ h hk.2.2
  | and a b iha ihb =>
    intro h hk
    simp only [Cond.ast, Exprtk.Ast.tree, Naming.Knows, Naming.KnowsAll] at hk
    rcases List.mem_append.mp h with h | h
    · exact iha h hk.1
    · exact ihb h hk.2.1
  | or a b iha ihb =>
    intro h hk
    simp only [Cond.ast, Exprtk.Ast.tree, Naming.Knows, Naming.KnowsAll] at hk
    rcases List.mem_append.mp h with h | h
    · exact iha h hk.1
    · exact ihb h hk.2.1
  | group a ih =>
    intro h hk
    exact ih h (by simpa only [Cond.ast, Exprtk.Ast.tree] using hk)

omit [IterOrder] in
/-- A condition with an unknown field does not compile. -/
theorem compile_unknown (hL : Faithful lib) {c : Cond} {text : Str} (ht : c.WrittenAs text) {x : Str}
    (hx : x ∈ c.fields) {vars : UMap Str Str} (funs : UMap Str FunRef) (hv : vars.get (lower x) = none) :
    compile lib vars funs text = none := by
  unfold compile
  split
  · rfl
  · rw [hL.reads _ _ ht.read]
    simp only
    rw [if_neg]
    intro h
    exact not_knows_field (N := ⟨vars.get, funs.get⟩) hv c hx ((resolves_iff rfl rfl _).mp h)

/-- The evaluator does not know the field `x`, and has not compiled the matcher `exp`. -/
structure Lacks (x exp : Str) (ev : Evaluator) : Prop where
  var : ev.vars.get (lower x) = none
  text : ev.exprStr = exp → ev.err = true

omit [IterOrder] in
theorem Lacks.enter {x exp y v : Str} {ev : Evaluator} (h : Lacks x exp ev) (hy : lower x ≠ lower y) :
    Lacks x exp (ev.enter y v) :=
  ⟨by rw [Evaluator.enter, UMap.get_set_ne _ _ (Ne.symm hy)]; exact h.var, h.text⟩

omit [IterOrder] in
theorem pushPolicy_lacks {x exp : Str} {ts vs : List Str} (hx : ∀ t ∈ ts, lower x ≠ polName t)
    {ev ev' : Evaluator} (h : Lacks x exp ev) (hr : pushPolicy ts vs ev = (.ok (), ev')) :
    Lacks x exp ev' := by
  induction ts generalizing vs ev with
  | nil =>
    simp only [pushPolicy, M.pure_run, Prod.mk.injEq, true_and] at hr
    exact hr ▸ h
  | cons t ts ih =>
    cases vs with
    | nil => simp [pushPolicy] at hr
    | cons v vs =>
      simp only [pushPolicy, M.bind_run, Evaluator.pushString] at hr
      rcases addIdentifier_cases (c!"p" ++ c!"." ++ tokenName t) v ev with h1 | ⟨h1, -⟩ <;>
        rw [h1] at hr
      · exact ih (fun t ht => hx t (by simp [ht])) (h.enter (hx t (by simp))) hr
      · simp at hr

omit [IterOrder] in
theorem eval_lacks (hL : Faithful lib) {c : Cond} {text : Str} (ht : c.WrittenAs text) {x : Str}
    (hx : x ∈ c.fields) {ev : Evaluator} (h : Lacks x text ev) :
    ∃ ev', Evaluator.eval lib text ev = (.ok false, ev') ∧ ev'.err = true := by
  unfold Evaluator.eval
  split
  · rw [compile_unknown hL ht hx ev.funs h.var]
    exact ⟨_, rfl, rfl⟩
  · rename_i hne
    exact ⟨ev, by simp [h.text (by simpa using hne)], h.text (by simpa using hne)⟩

/-- A matcher with a field the evaluator does not know grants nothing. -/
theorem mEnforce_lacks (hL : Faithful lib) {c : Cond} (ht : c.WrittenAs exp) {x : Str}
    (hx : x ∈ c.fields) {m : Model} (hm : matcherOf m matcher = some exp)
    (he : hasEval exp = false) (hr : m.find c!"r" c!"r" = some r) (hp : m.find c!"p" c!"p" = some p)
    (hef : m.find c!"e" c!"e" = some e) (hxp : ∀ t ∈ p.tokens, lower x ≠ polName t) {s : ReqSt}
    (hs : Lacks x exp s.ev) : (mEnforce lib m true matcher s).1 ≠ .ok true := by
  set s1 : ReqSt := { s with
    explain := []
    ev := { s.ev with
      funs := addAllFuns (addAllFuns s.ev.funs Evaluator.builtins) (gFunctions m) } } with hs1
  have hl1 : Lacks x exp s1.ev := ⟨hs.var, hs.text⟩
  have hstart : mEnforce lib m true matcher s =
      (do
        let rules ← M.lift (selectPolicies m s1.ev)
        if rules ≠ [] then do
          let res ← runRules (ruleStep lib exp p.tokens) e.value rules
          finish rules res
        else enforceEmpty lib exp p.tokens e.value : M ReqSt Bool) s1 := by
    unfold mEnforce
    simp only [M.bind_run, M.modify_run, Bool.not_true, Bool.false_eq_true, if_false, ReqSt.onEv,
      Evaluator.loadFunctions, addFunctions_run]
    rw [← hs1]
    unfold matcherOf at hm
    by_cases hmt : matcher = []
    · simp only [hmt, if_true, Option.map_eq_some_iff] at hm ⊢
      obtain ⟨a, ha, hx⟩ := hm
      simp only [needAssertion, ha, hx, hr, hp, hef, M.bind_run, M.pure_run, M.get_run, M.lift_run]
    · simp only [hmt, if_false, Option.some.injEq] at hm ⊢
      simp only [needAssertion, hm, hr, hp, hef, M.bind_run, M.pure_run, M.get_run, M.lift_run]
  rw [hstart]
  intro h
  obtain ⟨rules, s2, h2, h⟩ := M.bind_ok_inv h
  simp only [M.lift_run, Prod.mk.injEq] at h2
  obtain ⟨-, rfl⟩ := h2
  cases rules with
  | nil =>
    simp only [ne_eq, not_true_eq_false, if_false, enforceEmpty, he, Bool.false_eq_true] at h
    obtain ⟨_, s3, h3, h⟩ := M.bind_ok_inv h
    simp only [ReqSt.onEv, Prod.mk.injEq] at h3
    have hl3 : Lacks x exp s3.ev := by
      rw [← h3.2]
      exact pushPolicy_lacks hxp hl1 (Prod.ext h3.1 rfl)
    obtain ⟨ev4, h4, -⟩ := eval_lacks hL ht hx hl3
    obtain ⟨b, s5, h5, h⟩ := M.bind_ok_inv h
    simp only [ReqSt.onEv, h4, Prod.mk.injEq, Outcome.ok.injEq] at h5
    simp [← h5.1] at h
  | cons rule rules =>
    simp only [ne_eq, reduceCtorEq, not_false_eq_true, if_true] at h
    obtain ⟨res, s3, h3, -⟩ := M.bind_ok_inv h
    have h3 := congrArg Prod.fst h3
    simp only [runRules, ruleLoop] at h3
    obtain ⟨me, s4, h4, -⟩ := M.bind_ok_inv h3
    have h4 := congrArg Prod.fst h4
    unfold ruleStep at h4
    split at h4
    · simp at h4
    · obtain ⟨_, s5, h5, h4⟩ := M.bind_ok_inv h4
      simp only [ReqSt.onEv, Prod.mk.injEq] at h5
      have hl5 : Lacks x exp s5.ev := by
        rw [← h5.2]
        exact pushPolicy_lacks hxp hl1 (Prod.ext h5.1 rfl)
      obtain ⟨t, s6, h6, h4⟩ := M.bind_ok_inv h4
      simp only [ruleText, he, Bool.false_eq_true, if_false, M.lift_run, Prod.mk.injEq,
        Outcome.ok.injEq] at h6
      obtain ⟨rfl, rfl⟩ := h6
      obtain ⟨ev7, h7, herr⟩ := eval_lacks hL ht hx hl5
      obtain ⟨_, s8, h8, h4⟩ := M.bind_ok_inv h4
      simp only [ReqSt.onEv, h7, Prod.mk.injEq] at h8
      obtain ⟨b, s9, h9, -⟩ := M.bind_ok_inv h4
      have herr8 : s8.ev.err = true := by rw [← h8.2]; exact herr
      simp [matcherResult, isBoolType, M.bind_run, herr8] at h9

/-! ## The variables of the request are kept -/

/-- The run leaves the variable `x` of the symbol table alone. -/
def Keeps (x : Str) {α : Type} (f : M ReqSt α) : Prop :=
  ∀ s, (f s).2.ev.vars.get x = s.ev.vars.get x

omit [IterOrder] in
theorem Keeps.bind {x : Str} {α β : Type} {f : M ReqSt α} {g : α → M ReqSt β} (hf : Keeps x f)
    (hg : ∀ a, Keeps x (g a)) : Keeps x (f >>= g) := by
  intro s
  rw [M.bind_run]
  have := hf s
  rcases hfs : f s with ⟨o, s'⟩
  rw [hfs] at this
  cases o with
  | ok a => exact (hg a s').trans this
  | throw e => exact this
  | ub u => exact this

omit [IterOrder] in
theorem Keeps.same {x : Str} {α : Type} {f : M ReqSt α} (h : ∀ s, (f s).2.ev = s.ev) : Keeps x f :=
  fun s => by rw [h s]

omit [IterOrder] in
theorem keeps_pure {x : Str} {α : Type} (a : α) : Keeps x (pure a : M ReqSt α) := fun _ => rfl

theorem keeps_exprValue (x : Str) : Keeps x (exprValue lib) := by
  refine Keeps.same fun s => ?_
  unfold exprValue
  cases s.ev.compiled <;> rfl

theorem keeps_isBoolType (x : Str) : Keeps x (isBoolType lib) := by
  unfold isBoolType
  refine Keeps.bind (Keeps.same fun _ => rfl) fun s => ?_
  split
  · exact Keeps.same fun _ => rfl
  · refine (keeps_exprValue x).bind fun v => ?_
    split
    · exact keeps_pure _
    · exact (keeps_exprValue x).bind fun v => keeps_pure _

theorem keeps_matcherResult (x : Str) : Keeps x (matcherResult lib) := by
  unfold matcherResult
  refine (keeps_isBoolType x).bind fun b => ?_
  split
  · exact (keeps_exprValue x).bind fun v => keeps_pure _
  · refine (keeps_isBoolType x).bind fun b => ?_
    split
    · exact (keeps_exprValue x).bind fun v => keeps_pure _
    · exact Keeps.same fun _ => rfl

omit [IterOrder] in
theorem keeps_pushPolicy (y : Str) (ts vs : List Str) :
    Keeps ('r' :: y) (ReqSt.onEv (pushPolicy ts vs)) := by
  have : ∀ (ts vs : List Str) (ev : Evaluator),
      (pushPolicy ts vs ev).2.vars.get ('r' :: y) = ev.vars.get ('r' :: y) := by
    intro ts
    induction ts with
    | nil => intro vs ev; rfl
    | cons t ts ih =>
      intro vs ev
      cases vs with
      | nil => rfl
      | cons v vs =>
        simp only [pushPolicy, M.bind_run, Evaluator.pushString]
        rcases addIdentifier_cases (c!"p" ++ c!"." ++ tokenName t) v ev with h1 | ⟨h1, -⟩ <;> rw [h1]
        · simp only
          rw [ih]
          exact UMap.get_set_ne _ _ (by simp [lower])
  exact fun s => this ts vs s.ev

omit [IterOrder] in
theorem keeps_eval (x text : Str) : Keeps x (ReqSt.onEv (Evaluator.eval lib text)) := by
  intro s
  simp only [ReqSt.onEv, Evaluator.eval]
  split
  · cases compile lib s.ev.vars s.ev.funs text <;> rfl
  · rfl

omit [IterOrder] in
theorem keeps_lift {x : Str} {α : Type} (o : Outcome α) : Keeps x (M.lift o : M ReqSt α) :=
  fun _ => rfl

theorem keeps_ruleStep (y exp : Str) (ts : List Str) (rule : Rule) :
    Keeps ('r' :: y) (ruleStep lib exp ts rule) := by
  unfold ruleStep
  split
  · exact Keeps.same fun _ => rfl
  · refine (keeps_pushPolicy y _ _).bind fun _ => (keeps_lift _).bind fun _ =>
      (keeps_eval _ _).bind fun _ => (keeps_matcherResult _).bind fun _ =>
      (keeps_lift _).bind fun _ => keeps_pure _

omit [IterOrder] in
theorem keeps_ruleLoop {x : Str} {step : Rule → M ReqSt (Bool × Effect)} (h : ∀ r, Keeps x (step r))
    (expr : Str) (len : Nat) (rs : List Rule) : ∀ idx effects matchs last,
    Keeps x (ruleLoop step expr len rs idx effects matchs last) := by
  induction rs with
  | nil => intro idx effects matchs last; exact keeps_pure _
  | cons r rs ih =>
    intro idx effects matchs last
    unfold ruleLoop
    refine (h r).bind fun me => (keeps_lift _).bind fun res => ?_
    split
    · exact keeps_pure _
    · exact ih _ _ _ _

omit [IterOrder] in
theorem keeps_finish {x : Str} (rules : List Rule) (res : Option (Effect × Option Nat)) :
    Keeps x (finish rules res) := by
  refine Keeps.same fun s => ?_
  unfold finish
  rcases res with _ | ⟨eff, idx⟩
  · rfl
  · rcases idx with _ | i
    · rfl
    · simp only
      cases rules[i]? <;> rfl

theorem keeps_enforceEmpty (y exp : Str) (ts : List Str) (eff : Str) :
    Keeps ('r' :: y) (enforceEmpty lib exp ts eff) := by
  unfold enforceEmpty
  split
  · exact Keeps.same fun _ => rfl
  · refine (keeps_pushPolicy y _ _).bind fun _ => (keeps_eval _ _).bind fun valid => ?_
    split
    · exact keeps_pure _
    · exact (keeps_exprValue _).bind fun v => (keeps_lift _).bind fun _ => keeps_finish _ _

omit [IterOrder] in
theorem keeps_need {x : Str} (m : Model) (sec k : Str) : Keeps x (needAssertion m sec k) := by
  unfold needAssertion
  cases m.find sec k
  · exact Keeps.same fun _ => rfl
  · exact keeps_pure _

theorem keeps_mEnforce (y : Str) (m : Model) (enabled : Bool) (matcher : Str) :
    Keeps ('r' :: y) (mEnforce lib m enabled matcher) := by
  have hfun : ∀ fs, Keeps ('r' :: y) (ReqSt.onEv (Evaluator.addFunctions fs)) := by
    intro fs s
    simp [ReqSt.onEv, addFunctions_run]
  have hbody : ∀ exp, Keeps ('r' :: y) (do
      let _ ← needAssertion m c!"r" c!"r"
      let p ← needAssertion m c!"p" c!"p"
      let s ← M.get
      let rules ← M.lift (selectPolicies m s.ev)
      let e ← needAssertion m c!"e" c!"e"
      if rules ≠ [] then do
        let res ← runRules (ruleStep lib exp p.tokens) e.value rules
        finish rules res
      else enforceEmpty lib exp p.tokens e.value) := by
    intro exp
    refine (keeps_need _ _ _).bind fun _ => (keeps_need _ _ _).bind fun p => Keeps.bind
      (Keeps.same fun _ => rfl) fun s => (keeps_lift _).bind fun rules => (keeps_need _ _ _).bind
      fun e => ?_
    split
    · exact (keeps_ruleLoop (fun r => keeps_ruleStep _ _ _ r) _ _ _ _ _ _ _).bind
        fun _ => keeps_finish _ _
    · exact keeps_enforceEmpty _ _ _ _
  unfold mEnforce
  refine Keeps.bind (Keeps.same fun _ => rfl) fun _ => ?_
  split
  · exact keeps_pure _
  · refine (hfun _).bind fun _ => (hfun _).bind fun _ => ?_
    split
    · exact (keeps_need _ _ _).bind fun a => (keeps_pure _).bind fun _ => hbody _
    · exact (keeps_pure _).bind fun _ => hbody _

end DecisionProps
end Casbin
