import Verif.Cached
import Verif.Props.Requests
import Mathlib.Data.List.Induction

/-!
# C48–C50, C82: the caching enforcer
-/

namespace Casbin
namespace CachedProps

open CachedEnforcer DecisionProps Fixtures

variable [IterOrder] {lib : ExprLib} {E : Enforcer} {r p e : Assertion}

/-! ## Keys -/

/-- A text that cannot be confused with the separators of a key: no two dollar signs in a row, none
at the end. -/
def Safe (v : Str) : Prop := (¬ ∃ a b, v = a ++ c!"$$" ++ b) ∧ v.getLast? ≠ some '$'

/-- A request all of whose texts are safe. -/
def SafeReq (q : Str × List ReqVal) : Prop := Safe q.1 ∧ ∀ v, ReqVal.str v ∈ q.2 → Safe v

omit [IterOrder] in
theorem safe_nil : Safe [] := ⟨by rintro ⟨a, b, h⟩; simp at h, by simp⟩

omit [IterOrder] in
theorem safe_tail {c : Char} {v : Str} (h : Safe (c :: v)) : Safe v := by
  refine ⟨?_, ?_⟩
  · rintro ⟨a, b, rfl⟩
    exact h.1 ⟨c :: a, b, by simp⟩
  · intro hl
    cases v with
    | nil => simp at hl
    | cons d v => exact h.2 (by rw [List.getLast?_cons_cons]; exact hl)

omit [IterOrder] in
/-- The first value of a key can be read off. -/
theorem key_head {v w x y : Str} (hv : Safe v) (hw : Safe w)
    (h : v ++ '$' :: '$' :: x = w ++ '$' :: '$' :: y) : v = w ∧ x = y := by
  induction v generalizing w with
  | nil =>
    cases w with
    | nil => simpa using h
    | cons d w =>
      exfalso
      simp only [List.nil_append, List.cons_append, List.cons.injEq] at h
      obtain ⟨rfl, h⟩ := h
      cases w with
      | nil => exact hw.2 rfl
      | cons d w =>
        simp only [List.cons_append, List.cons.injEq] at h
        obtain ⟨rfl, h⟩ := h
        exact hw.1 ⟨[], w, by simp⟩
  | cons c v ih =>
    cases w with
    | nil =>
      exfalso
      simp only [List.nil_append, List.cons_append, List.cons.injEq] at h
      obtain ⟨rfl, h⟩ := h
      cases v with
      | nil => exact hv.2 rfl
      | cons d v =>
        simp only [List.cons_append, List.cons.injEq] at h
        obtain ⟨rfl, h⟩ := h
        exact hv.1 ⟨[], v, by simp⟩
    | cons d w =>
      simp only [List.cons_append, List.cons.injEq] at h
      obtain ⟨rfl, h⟩ := h
      obtain ⟨rfl, h'⟩ := ih (safe_tail hv) (safe_tail hw) h
      exact ⟨rfl, h'⟩

omit [IterOrder] in
/-- A safe text with one more dollar sign has no two in a row. -/
theorem no_pair {m x y : Str} (hm : Safe m) (h : m ++ c!"$" = x ++ '$' :: '$' :: y) : False := by
  cases y with
  | nil =>
    have h' : m ++ c!"$" = (x ++ c!"$") ++ c!"$" := by rw [h]; simp
    have := List.append_inj' h' rfl
    rw [this.1] at hm
    exact hm.2 (by simp)
  | cons c y =>
    have hne : c :: y ≠ [] := by simp
    obtain ⟨z, d, hz⟩ : ∃ z d, c :: y = z ++ [d] := ⟨_, _, (List.dropLast_append_getLast hne).symm⟩
    rw [hz] at h
    have h' : m ++ c!"$" = (x ++ '$' :: '$' :: z) ++ [d] := by rw [h]; simp
    have := List.append_inj' h' rfl
    rw [this.1] at hm
    exact hm.1 ⟨x, z, by simp⟩

omit [IterOrder] in
theorem safe_valueText {v : ReqVal} (h : ∀ s, v = .str s → Safe s) : Safe (valueText v) := by
  cases v with
  | str s => exact h s rfl
  | json => exact safe_nil

omit [IterOrder] in
/-- The key of a safe request determines the matcher and the texts of the values. -/
theorem key_inj {m m' : Str} (hm : Safe m) (hm' : Safe m') : ∀ {vs ws : List ReqVal},
    (∀ v, ReqVal.str v ∈ vs → Safe v) → (∀ v, ReqVal.str v ∈ ws → Safe v) →
    key m vs = key m' ws → m = m' ∧ vs.map valueText = ws.map valueText := by
  intro vs
  induction vs with
  | nil =>
    intro ws _ hw h
    cases ws with
    | nil =>
      simp only [key, List.flatMap_nil, List.nil_append] at h
      exact ⟨List.append_cancel_right h, rfl⟩
    | cons w ws =>
      exfalso
      simp only [key, List.flatMap_nil, List.nil_append, List.flatMap_cons] at h
      exact no_pair hm (x := valueText w) (h.trans (by simp; rfl))
  | cons v vs ih =>
    intro ws hv hw h
    cases ws with
    | nil =>
      exfalso
      simp only [key, List.flatMap_nil, List.nil_append, List.flatMap_cons] at h
      exact no_pair hm' (x := valueText v) (h.symm.trans (by simp; rfl))
    | cons w ws =>
      have h' : valueText v ++ '$' :: '$' :: key m vs = valueText w ++ '$' :: '$' :: key m' ws := by
        simpa [key] using h
      obtain ⟨h1, h2⟩ := key_head (safe_valueText fun s hs => hv s (by simp [hs]))
        (safe_valueText fun s hs => hw s (by simp [hs])) h'
      obtain ⟨h3, h4⟩ := ih (fun s hs => hv s (by simp [hs])) (fun s hs => hw s (by simp [hs])) h2
      exact ⟨h3, by simp [h1, h4]⟩

omit [IterOrder] in
theorem strings_of_texts {vs ws : List Str}
    (h : (vs.map ReqVal.str).map valueText = (ws.map ReqVal.str).map valueText) : vs = ws := by
  have : ∀ l : List Str, (l.map ReqVal.str).map valueText = l := by
    intro l
    induction l with
    | nil => rfl
    | cons a l ih => simp only [List.map_cons, ih]; rfl
  rwa [this, this] at h

/-! ## Histories -/

/-- Something done with a caching enforcer. `change` is any method of the base class that asks no
request, or any change of the policy behind the enforcer's back. -/
inductive Act
  | ask (matcher : Str) (vals : List ReqVal)
  | askMap (vals : UMap Str ReqVal)
  | batch (reqs : List (List ReqVal))
  | change (f : Enforcer → Enforcer)
  | enable (b : Bool)
  | invalidate

/-- What is left of the caching enforcer; exceptions are caught by the caller. -/
def act (lib : ExprLib) : Act → CachedEnforcer → CachedEnforcer
  | .ask m vs, c => (enforceWithMatcher lib m vs c).2
  | .askMap vs, c => (enforceMap lib vs c).2
  | .batch rs, c => (batchEnforce lib rs c).2
  | .change f, c => (inherited (M.modify f) c).2
  | .enable b, c => (setEnableCache b c).2
  | .invalidate, c => (invalidateCache c).2

def acts (lib : ExprLib) : List Act → CachedEnforcer → CachedEnforcer
  | [], c => c
  | a :: as, c => acts lib as (act lib a c)

omit [IterOrder] in
theorem throughCache_miss {k : Str} {ask : M Enforcer Bool} {c : CachedEnforcer}
    (h : c.enableCache = true → c.cache.get k = none) : (throughCache k ask c).1 = (ask c.base).1 := by
  unfold throughCache
  simp only [M.bind_run, M.get_run]
  cases he : c.enableCache with
  | false => rfl
  | true =>
    simp only [if_true, h he, inherited, M.bind_run]
    cases ask c.base with
    | mk o s => cases o <;> rfl

omit [IterOrder] in
/-- What a look-up leaves. -/
theorem throughCache_state (k : Str) (ask : M Enforcer Bool) (c : CachedEnforcer) :
    (throughCache k ask c).2 = c ∨
    (throughCache k ask c).2 = { c with base := (ask c.base).2 } ∨
    ∃ b, (ask c.base).1 = .ok b ∧
      (throughCache k ask c).2 = { c with base := (ask c.base).2, cache := c.cache.set k b } := by
  unfold throughCache
  simp only [M.bind_run, M.get_run]
  by_cases he : c.enableCache = true
  · rw [if_pos he]
    cases hg : c.cache.get k with
    | some b => left; rfl
    | none =>
      simp only [inherited, M.bind_run]
      cases ha : ask c.base with
      | mk o s =>
        cases o with
        | ok b => right; right; exact ⟨b, rfl, rfl⟩
        | throw e => right; left; rfl
        | ub u => right; left; rfl
  · rw [if_neg he]; right; left; rfl

/-! ## C48 -/

/-- The caching enforcer after requests only. -/
def asks (lib : ExprLib) : List (Str × List ReqVal) → CachedEnforcer → CachedEnforcer
  | [], c => c
  | q :: qs, c => asks lib qs (enforceWithMatcher lib q.1 q.2 c).2

/-- The base enforcer differs from `E` by its evaluator at most, and the stored answers are those
`E` gives. -/
structure Good (lib : ExprLib) (E : Enforcer) (r p : Assertion) (c : CachedEnforcer) : Prop where
  base : ∃ ev, c.base = { E with eval := ev } ∧ Consistent lib { E with eval := ev } r p
  cache : ∀ q b, SafeReq q → Plain E.model r p q → c.cache.get (key q.1 q.2) = some b →
    (E.enforceWithMatcher lib q.1 q.2).1 = .ok b

/-- Safe plain requests with the same key get the same answer. -/
theorem same_key (hC : Consistent lib E r p) {q q' : Str × List ReqVal} (hs : SafeReq q)
    (hs' : SafeReq q') (hp : Plain E.model r p q) (hp' : Plain E.model r p q')
    (hk : key q.1 q.2 = key q'.1 q'.2) :
    (E.enforceWithMatcher lib q.1 q.2).1 = (E.enforceWithMatcher lib q'.1 q'.2).1 := by
  obtain ⟨h1, h2⟩ := key_inj hs.1 hs'.1 hs.2 hs'.2 hk
  have hl : q.2.length = q'.2.length := by simpa using congrArg List.length h2
  have wrong : ∀ q : Str × List ReqVal, q.2.length ≠ r.tokens.length →
      (E.enforceWithMatcher lib q.1 q.2).1 = .ok false := by
    intro q hq
    have := (C09_wrong_arity (lib := lib) hC.defs.findR q.2 hq q.1 []).1
    simp [Enforcer.enforceWithMatcher, M.bind_run, this]
  rcases hp with hp | ⟨vals, _, hv, hlen, _⟩
  · rw [wrong q hp, wrong q' (by rw [← hl]; exact hp)]
  · rcases hp' with hp' | ⟨vals', _, hv', hlen', _⟩
    · rw [wrong q (by rw [hl]; exact hp'), wrong q' hp']
    · rw [hv, hv'] at h2
      rw [h1, hv, hv', strings_of_texts h2]

theorem good_step (hC : Consistent lib E r p) (hen : E.enabled = true)
    (he : E.model.find c!"e" c!"e" = some e) {c : CachedEnforcer} (hg : Good lib E r p c)
    {q : Str × List ReqVal} (hs : SafeReq q) (hp : Plain E.model r p q) :
    (enforceWithMatcher lib q.1 q.2 c).1 = (E.enforceWithMatcher lib q.1 q.2).1 ∧
      Good lib E r p (enforceWithMatcher lib q.1 q.2 c).2 := by
  obtain ⟨⟨ev, hb, hC'⟩, hcache⟩ := hg
  obtain ⟨ev', h1, h2⟩ := plain_step hC hC' hen he hp []
  have hask : Enforcer.enforceWithMatcher lib q.1 q.2 c.base =
      ((E.enforceWithMatcher lib q.1 q.2).1, { E with eval := ev' }) := by
    rw [hb]
    simp only [Enforcer.enforceWithMatcher, M.bind_run, h1]
    cases E.enforceEx lib q.1 q.2 [] with
    | mk o s => cases o <;> rfl
  refine ⟨?_, ?_⟩
  · cases hce : c.enableCache with
    | false =>
      unfold enforceWithMatcher
      rw [throughCache_miss (by simp [hce]), hask]
    | true =>
      cases hget : c.cache.get (key q.1 q.2) with
      | none =>
        unfold enforceWithMatcher
        rw [throughCache_miss (fun _ => hget), hask]
      | some b =>
        rw [hcache q b hs hp hget]
        simp [enforceWithMatcher, throughCache, M.bind_run, hce, hget]
  · unfold enforceWithMatcher
    rcases throughCache_state (key q.1 q.2) (Enforcer.enforceWithMatcher lib q.1 q.2) c with
      h | h | ⟨b, hok, h⟩
    · rw [h]; exact ⟨⟨ev, hb, hC'⟩, hcache⟩
    · rw [h, hask]; exact ⟨⟨ev', rfl, h2⟩, hcache⟩
    · rw [h, hask]
      rw [hask] at hok
      refine ⟨⟨ev', rfl, h2⟩, ?_⟩
      intro q' b' hs' hp' hget
      simp only [UMap.get_set] at hget
      split at hget
      · rename_i hk
        simp only [Option.some.injEq] at hget
        subst hget
        rw [← same_key hC hs hs' hp hp' hk]
        exact hok
      · exact hcache q' b' hs' hp' hget

/-- C48: between changes the caching enforcer answers like the enforcer, whatever was asked before.
Missing: values with two dollar signs in a row or one at the end, which other requests are mistaken
for (`C48_fails`), and the requests missing in `C11_history_partial`. -/
theorem C48_transparent_partial (hC : Consistent lib E r p) (hen : E.enabled = true)
    (he : E.model.find c!"e" c!"e" = some e) {c : CachedEnforcer} (hb : c.base = E)
    (hc : c.cache = []) (hist : List (Str × List ReqVal))
    (hh : ∀ q ∈ hist, SafeReq q ∧ Plain E.model r p q) {q : Str × List ReqVal} (hs : SafeReq q)
    (hq : Plain E.model r p q) :
    (enforceWithMatcher lib q.1 q.2 (asks lib hist c)).1 = (E.enforceWithMatcher lib q.1 q.2).1 := by
  have key : ∀ (hist : List (Str × List ReqVal)) (c : CachedEnforcer), Good lib E r p c →
      (∀ q ∈ hist, SafeReq q ∧ Plain E.model r p q) → Good lib E r p (asks lib hist c) := by
    intro hist
    induction hist with
    | nil => intro c hg _; exact hg
    | cons a hist ih =>
      intro c hg hh
      exact ih _ (good_step hC hen he hg (hh a (by simp)).1 (hh a (by simp)).2).2
        (fun q hq => hh q (by simp [hq]))
  have hg : Good lib E r p c :=
    ⟨⟨E.eval, hb, hC⟩, by intro q b _ _ h; rw [hc] at h; simp [UMap.get] at h⟩
  exact (good_step hC hen he (key hist c hg hh) hs hq).1

omit [IterOrder] in
theorem safe_of_no_dollar {v : Str} (h : '$' ∉ v) : Safe v := by
  refine ⟨?_, ?_⟩
  · rintro ⟨a, b, rfl⟩; simp at h
  · intro hl; exact h (List.mem_of_getLast? hl)

omit [IterOrder] in
theorem safe_strings {vs : List Str} (h : ∀ v ∈ vs, '$' ∉ v) : SafeReq ([], vs.map ReqVal.str) := by
  refine ⟨safe_nil, ?_⟩
  intro v hv
  simp only [List.mem_map] at hv
  obtain ⟨w, hw, he⟩ := hv
  cases he
  exact safe_of_no_dollar (h _ hw)

example : (enforceWithMatcher miniLib [] [.str c!"alice", .str c!"data1", .str c!"read"]
      (asks miniLib [([], [c!"bob", c!"data1", c!"read"].map ReqVal.str),
        ([], [c!"alice", c!"data1", c!"read"].map ReqVal.str)] (.new (acl [alice])))).1
    = ((acl [alice]).enforceWithMatcher miniLib [] [.str c!"alice", .str c!"data1", .str c!"read"]).1 := by
  refine C48_transparent_partial (r := rA) (p := pA (.vector [alice])) (e := eA)
    (consistent_acl _ _) rfl rfl (c := .new (acl [alice])) rfl rfl _ ?_
    (q := ([], [c!"alice", c!"data1", c!"read"].map ReqVal.str))
    (safe_strings (by decide)) (plain_acl _ _ rfl)
  intro q hq
  simp only [List.mem_cons, List.not_mem_nil, or_false] at hq
  rcases hq with rfl | rfl
  · exact ⟨safe_strings (by decide), plain_acl _ _ rfl⟩
  · exact ⟨safe_strings (by decide), plain_acl _ _ rfl⟩

omit [IterOrder] in
/-- C48 is violated by values that contain the separator: a request that is denied is granted
because another one with the same key was granted before. -/
theorem C48_fails :
    letI := insertionOrder
    let E := acl [[c!"a$$b", c!"c", c!"d"]]
    let q := [ReqVal.str c!"a", .str c!"b$$c", .str c!"d"]
    (E.enforce miniLib q).1 = .ok false ∧
    (enforce miniLib q (enforce miniLib [.str c!"a$$b", .str c!"c", .str c!"d"] (.new E)).2).1 =
      .ok true := by
  refine ⟨?_, ?_⟩ <;> decide +kernel

/-! ## C49 -/

/-- C49: after `InvalidateCache` the next answer is the one of the enforcer as it is, for every
history and every request. -/
theorem C49_fresh (c₀ : CachedEnforcer) (hist : List Act) (matcher : Str) (vals : List ReqVal) :
    let c := acts lib hist c₀
    ((do invalidateCache; enforceWithMatcher lib matcher vals : M CachedEnforcer Bool) c).1 =
      (c.base.enforceWithMatcher lib matcher vals).1 := by
  intro c
  change (throughCache _ _ { c with cache := [] }).1 = _
  exact throughCache_miss (c := { c with cache := [] }) (fun _ => rfl)

/-- The same for a request given as a map. -/
theorem C49_fresh_map (c₀ : CachedEnforcer) (hist : List Act) (vals : UMap Str ReqVal) :
    let c := acts lib hist c₀
    ((do invalidateCache; enforceMap lib vals : M CachedEnforcer Bool) c).1 =
      (c.base.enforceMap lib vals).1 := by
  intro c
  change (throughCache _ _ { c with cache := [] }).1 = _
  exact throughCache_miss (c := { c with cache := [] }) (fun _ => rfl)

/-- An example for C49: the history grants a request and then removes the rule. -/
example :
    letI := insertionOrder
    let q := [ReqVal.str c!"alice", .str c!"data1", .str c!"read"]
    let c := acts miniLib [.ask [] q, .change fun E => (Enforcer.removePolicy alice E).2]
      (.new (acl [alice]))
    ((do invalidateCache; enforceWithMatcher miniLib [] q : M CachedEnforcer Bool) c).1 =
      .ok false := by
  decide +kernel

/-! ## C50 -/

omit [IterOrder] in
/-- C50 is violated: the rule is removed, but the request is still granted. -/
theorem C50_fails :
    letI := insertionOrder
    let q := [ReqVal.str c!"alice", .str c!"data1", .str c!"read"]
    let c := acts miniLib [.ask [] q] (.new (acl [alice]))
    (inherited (Enforcer.removePolicy alice) c).1 = .ok true ∧
    ((inherited (Enforcer.removePolicy alice) c).2.base.enforce miniLib q).1 = .ok false ∧
    (enforce miniLib q (inherited (Enforcer.removePolicy alice) c).2).1 = .ok true := by
  refine ⟨?_, ?_, ?_⟩ <;> decide +kernel

/-- The requests asked through the map since it was last emptied. -/
def asked : List Act → List (Str × List ReqVal) → List (Str × List ReqVal)
  | [], acc => acc
  | .ask m vs :: as, acc => asked as ((m, vs) :: acc)
  | .askMap _ :: as, acc => asked as acc
  | .batch rs :: as, acc => asked as (rs.map (fun vs => ([], vs)) ++ acc)
  | .change _ :: as, acc => asked as acc
  | .enable _ :: as, acc => asked as acc
  | .invalidate :: as, _ => asked as []

theorem keys_ask {c : CachedEnforcer} {q : Str × List ReqVal} {acc : List (Str × List ReqVal)}
    (h : ∀ k ∈ c.cache.keys, ∃ q ∈ acc, k = key q.1 q.2) :
    ∀ k ∈ (enforceWithMatcher lib q.1 q.2 c).2.cache.keys, ∃ q' ∈ q :: acc, k = key q'.1 q'.2 := by
  have hold : ∀ k ∈ c.cache.keys, ∃ q' ∈ q :: acc, k = key q'.1 q'.2 := by
    intro k hk
    obtain ⟨q', h1, h2⟩ := h k hk
    exact ⟨q', by simp [h1], h2⟩
  unfold enforceWithMatcher
  rcases throughCache_state (key q.1 q.2) (Enforcer.enforceWithMatcher lib q.1 q.2) c with
    h' | h' | ⟨b, _, h'⟩
  · rw [h']; exact hold
  · rw [h']; exact hold
  · rw [h']
    intro k hk
    rw [← UMap.get_isSome_iff, UMap.get_set] at hk
    split at hk
    · rename_i he
      exact ⟨q, by simp, he.symm⟩
    · exact hold k ((UMap.get_isSome_iff _ _).mp hk)

theorem keys_batch (rs : List (List ReqVal)) : ∀ {c : CachedEnforcer} {acc : List (Str × List ReqVal)},
    (∀ k ∈ c.cache.keys, ∃ q ∈ acc, k = key q.1 q.2) →
    ∀ k ∈ (batchEnforce lib rs c).2.cache.keys,
      ∃ q ∈ rs.map (fun vs => (([] : Str), vs)) ++ acc, k = key q.1 q.2 := by
  induction rs with
  | nil => intro c acc h; simpa [batchEnforce] using h
  | cons a rs ih =>
    intro c acc h
    have h1 := keys_ask (lib := lib) (q := ([], a)) h
    have hfin : ∀ (c' : CachedEnforcer),
        (∀ k ∈ c'.cache.keys, ∃ q ∈ (([] : Str), a) :: acc, k = key q.1 q.2) →
        ∀ k ∈ c'.cache.keys, ∃ q ∈ (a :: rs).map (fun vs => (([] : Str), vs)) ++ acc,
          k = key q.1 q.2 := by
      intro c' h' k hk
      obtain ⟨q, hq, he⟩ := h' k hk
      refine ⟨q, ?_, he⟩
      simp only [List.map_cons, List.cons_append, List.mem_cons, List.mem_append] at hq ⊢
      tauto
    simp only [batchEnforce, M.bind_run, enforce]
    simp only at h1
    cases hc : enforceWithMatcher lib [] a c with
    | mk o c' =>
      rw [hc] at h1
      cases o with
      | throw e => exact hfin c' h1
      | ub u => exact hfin c' h1
      | ok b =>
        have h2 := ih h1
        simp only
        have h3 : ∀ k ∈ (batchEnforce lib rs c').2.cache.keys,
            ∃ q ∈ (a :: rs).map (fun vs => (([] : Str), vs)) ++ acc, k = key q.1 q.2 := by
          intro k hk
          obtain ⟨q, hq, he⟩ := h2 k hk
          refine ⟨q, ?_, he⟩
          simp only [List.map_cons, List.cons_append, List.mem_cons, List.mem_append] at hq ⊢
          tauto
        cases hb : batchEnforce lib rs c' with
        | mk o c'' =>
          rw [hb] at h3
          cases o with
          | ok bs => exact h3
          | throw e => exact h3
          | ub u => exact h3

/-- C50, what does hold: whatever has changed, a request that was not asked since the map was last
emptied is answered from the current policy, and so is every request while the cache is off. Asked
are list and vector requests without the separator in their values. -/
theorem C50_new_requests_partial {c₀ : CachedEnforcer} (h0 : c₀.cache = []) (hist : List Act)
    (hm : ∀ vs, Act.askMap vs ∉ hist) {q : Str × List ReqVal} (hs : SafeReq q)
    (hh : ∀ q' ∈ asked hist [], SafeReq q' ∧
      (q'.1, q'.2.map valueText) ≠ (q.1, q.2.map valueText)) :
    (enforceWithMatcher lib q.1 q.2 (acts lib hist c₀)).1 =
      ((acts lib hist c₀).base.enforceWithMatcher lib q.1 q.2).1 := by
  have inv : ∀ (hist : List Act) (c : CachedEnforcer) (acc : List (Str × List ReqVal)),
      (∀ vs, Act.askMap vs ∉ hist) → (∀ k ∈ c.cache.keys, ∃ q ∈ acc, k = key q.1 q.2) →
      ∀ k ∈ (acts lib hist c).cache.keys, ∃ q ∈ asked hist acc, k = key q.1 q.2 := by
    intro hist
    induction hist with
    | nil => intro c acc _ h; exact h
    | cons a hist ih =>
      intro c acc hm h
      have hm' : ∀ vs, Act.askMap vs ∉ hist := fun vs hv => hm vs (by simp [hv])
      cases a with
      | ask m vs => exact ih _ _ hm' (keys_ask (q := (m, vs)) h)
      | askMap vs => exact absurd (by simp) (hm vs)
      | batch rs => exact ih _ _ hm' (keys_batch rs h)
      | change f => exact ih _ _ hm' h
      | enable b => exact ih _ _ hm' h
      | invalidate =>
        refine ih _ _ hm' ?_
        intro k hk
        simp [act, invalidateCache, UMap.keys] at hk
  apply throughCache_miss
  intro _
  rw [UMap.get_eq_none_iff]
  intro hk
  obtain ⟨q', hq', he⟩ := inv hist c₀ [] hm (by rw [h0]; simp [UMap.keys]) _ hk
  obtain ⟨hs', hne⟩ := hh q' hq'
  obtain ⟨e1, e2⟩ := key_inj hs.1 hs'.1 hs.2 hs'.2 he
  exact hne (by rw [e1, e2])

/-- While the cache is off nothing is answered from it. -/
theorem C50_disabled_partial (c : CachedEnforcer) (matcher : Str) (vals : List ReqVal) :
    ((do setEnableCache false; enforceWithMatcher lib matcher vals : M CachedEnforcer Bool) c).1 =
      (c.base.enforceWithMatcher lib matcher vals).1 := by
  exact throughCache_miss (k := key matcher vals) (c := { c with enableCache := false })
    (fun h => by simp at h)

/-- The hypotheses of `C50_new_requests_partial` can be met: bob's request is new after carol's was
asked and alice's rule removed. -/
example :
    (enforceWithMatcher miniLib [] [.str c!"bob", .str c!"data2", .str c!"write"]
      (acts miniLib [.ask [] [.str c!"carol", .str c!"data1", .str c!"read"],
        .change fun E => (Enforcer.removePolicy bob E).2] (.new (acl [alice, bob])))).1 =
    ((acts miniLib [.ask [] [.str c!"carol", .str c!"data1", .str c!"read"],
        .change fun E => (Enforcer.removePolicy bob E).2] (.new (acl [alice, bob]))).base.enforceWithMatcher
      miniLib [] [.str c!"bob", .str c!"data2", .str c!"write"]).1 := by
  refine C50_new_requests_partial (c₀ := .new (acl [alice, bob])) rfl _ (by simp)
    (q := ([], [c!"bob", c!"data2", c!"write"].map ReqVal.str)) (safe_strings (by decide)) ?_
  intro q' hq'
  simp only [asked, List.mem_cons, List.not_mem_nil, or_false] at hq'
  subst hq'
  exact ⟨safe_strings (vs := [c!"carol", c!"data1", c!"read"]) (by decide), by decide⟩

/-! ## C82 -/

omit [IterOrder] in
/-- C82 is violated: the key of a request given as a map lacks the names of the values. Alice may
read data1; the request of the subject data1 for the object alice gets the stored answer. -/
theorem C82_fails :
    letI := insertionOrder
    let q₁ : UMap Str ReqVal := [(c!"sub", .str c!"alice"), (c!"obj", .str c!"data1"), (c!"act", .str c!"read")]
    let q₂ : UMap Str ReqVal := [(c!"obj", .str c!"alice"), (c!"sub", .str c!"data1"), (c!"act", .str c!"read")]
    ((acl [alice]).enforceMap miniLib q₂).1 = .ok false ∧
    (enforceMap miniLib q₂ (enforceMap miniLib q₁ (.new (acl [alice]))).2).1 = .ok true := by
  refine ⟨?_, ?_⟩ <;> decide +kernel

/-- The caching enforcer after map requests only. -/
def asksMap (lib : ExprLib) : List (UMap Str ReqVal) → CachedEnforcer → CachedEnforcer
  | [], c => c
  | q :: qs, c => asksMap lib qs (enforceMap lib q c).2

theorem asksMap_append (lib : ExprLib) (as bs : List (UMap Str ReqVal)) :
    ∀ c, asksMap lib (as ++ bs) c = asksMap lib bs (asksMap lib as c) := by
  induction as with
  | nil => intro c; rfl
  | cons a as ih => intro c; exact ih _

/-- The map holds strings without the separator, under the given names, in the order of the
container. -/
def Named (names : List Str) (q : UMap Str ReqVal) : Prop :=
  ∃ vs : List Str, IterOrder.iter q = names.zip (vs.map ReqVal.str) ∧ vs.length = names.length ∧
    ∀ v ∈ vs, Safe v

/-- Equal keys of requests with the same names come from the same values. -/
theorem named_inj {names : List Str} {q q' : UMap Str ReqVal} (h : Named names q)
    (h' : Named names q') (hk : mapKey [] q = mapKey [] q') : IterOrder.iter q = IterOrder.iter q' := by
  obtain ⟨vs, hi, hl, hs⟩ := h
  obtain ⟨vs', hi', hl', hs'⟩ := h'
  have hsnd : ∀ ws : List Str, ws.length = names.length →
      (names.zip (ws.map ReqVal.str)).map Prod.snd = ws.map ReqVal.str := by
    intro ws hw
    exact List.map_snd_zip (by simp [hw])
  simp only [mapKey, hi, hi', hsnd vs hl, hsnd vs' hl'] at hk
  have mem : ∀ ws : List Str, (∀ v ∈ ws, Safe v) → ∀ v, ReqVal.str v ∈ ws.map ReqVal.str → Safe v := by
    intro ws hw v hv
    simp only [List.mem_map] at hv
    obtain ⟨w, hw', he⟩ := hv
    cases he
    exact hw _ hw'
  have := strings_of_texts (key_inj safe_nil safe_nil (mem vs hs) (mem vs' hs') hk).2
  rw [hi, hi', this]

/-- C82, what does hold: when all requests use the same names in the same order, with string values
that do not contain the separator, an answer is the one the enforcer gives now, or the one it gave
when it was asked the same request before. Missing: requests whose maps are ordered differently
(`C82_fails`). -/
theorem C82_same_names_partial {names : List Str} {c₀ : CachedEnforcer} (h0 : c₀.cache = [])
    (hist : List (UMap Str ReqVal)) (hh : ∀ q ∈ hist, Named names q) {q : UMap Str ReqVal}
    (hq : Named names q) :
    (enforceMap lib q (asksMap lib hist c₀)).1 = ((asksMap lib hist c₀).base.enforceMap lib q).1 ∨
    ∃ before q' after, hist = before ++ q' :: after ∧ IterOrder.iter q' = IterOrder.iter q ∧
      (enforceMap lib q (asksMap lib hist c₀)).1 = ((asksMap lib before c₀).base.enforceMap lib q').1 := by
  have inv : ∀ hist : List (UMap Str ReqVal), ∀ k b, (asksMap lib hist c₀).cache.get k = some b →
      ∃ before q' after, hist = before ++ q' :: after ∧ k = mapKey [] q' ∧
        ((asksMap lib before c₀).base.enforceMap lib q').1 = .ok b := by
    intro hist
    induction hist using List.reverseRecOn with
    | nil => intro k b h; simp [asksMap, h0] at h
    | append_singleton hist a ih =>
      intro k b h
      have old : (asksMap lib hist c₀).cache.get k = some b →
          ∃ before q' after, hist ++ [a] = before ++ q' :: after ∧ k = mapKey [] q' ∧
            ((asksMap lib before c₀).base.enforceMap lib q').1 = .ok b := by
        intro h
        obtain ⟨before, q', after, h1, h2, h3⟩ := ih k b h
        exact ⟨before, q', after ++ [a], by simp [h1], h2, h3⟩
      rw [asksMap_append] at h
      change (enforceMap lib a (asksMap lib hist c₀)).2.cache.get k = some b at h
      unfold enforceMap at h
      rcases throughCache_state (mapKey [] a) (Enforcer.enforceMap lib a) (asksMap lib hist c₀) with
        h' | h' | ⟨b', hok, h'⟩
      · rw [h'] at h; exact old h
      · rw [h'] at h; exact old h
      · rw [h'] at h
        simp only [UMap.get_set] at h
        split at h
        · rename_i hk
          simp only [Option.some.injEq] at h
          subst h
          exact ⟨hist, a, [], by simp, hk.symm, hok⟩
        · exact old h
  cases hen : (asksMap lib hist c₀).enableCache with
  | false => left; exact throughCache_miss (by simp [hen])
  | true =>
    cases hget : (asksMap lib hist c₀).cache.get (mapKey [] q) with
    | none => left; exact throughCache_miss (fun _ => hget)
    | some b =>
      right
      obtain ⟨before, q', after, h1, h2, h3⟩ := inv hist _ _ hget
      refine ⟨before, q', after, h1, ?_, ?_⟩
      · exact (named_inj hq (hh q' (by simp [h1])) h2).symm
      · rw [h3]
        simp [enforceMap, throughCache, M.bind_run, hen, hget]

example :
    letI := insertionOrder
    let names := [c!"sub", c!"obj", c!"act"]
    Named names [(c!"sub", .str c!"alice"), (c!"obj", .str c!"data1"), (c!"act", .str c!"read")] ∧
    Named names [(c!"sub", .str c!"bob"), (c!"obj", .str c!"data1"), (c!"act", .str c!"read")] :=
  ⟨⟨[c!"alice", c!"data1", c!"read"], rfl, rfl, fun v hv => safe_of_no_dollar
      ((by decide : ∀ v ∈ [c!"alice", c!"data1", c!"read"], '$' ∉ v) v hv)⟩,
   ⟨[c!"bob", c!"data1", c!"read"], rfl, rfl, fun v hv => safe_of_no_dollar
      ((by decide : ∀ v ∈ [c!"bob", c!"data1", c!"read"], '$' ∉ v) v hv)⟩⟩

end CachedProps
end Casbin
