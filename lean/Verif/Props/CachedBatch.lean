import Verif.Props.Cached

/-!
# C129: batches of requests through the caching enforcer
-/

namespace Casbin
namespace CachedProps

open CachedEnforcer DecisionProps Fixtures

variable [IterOrder] {lib : ExprLib} {E : Enforcer} {r p e : Assertion}

theorem asks_good (hC : Consistent lib E r p) (hen : E.enabled = true)
    (he : E.model.find c!"e" c!"e" = some e) : ∀ (hist : List (Str × List ReqVal))
    (c : CachedEnforcer), Good lib E r p c → (∀ q ∈ hist, SafeReq q ∧ Plain E.model r p q) →
      Good lib E r p (asks lib hist c) := by
  intro hist
  induction hist with
  | nil => intro c hg _; exact hg
  | cons a hist ih =>
    intro c hg hh
    exact ih _ (good_step hC hen he hg (hh a (by simp)).1 (hh a (by simp)).2).2
      (fun q hq => hh q (by simp [hq]))

theorem batch_good (hC : Consistent lib E r p) (hen : E.enabled = true)
    (he : E.model.find c!"e" c!"e" = some e) : ∀ (reqs : List (List ReqVal)) (c : CachedEnforcer),
    Good lib E r p c → (∀ vs ∈ reqs, SafeReq ([], vs) ∧ Plain E.model r p ([], vs)) →
      (batchEnforce lib reqs c).1 = reqs.mapM (fun vs => (E.enforce lib vs).1) := by
  intro reqs
  induction reqs with
  | nil => intro c _ _; rfl
  | cons a reqs ih =>
    intro c hg hh
    obtain ⟨h1, h2⟩ := good_step hC hen he hg (hh a (by simp)).1 (hh a (by simp)).2
    have hE : (E.enforce lib a).1 = (enforceWithMatcher lib [] a c).1 := by
      rw [h1]; rfl
    simp only [batchEnforce, enforce, M.bind_run, List.mapM_cons, hE]
    cases ha : enforceWithMatcher lib [] a c with
    | mk o s =>
      simp only [ha] at h2
      cases o with
      | throw x => rfl
      | ub u => rfl
      | ok b =>
        have := ih s h2 (fun q hq => hh q (by simp [hq]))
        simp only [Outcome.ok_bind, ← this]
        cases batchEnforce lib reqs s with
        | mk o s => cases o <;> rfl

/-- C129, `BatchEnforce`: whatever was asked before, a batch gets the answers its requests would get one
by one from the enforcer without the cache. Missing as in `C48_transparent_partial`
(`C129_batch_fails`). -/
theorem C129_batch_partial (hC : Consistent lib E r p) (hen : E.enabled = true)
    (he : E.model.find c!"e" c!"e" = some e) {c : CachedEnforcer} (hb : c.base = E)
    (hc : c.cache = []) (hist : List (Str × List ReqVal))
    (hh : ∀ q ∈ hist, SafeReq q ∧ Plain E.model r p q) (reqs : List (List ReqVal))
    (hr : ∀ vs ∈ reqs, SafeReq ([], vs) ∧ Plain E.model r p ([], vs)) :
    (batchEnforce lib reqs (asks lib hist c)).1 = reqs.mapM (fun vs => (E.enforce lib vs).1) :=
  batch_good hC hen he reqs _ (asks_good hC hen he hist c
    ⟨⟨E.eval, hb, hC⟩, by intro q b _ _ h; rw [hc] at h; simp [UMap.get] at h⟩ hh) hr

/-- C129, `BatchEnforceWithMatcher`: the answers are those of the enforcer as it is, whatever is stored
in the cache, and the cache stays as it is. -/
theorem C129_batchWithMatcher {c : CachedEnforcer} (hC : Consistent lib c.base r p)
    (hen : c.base.enabled = true) (he : c.base.model.find c!"e" c!"e" = some e) (matcher : Str)
    (reqs : List (List ReqVal)) (hh : ∀ vs ∈ reqs, Plain c.base.model r p (matcher, vs)) :
    (batchEnforceWithMatcher lib matcher reqs c).1 =
      reqs.mapM (fun vs => (c.base.enforceWithMatcher lib matcher vs).1) ∧
    (batchEnforceWithMatcher lib matcher reqs c).2.cache = c.cache ∧
    (batchEnforceWithMatcher lib matcher reqs c).2.enableCache = c.enableCache :=
  ⟨C12_batch hC hen he matcher reqs hh, rfl, rfl⟩

example : (batchEnforce miniLib [[.str c!"alice", .str c!"data1", .str c!"read"],
      [.str c!"bob", .str c!"data1", .str c!"read"]]
      (asks miniLib [([], [c!"bob", c!"data1", c!"read"].map ReqVal.str)] (.new (acl [alice])))).1
    = [[.str c!"alice", .str c!"data1", .str c!"read"],
      [.str c!"bob", .str c!"data1", .str c!"read"]].mapM
        (fun vs => ((acl [alice]).enforce miniLib vs).1) := by
  refine C129_batch_partial (r := rA) (p := pA (.vector [alice])) (e := eA)
    (consistent_acl _ _) rfl rfl (c := .new (acl [alice])) rfl rfl _ ?_ _ ?_
  · intro q hq
    rw [List.mem_singleton.mp hq]
    exact ⟨safe_strings (by decide), plain_acl _ _ rfl⟩
  · intro q hq
    rcases List.mem_pair.mp hq with rfl | rfl
    · exact ⟨safe_strings (vs := [c!"alice", c!"data1", c!"read"]) (by decide),
        plain_acl _ [c!"alice", c!"data1", c!"read"] rfl⟩
    · exact ⟨safe_strings (vs := [c!"bob", c!"data1", c!"read"]) (by decide),
        plain_acl _ [c!"bob", c!"data1", c!"read"] rfl⟩

omit [IterOrder] in
/-- C129 fails for values with the separator: within one batch a request is granted that is denied on
its own. -/
theorem C129_batch_fails :
    letI := insertionOrder
    let E := acl [[c!"a$$b", c!"c", c!"d"]]
    let q := [ReqVal.str c!"a", .str c!"b$$c", .str c!"d"]
    (E.enforce miniLib q).1 = .ok false ∧
    (batchEnforce miniLib [[.str c!"a$$b", .str c!"c", .str c!"d"], q] (.new E)).1 =
      .ok [true, true] := by
  refine ⟨?_, ?_⟩ <;> decide +kernel

omit [IterOrder] in
/-- C129 fails after a change of the rules: the same batch gets different answers from `BatchEnforce`
and from `BatchEnforceWithMatcher` with the model's matcher: only the former looks into the cache. -/
theorem C129_stale_fails :
    letI := insertionOrder
    let q := [ReqVal.str c!"alice", .str c!"data1", .str c!"read"]
    let c := (inherited (Enforcer.removePolicy alice) (batchEnforce miniLib [q] (.new (acl [alice]))).2).2
    (batchEnforce miniLib [q] c).1 = .ok [true] ∧
    (batchEnforceWithMatcher miniLib [] [q] c).1 = .ok [false] := by
  refine ⟨?_, ?_⟩ <;> decide +kernel

end CachedProps
end Casbin
