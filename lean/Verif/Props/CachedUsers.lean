import Verif.Props.CachedBatch
import Verif.Props.RbacApi

/-!
# C140: who has a permission, asked of the caching enforcer
-/

namespace Casbin
namespace CachedProps

open CachedEnforcer DecisionProps Fixtures RbacProps PolicyProps

variable [IterOrder] {lib : ExprLib} {E : Enforcer} {r p e : Assertion}

/-! ## Reading the section `g` makes an entry for it, which changes no answer -/

/-- The same with an entry for the section `g` in the model. -/
def withSec (c : CachedEnforcer) : CachedEnforcer := { c with base := withG c.base }

omit [IterOrder] in
theorem throughCache_withSec (k : Str) {ask : M Enforcer Bool}
    (h : ∀ E, ask (withG E) = ((ask E).1, withG (ask E).2)) (c : CachedEnforcer) :
    throughCache k ask (withSec c) = ((throughCache k ask c).1, withSec (throughCache k ask c).2) := by
  unfold throughCache
  simp only [M.bind_run, M.get_run, show (withSec c).enableCache = c.enableCache from rfl,
    show (withSec c).cache = c.cache from rfl]
  split
  · cases c.cache.get k with
    | some b => rfl
    | none =>
      simp only [inherited, M.bind_run, show (withSec c).base = withG c.base from rfl, h]
      rcases ask c.base with ⟨o, E'⟩
      cases o <;> rfl
  · simp only [inherited, show (withSec c).base = withG c.base from rfl, h]
    rfl

theorem enforce_withSec (vals : List ReqVal) (c : CachedEnforcer) :
    enforce lib vals (withSec c) = ((enforce lib vals c).1, withSec (enforce lib vals c).2) :=
  throughCache_withSec _ (fun E => enforce_withG lib vals E) c

theorem implicitUsersLoop_withSec (perm : List Str) (names : List Str) (c : CachedEnforcer) :
    implicitUsersLoop lib perm names (withSec c) =
      ((implicitUsersLoop lib perm names c).1, withSec (implicitUsersLoop lib perm names c).2) := by
  induction names generalizing c with
  | nil => rfl
  | cons s names ih =>
    unfold implicitUsersLoop
    simp only [M.bind_run, M.lift_run]
    cases vecAt perm 0 with
    | throw e => rfl
    | ub u => rfl
    | ok p0 =>
      cases vecAt perm 1 with
      | throw e => rfl
      | ub u => rfl
      | ok p1 =>
        simp only [enforce_withSec]
        rcases enforce lib [.str s, .str p0, .str p1] c with ⟨o, c'⟩
        cases o with
        | throw e => rfl
        | ub u => rfl
        | ok b =>
          simp only [ih]
          rcases implicitUsersLoop lib perm names c' with ⟨o, c''⟩
          cases o <;> rfl

/-- The call on a caching enforcer whose base differs from `E` in the evaluator only. -/
theorem users_run {c : CachedEnforcer} {ev : Option Evaluator} (hb : c.base = { E with eval := ev })
    {l1 l2 l3 : List Str} (a1 : Enforcer.getAllSubjects E = (.ok l1, E))
    (a2 : Enforcer.onModel (Model.getValuesForFieldAllTypes c!"g" 1) E = (.ok l2, withG E))
    (a3 : Enforcer.onModel (Model.getValuesForFieldAllTypes c!"g" 0) (withG E) = (.ok l3, withG E))
    (perm : List Str) :
    (getImplicitUsersForPermission lib perm c).1 =
      (implicitUsersLoop lib perm (arrayRemoveDuplicates (l1 ++ l3)) c).1.map
        fun l => setSubtract l l2 := by
  have moved : ∀ {α : Type} (f : M Model α) (E : Enforcer) (ev : Option Evaluator),
      Enforcer.onModel f { E with eval := ev } =
        ((Enforcer.onModel f E).1, { (Enforcer.onModel f E).2 with eval := ev }) := fun _ _ _ => rfl
  have b1 : Enforcer.getAllSubjects c.base = (.ok l1, c.base) := by
    have := moved (Model.getValuesForFieldAllTypes c!"p" 0) E ev
    unfold Enforcer.getAllSubjects at a1 ⊢
    rw [hb, this, a1]
  have b2 : Enforcer.onModel (Model.getValuesForFieldAllTypes c!"g" 1) c.base =
      (.ok l2, withG c.base) := by
    rw [hb, moved, a2]; rfl
  have b3 : Enforcer.onModel (Model.getValuesForFieldAllTypes c!"g" 0) (withG c.base) =
      (.ok l3, withG c.base) := by
    have := moved (Model.getValuesForFieldAllTypes c!"g" 0) (withG E) ev
    rw [a3] at this
    rw [hb]
    exact this
  have e1 : inherited Enforcer.getAllSubjects c = (.ok l1, c) := by
    unfold inherited; rw [b1]
  have e2 : inherited (Enforcer.onModel (Model.getValuesForFieldAllTypes c!"g" 1)) c =
      (.ok l2, withSec c) := by
    unfold inherited; rw [b2]; rfl
  have e3 : inherited (Enforcer.onModel (Model.getValuesForFieldAllTypes c!"g" 0)) (withSec c) =
      (.ok l3, withSec c) := by
    unfold inherited
    rw [show (withSec c).base = withG c.base from rfl, b3]; rfl
  unfold getImplicitUsersForPermission
  simp only [M.bind_run, e1, e2, e3, implicitUsersLoop_withSec]
  rcases implicitUsersLoop lib perm (arrayRemoveDuplicates (l1 ++ l3)) c with ⟨o, c'⟩
  cases o <;> rfl

/-! ## C140 -/

theorem loop_good (hC : Consistent lib E r p) (hen : E.enabled = true)
    (he : E.model.find c!"e" c!"e" = some e) (o a : Str) : ∀ (names : List Str) (c : CachedEnforcer)
    (ev : Option Evaluator), Good lib E r p c → Consistent lib { E with eval := ev } r p →
    (∀ s ∈ names, SafeReq ([], [.str s, .str o, .str a]) ∧
      Plain E.model r p ([], [.str s, .str o, .str a])) →
    (implicitUsersLoop lib [o, a] names c).1 =
      (Enforcer.implicitUsersLoop lib [o, a] names { E with eval := ev }).1 := by
  intro names
  induction names with
  | nil => intro c ev _ _ _; rfl
  | cons s names ih =>
    intro c ev hg hC' hh
    obtain ⟨h1, h2⟩ := good_step hC hen he hg (hh s (by simp)).1 (hh s (by simp)).2
    obtain ⟨ev1, h3, h4⟩ := plain_step hC hC' hen he (hh s (by simp)).2 []
    have hrun : ({ E with eval := ev } : Enforcer).enforce lib [.str s, .str o, .str a]
        = ((E.enforceWithMatcher lib [] [.str s, .str o, .str a]).1, { E with eval := ev1 }) := by
      simp only [Enforcer.enforce, Enforcer.enforceWithMatcher, M.bind_run]
      simp only [] at h3
      rw [h3]
      rcases hx : E.enforceEx lib [] [.str s, .str o, .str a] [] with ⟨ox, sx⟩
      cases ox <;> rfl
    simp only [implicitUsersLoop, Enforcer.implicitUsersLoop, M.bind_run, M.lift_run, vecAt,
      List.getElem?_cons_zero, List.getElem?_cons_succ, hrun, enforce, ← h1]
    dsimp only at h2 ⊢
    cases hx : enforceWithMatcher lib [] [.str s, .str o, .str a] c with
    | mk ox c' =>
      rw [hx] at h2
      cases ox with
      | throw x => rfl
      | ub u => rfl
      | ok b =>
        have := ih c' ev1 h2 h4 (fun t ht => hh t (by simp [ht]))
        dsimp only
        rcases h5 : implicitUsersLoop lib [o, a] names c' with ⟨o1, c1⟩
        rcases h6 : Enforcer.implicitUsersLoop lib [o, a] names { E with eval := ev1 } with ⟨o2, E2⟩
        rw [h5, h6] at this
        dsimp only at this
        subst this
        cases o1 <;> rfl

/-- C140 (partial): whatever was asked before, the caching enforcer lists the users that the enforcer
without the cache lists, or throws the same exception. Missing: changes of the rules since the map was
emptied (`C140_fails`, `C140_stored`), and the requests missing in C48. -/
theorem C140_users_partial (hC : Consistent lib E r p) (hen : E.enabled = true)
    (he : E.model.find c!"e" c!"e" = some e) {c : CachedEnforcer} (hb : c.base = E)
    (hc : c.cache = []) (hist : List (Str × List ReqVal))
    (hh : ∀ q ∈ hist, SafeReq q ∧ Plain E.model r p q)
    (hlp : ∀ pt rs, Stored E c!"p" pt rs → ∀ r ∈ rs, 0 < r.length)
    (hlg : ∀ pt rs, Stored E c!"g" pt rs → ∀ r ∈ rs, 1 < r.length) (o a : Str)
    (hr : ∀ s, Occurs E c!"p" 0 s ∨ Occurs E c!"g" 0 s →
      SafeReq ([], [.str s, .str o, .str a]) ∧ Plain E.model r p ([], [.str s, .str o, .str a])) :
    (getImplicitUsersForPermission lib [o, a] (asks lib hist c)).1 =
      (E.getImplicitUsersForPermission lib [o, a]).1 := by
  obtain ⟨l1, l2, l3, a1, a2, a3, h1, h2⟩ := implicitUsers_reads hC.defs.findP hlp hlg
  have hg := asks_good hC hen he hist c
    ⟨⟨E.eval, hb, hC⟩, by intro q b _ _ h; rw [hc] at h; simp [UMap.get] at h⟩ hh
  obtain ⟨ev, hbase, -⟩ := hg.base
  rw [users_run hbase a1 a2 a3, loop_good hC hen he o a _ _ E.eval hg hC
    (fun s hs => hr s ((h1 s).mp hs))]
  simp only [Enforcer.getImplicitUsersForPermission, M.bind_run, a1, a2, a3, implicitUsersLoop_withG]
  rw [show ({ E with eval := E.eval } : Enforcer) = E from rfl]
  rcases Enforcer.implicitUsersLoop lib [o, a] (arrayRemoveDuplicates (l1 ++ l3)) E with ⟨ox, E'⟩
  cases ox <;> rfl

/-- C140 while the cache is switched off: the list of the enforcer as it is. -/
theorem C140_off {c : CachedEnforcer} (h : c.enableCache = false) (perm : List Str) :
    getImplicitUsersForPermission lib perm c =
      ((c.base.getImplicitUsersForPermission lib perm).1,
        { c with base := (c.base.getImplicitUsersForPermission lib perm).2 }) := by
  have loop : ∀ (names : List Str) (c : CachedEnforcer), c.enableCache = false →
      implicitUsersLoop lib perm names c =
        ((Enforcer.implicitUsersLoop lib perm names c.base).1,
          { c with base := (Enforcer.implicitUsersLoop lib perm names c.base).2 }) := by
    intro names
    induction names with
    | nil => intro c _; rfl
    | cons s names ih =>
      intro c h
      have he : ∀ vals, enforce lib vals c = ((Enforcer.enforce lib vals c.base).1,
          { c with base := (Enforcer.enforce lib vals c.base).2 }) := by
        intro vals
        have : throughCache (key [] vals) (Enforcer.enforceWithMatcher lib [] vals) c =
            inherited (Enforcer.enforceWithMatcher lib [] vals) c := by
          simp [throughCache, M.bind_run, h]
        exact this
      unfold implicitUsersLoop Enforcer.implicitUsersLoop
      simp only [M.bind_run, M.lift_run]
      cases vecAt perm 0 with
      | throw e => rfl
      | ub u => rfl
      | ok p0 =>
        cases vecAt perm 1 with
        | throw e => rfl
        | ub u => rfl
        | ok p1 =>
          simp only [he]
          rcases Enforcer.enforce lib [.str s, .str p0, .str p1] c.base with ⟨o, E'⟩
          cases o with
          | throw e => rfl
          | ub u => rfl
          | ok b =>
            simp only [ih { c with base := E' } h]
            rcases Enforcer.implicitUsersLoop lib perm names E' with ⟨o, E''⟩
            cases o <;> rfl
  unfold getImplicitUsersForPermission Enforcer.getImplicitUsersForPermission
  simp only [M.bind_run, inherited]
  rcases Enforcer.getAllSubjects c.base with ⟨o1, E1⟩
  cases o1 with
  | throw e => rfl
  | ub u => rfl
  | ok l1 =>
    dsimp only
    rcases Enforcer.onModel (Model.getValuesForFieldAllTypes c!"g" 1) E1 with ⟨o2, E2⟩
    cases o2 with
    | throw e => rfl
    | ub u => rfl
    | ok l2 =>
      dsimp only
      rcases Enforcer.onModel (Model.getValuesForFieldAllTypes c!"g" 0) E2 with ⟨o3, E3⟩
      cases o3 with
      | throw e => rfl
      | ub u => rfl
      | ok l3 =>
        dsimp only
        rw [loop _ { c with base := E3 } h]
        dsimp only
        rcases Enforcer.implicitUsersLoop lib perm (arrayRemoveDuplicates (l1 ++ l3)) E3 with ⟨o4, E4⟩
        cases o4 <;> rfl

/-- What the code does when every request is stored: the list is made of the stored answers, whatever
the rules now say. -/
theorem C140_stored {c : CachedEnforcer} (hp : c.base.model.find c!"p" c!"p" = some p)
    (hon : c.enableCache = true)
    (hlp : ∀ pt rs, Stored c.base c!"p" pt rs → ∀ r ∈ rs, 0 < r.length)
    (hlg : ∀ pt rs, Stored c.base c!"g" pt rs → ∀ r ∈ rs, 1 < r.length) (o a : Str)
    (stored : Str → Bool)
    (hs : ∀ s, Occurs c.base c!"p" 0 s ∨ Occurs c.base c!"g" 0 s →
      c.cache.get (key [] [.str s, .str o, .str a]) = some (stored s)) :
    ∃ res, (getImplicitUsersForPermission lib [o, a] c).1 = .ok res ∧
      ∀ s, s ∈ res ↔ (Occurs c.base c!"p" 0 s ∨ Occurs c.base c!"g" 0 s) ∧
        ¬ Occurs c.base c!"g" 1 s ∧ stored s = true := by
  obtain ⟨l1, l2, l3, a1, a2, a3, h1, h2⟩ := implicitUsers_reads hp hlp hlg
  have loop : ∀ names : List Str, (∀ s ∈ names,
      c.cache.get (key [] [.str s, .str o, .str a]) = some (stored s)) →
      implicitUsersLoop lib [o, a] names c = (.ok (names.filter stored), c) := by
    intro names
    induction names with
    | nil => intro _; rfl
    | cons s names ih =>
      intro h
      have he : enforce lib [.str s, .str o, .str a] c = (.ok (stored s), c) := by
        simp [enforce, enforceWithMatcher, throughCache, M.bind_run, hon, h s (by simp)]
      simp only [implicitUsersLoop, M.bind_run, M.lift_run, vecAt,
        List.getElem?_cons_zero, List.getElem?_cons_succ, he,
        ih (fun t ht => h t (by simp [ht]))]
      cases hst : stored s <;> simp [hst]
  refine ⟨_, (users_run (ev := c.base.eval) (E := c.base) rfl a1 a2 a3 [o, a]).trans
    (congrArg _ (congrArg Prod.fst (loop _ fun s hs' => hs s ((h1 s).mp hs')))), ?_⟩
  intro s
  simp only [setSubtract, List.mem_filter, h1, h2, Bool.not_eq_true', decide_eq_false_iff_not]
  tauto

omit [IterOrder] in
/-- C140 is false after a change of the rules: `alice` may no longer read, but has been asked about
before. -/
theorem C140_fails :
    letI := insertionOrder
    let E := acl [alice, [c!"alice", c!"data2", c!"write"]]
    let c := (inherited (Enforcer.removePolicy alice)
      (enforce miniLib (alice.map .str) (.new E)).2).2
    (getImplicitUsersForPermission miniLib [c!"data1", c!"read"] c).1 = .ok [c!"alice"] ∧
    (c.base.getImplicitUsersForPermission miniLib [c!"data1", c!"read"]).1 = .ok [] := by
  refine ⟨?_, ?_⟩ <;> decide +kernel

/-- Non-vacuity of C140: `alice` was asked about before. -/
example : (getImplicitUsersForPermission miniLib [c!"data1", c!"read"]
      (asks miniLib [([], alice.map ReqVal.str)] (.new (acl [alice])))).1 =
    ((acl [alice]).getImplicitUsersForPermission miniLib [c!"data1", c!"read"]).1 := by
  have hst : ∀ pt rs, Stored (acl [alice]) c!"p" pt rs → rs = [alice] := by
    rintro pt rs ⟨x, hx, rfl⟩
    by_cases h : c!"p" = pt
    · subst h
      have h : (acl [alice]).model.find c!"p" c!"p" = some (pA (.vector [alice])) := rfl
      rw [h] at hx; cases hx
      rfl
    · simp [acl, Model.find, enforcer, aclModel, pDef, rDef, UMap.get, h] at hx
  have hg : ∀ pt rs, ¬ Stored (acl [alice]) c!"g" pt rs := by
    rintro pt rs ⟨x, hx, rfl⟩
    simp [acl, Model.find, enforcer, aclModel, UMap.get] at hx
  refine C140_users_partial (r := rA) (p := pA (.vector [alice])) (e := eA) (consistent_acl _ _) rfl rfl
    (c := .new (acl [alice])) rfl rfl _ ?_ (fun pt rs h => by rw [hst _ _ h]; decide)
    (fun pt rs h => absurd h (hg _ _)) _ _ ?_
  · intro q hq
    rw [List.mem_singleton.mp hq]
    exact ⟨safe_strings (by decide), plain_acl _ _ rfl⟩
  · rintro s (⟨pt, rs, h, x, hx, h0⟩ | ⟨pt, rs, h, _⟩)
    · rw [hst _ _ h] at hx
      obtain rfl := List.mem_singleton.mp hx
      obtain rfl : c!"alice" = s := by simpa [alice] using h0
      exact ⟨safe_strings (vs := [c!"alice", c!"data1", c!"read"]) (by decide),
        plain_acl _ [c!"alice", c!"data1", c!"read"] rfl⟩
    · exact absurd h (hg _ _)

/-- And is listed. -/
example : letI := insertionOrder
    (getImplicitUsersForPermission miniLib [c!"data1", c!"read"]
      (asks miniLib [([], alice.map ReqVal.str)] (.new (acl [alice])))).1 = .ok [c!"alice"] := by
  decide +kernel

/-- Non-vacuity of `C140_stored`: the state of `C140_fails`. -/
example : letI := insertionOrder
    let c := (inherited (Enforcer.removePolicy alice)
      (enforce miniLib (alice.map .str) (.new (acl [alice, [c!"alice", c!"data2", c!"write"]]))).2).2
    c.enableCache = true ∧ (c.base.model.find c!"p" c!"p").isSome = true ∧
    c.cache.get (key [] [.str c!"alice", .str c!"data1", .str c!"read"]) = some true := by
  refine ⟨?_, ?_, ?_⟩ <;> decide +kernel

end CachedProps
end Casbin
