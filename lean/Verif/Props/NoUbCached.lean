import Verif.Props.NoUb
import Verif.Cached

/-!
# C172 for the caching enforcer

The methods that go through the map (enforcer_cached.cpp) need what those of `Enforcer` need, and the map
adds no undefined behaviour, whatever is in it.
-/

set_option linter.unusedSectionVars false

namespace Casbin
namespace Safe

open Enforcer

variable [IterOrder] {S : Shape} {lib : ExprLib}

/-- What is done with a caching enforcer. -/
inductive Use
  | ask (matcher : Str) (vals : List ReqVal)
  | askMap (vals : UMap Str ReqVal)
  | batch (rs : List (List ReqVal))
  | users (perm : List Str)
  | enable (b : Bool)
  | invalidate
  | inherited (c : Method)

/-- The call (Cached.lean, where the lines of the source are given). -/
def Use.run (lib : ExprLib) : Use → M CachedEnforcer Answer
  | .ask m vs => do let b ← CachedEnforcer.enforceWithMatcher lib m vs; pure (.bool b)
  | .askMap vs => do let b ← CachedEnforcer.enforceMap lib vs; pure (.bool b)
  | .batch rs => do let bs ← CachedEnforcer.batchEnforce lib rs; pure (.bools bs)
  | .users perm => do let ns ← CachedEnforcer.getImplicitUsersForPermission lib perm; pure (.names ns)
  | .enable b => do CachedEnforcer.setEnableCache b; pure .done
  | .invalidate => do CachedEnforcer.invalidateCache; pure .done
  | .inherited c => CachedEnforcer.inherited (c.run lib)

/-- The call of `Enforcer` whose needs it has; none for the switches of the map. -/
def Use.plain : Use → Option Method
  | .ask m vs => some (.ask m vs)
  | .askMap vs => some (.askMap [] vs [])
  | .batch rs => some (.batch [] rs)
  | .users perm => some (.implicitUsers perm)
  | .enable _ | .invalidate => none
  | .inherited c => some c

/-- What the call needs of the enforcer. -/
def UseNeeds (S : Shape) (E : Enforcer) (u : Use) : Prop := ∀ c, u.plain = some c → Needs S E c

/-- How each call of a history ends. -/
def useAnswers (lib : ExprLib) : List Use → CachedEnforcer → List (Outcome Answer)
  | [], _ => []
  | u :: us, C => (u.run lib C).1 :: useAnswers lib us (u.run lib C).2

/-- The caching enforcer after a history. -/
def usesAfter (lib : ExprLib) : List Use → CachedEnforcer → CachedEnforcer
  | [], C => C
  | u :: us, C => usesAfter lib us (u.run lib C).2

/-- Every call has what it needs when its turn comes. -/
def CarefulUses (S : Shape) (lib : ExprLib) : CachedEnforcer → List Use → Prop
  | _, [] => True
  | C, u :: us => UseNeeds S C.base u ∧ CarefulUses S lib (u.run lib C).2 us

/-! ## Helpers -/

section
variable {α : Type} {P : Enforcer → Prop}

omit [IterOrder] in
theorem fine_inherited {f : M Enforcer α} (h : Fine P f) : Fine (fun C => P C.base) (CachedEnforcer.inherited f) :=
  fun C hC => h C.base hC

omit [IterOrder] in
theorem fine_throughCache (k : Str) {f : M Enforcer Bool} (h : Fine P f) :
    Fine (fun C => P C.base) (CachedEnforcer.throughCache k f) := by
  refine .get fun C _ => .ite (fun _ => ?_) fun _ => fine_inherited h
  cases C.cache.get k with
  | some b => exact .pure b
  | none => exact .bind (fine_inherited h) fun b => .bind (.modify fun _ h => h) fun _ => .pure b

theorem fine_cachedBatch (h : ∀ vals, Fine P (Enforcer.enforceWithMatcher lib [] vals)) :
    ∀ rs, Fine (fun C => P C.base) (CachedEnforcer.batchEnforce lib rs)
  | [] => .pure _
  | r :: rs => .bind (fine_throughCache _ (h r)) fun _ => .bind (fine_cachedBatch h rs) fun _ => .pure _

theorem fine_cachedUsers (h : ∀ vals, Fine P (Enforcer.enforceWithMatcher lib [] vals)) {perm : List Str}
    (hp : 2 ≤ perm.length) : ∀ ss, Fine (fun C => P C.base) (CachedEnforcer.implicitUsersLoop lib perm ss)
  | [] => .pure _
  | s :: ss => .bind (.lift (noUb_vecAt (by omega))) fun _ => .bind (.lift (noUb_vecAt (by omega))) fun _ =>
    .bind (fine_throughCache _ (h _)) fun _ => .bind (fine_cachedUsers h hp ss) fun _ => .pure _
end

/-! ## The theorems -/

/-- C172, one call of the caching enforcer. -/
theorem C172_cached_call (hlib : SafeLib lib) {C : CachedEnforcer} (h : Good S C.base) {u : Use}
    (hu : UseNeeds S C.base u) : (∀ x, (u.run lib C).1 ≠ .ub x) ∧ Good S (u.run lib C).2.base := by
  obtain ⟨n, hn⟩ := h
  have fin : ∀ {f : M CachedEnforcer Answer}, Fine (fun C => Inv S False False n C.base) f →
      (∀ x, (f C).1 ≠ .ub x) ∧ Good S (f C).2.base := fun hf => ⟨(hf C hn).1, n, (hf C hn).2⟩
  cases u with
  | ask m vs => exact fin (.bind (fine_throughCache _ (fine_ask hlib (hu _ rfl) _ _)) fun _ => .pure _)
  | askMap vs =>
    have := hu _ rfl
    exact fin (.bind (fine_throughCache _ (.bind (fine_enforceExMap hlib this.1 _ this.2 _) fun _ => .pure _))
      fun _ => .pure _)
  | batch rs => exact fin (.bind (fine_cachedBatch (fun _ => fine_ask hlib (hu _ rfl) _ _) rs) fun _ => .pure _)
  | users perm =>
    obtain ⟨h1, h2, h3, h4⟩ := hu _ rfl
    exact fin (.bind (.bind (fine_inherited (fine_onModel (fine_allValues h2))) fun _ =>
      .bind (fine_inherited (fine_onModel (fine_allValues h3))) fun _ =>
      .bind (fine_inherited (fine_onModel (fine_allValues fun t => Nat.lt_of_succ_lt (h3 t)))) fun _ =>
      .bind (fine_cachedUsers (fun _ => fine_ask hlib h1 _ _) h4 _) fun _ => .pure _) fun _ => .pure _)
  | enable b => exact fin (.bind (.modify fun _ h => h) fun _ => .pure _)
  | invalidate => exact fin (.bind (.modify fun _ h => h) fun _ => .pure _)
  | inherited c => exact C172_call hlib ⟨n, hn⟩ (hu c rfl)

/-- C172 for the caching enforcer: no call of a careful history has undefined behaviour, whatever the map
holds at the start. -/
theorem C172_cached_history (hlib : SafeLib lib) : ∀ (us : List Use) {C : CachedEnforcer}, Good S C.base →
    CarefulUses S lib C us →
    (∀ o ∈ useAnswers lib us C, ∀ x, o ≠ .ub x) ∧ Good S (usesAfter lib us C).base
  | [], _, h, _ => ⟨fun _ h => (by cases h), h⟩
  | u :: us, C, h, hc => by
    obtain ⟨h1, h2⟩ := C172_cached_call hlib h hc.1
    obtain ⟨h3, h4⟩ := C172_cached_history hlib us h2 hc.2
    refine ⟨fun o ho => ?_, h4⟩
    rcases List.mem_cons.mp ho with rfl | ho
    · exact h1
    · exact h3 o ho

open Fixtures in
/-- From a map that holds an answer already. -/
example (b : Str) (x : Bool) :
    ∀ o ∈ useAnswers miniLib
        [.inherited (.edit (.add false c!"p" alice)), .ask [] [.str b, .str c!"data1", .str c!"read"],
          .inherited (.edit (.add true c!"g" [b, c!"alice"])), .batch [[.str b], [.json]], .invalidate,
          .inherited .buildRoleLinks, .users [c!"data1", c!"read"], .enable false, .ask [] []]
        ⟨(construct (rbacModel [] []) none).2, [(c!"$$$", x)], true⟩, ∀ u, o ≠ .ub u := by
  have hn := C172_new (S := rbacShape) (a := none)
    (fresh_rbac (P := []) (G := []) (by simp) (by simp)) (by simp)
  refine (C172_cached_history safe_miniLib _ (S := rbacShape) hn.2 ?_).1
  simp [CarefulUses, UseNeeds, Use.plain, Needs, EditNeeds, Edit.secOf, rbacShape, alice]

end Safe
end Casbin
