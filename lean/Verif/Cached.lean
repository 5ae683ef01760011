import Verif.Enforcer

/-!
# The caching enforcer

Models `casbin/enforcer_cached.cpp`, used from one thread: the mutex `locker` is held for the look-up
or the store only and never while other code runs, so it is left out.
-/

namespace Casbin

/-- `class CachedEnforcer` (include/casbin/enforcer_cached.h 26–31): the enforcer it extends, the
map `m`, and `enableCache`. -/
structure CachedEnforcer where
  base : Enforcer
  cache : UMap Str Bool
  enableCache : Bool

namespace CachedEnforcer

/-- The constructors (enforcer_cached.cpp 36–102). -/
def new (E : Enforcer) : CachedEnforcer := { base := E, cache := [], enableCache := true }

/-- A method inherited from `Enforcer` that asks no request. None of them is overridden, and none
touches the map. -/
def inherited {α : Type} (f : M Enforcer α) : M CachedEnforcer α := fun c =>
  ((f c.base).1, { c with base := (f c.base).2 })

/-- `EnableCache` (enforcer_cached.cpp 117–119). -/
def setEnableCache (b : Bool) : M CachedEnforcer Unit := M.modify fun c => { c with enableCache := b }

/-- `InvalidateCache` (enforcer_cached.cpp 140–142). -/
def invalidateCache : M CachedEnforcer Unit := M.modify fun c => { c with cache := [] }

/-- What a value adds to the key: a JSON value nothing (enforcer_cached.cpp 183–185). -/
def valueText : ReqVal → Str
  | .str s => s
  | .json => []

/-- The key of a request (enforcer_cached.cpp 181–188, 209–216). -/
def key (matcher : Str) (vals : List ReqVal) : Str :=
  (vals.flatMap fun v => valueText v ++ c!"$$") ++ matcher ++ c!"$"

/-- The key of a request given as a map, in the order of the container (enforcer_cached.cpp
237–244): the names are not part of it. -/
def mapKey [IterOrder] (matcher : Str) (vals : UMap Str ReqVal) : Str :=
  key matcher ((IterOrder.iter vals).map Prod.snd)

/-- Look the key up, or ask and store the answer (enforcer_cached.cpp 177–179, 190–198 and the like;
with `getCachedResult`, 121–132, and `setCachedResult`, 134–138). An exception leaves before storing. -/
def throughCache (k : Str) (ask : M Enforcer Bool) : M CachedEnforcer Bool := do
  let c ← M.get
  if c.enableCache then
    match c.cache.get k with
    | some b => pure b
    | none => do
      let b ← inherited ask
      M.modify fun c => { c with cache := c.cache.set k b }
      pure b
  else inherited ask

variable [IterOrder]

/-- `EnforceWithMatcher` for a vector or a list (enforcer_cached.cpp 176–227). -/
def enforceWithMatcher (lib : ExprLib) (matcher : Str) (vals : List ReqVal) : M CachedEnforcer Bool :=
  throughCache (key matcher vals) (Enforcer.enforceWithMatcher lib matcher vals)

/-- `Enforce` for a vector or a list (enforcer_cached.cpp 150–158). -/
def enforce (lib : ExprLib) (vals : List ReqVal) : M CachedEnforcer Bool :=
  enforceWithMatcher lib [] vals

/-- `Enforce` for a map (enforcer_cached.cpp 162–164, 232–255). -/
def enforceMap (lib : ExprLib) (vals : UMap Str ReqVal) : M CachedEnforcer Bool :=
  throughCache (mapKey [] vals) (Enforcer.enforceMap lib vals)

/-- `BatchEnforce` (enforcer.cpp 675–683): `Enforce` for a list is virtual (enforcer.h 162), so this
is the overriding one. -/
def batchEnforce (lib : ExprLib) : List (List ReqVal) → M CachedEnforcer (List Bool)
  | [] => pure []
  | r :: rs => do
    let b ← enforce lib r
    let bs ← batchEnforce lib rs
    pure (b :: bs)

/-- `BatchEnforceWithMatcher` (enforcer.cpp 686–693): `EnforceWithMatcher` for a list is not virtual
(enforcer.h 172), so this does not use the map. -/
def batchEnforceWithMatcher (lib : ExprLib) (matcher : Str) (rs : List (List ReqVal)) :
    M CachedEnforcer (List Bool) :=
  inherited (Enforcer.batchEnforceWithMatcher lib matcher rs)

/-- The loop of `GetImplicitUsersForPermission` (rbac_api.cpp 237–243): `Enforce` for a list is virtual,
so its requests go through the map. -/
def implicitUsersLoop (lib : ExprLib) (perm : List Str) : List Str → M CachedEnforcer (List Str)
  | [] => pure []
  | s :: ss => do
    let p0 ← M.lift (vecAt perm 0)
    let p1 ← M.lift (vecAt perm 1)
    let b ← enforce lib [.str s, .str p0, .str p1]
    let rest ← implicitUsersLoop lib perm ss
    pure (if b then s :: rest else rest)

/-- `GetImplicitUsersForPermission` (rbac_api.cpp 227–247). -/
def getImplicitUsersForPermission (lib : ExprLib) (perm : List Str) : M CachedEnforcer (List Str) := do
  let pSubjects ← inherited Enforcer.getAllSubjects
  let gInherit ← inherited (Enforcer.onModel (Model.getValuesForFieldAllTypes c!"g" 1))
  let gSubjects ← inherited (Enforcer.onModel (Model.getValuesForFieldAllTypes c!"g" 0))
  let subjects := arrayRemoveDuplicates (pSubjects ++ gSubjects)
  let res ← implicitUsersLoop lib perm subjects
  pure (setSubtract res gInherit)

end CachedEnforcer
end Casbin
