import Verif.World
import Verif.Cached

/-!
# Several caching enforcers

A caching enforcer can be copied and moved from. The enforcer it extends is copied member by member, so
the copies hold the same model, adapter, watcher and, if there is one yet, evaluator (World.lean); the
map of answers is a map of the copy's own.
-/

namespace Casbin

/-- The objects of World.lean, each a caching enforcer, with the members `m` and `enableCache` of each
(include/casbin/enforcer_cached.h 28–29). -/
structure CachedWorld where
  world : World
  maps : List (UMap Str Bool × Bool)

namespace CachedWorld

/-- A constructor that is given a model and an adapter (enforcer_cached.cpp 69–72 and the like). -/
def make [IterOrder] (m : Model) (a : Option Adapter) : M CachedWorld Unit := fun C =>
  ((World.make m a C.world).1,
    { world := (World.make m a C.world).2, maps := C.maps ++ [([], true)] })

/-- Run a method of caching enforcer `i` on what its members point to and write that back. -/
def onCached {α : Type} (i : Nat) (f : M CachedEnforcer α) : M CachedWorld α := fun C =>
  match C.world.objs[i]?, C.maps[i]? with
  | some (some o), some x =>
    match C.world.view o with
    | some E =>
      let r := f { base := E, cache := x.1, enableCache := x.2 }
      (r.1, { world := C.world.store i o r.2.base,
              maps := C.maps.set i (r.2.cache, r.2.enableCache) })
    | none => (.ub .nullDeref, C)
  | _, _ => (.ub .nullDeref, C)

/-- The copy constructor (enforcer_cached.cpp 105–109). -/
def copy (i : Nat) : M CachedWorld Unit := fun C =>
  match C.maps[i]? with
  | some x =>
    match World.copy i C.world with
    | (.ok _, W) => (.ok (), { world := W, maps := C.maps ++ [x] })
    | (o, _) => (o, C)
  | none => (.ub .nullDeref, C)

/-- The move constructor (enforcer_cached.cpp 111–115). Its argument has a name, so `Enforcer(ce)` is the
copy constructor; only the map is moved, and the standard library leaves it empty. -/
def move (i : Nat) : M CachedWorld Unit := fun C =>
  match C.maps[i]? with
  | some x =>
    match World.copy i C.world with
    | (.ok _, W) => (.ok (), { world := W, maps := C.maps.set i ([], x.2) ++ [x] })
    | (o, _) => (o, C)
  | none => (.ub .nullDeref, C)

variable [IterOrder]

/-- `EnforceWithMatcher` of enforcer `i`. -/
def ask (lib : ExprLib) (i : Nat) (matcher : Str) (vals : List ReqVal) : M CachedWorld Bool :=
  onCached i (CachedEnforcer.enforceWithMatcher lib matcher vals)

/-- A call of a method that does not use the map (`Method` in Calls.lean; requests as `Enforcer`'s own
methods answer them). `GetImplicitUsersForPermission` is `users` below. -/
def call (lib : ExprLib) (i : Nat) (c : Method) : M CachedWorld Answer := fun C =>
  ((World.call lib i c C.world).1, { C with world := (World.call lib i c C.world).2 })

/-- What a program does with its caching enforcers. -/
inductive Op
  | copy (i : Nat) | move (i : Nat)
  | ask (i : Nat) (matcher : Str) (vals : List ReqVal)
  | askMap (i : Nat) (vals : UMap Str ReqVal)
  | batch (i : Nat) (rs : List (List ReqVal))
  | users (i : Nat) (perm : List Str)
  | call (i : Nat) (c : Method)
  | enable (i : Nat) (b : Bool)
  | invalidate (i : Nat)

/-- The effect of an operation; what it returns is dropped. -/
def Op.run (lib : ExprLib) : Op → CachedWorld → CachedWorld
  | copy i, C => (CachedWorld.copy i C).2
  | move i, C => (CachedWorld.move i C).2
  | ask i m vs, C => (CachedWorld.ask lib i m vs C).2
  | askMap i vs, C => (onCached i (CachedEnforcer.enforceMap lib vs) C).2
  | batch i rs, C => (onCached i (CachedEnforcer.batchEnforce lib rs) C).2
  | users i perm, C => (onCached i (CachedEnforcer.getImplicitUsersForPermission lib perm) C).2
  | call i c, C => (CachedWorld.call lib i c C).2
  | enable i b, C => (onCached i (CachedEnforcer.setEnableCache b) C).2
  | invalidate i, C => (onCached i CachedEnforcer.invalidateCache C).2

/-- One operation after the other; the program goes on after an exception. -/
def runs (lib : ExprLib) : List Op → CachedWorld → CachedWorld
  | [], C => C
  | o :: os, C => runs lib os (o.run lib C)

end CachedWorld
end Casbin
