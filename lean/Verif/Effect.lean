import Verif.Base

/-!
# Effector and the rule loop of `m_enforce`

Models `casbin/effect/default_effector.cpp` and the rule loop of
`casbin/enforcer.cpp` (`Enforcer::m_enforce`, lines 99–183).
-/

namespace Casbin

/-- `enum class Effect` (casbin/effect/effect.h). -/
inductive Effect
  | allow
  | indeterminate
  | deny
  deriving DecidableEq, Repr

/-- The four supported effect expressions (default_effector.cpp 34, 45, 58, 87). -/
def exprAllowOverride : Str := c!"some(where (p.eft == allow))"
def exprDenyOverride : Str := c!"!some(where (p.eft == deny))"
def exprAllowAndDeny : Str := c!"some(where (p.eft == allow)) && !some(where (p.eft == deny))"
def exprPriority : Str := c!"priority(p.eft) || deny"

/-- default_effector.cpp 74–85: the forward scan for the first matched allow.
`i` is the index of the head of the lists. -/
def scanAllow : List Effect → List Bool → Nat → Outcome (Effect × Option Nat)
  | [], _, _ => .ok (.indeterminate, none)
  | _ :: _, [], _ => .ub .outOfBounds
  | e :: es, m :: ms, i =>
    if m = false then scanAllow es ms (i + 1)
    else if e = .allow then .ok (.allow, some i)
    else scanAllow es ms (i + 1)

/-- default_effector.cpp 89–103: the backward scan of the priority effect, over the indices
below the argument. -/
def scanBack (effects : List Effect) (matchs : List Bool) : Nat → Outcome (Effect × Option Nat)
  | 0 => .ok (.indeterminate, none)
  | i + 1 => do
    let m ← vecAt matchs i
    if m = false then scanBack effects matchs i
    else do
      let e ← vecAt effects i
      if e ≠ .indeterminate then
        if e = .allow then .ok (.allow, some i) else .ok (.deny, some i)
      else scanBack effects matchs i

/-- `DefaultEffector::MergeEffects` (default_effector.cpp 30–110). The floats in `matches`
are only ever 0 or 1 and are modelled by booleans; `explainIndex = -1` is `none`. -/
def mergeEffects (expr : Str) (effects : List Effect) (matchs : List Bool)
    (policyIndex policyLength : Nat) : Outcome (Effect × Option Nat) :=
  if expr = exprAllowOverride then do
    let m ← vecAt matchs policyIndex
    if m = false then .ok (.indeterminate, none)
    else do
      let e ← vecAt effects policyIndex
      if e = .allow then .ok (.allow, some policyIndex) else .ok (.indeterminate, none)
  else if expr = exprDenyOverride then do
    let m ← vecAt matchs policyIndex
    let hit ← if m = true then (vecAt effects policyIndex).map (decide <| · = Effect.deny)
              else .ok false
    if hit then .ok (.deny, some policyIndex)
    else if policyIndex + 1 = policyLength then .ok (.allow, none)
    else .ok (.indeterminate, none)
  else if expr = exprAllowAndDeny then do
    let m ← vecAt matchs policyIndex
    let hit ← if m = true then (vecAt effects policyIndex).map (decide <| · = Effect.deny)
              else .ok false
    if hit then .ok (.deny, some policyIndex)
    else if policyIndex + 1 < policyLength then .ok (.indeterminate, none)
    else scanAllow effects matchs 0
  else if expr = exprPriority then scanBack effects matchs effects.length
  else .throw .unsupported

/-- The loop over the candidate rules, enforcer.cpp 104–181. `step r` evaluates the matcher
for rule `r` and returns whether it matched and the effect of the rule (lines 106–172);
`effects`/`matchs` are the two vectors allocated at lines 100–101, `idx` is `policy_index`,
`len` is `policy_len`, `last` is the pair `(effect, explainIndex)` written by the previous
call of MergeEffects (uninitialised before the first). -/
def ruleLoop {σ : Type} (step : Rule → M σ (Bool × Effect)) (expr : Str) (len : Nat) :
    List Rule → Nat → List Effect → List Bool → Option (Effect × Option Nat) →
    M σ (Option (Effect × Option Nat))
  | [], _, _, _, last => pure last
  | r :: rs, idx, effects, matchs, _ => do
    let me ← step r
    let matchs := matchs.set idx me.1
    let effects := effects.set idx me.2
    let res ← M.lift (mergeEffects expr effects matchs idx len)
    if res.1 ≠ .indeterminate then pure (some res)
    else ruleLoop step expr len rs (idx + 1) effects matchs (some res)

/-- The whole non-empty branch, enforcer.cpp 99–183. -/
def runRules {σ : Type} (step : Rule → M σ (Bool × Effect)) (expr : Str) (rules : List Rule) :
    M σ (Option (Effect × Option Nat)) :=
  ruleLoop step expr rules.length rules 0
    (List.replicate rules.length .indeterminate) (List.replicate rules.length false) none

/-- The empty branch, enforcer.cpp 190–216: one pseudo rule that is "matched" and has effect
allow iff the matcher evaluated to true. -/
def mergeEmpty (expr : Str) (result : Bool) : Outcome (Effect × Option Nat) :=
  mergeEffects expr [if result then .allow else .indeterminate] [true] 0 1

end Casbin
