import Verif.Enforcer

/-!
# Concrete enforcers

Used as witnesses: in the examples beside the theorems and in the `_fails` theorems.
-/

namespace Casbin
namespace Fixtures

/-- An assertion without rules. -/
def asrt (key value : Str) (tokens : List Str) (P : Policies := .vector []) : Assertion :=
  { key := key, value := value, tokens := tokens, policy := P, rm := none }

/-- The request definition `sub, obj, act`. -/
def rDef : UMap Str Assertion :=
  [(c!"r", asrt c!"r" c!"sub, obj, act" [c!"r_sub", c!"r_obj", c!"r_act"])]

/-- The policy definition `sub, obj, act` with some rules. -/
def pDef (P : Policies) : UMap Str Assertion :=
  [(c!"p", asrt c!"p" c!"sub, obj, act" [c!"p_sub", c!"p_obj", c!"p_act"] P)]

def eDef : UMap Str Assertion := [(c!"e", asrt c!"e" c!"some(where (p.eft == allow))" [])]

def mAcl : Str := c!"r.sub == p.sub && r.obj == p.obj && r.act == p.act"
def mRbac : Str := c!"g(r.sub, p.sub) && r.obj == p.obj && r.act == p.act"

/-- examples/basic_model.conf with the given rules. -/
def aclModel (P : Policies) : Model :=
  [(c!"m", [(c!"m", asrt c!"m" mAcl [])]), (c!"r", rDef), (c!"p", pDef P), (c!"e", eDef)]

/-- examples/rbac_model.conf with the given rules and grouping rules. -/
def rbacModel (P G : List Rule) : Model :=
  [(c!"m", [(c!"m", asrt c!"m" mRbac [])]), (c!"r", rDef), (c!"p", pDef (.vector P)),
   (c!"g", [(c!"g", asrt c!"g" c!"_, _" [] (.vector G))]), (c!"e", eDef)]

/-- An enforcer as its constructor leaves it. -/
def enforcer (m : Model) : Enforcer :=
  { model := m, heap := [RM.new 10], rm := 0, adapter := none, watcher := none, eval := none,
    enabled := true, autoSave := true, autoBuild := true, autoNotify := true }

/-- An adapter supplied by the user that accepts everything. -/
def niceAdapter : Adapter :=
  { kind := .custom true false true (pure ()) (fun _ => .ok ()), log := [] }

/-- An ACL enforcer with the given rules in a vector. -/
def acl (P : List Rule) : Enforcer := enforcer (aclModel (.vector P))

/-- An ACL enforcer with the given rules in a set. -/
def aclHash (P : List Rule) : Enforcer := enforcer (aclModel { hash := true, items := P })

def rbac (P G : List Rule) : Enforcer := enforcer (rbacModel P G)

def alice : Rule := [c!"alice", c!"data1", c!"read"]
def bob : Rule := [c!"bob", c!"data2", c!"write"]
def carol : Rule := [c!"carol", c!"data1", c!"read"]
/-- The values of `alice` in another order. -/
def aliceSwapped : Rule := [c!"data1", c!"alice", c!"read"]

end Fixtures
end Casbin
