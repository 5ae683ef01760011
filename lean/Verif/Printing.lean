import Verif.Builtins
import Verif.RoleManager

/-!
# The texts of addresses, masks and roles

Models the methods of `casbin/ip_parser/parser` and `casbin/rbac/default_role_manager.cpp` that write
objects as texts. The library calls none of them itself. `Print` (Print.cpp), which writes to the
standard output, and the empty `PrintModel` and `PrintPolicy` (model.cpp 153–167, 207–224) are left
out.
-/

namespace Casbin

/-- An `unsigned short` written to a stream and read back as a text (`ss1 << ip[12]; ss1 >> ip1`). -/
def decText (n : Nat) : Str := (toString n).toList

/-- Four numbers from position `i` on, separated by dots; reading past the end of the vector is
undefined. -/
def dotted (bytes : List Nat) (i : Nat) : Outcome Str :=
  match bytes[i]?, bytes[i + 1]?, bytes[i + 2]?, bytes[i + 3]? with
  | some a, some b, some c, some d =>
    .ok (decText a ++ c!"." ++ decText b ++ c!"." ++ decText c ++ c!"." ++ decText d)
  | _, _, _, _ => .ub .outOfBounds

/-- `IP::toString` (IP.cpp 66–78). -/
def ipToString (ip : List Nat) : Outcome Str := dotted ip 12

/-- `IPNet::NETIP_toString` (IPNet.cpp 10–22). -/
def netToString (net : List Nat) : Outcome Str := dotted net 0

/-- `IPNet::IPMask_toString` (IPNet.cpp 24–36). -/
def maskToString (mask : List Nat) : Outcome Str := dotted mask 0

/-- `IP::Equal` (IP.cpp 49–64). The code compares with the function `equal` (equal.cpp 10–21): the same
number of elements, all equal. -/
def ipEqual (ip x : List Nat) : Bool :=
  if ip.length = x.length then decide (ip = x)
  else if ip.length = 4 ∧ x.length = 16 then decide (x.take 12 = v4Prefix ∧ ip = x.drop 12)
  else if ip.length = 16 ∧ x.length = 4 then decide (ip.take 12 = v4Prefix ∧ ip.drop 12 = x)
  else false

namespace RM

/-- The loop of `Role::ToString` (default_role_manager.cpp 79–85). -/
def roleNames : List Str → Str
  | [] => []
  | r :: rs => rs.foldl (fun names r => names ++ (c!", " ++ r)) r

/-- `Role::ToString` (default_role_manager.cpp 71–92) of the object named `name` with the given direct
roles. -/
def roleText (name : Str) (roles : List Str) : Str :=
  if roles.length = 0 then []
  else
    let names := if roles.length ≠ 1 then c!"(" else []
    let names := names ++ roleNames roles
    let names := if roles.length ≠ 1 then names ++ c!")" else names
    name ++ c!" < " ++ names

/-- `DefaultRoleManager::PrintRoles` (default_role_manager.cpp 277–290): the text it makes and then
drops. The elements come in the order of the container; with no element `begin()` is dereferenced all
the same. -/
def printRoles [IterOrder] (rm : RM) : Outcome Str :=
  match IterOrder.iter rm.roles with
  | [] => .ub .iterator
  | x :: xs => .ok (xs.foldl (fun text y => text ++ (c!", " ++ roleText y.1 y.2)) (roleText x.1 x.2))

end RM
end Casbin
