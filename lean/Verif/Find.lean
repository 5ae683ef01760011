import Verif.Util

/-!
# All occurrences of a text

Models `casbin/util/find_all_occurences.cpp`.
-/

namespace Casbin

/-- `data.find(pat, pos)` of a `std::string_view`: the first occurrence from `pos` on. -/
def findFrom (data pat : Str) (pos : Nat) : Option Nat :=
  if pos ≤ data.length then (findSub pat (data.drop pos)).map (pos + ·) else none

/-- The loop of `FindAllOccurences` (find_all_occurences.cpp 33–39). `fuel` bounds the number of
rounds, running out of it stands for not terminating. -/
def findAllLoop (data pat : Str) : Nat → Option Nat → Outcome (List Nat)
  | _, none => .ok []
  | 0, some _ => .ub .unbounded
  | fuel + 1, some pos => do
    let rest ← findAllLoop data pat fuel (findFrom data pat (pos + pat.length))
    .ok (pos :: rest)

/-- `FindAllOccurences` (find_all_occurences.cpp 26–41). -/
def findAllOccurences (data pat : Str) : Outcome (List Nat) :=
  findAllLoop data pat (data.length + 1) (findFrom data pat 0)

end Casbin
