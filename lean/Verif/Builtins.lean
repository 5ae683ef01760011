import Verif.Util

/-!
# The matching functions that use no regular expressions

Models `KeyMatch`, `KeyGet` and `IPMatch` of `casbin/util/built_in_functions.cpp` and
`casbin/ip_parser/parser`.
-/

namespace Casbin

/-- `KeyMatch` (built_in_functions.cpp 64–74). -/
def keyMatch (key1 key2 : Str) : Bool :=
  match findSub c!"*" key2 with
  | none => decide (key1 = key2)
  | some pos =>
    if key1.length > pos then decide (key1.take pos = key2.take pos)
    else decide (key1 = key2.take pos)

/-- `KeyGet` (built_in_functions.cpp 79–90). -/
def keyGet (key1 key2 : Str) : Str :=
  match findSub c!"*" key2 with
  | none => []
  | some pos =>
    if key1.length > pos then
      if key1.take pos = key2.take pos then key1.drop pos else []
    else []

/-! ## IP addresses

A `byte` is an `unsigned short` (include/casbin/ip_parser/parser/byte.h), so 16 bits: a natural
number here. An `IP` with `isLegal = false` is `none`. -/

/-- `big` (byte.h). -/
def big : Nat := 0xFFFFFF

/-- The digit test of `dtoi` (dtoi.cpp 16). -/
def isDec (c : Char) : Bool := '0' ≤ c && c ≤ '9'

/-- The loop of `dtoi` (dtoi.cpp 16–23) from a number and a position on. -/
def dtoiFrom : Nat → Nat → Str → Nat × Nat
  | n, i, [] => (n, i)
  | n, i, c :: s =>
    if isDec c then
      let n' := n * 10 + (c.toNat - 48)
      if n' ≥ big then (big, i) else dtoiFrom n' (i + 1) s
    else (n, i)

/-- `dtoi` (dtoi.cpp 12–32): number and characters consumed. -/
def dtoi (s : Str) : Nat × Nat := dtoiFrom 0 0 s

/-- The value of a hexadecimal digit (xtoi.cpp 15–26). -/
def hexVal (c : Char) : Option Nat :=
  if '0' ≤ c ∧ c ≤ '9' then some (c.toNat - 48)
  else if 'a' ≤ c ∧ c ≤ 'f' then some (c.toNat - 97 + 10)
  else if 'A' ≤ c ∧ c ≤ 'F' then some (c.toNat - 65 + 10)
  else none

/-- The loop of `xtoi` (xtoi.cpp 14–32). A number that is too large becomes 0. -/
def xtoiFrom : Nat → Nat → Str → Nat × Nat
  | n, i, [] => (n, i)
  | n, i, c :: s =>
    match hexVal c with
    | none => (n, i)
    | some d => if n * 16 + d ≥ big then (0, i) else xtoiFrom (n * 16 + d) (i + 1) s

/-- `xtoi` (xtoi.cpp 10–41). -/
def xtoi (s : Str) : Nat × Nat := xtoiFrom 0 0 s

/-- One round of the loop of `parseIPv4` (parseIPv4.cpp 26–32), after the dot: an octet and the
rest. -/
def octet (s : Str) : Option (Nat × Str) :=
  let p := dtoi s
  if p.1 ≥ big ∨ p.2 = 0 ∨ p.1 > 0xFF then none else some (p.1, s.drop p.2)

/-- The rounds of the loop of `parseIPv4` but the first (parseIPv4.cpp 13–33). -/
def moreOctets : Nat → Str → Option (List Nat × Str)
  | 0, s => some ([], s)
  | n + 1, s =>
    match s with
    | '.' :: s => do
      let (a, s) ← octet s
      let (as, s) ← moreOctets n s
      pure (a :: as, s)
    | _ => none

/-- `v4InV6Prefix` (IP.cpp 12). -/
def v4Prefix : List Nat := [0, 0, 0, 0, 0, 0, 0, 0, 0, 0, 0xff, 0xff]

/-- `parseIPv4` (parseIPv4.cpp 10–39) with `IPv4` (IPv4.cpp 10–20). -/
def parseIPv4 (s : Str) : Option (List Nat) := do
  let (a, s) ← octet s
  let (as, s) ← moreOctets 3 s
  if s = [] then pure (v4Prefix ++ a :: as) else none

/-- The loop of `parseIPv6` (parseIPv6.cpp 28–91): the bytes written so far, the position of the
ellipsis, and the rest of the text, to the same. A round writes two bytes, the second one with all
16 bits of the number (`byte(p.first)`, 62–63). -/
def v6Loop : Nat → List Nat → Option Nat → Str → Option (List Nat × Option Nat × Str)
  | 0, acc, ell, s => some (acc, ell, s)
  | fuel + 1, acc, ell, s =>
    let p := xtoi s
    if p.1 ≥ big ∨ p.2 = 0 ∨ p.1 > 0xFFFF then none
    else if s[p.2]? = some '.' then
      if ell = none ∧ acc.length ≠ 12 then none
      else if acc.length + 4 > 16 then none
      else do
        let b ← parseIPv4 s
        pure (acc ++ b.drop 12, ell, [])
    else
      let acc' := acc ++ [p.1 / 256, p.1]
      match s.drop p.2 with
      | [] => some (acc', ell, [])
      | ':' :: ':' :: s =>
        if ell.isSome then none
        else if s = [] then some (acc', some acc'.length, [])
        else v6Loop fuel acc' (some acc'.length) s
      | ':' :: c :: s => v6Loop fuel acc' ell (c :: s)
      | _ => none

/-- The end of `parseIPv6` (parseIPv6.cpp 93–117). -/
def v6Finish (r : List Nat × Option Nat × Str) : Option (List Nat) :=
  if r.2.2 ≠ [] then none
  else if r.1.length < 16 then
    match r.2.1 with
    | none => none
    | some e => some (r.1.take e ++ List.replicate (16 - r.1.length) 0 ++ r.1.drop e)
  else if r.2.1.isSome then none
  else some r.1

/-- `parseIPv6` (parseIPv6.cpp 10–118). -/
def parseIPv6 (s : Str) : Option (List Nat) :=
  match s with
  | ':' :: ':' :: s =>
    if s = [] then some (List.replicate 16 0) else v6Loop 8 [] (some 0) s >>= v6Finish
  | s => v6Loop 8 [] none s >>= v6Finish

/-- `parseIP` (parseIP.cpp 10–22): the first dot or colon decides. -/
def parseIP (s : Str) : Option (List Nat) :=
  match s.find? fun c => c = '.' || c = ':' with
  | some '.' => parseIPv4 s
  | some _ => parseIPv6 s
  | none => none

/-- The element `mask[i]` for `n` remaining ones (CIDRMask.cpp 23–29): `~char(0xff >> n)` as an
`unsigned short`, `char` being signed. -/
def maskByte (n : Nat) : Nat :=
  if n ≥ 8 then 0xff else if n = 0 then 0 else 0xFFFF - 0xff >>> n

/-- `CIDRMask` (CIDRMask.cpp 10–32) with `ones` at most the number of bits; `l` is the number of
bytes. -/
def cidrMask : Nat → Nat → List Nat
  | 0, _ => []
  | l + 1, ones => maskByte ones :: cidrMask l (ones - 8)

/-- `IP::Mask` (IP.cpp 18–47); `none` is an illegal result. -/
def ipMask (ip mask : List Nat) : Option (List Nat) :=
  let mask := if mask.length = 16 ∧ ip.length = 4 then
    (if (mask.take 12).all (· = 0xff) then mask.drop 12 else mask) else mask
  let ip := if mask.length = 4 ∧ ip.length = 16 then
    (if ip.take 12 = v4Prefix then ip.drop 12 else ip) else ip
  if ip.length ≠ mask.length then none
  else some (List.zipWith (· &&& ·) ip mask)

/-- `IP::To4` (IP.cpp 82–97): the bytes of the result and whether it is legal. The bytes of an
illegal result are those of the object. -/
def to4 (ip : List Nat) : Outcome (List Nat × Bool) :=
  if ip.length = 4 then .ok (ip, true)
  else if ip.length < 10 then .ub .outOfBounds
  else if ip.length = 16 ∧ (ip.take 10).all (· = 0) ∧ ip[10]? = some 0xff ∧ ip[11]? = some 0xff then
    .ok (ip.drop 12, true)
  else .ok (ip, false)

/-- `IPNet::networkNumberAndMask` (IPNet.cpp 58–89), bytes and mask. The legality of the result
is not looked at by the caller. -/
def netAndMask (net mask : List Nat) : Outcome (List Nat × List Nat) := do
  let x ← to4 net
  if x.2 = false ∧ net.length ≠ 16 then .ok (x.1, [])
  else if mask.length = 16 ∧ x.1.length = 4 then .ok (x.1, mask.drop 12)
  else .ok (x.1, mask)

/-- The comparison loop of `contains` (IPNet.cpp 50–54). Reading past the mask is undefined. -/
def sameMasked : List Nat → List Nat → List Nat → Outcome Bool
  | a :: as, b :: bs, m :: ms => if a &&& m ≠ b &&& m then .ok false else sameMasked as bs ms
  | _ :: _, _ :: _, [] => .ub .outOfBounds
  | _, _, _ => .ok true

/-- `IPNet::contains` (IPNet.cpp 39–56). -/
def netContains (net mask ip : List Nat) : Outcome Bool := do
  let p ← netAndMask net mask
  let x ← to4 ip
  if x.1.length ≠ p.1.length then .ok false else sameMasked p.1 x.1 p.2

/-- `parseCIDR` (parseCIDR.cpp 10–35): network bytes and mask. The `CIDR` it returns always has a
legal `ip`. -/
def parseCIDR (s : Str) : Outcome (List Nat × List Nat) :=
  match findSub c!"/" s with
  | none => .throw .ipParser
  | some pos =>
    let addr := s.take pos
    let mask := s.drop (pos + 1)
    let v4 := parseIPv4 addr
    let iplen := if v4.isSome then 4 else 16
    match (if v4.isSome then v4 else parseIPv6 addr) with
    | none => .throw .ipParser
    | some ip =>
      let p := dtoi mask
      if p.1 ≥ big ∨ p.2 = 0 ∨ p.2 ≠ mask.length ∨ p.1 > 8 * iplen then .throw .ipParser
      else
        let m := cidrMask iplen p.1
        match ipMask ip m with
        | none => .ok ([], m)
        | some net => .ok (net, m)

/-- `IPMatch` (built_in_functions.cpp 215–230). The branch for a pattern that is a plain address
(221–227) is never taken: `parseCIDR` throws first. -/
def ipMatch (ip1 ip2 : Str) : Outcome Bool :=
  match parseIP ip1 with
  | none => .throw .illegalArgument
  | some ip => do
    let c ← parseCIDR ip2
    netContains c.1 c.2 ip

end Casbin
