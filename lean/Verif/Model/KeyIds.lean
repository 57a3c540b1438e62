import Verif.Model.PublicKey
/-
Model of the identifiers of key objects, /repo/pgp/transferrable_keys.py:318-361. A key object has the numbers of the packet it was made of
(222-243 and 264-285); `PubKey` is used for it.
-/
namespace Pgp

/-- transferrable_keys.py:318-327 `bit_length`: `ceilLog n` is `int(math.ceil(float(math.log(n, 2))))`, which raises ValueError for 0. For other algorithms the local
`n` is not bound. -/
def PubKey.bitLength (ceilLog : Nat → Nat) (k : PubKey) : Py Nat := do
  let n ← (if k.algorithm = 1 ∨ k.algorithm = 2 ∨ k.algorithm = 3 then .ok k.modulus
    else if k.algorithm = 17 then .ok k.prime
    else if k.algorithm = 16 ∨ k.algorithm = 20 then .ok k.prime
    else .error .unboundLocal : Py (Option Nat))
  match n with
  | none => .error .typeError
  | some 0 => .error .valueError
  | some n => .ok (ceilLog n)

/-- transferrable_keys.py:329-338 `key_id`; `'{:016X}'.format(None)` raises TypeError. -/
def PubKey.objectKeyId (fl : FloorLog2) (H : Digest) (k : PubKey) : Py (List Char) :=
  if k.version < 4 then
    match (if k.algorithm = 1 ∨ k.algorithm = 2 ∨ k.algorithm = 3 then k.modulus
      else if k.algorithm = 16 ∨ k.algorithm = 17 ∨ k.algorithm = 20 then k.prime else none) with
    | none => .error .typeError
    | some n => .ok (intToHex n (some 16))
  else do
    let f ← k.fingerprint fl H
    return lastN f 16

/-- `'{}'.format(n)`: decimal, or `None`. -/
def decimalOrNone : Option Nat → List Char
  | some n => Nat.toDigits 10 n
  | none => "None".toList

/-- The text hashed by `keygrip` (transferrable_keys.py:346-359). -/
def PubKey.keyExpression (k : PubKey) : Py (List Char) :=
  if k.algorithm = 1 ∨ k.algorithm = 2 ∨ k.algorithm = 3 then
    .ok ("(public-key(rsa(n".toList ++ decimalOrNone k.modulus ++ ")(e".toList ++ decimalOrNone k.exponent ++ ")))".toList)
  else if k.algorithm = 17 then
    .ok ("(public-key(dsa(p".toList ++ decimalOrNone k.prime ++ ")(q".toList ++ decimalOrNone k.groupOrder ++ ")(g".toList ++ decimalOrNone k.groupGenerator ++
      ")(y".toList ++ decimalOrNone k.keyValue ++ ")))".toList)
  else if k.algorithm = 16 ∨ k.algorithm = 20 then
    .ok ("(public-key(elg(p".toList ++ decimalOrNone k.prime ++ ")(g".toList ++ decimalOrNone k.groupGenerator ++ ")(y".toList ++ decimalOrNone k.keyValue ++ ")))".toList)
  else .error .valueError

/-- transferrable_keys.py:344-361 `keygrip`; the text is ASCII. -/
def PubKey.keygrip (H : Digest) (k : PubKey) : Py (List Char) := do
  let s ← k.keyExpression
  return hexOf (H 2 (s.map fun c => UInt8.ofNat c.toNat))

end Pgp
