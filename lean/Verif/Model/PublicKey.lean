import Verif.Model.S2k
/-
Model of PublicKeyPacket / PublicSubkeyPacket, /repo/pgp/packets/packets.py:687-841, and of
key_packet_fingerprint / hash_key, /repo/pgp/utils.py.
-/
namespace Pgp

/-- The attributes of a PublicKeyPacket, packets.py:743-758; `none` is Python's `None`. -/
structure PubKey where
  version : Nat
  creationTime : Nat
  algorithm : Nat
  expirationDays : Option Nat := none
  modulus : Option Nat := none
  exponent : Option Nat := none
  prime : Option Nat := none
  groupOrder : Option Nat := none
  groupGenerator : Option Nat := none
  keyValue : Option Nat := none
  deriving DecidableEq, Repr

/-- packets.py:697-703: expiry days (versions 2 and 3) and the offset of the algorithm octet. -/
def readDays (data : Bytes) (version : UInt8) : Py (Option Nat × Nat) :=
  if version = 2 ∨ version = 3 then do
    let d ← shortToInt data 5
    return (some d, 7)
  else if version ≥ 4 then return (none, 5)
  else .error .valueError

/-- packets.py:690-733 `_values_from_packet_contents`: the offset after the integers, and the attributes. -/
def parsePubKey (data : Bytes) : Py (Nat × PubKey) := do
  let version ← idx data 0
  let creationTime ← longToInt data 1
  let (expirationDays, offset) ← readDays data version
  let alg ← idx data offset
  let offset := offset + 1
  let k : PubKey := { version := version.toNat, creationTime := creationTime, algorithm := alg.toNat,
                      expirationDays := expirationDays }
  if alg = 1 ∨ alg = 2 ∨ alg = 3 then
    let (n, offset) ← mpiToInt data offset
    let (e, offset) ← mpiToInt data offset
    return (offset, { k with modulus := some n, exponent := some e })
  else if alg = 16 ∨ alg = 20 then
    let (p, offset) ← mpiToInt data offset
    let (g, offset) ← mpiToInt data offset
    let (y, offset) ← mpiToInt data offset
    return (offset, { k with prime := some p, groupGenerator := some g, keyValue := some y })
  else if alg = 17 then
    let (p, offset) ← mpiToInt data offset
    let (q, offset) ← mpiToInt data offset
    let (g, offset) ← mpiToInt data offset
    let (y, offset) ← mpiToInt data offset
    return (offset, { k with prime := some p, groupOrder := some q, groupGenerator := some g, keyValue := some y })
  else .error .notImplemented

/-- `int_to_mpi(x)` where `x` may be `None` (`None < 0` raises TypeError). -/
def mpiOpt (fl : FloorLog2) : Option Nat → Py Bytes
  | none => .error .typeError
  | some n => intToMpi fl n

/-- packets.py:778-779. -/
def daysBytes (version : Nat) (days : Option Nat) : Py Bytes :=
  if version = 2 ∨ version = 3 then
    match days with
    | none => .error .typeError
    | some d => .ok (intTo2byte d)
  else .ok []

/-- packets.py:774-802 `public_content` (line 800 `raise NotImplemented` raises TypeError; `int_to_2byte(None)` raises
TypeError). -/
def PubKey.publicContent (fl : FloorLog2) (k : PubKey) : Py Bytes := do
  let v ← byteOf k.version
  let days ← daysBytes k.version k.expirationDays
  let a ← byteOf k.algorithm
  let head := [v] ++ intTo4byte k.creationTime ++ days ++ [a]
  if k.algorithm = 1 ∨ k.algorithm = 2 ∨ k.algorithm = 3 then
    let n ← mpiOpt fl k.modulus
    let e ← mpiOpt fl k.exponent
    return head ++ n ++ e
  else if k.algorithm = 16 ∨ k.algorithm = 20 then
    let p ← mpiOpt fl k.prime
    let g ← mpiOpt fl k.groupGenerator
    let y ← mpiOpt fl k.keyValue
    return head ++ p ++ g ++ y
  else if k.algorithm = 17 then
    let p ← mpiOpt fl k.prime
    let q ← mpiOpt fl k.groupOrder
    let g ← mpiOpt fl k.groupGenerator
    let y ← mpiOpt fl k.keyValue
    return head ++ p ++ q ++ g ++ y
  else .error .typeError

/-- utils.py:422-428 `hash_key`: what is fed to the hash for a key packet with content `data`; also the seed of the
fingerprint (utils.py:902-911) and packets.py:808-813. -/
def hashKeyInput (data : Bytes) : Bytes := [0x99] ++ intTo2byte data.length ++ data

/-- `digest.hex().upper()`. -/
def hexOf (d : Bytes) : List Char := d.flatMap hexOfByte

/-- utils.py:890-913 `key_packet_fingerprint` on a key packet. Packets have no attributes `modulus_n`, `prime_p`, so
the v2/v3 branches for RSA and ElGamal raise AttributeError; for algorithm 17 (and any other) nothing is hashed. -/
def PubKey.fingerprint (fl : FloorLog2) (H : Digest) (k : PubKey) : Py (List Char) :=
  if k.version < 4 then
    if k.algorithm = 1 ∨ k.algorithm = 2 ∨ k.algorithm = 3 then .error .attributeError
    else if k.algorithm = 16 ∨ k.algorithm = 20 then .error .attributeError
    else .ok (hexOf (H 1 []))
  else do
    let c ← k.publicContent fl
    return hexOf (H 2 (hashKeyInput c))

/-- packets.py:815-817 `key_id`: the last 16 characters. -/
def PubKey.keyId (fl : FloorLog2) (H : Digest) (k : PubKey) : Py (List Char) := do
  return lastN (← k.fingerprint fl H) 16

end Pgp
