import Verif.Model.Message
import Verif.Model.Canon
import Verif.Model.KeySigs
/-
Model of signing, verifying and compressing messages (pgp/message.py:41-59, 137-205, 702-728) and of what signing does to the list of
subpackets it is given (pgp/transferrable_keys.py:516-568).
-/
namespace Pgp

/-! ### Signing and verifying -/

/-- `message.to_signable_data(signature_type, version)` (message.py:166-167, 184-188) as fed to the hash: only literal messages have
the method; `bytes` have no `encode`, and a hash does not take a `str`. -/
def Msg.signable (sigType : Nat) : Msg → Py Bytes
  | .literal true (.text s) _ _ => .ok (textSignable s sigType)
  | .literal true (.octets _) _ _ => .error .attributeError
  | .literal false (.octets d) _ _ => .ok (binarySignable d sigType)
  | .literal false (.text _) _ _ => .error .typeError
  | .compressed _ _ => .error .attributeError
  | .encrypted _ _ _ _ => .error .attributeError
  | .signed _ _ _ => .error .attributeError

/-- `secret_key.sign(message, version, signature_type, hash_algorithm)` (transferrable_keys.py:516-568): `signItem` on the octets of the
message, which are asked for after the key and the hash have been made. -/
def signDocument (fl : FloorLog2) (H : Digest) (K : SignKey) (m : Msg) (version sigType hashAlg now : Nat) : Py Sig :=
  if K.locked then .error .runtimeError
  else do
    keyObj K.alg
    getHashInstance hashAlg
    let d ← m.signable sigType
    signItem fl H K (.document d) version sigType hashAlg [] now

/-- message.py:48-52: the hash algorithm used when none is given, from `secret_key.preferred_hash_algorithms`. -/
def defaultHash : Got (List Nat) → Nat
  | .value (some (h :: _)) => h
  | _ => 1

/-- message.py:47-52: the hash algorithm, given or chosen. -/
def chooseHash (prefs : Py (Got (List Nat))) : Option Nat → Py Nat
  | some h => .ok h
  | none => do
    let g ← prefs
    return defaultHash g

/-- `BaseMessage.sign` (message.py:43-55). The new signature has the header type of its class, new (signature.py:127). -/
def Msg.sign (fl : FloorLog2) (H : Digest) (K : SignKey) (prefs : Py (Got (List Nat))) (m : Msg) (version sigType : Nat)
    (hashAlg : Option Nat) (onePass : Bool) (now : Nat) : Py Msg := do
  let h ← chooseHash prefs hashAlg
  let sig ← signDocument fl H K m version sigType h now
  return .signed [(.new, sig)] (some m) onePass

/-- `public_key.verify(signature, message)` (transferrable_keys.py:388-412): `verifyItem` on the octets of the message, which are asked
for after the key id, the algorithm, the key and the hash. -/
def verifyDocument (fl : FloorLog2) (H : Digest) (K : SignKey) (m : Msg) : Sig → Py Bool
  | .v3 _ _ _ _ _ _ _ _ => .error .attributeError
  | .v4 version sigType pubAlg hashAlg hashed unhashed hash2 values =>
    match m.signable sigType with
    | .ok d => verifyItem fl H K (.document d) (.v4 version sigType pubAlg hashAlg hashed unhashed hash2 values)
    | .error e =>
      if K.keyId ∉ issuersOf (hashed ++ unhashed) then .error (.pgp "SignatureVerificationFailed")
      else if K.alg ≠ pubAlg then .error (.pgp "SignatureVerificationFailed")
      else do
        keyObj K.alg
        getHashInstance hashAlg
        .error e

/-! ### Compressing -/

/-- `BaseMessage.compress` (message.py:57-59) with `CompressedMessageWrapper.set_message` (message.py:716-719). -/
def Msg.compress (Z : Zlib) (B : Bz2) (fl : FloorLog2) (o : Nat → Py Bytes) (m : Msg) (algorithm : Nat) (level : Option Nat) : Py Msg := do
  let ps ← m.toPackets
  let rs ← ps.mapM (MPacket.raw fl o)
  let d ← compressPackets Z B algorithm level rs
  return .compressed algorithm d

/-- `get_message()` of a compressed message (message.py:711-714) and of a signed one (message.py:665-666; None without content). A
literal message has no such method. Without a secret an encrypted message raises something (see `Msg.getMessage`); which exception is not
modelled. -/
def Msg.contained (Z : Zlib) (B : Bz2) (accept : RawPacket → Py Unit) : Msg → Py (Option Msg)
  | .compressed alg d => do
    let rs ← decompressData Z B alg d
    let ps ← rs.mapM (parseMPacket accept)
    let m ← openMessage ps
    return some m
  | .signed _ m _ => .ok m
  | .encrypted _ _ _ _ => .error .typeError
  | .literal _ _ _ _ => .error .attributeError

/-! ### The list of subpackets given to `sign` -/

/-- What `sign` with `hashed_subpackets=l` leaves in the caller's list (transferrable_keys.py:536, 543-550): an empty list is replaced by
a new one (`or []`), any other gets the two subpackets of version 4 in place. -/
def listAfterSign (K : SignKey) (version : Nat) (subs : List Sub) (now : Nat) : List Sub :=
  match subs with
  | [] => []
  | s :: ss => if version = 4 then .plain false (.issuer K.keyId) :: .plain false (.creationTime now) :: s :: ss else s :: ss

/-- The hashed subpackets of the signature object that `sign` returned: the caller's list itself (`shared`, 536) or a list of its own. -/
inductive HashedArea where
  | own (l : List Sub)
  | shared

/-- A signature object returned by `sign` as it stands while the caller's list is `l`. -/
def HashedArea.now (l : List Sub) : HashedArea → List Sub
  | .own h => h
  | .shared => l

/-- Signing several items in turn, giving each call the same list object (transferrable_keys.py:516-568): `item, sigType, hashAlg, now` of
the calls; the result is the signatures made, each with where its hashed subpackets are kept, and the list as it is left. -/
def signAll (fl : FloorLog2) (H : Digest) (K : SignKey) (version : Nat) :
    List Sub → List (Item × Nat × Nat × Nat) → Py (List (Sig × HashedArea) × List Sub)
  | l, [] => .ok ([], l)
  | l, (i, t, h, now) :: calls => do
    let s ← signItem fl H K i version t h l now
    let area := match l, s with
      | [], .v4 _ _ _ _ hashed _ _ _ => HashedArea.own hashed
      | _, _ => .shared
    let (rest, l') ← signAll fl H K version (listAfterSign K version l now) calls
    return ((s, area) :: rest, l')

/-- The signature object when the list has become `l`. -/
def Sig.withArea (l : List Sub) : Sig × HashedArea → Sig
  | (.v4 v t p h _ us h2 vs, a) => .v4 v t p h (a.now l) us h2 vs
  | (s, _) => s

end Pgp
