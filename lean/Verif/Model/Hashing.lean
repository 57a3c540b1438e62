import Verif.Model.SigPackets
import Verif.Model.PublicKey
import Verif.Model.SessionKey
/-
Model of what is hashed and signed: /repo/pgp/utils.py:95-154 (sign_hash, verify_hash), 422-526 (hash_packet_for_signature),
the `to_signable_data` methods of /repo/pgp/signature.py:182-202, /repo/pgp/transferrable_keys.py:244-250, 459-461, 633-640,
688-696, 813-821 and /repo/pgp/message.py:166-167, and `sign` / `verify`, /repo/pgp/transferrable_keys.py:382-412, 516-568.
Octet contents of the packets being signed (`packet.content`) are arguments.
-/
namespace Pgp

/-! ### hash_packet_for_signature -/

/-- The arguments of `hash_packet_for_signature`, utils.py:455-461: type and content of the target packet, content of the public
key packet (`None` if absent), hashed subpacket octets (`None` if absent). -/
structure HashCall where
  targetType : Nat
  target : Bytes
  pub : Option Bytes
  sigType : Nat
  version : Nat
  hashAlg : Nat
  time : Nat
  pubAlg : Nat
  hashed : Option Bytes
  fakeHash : Option Nat

/-- utils.py:437-452 `hash_user_data`. -/
def hashUserData (targetType : Nat) (data : Bytes) (version : Nat) : Bytes :=
  if targetType = 13 then (if version ≥ 4 then [0xb4] ++ intTo4byte data.length else []) ++ data
  else if targetType = 17 then (if version ≥ 4 then [0xd1] ++ intTo4byte data.length else []) ++ data
  else []

/-- `assert public_key_packet_data is not None`, utils.py:473, 478, 494. -/
def needPub : Option Bytes → Py Bytes
  | some p => .ok p
  | none => .error .assertionError

/-- utils.py:470-509: the part that depends on the kind of signature. -/
def hashTarget (c : HashCall) : Py Bytes :=
  if c.sigType = 0x1f ∨ c.sigType = 0x20 then do
    let p ← needPub c.pub
    return hashKeyInput p
  else if c.sigType = 0x18 ∨ c.sigType = 0x19 ∨ c.sigType = 0x28 then do
    let p ← needPub c.pub
    return hashKeyInput p ++ hashKeyInput c.target
  else if c.sigType = 0x50 then do
    let l ← byteOf c.target.length
    return [0x88, l] ++ c.target
  else if c.sigType = 0x00 ∨ c.sigType = 0x01 then .ok c.target
  else if c.sigType = 0x02 then .ok []
  else if c.sigType = 0x10 ∨ c.sigType = 0x12 ∨ c.sigType = 0x11 ∨ c.sigType = 0x13 ∨ c.sigType = 0x30 then do
    let p ← needPub c.pub
    return hashKeyInput p ++ hashUserData c.targetType c.target c.version
  else if c.sigType = 0x40 then do
    let l ← byteOf c.target.length
    return [0x88, l] ++ c.target
  else .ok []

/-- `fake_hash_algorithm_type or hash_algorithm_type`, utils.py:517. -/
def orElseNat : Option Nat → Nat → Nat
  | some (n + 1), _ => n + 1
  | _, d => d

/-- utils.py:511-524 (the same octets as signature.py:183-202): the trailer of a version 4 signature. -/
def trailerV4 (version sigType pubAlg hashAlg : Nat) (hashed : Bytes) : Py Bytes := do
  let v ← byteOf version
  let t ← byteOf sigType
  let p ← byteOf pubAlg
  let h ← byteOf hashAlg
  return [v, t, p, h] ++ intTo2byte hashed.length ++ hashed ++ [v, 255] ++ intTo4byte (hashed.length + 6)

/-- `len(hashed_subpacket_data)`: TypeError on `None` (after three octets have been appended, utils.py:511-517). -/
def hashTrailer (c : HashCall) : Py Bytes :=
  if c.version ≥ 4 then
    match c.hashed with
    | none => do
      let _ ← byteOf c.version
      let _ ← byteOf c.sigType
      let _ ← byteOf c.pubAlg
      let _ ← byteOf (orElseNat c.fakeHash c.hashAlg)
      .error .typeError
    | some hd => trailerV4 c.version c.sigType c.pubAlg (orElseNat c.fakeHash c.hashAlg) hd
  else do
    let t ← byteOf c.sigType
    return [t] ++ intTo4byte c.time

/-- utils.py:455-528 `hash_packet_for_signature`: the octets fed to the hash object it returns. -/
def hashPacketForSignature (c : HashCall) : Py Bytes := do
  getHashInstance c.hashAlg
  let a ← hashTarget c
  let b ← hashTrailer c
  return a ++ b

/-! ### to_signable_data, sign and verify -/

/-- The things that `sign` can be handed (transferrable_keys.py:523-530). The octets are those of `to_packet().content`; for a
secret key they are the content of `to_public_key().to_packet()`. -/
inductive Item where
  /-- `str` (its UTF-8 octets) or `bytes` -/
  | raw (b : Bytes)
  /-- a message; `data` -/
  | document (d : Bytes)
  /-- a primary key, public or secret -/
  | key (k : Bytes)
  /-- a PublicSubkey and its primary key -/
  | subkey (primary k : Bytes)
  /-- a SecretSubkey and its primary key -/
  | secretSubkey (primary k : Bytes)
  | userId (primary u : Bytes)
  | userAttribute (primary a : Bytes)

/-- `item.to_signable_data(signature_type, version)`. For a SecretSubkey the method resolution order runs
PublicSubkey.to_signable_data (633-640), whose `super()` call is BaseSecretKey.to_signable_data (459-461), which builds a
PublicSubkey and calls the former again: the primary key is emitted twice. A `str` or `bytes` object has no such method. -/
def Item.signable (version : Nat) : Item → Py Bytes
  | raw _ => .error .attributeError
  | document d => .ok d
  | key k => .ok (hashKeyInput k)
  | subkey p k => .ok (hashKeyInput p ++ hashKeyInput k)
  | secretSubkey p k => .ok (hashKeyInput p ++ (hashKeyInput p ++ hashKeyInput k))
  | userId p u => .ok (hashKeyInput p ++ (if version ≥ 4 then [0xb4] ++ intTo4byte u.length else []) ++ u)
  | userAttribute p a => .ok (hashKeyInput p ++ (if version ≥ 4 then [0xd1] ++ intTo4byte a.length else []) ++ a)

/-- transferrable_keys.py:523-530: what `sign` feeds to the hash for the item itself. -/
def Item.signInput (version : Nat) : Item → Py Bytes
  | raw b => .ok b
  | i => i.signable version

/-- signature.py:182-202 `BaseSignature.to_signable_data` on a version 4 (or later) signature object. -/
def sigSignable (fl : FloorLog2) : Sig → Py Bytes
  | .v4 version sigType pubAlg hashAlg hashed _ _ _ => do
    let hd ← subsBytes fl hashed
    trailerV4 version sigType pubAlg hashAlg hd
  -- 186-189: `creation_time` of a parsed signature is `fromtimestamp(datetime)`, of a fresh one `mktime` is a float: TypeError
  | .v3 _ sigType _ _ _ _ _ _ => do
    let _ ← byteOf sigType
    .error .typeError

/-- The public key primitives of PyCrypto, for one key pair: RSA PKCS#1 v1.5, DSA and ElGamal, with the signing nonce fixed.
`hashAlg` and digest stand for the hash object. `modLen` is the octet length of the RSA modulus. -/
structure SigPrims where
  modLen : Nat
  rsaSign : Nat → Bytes → Bytes
  rsaVerify : Nat → Bytes → Bytes → Bool
  /-- EMSA-PKCS1-v1_5 encoding for the size of the ElGamal key -/
  emsa : Nat → Bytes → Bytes
  elgSign : Bytes → Nat × Nat
  elgVerify : Bytes → List Nat → Bool
  dsaQ : Nat
  dsaSign : Nat → Nat × Nat
  dsaVerify : Nat → List Nat → Bool

/-- utils.py:116-117, 141-142. -/
def qBytes (fl : FloorLog2) (q : Nat) : Nat := ceil8 (fl q + 1)

/-- utils.py:95-125 `sign_hash`. -/
def signHash (fl : FloorLog2) (P : SigPrims) (alg hashAlg : Nat) (digest : Bytes) : Py (List Nat) :=
  if alg = 1 ∨ alg = 3 then .ok [osToInt (P.rsaSign hashAlg digest)]
  else if alg = 20 then
    let v := P.elgSign (P.emsa hashAlg digest)
    .ok [v.1, v.2]
  else if alg = 17 then
    let v := P.dsaSign (osToInt (digest.take (qBytes fl P.dsaQ)))
    .ok [v.1, v.2]
  else .error .valueError

/-- utils.py:128-154 `verify_hash`. The loop at 147 compares an int with a bytes object, which is never equal, so nothing is
skipped; `digest[0]` raises IndexError on an empty digest. -/
def verifyHash (fl : FloorLog2) (P : SigPrims) (alg hashAlg : Nat) (digest : Bytes) (values : List Nat) : Py Bool :=
  if alg = 1 ∨ alg = 3 then
    match values with
    | [] => .error .indexError
    | v :: _ => .ok (P.rsaVerify hashAlg digest (longToBytes v))
  else if alg = 20 then .ok (P.elgVerify (P.emsa hashAlg digest) values)
  else if alg = 17 then do
    let _ ← idx digest 0
    return P.dsaVerify (osToInt (digest.take (qBytes fl P.dsaQ))) values
  else .error .valueError

/-- transferrable_keys.py:358-380, 478-509 `_get_key_obj` with utils.py:180-220: which algorithms have a key object. -/
def keyObj (alg : Nat) : Py Unit :=
  if alg = 17 ∨ alg = 16 ∨ alg = 20 ∨ alg = 1 ∨ alg = 3 then .ok ()
  else if alg = 21 then .error (.pgp "PublicKeyAlgorithmCannotSign")
  else .error (.pgp "UnsupportedPublicKeyAlgorithm")

/-- A key as `sign` and `verify` see it: its id, algorithm, whether it is locked, and its primitives. -/
structure SignKey where
  keyId : List Char
  alg : Nat
  locked : Bool
  prims : SigPrims

/-- signature.py:222-223: `weakref.ref(target)` on a non-empty `str` or `bytes` is a TypeError. -/
def weakref : Item → Py Unit
  | .raw (_ :: _) => .error .typeError
  | _ => .ok ()

/-- transferrable_keys.py:516-568 `BaseSecretKey.sign`; `now` is `int(time.time())`. -/
def signItem (fl : FloorLog2) (H : Digest) (K : SignKey) (item : Item) (version sigType hashAlg : Nat) (subs : List Sub)
    (now : Nat) : Py Sig :=
  if K.locked then .error .runtimeError
  else do
    keyObj K.alg
    getHashInstance hashAlg
    let a ← item.signInput version
    weakref item
    if version = 2 ∨ version = 3 then do
      let _ ← sigSignable fl (.v3 version sigType K.alg hashAlg now K.keyId [] [])
      .error .typeError
    else if version < 4 then .error .unboundLocal
    else do
      let hashed := if version = 4 then
          Sub.plain false (.issuer K.keyId) :: Sub.plain false (.creationTime now) :: subs
        else subs
      let b ← sigSignable fl (.v4 version sigType K.alg hashAlg hashed [] [] [])
      let digest := H hashAlg (a ++ b)
      let values ← signHash fl K.prims K.alg hashAlg digest
      return .v4 version sigType K.alg hashAlg hashed [] (digest.take 2) (values.map some)

/-- signature.py:325-331 on versions from 4: the `key_id` of every issuer subpacket. -/
def issuersOf (l : List Sub) : List (List Char) := l.filterMap fun s =>
  match s with
  | .plain _ (.issuer k) => some k
  | _ => none

/-- transferrable_keys.py:382-412 `BasePublicKey.verify`. A version 3 signature has no attribute `_issuer_key_ids`. -/
def verifyItem (fl : FloorLog2) (H : Digest) (K : SignKey) (item : Item) : Sig → Py Bool
  | .v3 _ _ _ _ _ _ _ _ => .error .attributeError
  | .v4 version sigType pubAlg hashAlg hashed unhashed hash2 values =>
    if K.keyId ∉ issuersOf (hashed ++ unhashed) then .error (.pgp "SignatureVerificationFailed")
    else if K.alg ≠ pubAlg then .error (.pgp "SignatureVerificationFailed")
    else do
      keyObj K.alg
      getHashInstance hashAlg
      let a ← item.signable version
      let b ← sigSignable fl (.v4 version sigType pubAlg hashAlg hashed unhashed hash2 values)
      let digest := H hashAlg (a ++ b)
      if digest.take 2 ≠ hash2 then .error (.pgp "SignatureVerificationFailed")
      else do
        let ok ← verifyHash fl K.prims pubAlg hashAlg digest (values.filterMap id)
        if ok then return true else .error (.pgp "SignatureVerificationFailed")

end Pgp
