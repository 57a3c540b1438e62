import Verif.Model.PublicKey
import Verif.Model.SymCipher
/-
Model of secret key packets (pgp/packets/packets.py:844-1134), of the secret key objects made from them (pgp/transferrable_keys.py:415-613,
643-662, 1077-1105) and of the unlocking context manager (pgp/context_managers.py).
The encryption of private values (packets.py:954-992) is in Model/Reseal.
-/
namespace Pgp

/-! ### Secret key packets -/

/-- The attributes of a SecretKeyPacket or SecretSubkeyPacket (packets.py:889-919, 1104-1134) other than the private values; `s2k_specification`,
`iv` and `encrypted_portion` cannot be None (900-901). -/
structure SecKey where
  pub : PubKey
  s2k : S2K
  sym : Nat
  iv : Bytes
  enc : Bytes
  checksum : Bool
  hash : Bool
  deriving DecidableEq

/-- packets.py:870-875, 887: reading the IV and the encrypted portion; an unknown cipher is a ValueError. -/
def secretTail (pub : PubKey) (s : S2K) (sym : Nat) (usage : UInt8) (data : Bytes) (off : Nat) : Py SecKey :=
  match blockLengths sym with
  | none => .error .valueError
  | some bl => .ok ⟨pub, s, sym, slice data off (off + bl), data.drop (off + bl), usage = 255, usage = 254⟩

/-- packets.py:855-887 from the offset of the usage octet on, followed by the constructor. With usage 0 and 101 `iv` has no value at line 884
(UnboundLocalError); with usage other than 254 and 255 there is no S2K specifier, which the constructor refuses with ValueError. -/
def parseSecretPart (pub : PubKey) (data : Bytes) (off : Nat) : Py SecKey := do
  let usage ← idx data off
  let off := off + 1
  if usage = 0 then .error .unboundLocal
  else if usage = 254 ∨ usage = 255 then
    let sym ← idx data off
    let (s, off) ← parseS2k sym.toNat data (off + 1)
    secretTail pub s sym.toNat usage data off
  else if usage = 101 then .error .unboundLocal
  else .error .valueError

/-- packets.py:735-741 with 846-887: `from_packet_content` of a secret key packet. -/
def parseSecKey (data : Bytes) : Py SecKey := do
  let (off, pub) ← parsePubKey data
  parseSecretPart pub data off

/-- What is written after the public part and before the encrypted portion (packets.py:1063-1074). -/
def SecKey.protection (fl : FloorLog2) (k : SecKey) : Py Bytes := do
  let a ← byteOf k.sym
  let s ← k.s2k.toBytes fl
  return [if k.checksum then 255 else 254] ++ [a] ++ s ++ (if k.sym ≠ 0 then k.iv else [])

/-- packets.py:1061-1101 `content`. `resealed` is the outcome of encrypting the private values (1078-1099), done if the encrypted portion is empty. -/
def SecKey.content (fl : FloorLog2) (resealed : Py Bytes) (k : SecKey) : Py Bytes := do
  let p ← k.pub.publicContent fl
  let q ← k.protection fl
  let e ← if k.enc ≠ [] then .ok k.enc else resealed
  return p ++ q ++ e

/-- What `resealed` is for a packet that was parsed: a SecretKeyPacket has `passphrase = None`, so `len(None)` in `to_key` raises TypeError; a
SecretSubkeyPacket has none of the attributes read (packets.py:1104-1134: AttributeError). -/
def resealedParsed (sub : Bool) : Py Bytes := .error (if sub then .attributeError else .typeError)

/-! ### Decrypting the private values -/

/-- `while offset < data_length: mpi, offset = mpi_to_int(decrypted_data, offset)` (packets.py:1054-1058): the integers may reach beyond
`limit`. Fuel: each takes at least two octets. -/
def mpiLoopTo (data : Bytes) (limit : Nat) : (fuel : Nat) → (offset : Nat) → Py (List Nat)
  | 0, offset => if offset < limit then .error .diverges else .ok []
  | fuel + 1, offset =>
    if offset < limit then do
      let (v, offset) ← mpiToInt data offset
      let r ← mpiLoopTo data limit fuel offset
      return v :: r
    else .ok []

/-- packets.py:1034-1060. The checksum test raises whatever the data: `int_to_2byte(octets)` is a TypeError from version 4 on, and before
`expected_checksum` has no value. -/
def readPrivate (H : Digest) (version : Nat) (dec : Bytes) (checksum hash : Bool) : Py (List Nat) :=
  if checksum then .error (if version ≥ 4 then .typeError else .unboundLocal)
  else if hash then
    if lastN dec 20 ≠ H 2 (dec.take (dec.length - 20)) then .error .valueError
    else mpiLoopTo dec (dec.length - 20) dec.length 0
  else mpiLoopTo dec dec.length dec.length 0

/-- `get_symmetric_cipher(alg, key, CFB, iv)` with a key that may be None or a str (`none` here): `bytes(key)` is then a TypeError, raised again
by the second attempt (utils.py:292-297); the block size is looked up before. -/
def getCfbKey (S : BlockCiphers) (alg : Nat) (key : Option Bytes) (iv : Bytes) : Py CipherObj :=
  match key with
  | some k => getCfb S alg k iv
  | none => match blockLengths alg with
    | none => .error .attributeError
    | some 0 => .error .attributeError
    | some _ => .error .typeError

/-- packets.py:994-1031: the decryption itself. For versions 2 and 3 the cipher object, a `BlockAlgo`, has no method `sync` (AttributeError). -/
def decryptPrivate (S : BlockCiphers) (version : Nat) (key : Option Bytes) (alg : Nat) (iv enc : Bytes) : Py Bytes :=
  if version ≥ 4 then do
    let c ← getCfbKey S alg key iv
    let pad := (blockLengths alg).getD 8 - enc.length % (blockLengths alg).getD 8
    let (d, _) ← cfbDecrypt S alg (key.getD []) c (enc ++ List.replicate pad 0)
    return dropLast d pad
  else if version = 2 ∨ version = 3 then do
    let _ ← getCfbKey S alg key iv
    if enc = [] then return [] else .error .attributeError
  else .error .valueError

/-- packets.py:994-1060 `decrypt_encrypted_key_portion`. -/
def decryptPortion (S : BlockCiphers) (H : Digest) (version : Nat) (key : Option Bytes) (alg : Nat) (iv enc : Bytes) (checksum hash : Bool) :
    Py (List Nat) := do
  let d ← decryptPrivate S version key alg iv enc
  readPrivate H version d checksum hash

/-! ### Secret key objects -/

/-- The attributes of a BaseSecretKey (transferrable_keys.py:415-460). `p` is `prime_p`, which is the public prime of a DSA or ElGamal key and a
private one of an RSA key; the other private values are `d`, `q'`, `u` and `x`. Signatures, user ids and the expiration time are left out. -/
structure SecObj where
  version : Nat
  created : Nat
  alg : Nat
  n : Option Nat
  e : Option Nat
  p : Option Nat
  g : Option Nat
  q : Option Nat
  y : Option Nat
  s2k : Option S2K
  sym : Nat
  iv : Bytes
  enc : Bytes
  checksum : Bool
  hash : Bool
  d : Option Nat
  q' : Option Nat
  u : Option Nat
  x : Option Nat
  locked : Bool
  deriving DecidableEq

/-- transferrable_keys.py:434-459 with 193-218 `from_packet`; the private values are class attributes, None, and `_locked` is True. -/
def SecObj.fromPacket (k : SecKey) : SecObj :=
  ⟨k.pub.version, k.pub.creationTime, k.pub.algorithm, k.pub.modulus, k.pub.exponent, k.pub.prime, k.pub.groupGenerator, k.pub.groupOrder, k.pub.keyValue,
   some k.s2k, k.sym, k.iv, k.enc, k.checksum, k.hash, none, none, none, none, true⟩

/-- transferrable_keys.py:226-240: the public part of a packet made from a key object. -/
def SecObj.pubPart (o : SecObj) : PubKey :=
  ⟨o.version, o.created, o.alg, none, o.n, o.e, o.p, o.q, o.g, o.y⟩

/-- transferrable_keys.py:472-476 with 242-246 `to_packet`. -/
def SecObj.toPacket (o : SecObj) : Py SecKey :=
  match o.s2k with
  | none => .error .valueError
  | some s => .ok ⟨o.pubPart, s, o.sym, o.iv, o.enc, o.checksum, o.hash⟩

/-- transferrable_keys.py:461-470, 653-662 `to_public_key`: the attributes of the public key object, as a public key packet holds them. -/
def SecObj.toPublic (o : SecObj) : PubKey := o.pubPart

/-- The key for the symmetric cipher (transferrable_keys.py:571-575): without a specifier it is the passphrase itself, a str. -/
def SecObj.cipherKey (H : Digest) (o : SecObj) (pass : Bytes) : Py (Option Bytes) :=
  match o.s2k with
  | some s => s.toKey H pass
  | none => .ok none

/-- What `unlock` has decrypted (transferrable_keys.py:571-579); `pass` is the passphrase encoded as UTF-8. -/
def SecObj.values (S : BlockCiphers) (H : Digest) (o : SecObj) (pass : Bytes) : Py (List Nat) := do
  let key ← o.cipherKey H pass
  decryptPortion S H o.version key o.sym o.iv o.enc o.checksum o.hash

def isRsa (alg : Nat) : Bool := alg = 1 ∨ alg = 2 ∨ alg = 3
def isDl (alg : Nat) : Bool := alg = 16 ∨ alg = 17 ∨ alg = 20

/-- transferrable_keys.py:581-594: storing the values, one at a time (a missing one is an IndexError). -/
def SecObj.store (o : SecObj) (vs : List Nat) : SecObj × Py Unit :=
  if isRsa o.alg then
    match vs with
    | [] => (o, .error .indexError)
    | [a] => ({ o with d := some a }, .error .indexError)
    | [a, b] => ({ o with d := some a, p := some b }, .error .indexError)
    | [a, b, c] => ({ o with d := some a, p := some b, q' := some c }, .error .indexError)
    | a :: b :: c :: f :: _ => ({ o with d := some a, p := some b, q' := some c, u := some f, locked := false }, .ok ())
  else if isDl o.alg then
    match vs with
    | [] => (o, .error .indexError)
    | a :: _ => ({ o with x := some a, locked := false }, .ok ())
  else (o, .error .valueError)

/-- transferrable_keys.py:570-594 `unlock`: the object afterwards and the outcome. -/
def SecObj.unlock (S : BlockCiphers) (H : Digest) (o : SecObj) (pass : Bytes) : SecObj × Py Unit :=
  match o.values S H pass with
  | .error e => (o, .error e)
  | .ok vs => o.store vs

/-- transferrable_keys.py:596-610 `lock`. -/
def SecObj.lock (o : SecObj) : SecObj × Py Unit :=
  if isRsa o.alg then ({ o with d := none, p := none, q' := none, u := none, locked := true }, .ok ())
  else if isDl o.alg then ({ o with x := none, locked := true }, .ok ())
  else (o, .error .valueError)

/-- `long(x)`: `long(None)` is a TypeError. -/
def longs : List (Option Nat) → Py (List Nat)
  | [] => .ok []
  | none :: _ => .error .typeError
  | some a :: l => do
    let r ← longs l
    return a :: r

/-- transferrable_keys.py:358-382 and 478-507 `_get_key_obj`: the numbers given to the key constructor of the external library.
Simplification: `get_public_key_constructor` is taken to know the algorithms 1, 2, 3, 16, 17, 20. -/
def SecObj.keyNumbers (o : SecObj) : Py (List Nat) :=
  if o.alg = 17 then longs ([o.y, o.g, o.p, o.q] ++ if o.locked then [] else [o.x])
  else if o.alg = 16 ∨ o.alg = 20 then longs ([o.p, o.g, o.y] ++ if o.locked then [] else [o.x])
  else if o.alg = 1 ∨ o.alg = 3 then longs ([o.n, o.e] ++ if o.locked then [] else [o.d, o.p, o.q', o.u])
  else .error (.pgp "UnsupportedPublicKeyAlgorithm")

/-- transferrable_keys.py:515-568 `sign`: nothing happens to a locked key; `make` is the rest, given the key's numbers. -/
def SecObj.sign {α : Type} (o : SecObj) (make : List Nat → Py α) : Py α :=
  if o.locked then .error .runtimeError
  else do
    let k ← o.keyNumbers
    make k

/-- transferrable_keys.py:509-513 `decrypt`: with an unlocked key it does nothing and returns None. -/
def SecObj.decrypt (o : SecObj) : Py Unit := if o.locked then .error .runtimeError else .ok ()

/-! ### Keys with subkeys -/

/-- A TransferableSecretKey: the primary key and its subkeys. -/
structure SecRing where
  main : SecObj
  subs : List SecObj
  deriving DecidableEq

/-- The loops of transferrable_keys.py:1097-1105: stop at the first exception. -/
def eachUntil (f : SecObj → SecObj × Py Unit) : List SecObj → List SecObj × Py Unit
  | [] => ([], .ok ())
  | o :: l =>
    match f o with
    | (o', .error e) => (o' :: l, .error e)
    | (o', .ok ()) => (o' :: (eachUntil f l).1, (eachUntil f l).2)

/-- A method applied to the primary key, then to the subkeys in order. -/
def SecRing.each (f : SecObj → SecObj × Py Unit) (k : SecRing) : SecRing × Py Unit :=
  match f k.main with
  | (m, .error e) => (⟨m, k.subs⟩, .error e)
  | (m, .ok ()) => (⟨m, (eachUntil f k.subs).1⟩, (eachUntil f k.subs).2)

/-- transferrable_keys.py:1097-1100. -/
def SecRing.unlock (S : BlockCiphers) (H : Digest) (k : SecRing) (pass : Bytes) : SecRing × Py Unit := k.each (fun o => o.unlock S H pass)

/-- transferrable_keys.py:1102-1105. -/
def SecRing.lock (k : SecRing) : SecRing × Py Unit := k.each SecObj.lock

/-- `with unlocked(key, pass): body` (context_managers.py:18-34): an exception in `__enter__` skips both the body and `__exit__`; an exception
in `__exit__` replaces the body's. `body` may do anything to the key. -/
def withUnlocked {α : Type} (S : BlockCiphers) (H : Digest) (k : SecRing) (pass : Bytes) (body : SecRing → SecRing × Py α) : SecRing × Py α :=
  match k.unlock S H pass with
  | (k', .error e) => (k', .error e)
  | (k', .ok ()) =>
    match (body k').1.lock with
    | (k'', .error e) => (k'', .error e)
    | (k'', .ok ()) => (k'', (body k').2)

end Pgp
