import Verif.Model.SymCipher
/-
Model of the session key and one-pass signature packets of /repo/pgp/packets/packets.py and of the session key classes of
/repo/pgp/message.py.
-/
namespace Pgp

/-! ### Public-key encrypted session key packets -/

/-- packets.py:178-186. -/
structure PkEsk where
  version : Nat
  keyId : Option (List Char)
  alg : Nat
  esk : Bytes
  deriving DecidableEq, Repr

/-- packets.py:158-176. `key_id == b'0' * 16` compares str with bytes: never true, so `key_id` stays the string. -/
def parsePkEsk (data : Bytes) : Py PkEsk := do
  let v ← idx data 0
  let keyId ← bytearrayToHex data 1 (some 16)
  let a ← idx data 9
  return { version := v.toNat, keyId := some keyId, alg := a.toNat, esk := data.drop 10 }

/-- packets.py:285-296 `content`. -/
def PkEsk.content (p : PkEsk) : Py Bytes := do
  let keyId := p.keyId.getD (List.replicate 16 '0')
  let v ← byteOf p.version
  let k ← hexToBytes keyId (some 8)
  let a ← byteOf p.alg
  return [v] ++ k ++ [a] ++ p.esk

/-- `sum(octets)`. -/
def sumOctets (b : Bytes) : Nat := b.foldl (fun s x => s + x.toNat) 0

/-- packets.py:261-267: `[algorithm] + session_key + checksum`. `insert` raises ValueError for a non-octet. -/
def sessionBlock (alg : Nat) (key : Bytes) : Py Bytes := do
  let checksum := sumOctets key % 65536
  let a ← byteOf alg
  return [a] ++ key ++ [lowByte (checksum >>> 8), lowByte checksum]

/-- packets.py:236-245: the recovered block is taken apart and its checksum verified. `m[-2]`, `m[-1]` raise IndexError for fewer
than two octets. -/
def readSessionBlock (m : Bytes) : Py (Nat × Bytes) := do
  let a ← idx m 0
  if m.length < 2 then .error .indexError
  else
    let hi ← idx m (m.length - 2)
    let lo ← idx m (m.length - 1)
    let expected := (hi.toNat <<< 8) + lo.toNat
    let key := (m.take (m.length - 2)).drop 1
    if expected ≠ sumOctets key % 65536 then .error .valueError
    else return (a.toNat, key)

/-- packets.py:51-62: the PKCS#1 v1.5 block for ElGamal with `k` octets of modulus; `ps` is what the random source delivered with
zeros replaced (packets.py:43-49), so non-zero octets. -/
def pkcsEncode (k : Nat) (ps m : Bytes) : Py Bytes :=
  if (m.length : Int) > (k : Int) - 11 then .error .valueError else .ok ([0, 2] ++ ps ++ [0] ++ m)

/-- `em.find(b'\x00', 2)`: the first zero at index 2 or later, `none` for -1. -/
def findZeroFrom2 (em : Bytes) : Option Nat := ((em.drop 2).findIdx? (· = 0)).map (· + 2)

/-- packets.py:68-84: `none` stands for the sentinel. -/
def pkcsDecode (k : Nat) (m : Bytes) : Option Bytes :=
  let em := List.replicate (k - m.length) 0 ++ m
  match findZeroFrom2 em with
  | none => none
  | some sep => if ¬ ([0, 2] : Bytes).isPrefixOf em ∨ sep < 10 then none else some (em.drop (sep + 1))

/-- The integers of an ElGamal key (PyCrypto's ElGamal object). -/
structure ElGamal where
  p : Nat
  g : Nat
  y : Nat
  x : Nat
  deriving DecidableEq, Repr

/-- PyCrypto `ElGamalobj._encrypt(M, K)`: `a = g^K mod p`, `b = M y^K mod p`. -/
def ElGamal.encrypt (key : ElGamal) (M K : Nat) : Nat × Nat := (key.g ^ K % key.p, M * key.y ^ K % key.p)

/-- PyCrypto `ElGamalobj._decrypt((a, b))`: `b * inverse(a^x mod p, p) mod p`. The inverse is a parameter. -/
def ElGamal.decrypt (key : ElGamal) (inverse : Nat → Nat → Nat) (ab : Nat × Nat) : Nat :=
  ab.2 * inverse (ab.1 ^ key.x % key.p) key.p % key.p

/-- `(p.bit_length() + 7) // 8`. -/
def byteLen (p : Nat) : Nat := if p = 0 then 0 else (Nat.log2 p + 8) / 8

/-- big-endian value of the octets (`bytes_to_long`). -/
def osToInt (b : Bytes) : Nat := b.foldl (fun a x => a * 256 + x.toNat) 0

/-- `long_to_bytes(n)`: minimal big-endian octets (PyCrypto: a single zero octet for 0). -/
def longToBytes (n : Nat) : Bytes := if n = 0 then [0] else octetsDown n (Nat.log2 n / 8 + 1)

/-- packets.py:247-283 `_get_encrypted_key` for ElGamal (algorithm 16): the block is padded, encrypted by
`self._key.encrypt(em, 0)` (packets.py:64: K is 0!) and the two integers are written as MPIs. -/
def elgamalEncryptKey (fl : FloorLog2) (key : ElGamal) (ps : Bytes) (alg : Nat) (sk : Bytes) : Py Bytes := do
  let m ← sessionBlock alg sk
  let em ← pkcsEncode (byteLen key.p) ps m
  let ab := key.encrypt (osToInt em) 0
  let a ← intToMpi fl ab.1
  let b ← intToMpi fl ab.2
  return a ++ b

/-- packets.py:247-283 for RSA (algorithms 1, 2, 3): `enc` is PyCrypto's `PKCS115_Cipher.encrypt` (with its randomness),
ciphertexts have the length of the modulus. -/
def rsaEncryptKey (fl : FloorLog2) (enc : Bytes → Bytes) (alg : Nat) (sk : Bytes) : Py Bytes := do
  let m ← sessionBlock alg sk
  intToMpi fl (osToInt (enc m))

/-- packets.py:212-217: the octets of the integers, as they stand (not converted to integers). Fuel: each round advances by at
least two. -/
def mpiSlices (data : Bytes) : (fuel offset : Nat) → Py (List Bytes)
  | 0, offset => if offset + 2 < data.length then .error .diverges else .ok []
  | fuel + 1, offset =>
    if offset + 2 < data.length then do
      let n ← mpiLength data offset
      let r ← mpiSlices data fuel (offset + 2 + n)
      return slice data (offset + 2) (offset + 2 + n) :: r
    else .ok []

/-- packets.py:199-245 `_get_key_and_cipher_algo` for RSA: `dec` is PyCrypto's `PKCS115_Cipher.decrypt`: ValueError unless the
ciphertext has exactly the `k` octets of the modulus; `none` is the sentinel. Any number of integers other than one makes `em` a
tuple: `len(ct) != k` then is ValueError again (a modulus has more than two octets). -/
def rsaDecryptKey (dec : Bytes → Option Bytes) (k : Nat) (esk : Bytes) : Py (Nat × Bytes) := do
  let ems ← mpiSlices esk esk.length 0
  match ems with
  | [c] =>
    if c.length ≠ k then .error .valueError
    else match dec c with
      | none => .error .valueError
      | some m => readSessionBlock m
  | _ => .error .valueError

/-- packets.py:199-245 for ElGamal. `self._key.decrypt(ct)` on two strings of octets converts them to integers and the result back
to octets without leading zeros; a single string is made a tuple of one element, and the missing second one is an IndexError, as is the
missing first one of an empty tuple. Simplification: PyCrypto reads only the first two elements. -/
def elgamalDecryptKey (key : ElGamal) (inverse : Nat → Nat → Nat) (esk : Bytes) : Py (Nat × Bytes) := do
  let ems ← mpiSlices esk esk.length 0
  match ems with
  | [] => .error .indexError
  | [_] => .error .indexError
  | a :: b :: _ =>
    match pkcsDecode (byteLen key.p) (longToBytes (key.decrypt inverse (osToInt a, osToInt b))) with
    | none => .error .valueError
    | some m => readSessionBlock m

/-- message.py:334-348 `PublicKeySessionKey.__init__` with a public key, followed by `to_packet` (323-332): `hide_key_id` is not
looked at. `esk` is the encrypted key made at 345-348. -/
def publicKeySessionKeyPacket (version : Nat) (keyId : List Char) (alg : Nat) (esk : Bytes) (_hideKeyId : Bool) : PkEsk :=
  { version := version, keyId := some keyId, alg := alg, esk := esk }

/-! ### Symmetric-key encrypted session key packets -/

/-- packets.py:547-554. -/
structure SkEsk where
  version : Nat
  sym : Nat
  s2k : S2K
  esk : Option Bytes
  deriving DecidableEq, Repr

/-- packets.py:527-545: an unknown cipher has no key length: `None + int` is TypeError. -/
def parseSkEsk (data : Bytes) : Py SkEsk := do
  let v ← idx data 0
  let sym ← idx data 1
  let (s, offset) ← parseS2k sym.toNat data 2
  match keyLengths sym.toNat with
  | none => .error .typeError
  | some n => return { version := v.toNat, sym := sym.toNat, s2k := s, esk := some (slice data offset (offset + n + 1)) }

/-- packets.py:620-628 `content`. -/
def SkEsk.content (fl : FloorLog2) (p : SkEsk) : Py Bytes := do
  let v ← byteOf p.version
  let s ← byteOf p.sym
  let k ← p.s2k.toBytes fl
  return [v, s] ++ k ++ p.esk.getD []

/-- packets.py:573-602 `_get_key_and_cipher_algo`. `bytes(None)` (GnuPG specifier) raises TypeError when a key is to be
decrypted. An empty encrypted key counts as absent. `decrypted_data[0]` cannot fail: the data is not empty. -/
def skEskGetKey (S : BlockCiphers) (H : Digest) (s2k : S2K) (sym : Nat) (pass : Bytes) (esk : Option Bytes) :
    Py (Nat × Option Bytes) := do
  let key ← s2k.toKey H pass
  match esk with
  | none => return (sym, key)
  | some [] => return (sym, key)
  | some (e :: es) =>
    match blockLengths sym, key with
    | none, _ => .error .typeError
    | _, none => .error .typeError
    | some bs, some key =>
      let o ← getCfb S sym key (List.replicate bs 0)
      let padding := bs - (e :: es).length % bs
      let (d, _) ← cfbDecrypt S sym key o ((e :: es) ++ List.replicate padding 0)
      let d := dropLast d padding
      let a ← idx d 0
      return (a.toNat, some (d.drop 1))

/-- packets.py:604-618 `_get_encrypted_key`. -/
def skEskEncryptKey (S : BlockCiphers) (H : Digest) (s2k : S2K) (sym : Nat) (pass sk : Bytes) : Py Bytes := do
  let key ← s2k.toKey H pass
  match blockLengths s2k.sym, key with
  | none, _ => .error .typeError
  | _, none => .error .typeError
  | some bs, some key =>
    let o ← getCfb S s2k.sym key (List.replicate bs 0)
    let a ← byteOf sym
    let data := a :: sk
    let padding := bs - data.length % bs
    let (c, _) ← cfbEncrypt S s2k.sym key o (data ++ List.replicate padding 0)
    return dropLast c padding

/-- message.py:269-286 `SymmetricSessionKey.set_session_key`: no (or an empty) session key means that the passphrase key is the
session key. -/
def setSessionKey (S : BlockCiphers) (H : Digest) (s2k : S2K) (sym : Nat) (pass : Bytes) (sk : Option Bytes) :
    Py (Option Bytes) :=
  match sk with
  | none => .ok none
  | some [] => .ok none
  | some (x :: xs) => do
    let e ← skEskEncryptKey S H s2k sym pass (x :: xs)
    return some e

/-! ### One-pass signature packets -/

/-- packets.py:655-664. -/
structure OnePass where
  version : Nat
  sigType : Nat
  hashAlg : Nat
  pubAlg : Nat
  keyId : List Char
  nested : Nat
  deriving DecidableEq, Repr

/-- packets.py:633-653: eight hexadecimal digits, i.e. four octets, are read of the eight of the key id. -/
def parseOnePass (data : Bytes) : Py OnePass := do
  let v ← idx data 0
  let t ← idx data 1
  let h ← idx data 2
  let a ← idx data 3
  let keyId ← bytearrayToHex data 4 (some 8)
  let n ← idx data 12
  return { version := v.toNat, sigType := t.toNat, hashAlg := h.toNat, pubAlg := a.toNat, keyId := keyId, nested := n.toNat }

/-- packets.py:676-684. -/
def OnePass.content (p : OnePass) : Py Bytes := do
  let h ← extendInts [p.version, p.sigType, p.hashAlg, p.pubAlg]
  let k ← hexToBytes p.keyId (some 8)
  let n ← byteOf p.nested
  return h ++ k ++ [n]

end Pgp
