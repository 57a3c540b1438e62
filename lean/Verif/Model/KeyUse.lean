import Verif.Model.Unlock
import Verif.Model.SignMsg
import Verif.Model.KeyIds
import Verif.Model.PubEncrypt
/-
Using the keys that were read from files: the numbers of a key object become a key object of the cryptographic library, and that is what signing,
verifying, encrypting and decrypting use (pgp/transferrable_keys.py:363-412, 478-568; pgp/utils.py:95-154; pgp/packets/packets.py:199-283).
-/
namespace Pgp

/-- The cryptographic library (PyCrypto): what its key objects do, by the tuple of numbers they were constructed from. The randomness of signing
and encrypting is fixed. -/
structure CryptoLib where
  /-- `PKCS1_v1_5.new(RSA.construct(numbers)).sign(hash)` -/
  rsaSign : List Nat → Nat → Bytes → Bytes
  rsaVerify : List Nat → Nat → Bytes → Bytes → Bool
  /-- `EMSA_PKCS1_V1_5_ENCODE(hash, key.size())`; the size is that of the prime -/
  emsa : Nat → Nat → Bytes → Bytes
  elgSign : List Nat → Bytes → Nat × Nat
  elgVerify : List Nat → Bytes → List Nat → Bool
  dsaSign : List Nat → Nat → Nat × Nat
  dsaVerify : List Nat → Nat → List Nat → Bool
  /-- `PKCS1_v1_5.new(RSA.construct(numbers)).encrypt(block)` -/
  rsaEncrypt : List Nat → Bytes → Bytes
  rsaDecrypt : List Nat → Bytes → Option Bytes

/-- What `sign_hash` and `verify_hash` use of a key object (utils.py:95-154): the first number is `n` or `p`, `q` is the fourth of a DSA key's. -/
def CryptoLib.prims (L : CryptoLib) (numbers : List Nat) : SigPrims where
  modLen := Nat.log2 (numbers.headD 0) / 8 + 1
  rsaSign := L.rsaSign numbers
  rsaVerify := L.rsaVerify numbers
  emsa := L.emsa (numbers.headD 0)
  elgSign := L.elgSign numbers
  elgVerify := L.elgVerify numbers
  dsaQ := numbers.getD 3 0
  dsaSign := L.dsaSign numbers
  dsaVerify := L.dsaVerify numbers

/-- transferrable_keys.py:363-385 `_get_key_obj` of a public key: the numbers given to the constructor. -/
def PubKey.keyNumbers (k : PubKey) : Py (List Nat) :=
  if k.algorithm = 17 then longs [k.keyValue, k.groupGenerator, k.prime, k.groupOrder]
  else if k.algorithm = 16 ∨ k.algorithm = 20 then longs [k.prime, k.groupGenerator, k.keyValue]
  else if k.algorithm = 1 ∨ k.algorithm = 3 then longs [k.modulus, k.exponent]
  else .error (.pgp "UnsupportedPublicKeyAlgorithm")

/-- A secret key object as `sign` uses it (transferrable_keys.py:516-568): the key id is that of the packet made from the object (329-342), which
for a secret key has the same public content. Simplified: a key without key id fails here and not at the end. -/
def SecObj.signKey (fl : FloorLog2) (H : Digest) (L : CryptoLib) (o : SecObj) : Py SignKey := do
  let numbers ← o.keyNumbers
  let id ← o.pubPart.objectKeyId fl H
  return ⟨id, o.alg, o.locked, L.prims numbers⟩

/-- A public key object as `verify` uses it (transferrable_keys.py:388-412). -/
def PubKey.verifyKey (fl : FloorLog2) (H : Digest) (L : CryptoLib) (k : PubKey) : Py SignKey := do
  let numbers ← k.keyNumbers
  let id ← k.objectKeyId fl H
  return ⟨id, k.algorithm, false, L.prims numbers⟩

/-- A public key object as `PublicKeySessionKey` uses it (message.py:334-370; transferrable_keys.py:363-385). `pad` is the random padding of the
cipher for ElGamal. Simplified: keys that are neither for RSA nor for ElGamal encryption are said to fail at encrypting. -/
def PubKey.recipient (fl : FloorLog2) (H : Digest) (L : CryptoLib) (pad : Bytes) (k : PubKey) : Py Recipient := do
  let id ← k.objectKeyId fl H
  let numbers ← k.keyNumbers
  return ⟨id, k.algorithm,
    if k.algorithm = 1 ∨ k.algorithm = 3 then .rsa (L.rsaEncrypt numbers)
    else if k.algorithm = 16 then .elgamal ⟨numbers.getD 0 0, numbers.getD 1 0, numbers.getD 2 0, 0⟩ pad
    else .other (.error .typeError)⟩

/-- A secret key object as `_get_key_and_cipher_algo` uses it (message.py:350-358; packets.py:199-245). `single`: see `SecMaterial`; `inverse` is
the library's modular inverse. Simplified: a DSA key, which cannot decrypt, is refused here. -/
def SecObj.holder (L : CryptoLib) (single : Bytes → Py (Nat × Bytes)) (inverse : Nat → Nat → Nat) (o : SecObj) : Py SecMaterial := do
  let numbers ← o.keyNumbers
  if o.alg = 1 ∨ o.alg = 3 then return .rsa (L.rsaDecrypt numbers) (Nat.log2 (numbers.headD 0) / 8 + 1) single
  else if o.alg = 16 ∨ o.alg = 20 then return .elgamal ⟨numbers.getD 0 0, numbers.getD 1 0, numbers.getD 2 0, numbers.getD 3 0⟩ inverse
  else .error .attributeError

/-- The public values of an element that is a key. -/
def KElem.pubKey (e : KElem) : Option PubKey :=
  match e.item with
  | .key _ _ k _ => some k
  | _ => none

/-- The public values of a key (transferrable_keys.py:866-890) and of its `subkeys`. -/
def TKey.pubKeys (k : TKey) : Option (List PubKey) := do
  let m ← k.primary.1.pubKey
  let subs ← k.subs.mapM fun g => g.1.pubKey
  return m :: subs

end Pgp
