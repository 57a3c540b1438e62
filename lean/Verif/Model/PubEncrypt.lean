import Verif.Model.Message
/-
Model of encrypting a message to public keys, and of a secret key taking the session key out of a session key packet
(pgp/message.py:61-94, 334-370; pgp/packets/packets.py:199-283).
-/
namespace Pgp

/-- What is used of a recipient's public key object (transferrable_keys.py:363-385): for RSA PyCrypto's `PKCS115_Cipher.encrypt` with its
randomness, for ElGamal the integers of the key and the random padding, for the other algorithms the outcome. -/
inductive PubMaterial
  | rsa (enc : Bytes → Bytes)
  | elgamal (key : ElGamal) (ps : Bytes)
  | other (r : Py Bytes)

/-- A recipient's public key: `key_id`, `public_key_algorithm` and the key object. -/
structure Recipient where
  keyId : List Char
  alg : Nat
  material : PubMaterial

/-- `set_algorithm_and_session_key` (message.py:363-370): `_get_key_obj` knows RSA as algorithms 1 and 3 only (transferrable_keys.py:378). -/
def Recipient.encryptKey (fl : FloorLog2) (r : Recipient) (sym : Nat) (sk : Bytes) : Py Bytes :=
  match r.material with
  | .rsa enc => if r.alg = 1 ∨ r.alg = 3 then rsaEncryptKey fl enc sym sk else .error (.pgp "UnsupportedPublicKeyAlgorithm")
  | .elgamal key ps => elgamalEncryptKey fl key ps sym sk
  | .other r => r

/-- `PublicKeySessionKey(3, public_key=..., hide_key_id=...)` (message.py:334-348): `hide_key_id` is not looked at. A session key that is
not empty is assumed (an empty one would leave the object without an encrypted key). -/
def newPubSessKey (fl : FloorLog2) (sym : Nat) (sk : Bytes) (hide : Bool) (r : Recipient) : Py SessKey := do
  let e ← r.encryptKey fl sym sk
  return .pub .new (publicKeySessionKeyPacket 3 r.keyId r.alg e hide)

/-- `public_key_encrypt` (message.py:61-94). `sk` is the session key given or drawn, `iv` what is drawn for the data. Iterating over
`public_keys` when it is None is a TypeError. -/
def publicKeyEncrypt (S : BlockCiphers) (H : Digest) (fl : FloorLog2) (o : Nat → Py Bytes) (m : Msg) (alg : Nat)
    (publicKey : Option Recipient) (publicKeys hidden : Option (List Recipient)) (sk iv : Bytes) (integrity : Bool) : Py Msg := do
  let keys ← match publicKey, publicKeys with
    | some _, some _ => .error .typeError
    | some k, none => .ok [k]
    | none, some ks => .ok ks
    | none, none => .error .typeError
  let open_ ← keys.mapM (newPubSessKey fl alg sk false)
  let hid ← (hidden.getD []).mapM (newPubSessKey fl alg sk true)
  let data ← m.bytes fl o
  let c ← newEncryptedData S H iv integrity alg sk data
  return .encrypted (open_ ++ hid) integrity (some 1) c

/-- What is used of an unlocked secret key object: PyCrypto's `PKCS115_Cipher.decrypt` and the length `k` of the modulus for RSA (and
`single`, what an ElGamal packet with one integer comes to), the integers of the key for ElGamal. -/
inductive SecMaterial
  | rsa (dec : Bytes → Option Bytes) (k : Nat) (single : Bytes → Py (Nat × Bytes))
  | elgamal (key : ElGamal) (inverse : Nat → Nat → Nat)

/-- `_get_key_and_cipher_algo` (packets.py:199-245) by the algorithm of the *packet*. An ElGamal key object in the cipher for RSA has no
`n` (AttributeError); an RSA key object in the one for ElGamal refuses a tuple of two or more (PyCrypto unpacks a 1-tuple: ValueError) and an
empty tuple (IndexError). For any other algorithm the key's `decrypt` is given an argument too many (TypeError). -/
def SecMaterial.open_ : SecMaterial → PkEsk → Py (Nat × Bytes)
  | .rsa dec k single, p =>
    if p.alg = 1 ∨ p.alg = 2 ∨ p.alg = 3 then rsaDecryptKey dec k p.esk
    else if p.alg = 16 then do
      let ems ← mpiSlices p.esk p.esk.length 0
      match ems with
      | [] => .error .indexError
      | [c] => single c
      | _ => .error .valueError
    else .error .typeError
  | .elgamal key inverse, p =>
    if p.alg = 1 ∨ p.alg = 2 ∨ p.alg = 3 then .error .attributeError
    else if p.alg = 16 then elgamalDecryptKey key inverse p.esk
    else .error .typeError

end Pgp
