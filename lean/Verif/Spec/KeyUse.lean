import Verif.Spec.Unlock
import Verif.Model.KeyUse
import Verif.Model.Merge
import Verif.Model.KeyFile
/-
Specification for C111 and C112: key pairs of the cryptographic library, and what two people hold after one has given the other his public key.
-/
namespace Pgp.Spec

/-- The library verifies with the public numbers what it signs with all of them, for every hash that there is. -/
def SignsFor (L : CryptoLib) (hash : Nat → List UInt8 → List UInt8) (numbers : List Nat) : KeyMaterial → Prop
  | .rsa n e => ∀ h x, digestOctets h ≠ none → L.rsaVerify [n, e] h (hash h x) (L.rsaSign numbers h (hash h x)) = true
  | .dsa p q g y => ∀ d, L.dsaVerify [y, g, p, q] d [(L.dsaSign numbers d).1, (L.dsaSign numbers d).2] = true
  | .elgamal p g y => ∀ d, L.elgVerify [p, g, y] d [(L.elgSign numbers d).1, (L.elgSign numbers d).2] = true

/-- The numbers of a key pair that signs: all numbers of the key, in the order of the library; see `PrivateFor`. -/
def SigningPair (L : CryptoLib) (hash : Nat → List UInt8 → List UInt8) (numbers : List Nat) : Prop :=
  ∀ m priv, PrivateFor m priv numbers → SignsFor L hash numbers m

/-- The numbers of an RSA key pair that encrypts: for blocks that leave room for eleven octets of padding, ciphertexts are as long as the modulus
and give the block back. -/
def EncryptingPair (L : CryptoLib) (numbers : List Nat) : Prop :=
  ∀ n e d p q u, numbers = [n, e, d, p, q, u] → ∀ block : List UInt8, block.length + 11 ≤ Nat.log2 n / 8 + 1 →
    L.rsaDecrypt numbers (L.rsaEncrypt [n, e] block) = some block ∧ (L.rsaEncrypt [n, e] block).length = Nat.log2 n / 8 + 1

/-- What two people hold: one has read a secret key file, has exported the public key in it to a second file and has unlocked the secret key with
`pass`; the other has read the second file. `s` is a part of the unlocked key, and `p` the part in the same place of the public key. -/
def HeldBy (magic : List UInt8 → List Char) (fl : Nat → Nat) (S : BlockCiphers) (H : Digest) (expires : Nat → Py Unit) (pass data : List UInt8) (s : SecObj) (p : PubKey) : Prop :=
  ∃ (k : TKey) (ring ring' : SecRing) (pub : TKey) (data' : List UInt8) (k' : TKey) (keys : List PubKey) (n : Nat), readKey magic data = .ok k ∧ k.secRing = some ring ∧ ring.unlock S H pass = (ring', .ok ()) ∧
    k.toPublic expires = .ok pub ∧ pub.octets fl none = .ok data' ∧ readKey magic data' = .ok k' ∧ k'.pubKeys = some keys ∧
    (ring'.main :: ring'.subs)[n]? = some s ∧ keys[n]? = some p

end Pgp.Spec
