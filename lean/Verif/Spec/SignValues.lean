import Verif.Spec.Hashing
import Verif.Spec.KeyIds
import Verif.Model.Hashing
import Verif.Spec.Bytes
import Verif.Spec.SessionKey
/-
Specification for C28: what the primitives of the public key algorithms are handed.
-/
namespace Pgp.Spec

/-- The leading octets of a digest that a DSA key uses, whose group order has so many binary digits. -/
def dsaOctets (bits : Nat) (digest : List UInt8) : List UInt8 := digest.take ((bits + 7) / 8)

/-- The numbers of a signature on a digest: RSA (1, 3), DSA (17) and ElGamal (20). -/
inductive SignatureNumbers (P : SigPrims) (bits hash : Nat) (digest : List UInt8) : Nat → List Nat → Prop where
  | rsa (alg : Nat) (h : alg = 1 ∨ alg = 3) : SignatureNumbers P bits hash digest alg [beNat (P.rsaSign hash digest)]
  | dsa (r s : Nat) (h : P.dsaSign (beNat (dsaOctets bits digest)) = (r, s)) : SignatureNumbers P bits hash digest 17 [r, s]
  | elgamal (r s : Nat) (h : P.elgSign (P.emsa hash digest) = (r, s)) : SignatureNumbers P bits hash digest 20 [r, s]

/-- The primitive accepts the numbers for the digest. An RSA number is handed over as its shortest octets. -/
inductive NumbersAccepted (P : SigPrims) (bits hash : Nat) (digest : List UInt8) : Nat → List Nat → Prop where
  | rsa (alg : Nat) (h : alg = 1 ∨ alg = 3) (x : UInt8) (b : List UInt8) (more : List Nat) (hx : x ≠ 0) (hv : P.rsaVerify hash digest (x :: b) = true) :
      NumbersAccepted P bits hash digest alg (beNat (x :: b) :: more)
  | rsaZero (alg : Nat) (h : alg = 1 ∨ alg = 3) (more : List Nat) (hv : P.rsaVerify hash digest [0] = true) : NumbersAccepted P bits hash digest alg (0 :: more)
  | dsa (values : List Nat) (hd : digest ≠ []) (hv : P.dsaVerify (beNat (dsaOctets bits digest)) values = true) : NumbersAccepted P bits hash digest 17 values
  | elgamal (values : List Nat) (hv : P.elgVerify (P.emsa hash digest) values = true) : NumbersAccepted P bits hash digest 20 values

end Pgp.Spec
