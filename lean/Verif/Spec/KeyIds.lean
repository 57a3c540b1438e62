import Verif.Spec.PublicKey
import Verif.Spec.Hex
/-
Specification for C93: identifiers of keys (RFC 4880 section 12.2; the key grip as documented in pgp/interfaces.py).
-/
namespace Pgp.Spec

/-- `b` is the number of binary digits of `n`. -/
def BinaryDigits (n b : Nat) : Prop := 2 ^ b ≤ 2 * n ∧ n < 2 ^ b

/-- `c` is the logarithm of `n` to the base 2, rounded up. -/
def LogUp (n c : Nat) : Prop := n ≤ 2 ^ c ∧ ∀ k, n ≤ 2 ^ k → c ≤ k

/-- The number whose size is the size of the key, and whose low octets are the key id of an old key: n for RSA, p otherwise. -/
def KeyMaterial.main : KeyMaterial → Nat
  | rsa n _ => n
  | elgamal p _ _ => p
  | dsa p _ _ _ => p

/-- The digits of a number in the decimal system, as octets. -/
def decimalOctets (n : Nat) : List UInt8 :=
  if n < 10 then [UInt8.ofNat (48 + n)] else decimalOctets (n / 10) ++ [UInt8.ofNat (48 + n % 10)]

/-- ASCII. -/
def asciiOctets (s : String) : List UInt8 := s.toList.map fun c => UInt8.ofNat c.toNat

/-- The S-expression of a public key with decimal numbers, as octets. -/
def KeyMaterial.expression : KeyMaterial → List UInt8
  | rsa n e => asciiOctets "(public-key(rsa(n" ++ decimalOctets n ++ asciiOctets ")(e" ++ decimalOctets e ++ asciiOctets ")))"
  | dsa p q g y => asciiOctets "(public-key(dsa(p" ++ decimalOctets p ++ asciiOctets ")(q" ++ decimalOctets q ++ asciiOctets ")(g" ++ decimalOctets g ++
      asciiOctets ")(y" ++ decimalOctets y ++ asciiOctets ")))"
  | elgamal p g y => asciiOctets "(public-key(elg(p" ++ decimalOctets p ++ asciiOctets ")(g" ++ decimalOctets g ++ asciiOctets ")(y" ++ decimalOctets y ++ asciiOctets ")))"

end Pgp.Spec
