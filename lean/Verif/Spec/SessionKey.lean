import Verif.Spec.Bytes
import Verif.Spec.Hex
/-
What a session key block (RFC 4880 5.1) and a PKCS#1 v1.5 encryption block (RFC 4880 13.1.1) are.
-/
namespace Pgp.Spec

/-- The sum of the octets. -/
def octetSum (b : List UInt8) : Nat := (b.map UInt8.toNat).sum

/-- Algorithm octet, session key, two-octet checksum. -/
def SessionBlock (alg : UInt8) (key m : List UInt8) : Prop := m = alg :: (key ++ beBytes 2 (octetSum key % 65536))

/-- `00 02 PS 00 M` with at least eight non-zero padding octets. -/
def PkcsBlock (m em : List UInt8) : Prop :=
  ∃ ps : List UInt8, (∀ x ∈ ps, x ≠ 0) ∧ 8 ≤ ps.length ∧ em = 0 :: 2 :: (ps ++ 0 :: m)

/-- `inverse a p` is the inverse of `a` modulo `p` whenever there is one. -/
def InverseOk (inverse : Nat → Nat → Nat) (p : Nat) : Prop := ∀ a, Nat.Coprime a p → a * inverse a p % p = 1 % p

end Pgp.Spec
