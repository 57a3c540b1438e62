import Verif.Spec.EncData
import Verif.Spec.Bytes
/-
Specification of the protection of private values (RFC 4880, 3.2, 5.5.3 and 3.7.2.1) and of the state of a secret key, independent of the code.
-/
namespace Pgp.Spec

/-- RFC 4880, 3.2: a multiprecision integer: the number of bits in two octets, then the shortest big-endian octets. -/
def mpi (i : Nat) : List UInt8 := beBytes 2 (bitLen i) ++ beBytes (octetsFor (bitLen i)) i

/-- `data` is the CFB encryption of `plain` with the given IV. -/
def CfbTextIv (E : List UInt8 → List UInt8) (bs : Nat) (iv plain data : List UInt8) : Prop :=
  ∃ (ps : List (List UInt8)) (pad : List UInt8), (∀ p ∈ ps, p.length = bs) ∧ ps.flatten = plain ++ pad ∧
    data = (cfbBlocks E bs iv ps).flatten.take plain.length

/-- RFC 4880, 5.5.3 (string-to-key usage 254): the private integers followed by the SHA-1 of them. -/
def secretPlain (sha1 : List UInt8 → List UInt8) (ints : List Nat) : List UInt8 :=
  (ints.map mpi).flatten ++ sha1 (ints.map mpi).flatten

end Pgp.Spec
