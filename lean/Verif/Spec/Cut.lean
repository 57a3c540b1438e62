import Verif.Spec.Framing
import Verif.Spec.Lengths
/-
Specification for data of which the end is missing: the header of a packet, with a definite length in any of its encodings (RFC 4880, 4.2).
-/
namespace Pgp.Spec

/-- The octets `h` are a header of this format for a packet of type `t` with a content of `n` octets. -/
inductive LengthHeader : HeaderFormat → Nat → Nat → List UInt8 → Prop
  | new (t n : Nat) (l : List UInt8) (ht : t < 64) (hl : NewDefinite l n) : LengthHeader .new t n (UInt8.ofNat (192 + t) :: l)
  | old (t lt n : Nat) (l : List UInt8) (ht : t < 16) (hl : OldDefinite lt l n) : LengthHeader .old t n (UInt8.ofNat (128 + 4 * t + lt) :: l)

end Pgp.Spec
