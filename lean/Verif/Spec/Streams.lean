import Verif.Spec.Framing
import Verif.Spec.Lengths
/-
Specification: a packet as it may arrive, with a definite length in any of its encodings (RFC 4880, 4.2).
-/
namespace Pgp.Spec

/-- The octets `w` are the packet `p` behind a header of its format with a definite length, not necessarily the shortest one. -/
inductive Framed : RawPacket → List UInt8 → Prop
  | new (t : Nat) (c l : List UInt8) (ht : t < 64) (hl : NewDefinite l c.length) : Framed ⟨.new, t, c⟩ (UInt8.ofNat (192 + t) :: (l ++ c))
  | old (t lt : Nat) (c l : List UInt8) (ht : t < 16) (hl : OldDefinite lt l c.length) : Framed ⟨.old, t, c⟩ (UInt8.ofNat (128 + 4 * t + lt) :: (l ++ c))

end Pgp.Spec
