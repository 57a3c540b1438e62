import Verif.Model.Framing
import Verif.Spec.Lengths
/-
Specification vocabulary for framing.  `RawPacket` (header format, type, content) is the observable part of a packet.
-/
namespace Pgp.Spec

/-- Frames that a definite-length header can express: new format, type below 64, 1..2^32-1 content octets; or old
format, type below 16, fewer than 2^24 content octets. -/
def Expressible (p : RawPacket) : Prop :=
  (p.fmt = .new ∧ p.type < 64 ∧ 1 ≤ p.content.length ∧ p.content.length ≤ 2 ^ 32 - 1) ∨
  (p.fmt = .old ∧ p.type < 16 ∧ p.content.length < 2 ^ 24)

/-- A partial chunk: exponent `k < 31` and `2^k` octets. -/
structure Chunk where
  k : Nat
  body : List UInt8
  hk : k < 31
  hlen : body.length = 2 ^ k

/-- A chunk on the wire: its partial-length octet, then its octets. -/
def Chunk.wire (c : Chunk) : List UInt8 := UInt8.ofNat (224 + c.k) :: c.body

/-- A new-format packet of type `t` sent as partial chunks and a final chunk with definite length octets `e`. -/
def partialWire (t : Nat) (cs : List Chunk) (e final : List UInt8) : List UInt8 :=
  UInt8.ofNat (192 + t) :: ((cs.map Chunk.wire).flatten ++ (e ++ final))

/-- The body such a packet carries. -/
def partialBody (cs : List Chunk) (final : List UInt8) : List UInt8 :=
  (cs.map Chunk.body).flatten ++ final

end Pgp.Spec
