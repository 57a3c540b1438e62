import Verif.Spec.Keys
import Verif.Model.Certify
import Mathlib.Data.List.Forall2
/-
Specification for C108 and C109: which part of a key object comes from which packet.
-/
namespace Pgp.Spec

/-- The content item of a user attribute for an image subpacket: its MIME type and its octets. -/
def ItemRead (magic : Bytes → Str) (a : AttrSub) (item : Str × Bytes) : Prop :=
  ∃ version length format data, a = .image version length format data ∧
    item = (if format = some 1 then "image/jpeg".toList else magic (data.take 1024), data)

/-- The element of a key object that a packet stands for.  (A validity period in a key packet is not kept.) -/
def ElementOf (magic : Bytes → Str) (p : KPacket) (e : KElem) : Prop :=
  e.fmt = p.fmt ∧
  match p.body with
  | .key secret sub k priv => e.item = .key secret sub { k with expirationDays := none } priv
  | .sig s => e.item = .sig s
  | .uid s => e.item = .uid s
  | .attr as => ∃ items, e.item = .attr items ∧ List.Forall₂ (ItemRead magic) as items
  | _ => False

/-- A packet that is not a signature, and the signatures behind it. -/
structure Block where
  head : KPacket
  signatures : List KPacket

def Block.packets (b : Block) : List KPacket := b.head :: b.signatures

/-- The part of a key object that a block stands for: the element, with exactly these signatures in this order. -/
def PartOf (magic : Bytes → Str) (b : Block) (g : KGroup) : Prop :=
  ElementOf magic b.head g.1 ∧ List.Forall₂ (ElementOf magic) b.signatures g.2

/-- The signature types a part of a key may carry: direct key signatures and revocations on the key itself, certifications and their
revocations on user ids and attributes, bindings on subkeys. -/
def placeTypes : Place → List Nat
  | .primary => [0x1f, 0x20]
  | .uid _ => [0x10, 0x11, 0x12, 0x13, 0x30]
  | .attr _ => [0x10, 0x11, 0x12, 0x13, 0x30]
  | .sub _ => [0x18]

end Pgp.Spec
