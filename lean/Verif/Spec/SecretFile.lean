import Verif.Spec.KeyFile
/-
Specification for C91: the public half of a secret key file.
-/
namespace Pgp.Spec

/-- A packet of a secret key file and what becomes of it in the public key file: a secret key packet keeps its header format and loses everything behind the public
key, and becomes a public key packet (a secret subkey packet a public subkey packet); any other packet stays as it is. -/
inductive PacketHalf (good : Nat → Prop) : List UInt8 → List UInt8 → Prop
  | key (f : HeaderFormat) (h h' pub rest : List UInt8) : KeyWire good pub → HeaderOf f 5 (pub ++ rest).length h → HeaderOf f 6 pub.length h' →
      PacketHalf good (h ++ (pub ++ rest)) (h' ++ pub)
  | subkey (f : HeaderFormat) (h h' pub rest : List UInt8) : KeyWire good pub → HeaderOf f 7 (pub ++ rest).length h → HeaderOf f 14 pub.length h' →
      PacketHalf good (h ++ (pub ++ rest)) (h' ++ pub)
  | other (f : HeaderFormat) (type : Nat) (h c : List UInt8) : type ≠ 5 → type ≠ 7 → HeaderOf f type c.length h → PacketHalf good (h ++ c) (h ++ c)

/-- The same for a whole file. -/
def PublicHalf (good : Nat → Prop) (b b' : List UInt8) : Prop :=
  ∃ ps ps' : List (List UInt8), List.Forall₂ (PacketHalf good) ps ps' ∧ b = ps.flatten ∧ b' = ps'.flatten

/-- Content of a secret key packet whose usage octet is not 254 or 255: unprotected (0), or a cipher with the older key derivation. -/
def OtherUsageWire (good : Nat → Prop) (c : List UInt8) : Prop :=
  ∃ (pub : List UInt8) (usage : UInt8) (rest : List UInt8), KeyWire good pub ∧ usage ≠ 254 ∧ usage ≠ 255 ∧ c = pub ++ usage :: rest

/-- Content of a secret key packet without the secret key, as GnuPG writes it for a primary key kept elsewhere: specifier 101, `GNU`, mode 1. -/
def StubWire (good : Nat → Prop) (c : List UInt8) : Prop :=
  ∃ (pub : List UInt8) (usage hash : UInt8), KeyWire good pub ∧ (usage = 254 ∨ usage = 255) ∧ c = pub ++ [usage, 0, 101, hash, 0x47, 0x4e, 0x55, 1]

end Pgp.Spec
