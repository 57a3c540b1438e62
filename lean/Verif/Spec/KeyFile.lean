import Verif.Spec.SigWire
import Verif.Spec.Framing
import Verif.Spec.PublicKey
import Verif.Spec.Keys
import Verif.Spec.PacketWire
import Verif.Spec.S2k
import Mathlib.Data.List.Forall2
/-
Specification for C83: keys, as octets, that reading and writing leave alone.  Written from RFC 4880 sections 4.2, 5.5.2, 5.11, 5.12 and
11.1 with the restrictions the library imposes; independent of its readers and writers.
-/
namespace Pgp.Spec

/-- `h` is a packet header for a packet of this type with `n` content octets, with the shortest length there is. -/
def HeaderOf : HeaderFormat → Nat → Nat → List UInt8 → Prop
  | .new, type, n, h => type < 64 ∧ 0 < n ∧ ∃ l, Shortest l n ∧ h = UInt8.ofNat (0xc0 + type) :: l
  | .old, type, n, h => type < 16 ∧ n < 2 ^ 24 ∧
      ∃ lt l, OldDefinite lt l n ∧ (∀ lt' l', OldDefinite lt' l' n → l.length ≤ l'.length) ∧ h = UInt8.ofNat (0x80 + 4 * type + lt) :: l

/-- A packet with a header format allowed by `F` and content of the kind `C`. -/
def PacketOf (F : HeaderFormat → Prop) (type : Nat) (C : List UInt8 → Prop) (b : List UInt8) : Prop :=
  ∃ f h c, F f ∧ C c ∧ HeaderOf f type c.length h ∧ b = h ++ c

/-- A concatenation of any number of pieces. -/
def Cat (P : List UInt8 → Prop) (b : List UInt8) : Prop := ∃ ps : List (List UInt8), (∀ p ∈ ps, P p) ∧ b = ps.flatten

/-- Content of a public key or subkey packet of version 4 or later: version, creation time, algorithm and the algorithm's integers, all
`good`, with their exact bit counts. -/
def KeyWire (good : Nat → Prop) (c : List UInt8) : Prop :=
  ∃ (v a : UInt8) (t : List UInt8) (m : KeyMaterial), 4 ≤ v.toNat ∧ t.length = 4 ∧ m.fits a.toNat ∧ (∀ i ∈ m.ints, good i) ∧
    c = v :: t ++ a :: (m.ints.map mpi).flatten

/-- Content of a secret key or subkey packet: a public key, the usage octet 254 or 255, the cipher, the string-to-key specifier, an initial vector as long as a
block of the cipher, and encrypted octets, at least one. -/
def SecretWire (good : Nat → Prop) (c : List UInt8) : Prop :=
  ∃ (pub : List UInt8) (usage sym : UInt8) (sp : Specifier) (iv enc : List UInt8), KeyWire good pub ∧ (usage = 254 ∨ usage = 255) ∧ sp.wellFormed ∧
    blockOctets sym.toNat = some iv.length ∧ enc ≠ [] ∧ c = pub ++ (usage :: sym :: sp.octets ++ iv ++ enc)

/-- An integer as readers have to expect it: a bit count, and the octets for that many bits, with any number of leading zeros. -/
def LooseMpi (i : Nat) (b : List UInt8) : Prop :=
  ∃ bits body, bits < 65536 ∧ body.length = octetsFor bits ∧ beNat body = i ∧ b = beBytes 2 bits ++ body

/-- Content of such a packet with integers that may be written loosely. -/
def LooseKey (v a : UInt8) (t : List UInt8) (m : KeyMaterial) (c : List UInt8) : Prop :=
  4 ≤ v.toNat ∧ t.length = 4 ∧ m.fits a.toNat ∧ ∃ bs, List.Forall₂ LooseMpi m.ints bs ∧ c = v :: t ++ a :: bs.flatten

/-- An image subpacket: shortest length, type 1, the sixteen octets of the image header and the image.  The format is 1 (JPEG), or 101 for
data that is recognised as an image of another type. -/
def ImageWire (magic : List UInt8 → List Char) (b : List UInt8) : Prop :=
  ∃ (l d : List UInt8) (f : UInt8), Shortest l (d.length + 17) ∧ (f = 1 ∨ f = 101 ∧ OtherImageMime (magic (d.take 1024))) ∧
    b = l ++ 1 :: [16, 0, 1, f] ++ List.replicate 12 0 ++ d

/-- A signature packet of one of these types. -/
def SigPacket (F : HeaderFormat → Prop) (good : Nat → Prop) (types : List Nat) : List UInt8 → Prop :=
  PacketOf F 2 fun c => SigWire good c ∧ ∃ t ∈ types, c[1]? = some (UInt8.ofNat t)

/-- A packet with the signatures on it. -/
def Certified (F : HeaderFormat → Prop) (good : Nat → Prop) (P : List UInt8 → Prop) (b : List UInt8) : Prop :=
  ∃ a s, P a ∧ Cat (SigPacket F good certTypes) s ∧ b = a ++ s

/-- A subkey, in a packet of this type with this kind of content, with at least one binding signature. -/
def Bound (F : HeaderFormat → Prop) (good : Nat → Prop) (type : Nat) (K : List UInt8 → Prop) (b : List UInt8) : Prop :=
  ∃ k s ss, PacketOf F type K k ∧ SigPacket F good [0x18] s ∧ Cat (SigPacket F good [0x18]) ss ∧ b = k ++ (s ++ ss)

/-- The octets of a key: the primary key, signatures on it, user ids and image attributes with certifications, subkeys. -/
def KeyFileOf (primary sub : Nat) (K : List UInt8 → Prop) (magic : List UInt8 → List Char) (F : HeaderFormat → Prop) (good : Nat → Prop) (b : List UInt8) : Prop :=
  ∃ k d u a s, PacketOf F primary K k ∧ Cat (SigPacket F good [0x1f, 0x20]) d ∧ Cat (Certified F good (PacketOf F 13 Utf8)) u ∧
    Cat (Certified F good (PacketOf F 17 (Cat (ImageWire magic)))) a ∧ Cat (Bound F good sub K) s ∧ b = k ++ (d ++ u ++ a ++ s)

/-- The octets of a public key. -/
def PublicKeyFile (magic : List UInt8 → List Char) (F : HeaderFormat → Prop) (good : Nat → Prop) (b : List UInt8) : Prop :=
  KeyFileOf 6 14 (KeyWire good) magic F good b

/-- The octets of a secret key. -/
def SecretKeyFile (magic : List UInt8 → List Char) (F : HeaderFormat → Prop) (good : Nat → Prop) (b : List UInt8) : Prop :=
  KeyFileOf 5 7 (SecretWire good) magic F good b

end Pgp.Spec
