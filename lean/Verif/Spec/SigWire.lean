import Verif.Spec.SigPackets
import Verif.Spec.Lengths
import Verif.Spec.SecretKey
/-
Specification for C82: signature packets, as octets, that reading and writing leave alone.  Written from RFC 4880 sections 5.2.3 and
5.2.3.1 with the restrictions the library imposes; independent of its reader and writer.
-/
namespace Pgp.Spec

/-- The octets are the UTF-8 encoding of some text. -/
def Utf8 (b : List UInt8) : Prop := ∃ s : List Char, utf8Encode s = b

/-- `Kept ty d`: the content octets `d` of a subpacket of type `ty` say nothing that the library does not remember. -/
inductive Kept : Nat → List UInt8 → Prop
  | time {ty : Nat} {d : List UInt8} (ht : ty = 2 ∨ ty = 3 ∨ ty = 9) (h : d.length = 4) : Kept ty d
  | bool {ty : Nat} {d : List UInt8} (ht : ty = 4 ∨ ty = 7 ∨ ty = 25) (h : d = [0] ∨ d = [1]) : Kept ty d
  | trust {d : List UInt8} (h : d.length = 2) : Kept 5 d
  | codes {ty : Nat} (d : List UInt8) (ht : ty = 11 ∨ ty = 21 ∨ ty = 22) : Kept ty d
  | issuer {d : List UInt8} (h : d.length = 8) : Kept 16 d
  /-- a human-readable notation in UTF-8 whose name does not merely end in its first `@` -/
  | notation {name value : List UInt8} (hn : name.length < 65536) (hv : value.length < 65536) (un : Utf8 name) (uv : Utf8 value)
      (h : ∀ p, name = p ++ [0x40] → 0x40 ∈ p) :
      Kept 20 ([0x80, 0, 0, 0] ++ beBytes 2 name.length ++ beBytes 2 value.length ++ name ++ value)
  | serverPrefs {d : List UInt8} (h : d = [0] ∨ d = [0x80]) : Kept 23 d
  | uri {ty : Nat} {d : List UInt8} (ht : ty = 24 ∨ ty = 26) (h : d ≠ []) (u : Utf8 d) : Kept ty d
  /-- one octet of key flags, without the bit that has no meaning -/
  | flags {x : UInt8} (h : x.toNat.testBit 6 = false) : Kept 27 [x]
  | userId {d : List UInt8} (u : Utf8 d) : Kept 28 d
  | reason {c : UInt8} {d : List UInt8} (u : Utf8 d) : Kept 29 (c :: d)
  | features {d : List UInt8} (h : d = [0] ∨ d = [1]) : Kept 30 d
  | other {ty : Nat} (h : ty < 128) (hk : ty ∉ knownTypes) : Kept ty []

/-- `l` is the shortest definite length for `n` octets. -/
def Shortest (l : List UInt8) (n : Nat) : Prop := NewDefinite l n ∧ ∀ l', NewDefinite l' n → l.length ≤ l'.length

mutual
/-- Octets of one subpacket: shortest length, type with the critical bit, content that is kept. -/
inductive SubWire (good : Nat → Prop) : List UInt8 → Prop
  | plain {critical : Bool} {ty : Nat} {l d : List UInt8} (hl : Shortest l (d.length + 1)) (h : Kept ty d) :
      SubWire good (l ++ [UInt8.ofNat (ty + if critical then 128 else 0)] ++ d)
  | embedded {critical : Bool} {l d : List UInt8} (hl : Shortest l (d.length + 1)) (h : SigWire good d) :
      SubWire good (l ++ [UInt8.ofNat (32 + if critical then 128 else 0)] ++ d)

/-- Octets of a sequence of subpackets. -/
inductive SubsWire (good : Nat → Prop) : List UInt8 → Prop
  | nil : SubsWire good []
  | cons {a b : List UInt8} (h : SubWire good a) (hs : SubsWire good b) : SubsWire good (a ++ b)

/-- Octets of a version 4 signature whose integers, all `good`, are written with their exact bit counts. -/
inductive SigWire (good : Nat → Prop) : List UInt8 → Prop
  | mk {t p h x y : UInt8} {hashed unhashed : List UInt8} {values : List Nat} (hh : SubsWire good hashed) (hu : SubsWire good unhashed)
      (lh : hashed.length < 65536) (lu : unhashed.length < 65536) (hv : ∀ i ∈ values, good i) :
      SigWire good ([4, t, p, h] ++ beBytes 2 hashed.length ++ hashed ++ beBytes 2 unhashed.length ++ unhashed ++ [x, y] ++
        (values.map mpi).flatten)
end

end Pgp.Spec
