import Verif.Spec.KeyFile
import Verif.Spec.SigMeaning
/-
Specification for C92: packet contents that hold nothing but what the packet's fields say (RFC 4880, sections 5.1, 5.3, 5.5.2, 5.5.3, 5.6-5.14).
-/
namespace Pgp.Spec

/-- A public key: version, creation time, days of validity (versions 2 and 3 only), algorithm and the algorithm's integers with exact bit counts. -/
def PublicContent (c : List UInt8) : Prop :=
  ∃ (v a : UInt8) (t dd : List UInt8) (m : KeyMaterial), t.length = 4 ∧ ((v = 2 ∨ v = 3) ∧ dd.length = 2 ∨ 4 ≤ v.toNat ∧ dd = []) ∧ m.fits a.toNat ∧
    (∀ i ∈ m.ints, i < 2 ^ 65535) ∧ c = v :: t ++ dd ++ a :: (m.ints.map mpi).flatten

/-- The contents, by packet type. -/
inductive ExactContent : Nat → List UInt8 → Prop
  | publicKeySessionKey (v a : UInt8) (id d : List UInt8) : id.length = 8 → ExactContent 1 (v :: id ++ a :: d)
  | symmetricSessionKey (v c : UInt8) (n : Nat) (sp : Specifier) (d : List UInt8) : tableKeyOctets c.toNat = some n → sp.wellFormed → d.length ≤ n + 1 →
      ExactContent 3 (v :: c :: (sp.octets ++ d))
  | secret (type : Nat) (pub : List UInt8) (u c : UInt8) (sp : Specifier) (iv enc : List UInt8) : type = 5 ∨ type = 7 → PublicContent pub → (u = 254 ∨ u = 255) →
      sp.wellFormed → blockOctets c.toNat = some iv.length → ExactContent type (pub ++ (u :: c :: sp.octets ++ iv ++ enc))
  | publicKey (type : Nat) (c : List UInt8) : type = 6 ∨ type = 14 → PublicContent c → ExactContent type c
  | compressed (x : UInt8) (d : List UInt8) : ExactContent 8 (x :: d)
  | encrypted (d : List UInt8) : ExactContent 9 d
  | literal (f n : UInt8) (name : List Char) (t body : List UInt8) : (utf8Encode name).length = n.toNat → t.length = 4 → (f = 0x75 → Utf8 body) →
      ExactContent 11 (f :: n :: (utf8Encode name ++ t ++ body))
  | trust (x : UInt8) : ExactContent 12 [x]
  | trustCache (x : UInt8) : x.toNat < 128 → ExactContent 12 [0, x]
  | userId (c : List UInt8) : Utf8 c → ExactContent 13 c
  | comment (type : Nat) (c : List UInt8) : type = 16 ∨ type = 61 → Utf8 c → ExactContent type c
  | images (l : List (List UInt8 × List UInt8 × UInt8)) : (∀ x ∈ l, Shortest x.1 (x.2.1.length + 17)) →
      ExactContent 17 (l.map fun x => x.1 ++ 1 :: [16, 0, 1, x.2.2] ++ List.replicate 12 0 ++ x.2.1).flatten
  | integrity (x : UInt8) (d : List UInt8) : ExactContent 18 (x :: d)
  | digest (d : List UInt8) : d.length = 20 → ExactContent 19 d
  | control (m : List UInt8) (x : UInt8) (d : List UInt8) : m.length = 8 → ExactContent 63 (m ++ x :: d)

/-- A subpacket of which the library remembers everything: content of its type without anything to lose, or an embedded signature made of such. -/
def RawKept (good : Nat → Prop) (r : RawSub) : Prop := Kept r.ty r.content ∨ r.ty = 32 ∧ SigWire good r.content

end Pgp.Spec
