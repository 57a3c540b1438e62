import Verif.Spec.Bytes
/-
Specification: what a signature is about and the octets that stand for it, RFC 4880 section 5.2.4.  Independent of the model.
-/
namespace Pgp.Spec

/-- The things a signature can be about. -/
inductive Signed where
  | document (d : List UInt8)
  | key (k : List UInt8)
  | keyPair (primary k : List UInt8)
  | userId (k u : List UInt8)
  | userAttribute (k a : List UInt8)
  | signature (s : List UInt8)
  | nothing
  deriving DecidableEq

/-- A key is hashed as 0x99, its two-octet length and its octets. -/
def keyOctets (k : List UInt8) : List UInt8 := [0x99] ++ beBytes 2 k.length ++ k

/-- The octets hashed before the trailer of a version 4 signature. -/
def Signed.octets : Signed → List UInt8
  | document d => d
  | key k => keyOctets k
  | keyPair p k => keyOctets p ++ keyOctets k
  | userId k u => keyOctets k ++ ([0xb4] ++ beBytes 4 u.length ++ u)
  | userAttribute k a => keyOctets k ++ ([0xd1] ++ beBytes 4 a.length ++ a)
  | signature s => [0x88] ++ beBytes 4 s.length ++ s
  | nothing => []

/-- The octets hashed before the trailer of a version 3 signature: user ids and attributes are not framed. -/
def Signed.octets3 : Signed → List UInt8
  | userId k u => keyOctets k ++ u
  | userAttribute k a => keyOctets k ++ a
  | s => s.octets

/-- The trailer of a version 3 signature. -/
def trailer3 (sigType : UInt8) (time : Nat) : List UInt8 := [sigType] ++ beBytes 4 time

/-- Signature types that concern a key. -/
def keyTypes : List Nat := [0x10, 0x11, 0x12, 0x13, 0x18, 0x19, 0x1f, 0x20, 0x28, 0x30]

/-- The trailer of a version 4 signature. -/
def trailer4 (version sigType pubAlg hashAlg : UInt8) (hashed : List UInt8) : List UInt8 :=
  [version, sigType, pubAlg, hashAlg] ++ beBytes 2 hashed.length ++ hashed ++ ([version, 255] ++ beBytes 4 (hashed.length + 6))

/-- What a signature of the given type is about, when made by or concerning the key `pub` with regard to a packet of type
`targetType` and content `target`. -/
def about (sigType targetType : Nat) (target pub : List UInt8) : Signed :=
  if sigType = 0x00 ∨ sigType = 0x01 then .document target
  else if sigType ∈ [0x10, 0x11, 0x12, 0x13, 0x30] then
    if targetType = 13 then .userId pub target else if targetType = 17 then .userAttribute pub target else .key pub
  else if sigType ∈ [0x18, 0x19, 0x28] then .keyPair pub target
  else if sigType ∈ [0x1f, 0x20] then .key pub
  else if sigType ∈ [0x40, 0x50] then .signature target
  else .nothing

/-- Sizes for which the length fields of the hashed octets do not wrap around. -/
def Signed.fits : Signed → Prop
  | document _ => True
  | key k => k.length < 65536
  | keyPair p k => p.length < 65536 ∧ k.length < 65536
  | userId k u => k.length < 65536 ∧ u.length < 2 ^ 32
  | userAttribute k a => k.length < 65536 ∧ a.length < 2 ^ 32
  | signature _ => True
  | nothing => True

end Pgp.Spec
