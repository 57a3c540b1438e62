import Verif.Spec.Bytes
/-
Specification of packet length octets, after RFC 4880 sections 4.2.1 and 4.2.2.  Independent of the model.
-/
namespace Pgp.Spec

/-- `NewDefinite e n`: the octets `e` are a definite (non-partial) new-format length denoting `n`. -/
inductive NewDefinite : List UInt8 → Nat → Prop
  | one (a : UInt8) (h : a.toNat < 192) : NewDefinite [a] a.toNat
  | two (a b : UInt8) (h : 192 ≤ a.toNat) (h' : a.toNat ≤ 223) :
      NewDefinite [a, b] ((a.toNat - 192) * 256 + b.toNat + 192)
  | five (a b c d : UInt8) : NewDefinite [255, a, b, c, d] (beNat [a, b, c, d])

/-- `NewPartial e n`: the octet announces a partial chunk of `n` octets. -/
inductive NewPartial : List UInt8 → Nat → Prop
  | mk (a : UInt8) (h : 224 ≤ a.toNat) (h' : a.toNat < 255) : NewPartial [a] (2 ^ (a.toNat - 224))

/-- `OldDefinite t e n`: with length type `t`, the octets `e` after the tag denote `n`. -/
inductive OldDefinite : Nat → List UInt8 → Nat → Prop
  | one (e : List UInt8) (h : e.length = 1) : OldDefinite 0 e (beNat e)
  | two (e : List UInt8) (h : e.length = 2) : OldDefinite 1 e (beNat e)
  | four (e : List UInt8) (h : e.length = 4) : OldDefinite 2 e (beNat e)

end Pgp.Spec
