/-
Specification vocabulary: big-endian numbers.  Independent of the model.
-/
namespace Pgp.Spec

/-- The number denoted by an octet string, most significant octet first. -/
def beNat (b : List UInt8) : Nat := b.foldl (fun a x => a * 256 + x.toNat) 0

/-- The `n`-octet big-endian representation of `i mod 256^n`. -/
def beBytes : Nat → Nat → List UInt8
  | 0, _ => []
  | n + 1, i => beBytes n (i / 256) ++ [UInt8.ofNat (i % 256)]

/-- Number of bits of `i`: the least `k` with `i < 2^k`. -/
def bitLen (i : Nat) : Nat := if i = 0 then 0 else Nat.log2 i + 1

/-- Number of octets holding `k` bits. -/
def octetsFor (k : Nat) : Nat := (k + 7) / 8

/-- `fl`, though perhaps inexact, gives the right number of octets for `i`, and the bit count fits the 16-bit header. -/
def OctetLog (fl : Nat → Nat) (i : Nat) : Prop :=
  fl i + 1 < 65536 ∧ octetsFor (fl i + 1) = octetsFor (Nat.log2 i + 1)

/-- `fl`, though perhaps inexact, leaves room for all octets of `i`, and the bit count fits the 16-bit header. -/
def LogRoom (fl : Nat → Nat) (i : Nat) : Prop :=
  i = 0 ∨ (fl i + 1 < 65536 ∧ i < 256 ^ octetsFor (fl i + 1))

end Pgp.Spec
