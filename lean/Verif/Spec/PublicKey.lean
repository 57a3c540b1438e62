import Verif.Spec.Bytes
/-
Specification: what a public key consists of, RFC 4880 section 5.5.2.
-/
namespace Pgp.Spec

/-- The algorithm-specific integers. -/
inductive KeyMaterial where
  | rsa (n e : Nat)
  | elgamal (p g y : Nat)
  | dsa (p q g y : Nat)
  deriving DecidableEq, Repr

/-- All integers of a key. -/
def KeyMaterial.ints : KeyMaterial → List Nat
  | rsa n e => [n, e]
  | elgamal p g y => [p, g, y]
  | dsa p q g y => [p, q, g, y]

/-- The algorithm codes that go with each kind of material. -/
def KeyMaterial.fits : KeyMaterial → Nat → Prop
  | rsa _ _, a => a = 1 ∨ a = 2 ∨ a = 3
  | elgamal _ _ _, a => a = 16 ∨ a = 20
  | dsa _ _ _ _, a => a = 17

/-- A version and, for versions 2 and 3, a validity period in days. -/
def versionFits (version : Nat) (days : Option Nat) : Prop :=
  ((version = 2 ∨ version = 3) ∧ ∃ d < 2 ^ 16, days = some d) ∨ (4 ≤ version ∧ version < 256 ∧ days = none)

end Pgp.Spec
