/-
Specification vocabulary for the identity of keys.
-/
namespace Pgp.Spec

/-- The contents of two public key packets describe one key: they are the same octets, but for the days of validity that versions 2 and 3 have
behind the creation time (and that are not part of the fingerprint, RFC 4880, 12.2). -/
def SameKey (c1 c2 : List UInt8) : Prop :=
  ∃ (v : UInt8) (t d1 d2 rest : List UInt8), t.length = 4 ∧ c1 = v :: t ++ d1 ++ rest ∧ c2 = v :: t ++ d2 ++ rest ∧
    ((v = 2 ∨ v = 3) ∧ d1.length = 2 ∧ d2.length = 2 ∨ 4 ≤ v.toNat ∧ d1 = [] ∧ d2 = [])

end Pgp.Spec
