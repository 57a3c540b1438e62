import Verif.Spec.KeySigs
import Verif.Spec.Certify
/-
Specification for C118: when a part of a key is revoked.
-/
namespace Pgp.Spec

/-- The type of the signatures that revoke a part: 0x20 for the key, 0x28 for a subkey, 0x30 for the certification of a user id or attribute (RFC 4880, 5.2.1). -/
def revocationType : Place → Nat
  | .primary => 0x20
  | .sub _ => 0x28
  | _ => 0x30

/-- A signature that says: one of these keys revokes the part, and this has not expired. -/
def SaysRevoked (ids : List Str) (now : Int) (at' : Place) (s : SigObj) : Prop :=
  s.sigType = revocationType at' ∧ IssuedBy ids s ∧ s.expired now = .ok false

/-- Its issuers, and whether it has expired, can be read. -/
def Dated (now : Int) (s : SigObj) : Prop := (∃ ids, s.issuers = .ok ids) ∧ ∃ b, s.expired now = .ok b

/-- The key id of a version 4 key: the last eight octets of the SHA-1 digest of its packet, in hexadecimal (RFC 4880, 12.2). -/
def longKeyId (sha1 : Bytes → Bytes) (content : Bytes) : Str := hexText ((sha1 ([0x99] ++ beBytes 2 content.length ++ content)).drop 12)

/-- The types of the self-signatures of a part: 0x1f for the key, 0x18 for a subkey, 0x10 to 0x13 for a user id or attribute. -/
def ownTypes : Place → List Nat
  | .primary => [0x1f]
  | .sub _ => [0x18]
  | _ => [0x10, 0x11, 0x12, 0x13]

end Pgp.Spec
