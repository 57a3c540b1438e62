import Verif.Model.Message
import Verif.Spec.Canon
/-
Specification vocabulary for signed messages (RFC 4880, 5.2.1, 5.2.4).
-/
namespace Pgp.Spec

/-- The octets of the data of a literal message. -/
inductive LiteralData : Msg → List UInt8 → Prop
  | text (s name : List Char) (t : Nat) : LiteralData (.literal true (.text s) name t) (utf8Encode s)
  | binary (d : List UInt8) (name : List Char) (t : Nat) : LiteralData (.literal false (.octets d) name t) d

/-- What a document signature covers: the data, with canonical line endings if the signature is one of canonical text (type 1). -/
def documentOctets (sigType : Nat) (d : List UInt8) : List UInt8 := if sigType = 1 then canonicalForm d else d

/-- A signed message as the signer hands it on: the signatures, in their order, and the content. -/
def signedMessage (sigs : List Sig) (m : Msg) : Msg := .signed (sigs.map fun s => (.new, s)) (some m) true

end Pgp.Spec
