import Verif.Model.Search
import Verif.Spec.Import
import Verif.Spec.Streams
/-
Specification for C121: searching for keys.
-/
namespace Pgp.Spec

/-- The user ids in the octets of a key: the octets are packets one after the other, and those of type 13 hold the UTF-8 encodings of these texts, in this order. -/
def FileIds (b : List UInt8) (ids : List (List Char)) : Prop :=
  ∃ ps ws, List.Forall₂ Framed ps ws ∧ b = ws.flatten ∧ (ps.filter fun p => p.type = 13).map RawPacket.content = ids.map utf8Encode

/-- A key in a store: its octets, its fingerprint and its user ids. -/
structure StoredKey where
  octets : List UInt8
  fingerprint : List Char
  ids : List (List Char)

/-- These are its fingerprint and its user ids. -/
def StoredKey.Ok (magic : List UInt8 → List Char) (sha1 : List UInt8 → List UInt8) (good : Nat → Prop) (x : StoredKey) : Prop :=
  (∃ F, AnyKeyFile magic F good x.octets) ∧ FileFingerprint sha1 good x.octets x.fingerprint ∧ FileIds x.octets x.ids

/-- One of its user ids contains the text when both are written in lower case. -/
def StoredKey.Named (lower : List Char → List Char) (text : List Char) (x : StoredKey) : Prop := ∃ id ∈ x.ids, lower text <:+: lower id

end Pgp.Spec
