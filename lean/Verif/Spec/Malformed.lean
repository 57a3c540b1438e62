import Verif.Model.SigPackets
/-
Specification: the exceptions that reading malformed data may end in. `unicodeError` is a subclass of `ValueError` in Python.
-/
namespace Pgp.Spec

/-- What a caller who expects the library's own exceptions, or a `ValueError`, catches. -/
def Expected (e : PyErr) : Prop := e = .valueError ∨ e = .unicodeError ∨ ∃ name, e = .pgp name

/-- Reading armored text. -/
def armorErrors : List PyErr := [.valueError, .indexError]

/-- Reading a stream of packets. -/
def streamErrors : List PyErr := [.typeError, .indexError, .valueError]

/-- Reading the content of a signature packet. -/
def signatureErrors : List PyErr := [.indexError, .valueError, .assertionError, .typeError, .unicodeError]

/-- Reading a key. -/
def keyErrors : List PyErr :=
  [.indexError, .valueError, .assertionError, .typeError, .unicodeError, .notImplemented, .unboundLocal, .attributeError,
    .pgp "InvalidKeyPacketOrder", .pgp "InvalidKeyPacketType"]

/-- Reading a message. -/
def messageErrors : List PyErr := [.indexError, .valueError, .assertionError, .typeError, .unicodeError, .unboundLocal, .attributeError]

/-- A signature with a signature in it, with a signature in that, and so on for `n` levels. -/
inductive Nested : Nat → Sig → Prop
  | zero (s : Sig) : Nested 0 s
  | succ {n : Nat} {s : Sig} (h : Nested n s) (version sigType pubAlg hashAlg : Nat) (critical : Bool) (hashed unhashed : List Sub) (hash2 : List UInt8) (values : List (Option Nat))
      (hs : Sub.embedded critical s ∈ hashed ++ unhashed) : Nested (n + 1) (.v4 version sigType pubAlg hashAlg hashed unhashed hash2 values)

end Pgp.Spec
