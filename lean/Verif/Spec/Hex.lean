/-
Independent specification of hexadecimal text: the digit of a value below sixteen, looked up in the usual alphabet.
-/
namespace Pgp.Spec

/-- The upper-case hexadecimal alphabet. -/
def hexAlphabet : List Char :=
  ['0', '1', '2', '3', '4', '5', '6', '7', '8', '9', 'A', 'B', 'C', 'D', 'E', 'F']

/-- A string of upper-case hexadecimal digits. -/
def UpperHex (s : List Char) : Prop := ∀ c ∈ s, c ∈ hexAlphabet

/-- The number written by a string of upper-case hexadecimal digits, most significant first. -/
def hexNumber (s : List Char) : Nat := s.foldl (fun a c => a * 16 + hexAlphabet.idxOf c) 0

/-- Two digits per octet, high half first. -/
def hexText (b : List UInt8) : List Char :=
  b.flatMap fun x => [hexAlphabet.getD (x.toNat / 16) '?', hexAlphabet.getD (x.toNat % 16) '?']

end Pgp.Spec
