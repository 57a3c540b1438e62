import Verif.Spec.Armor
import Verif.Spec.Bytes
import Verif.Spec.Crc24
import Verif.Model.Armor
/-
Specification for C113: the text of ASCII armor (RFC 4880, section 6; RFC 4648 for base64), independent of the reader and the writer.
-/
namespace Pgp.Spec

def base64Alphabet : List Char := "ABCDEFGHIJKLMNOPQRSTUVWXYZabcdefghijklmnopqrstuvwxyz0123456789+/".toList

/-- `c` is the character for the value `i` of six bits. -/
def SixBits (i : Nat) (c : Char) : Prop := base64Alphabet[i]? = some c

/-- Base64: three octets are four characters; one or two octets at the end are filled up with zero bits and equals signs. -/
inductive Base64 : List UInt8 → List Char → Prop
  | nil : Base64 [] []
  | one {a : UInt8} {i j : Nat} {x y : Char} : SixBits i x → SixBits j y → beNat [a] * 2 ^ 4 = i * 64 + j → Base64 [a] [x, y, '=', '=']
  | two {a b : UInt8} {i j k : Nat} {x y z : Char} : SixBits i x → SixBits j y → SixBits k z → beNat [a, b] * 2 ^ 2 = (i * 64 + j) * 64 + k → Base64 [a, b] [x, y, z, '=']
  | three {a b c : UInt8} {i j k l : Nat} {x y z w : Char} {d : List UInt8} {s : List Char} : SixBits i x → SixBits j y → SixBits k z → SixBits l w →
      beNat [a, b, c] = ((i * 64 + j) * 64 + k) * 64 + l → Base64 d s → Base64 (a :: b :: c :: d) (x :: y :: z :: w :: s)

/-- What stands between the dashes after `BEGIN` and `END`, for each kind of data; messages may be in parts. -/
inductive ArmorLabel : ArmorType → Option Nat → Option Nat → List Char → Prop
  | publicKey : ArmorLabel .publicKey none none "PGP PUBLIC KEY BLOCK".toList
  | privateKey : ArmorLabel .privateKey none none "PGP PRIVATE KEY BLOCK".toList
  | signature : ArmorLabel .signature none none "PGP SIGNATURE".toList
  | message : ArmorLabel .message none none "PGP MESSAGE".toList
  | part (x : Nat) : 0 < x → ArmorLabel .message (some x) none ("PGP MESSAGE, PART ".toList ++ Nat.toDigits 10 x)
  | partOf (x y : Nat) : 0 < x → 0 < y → ArmorLabel .message (some x) (some y) ("PGP MESSAGE, PART ".toList ++ Nat.toDigits 10 x ++ '/' :: Nat.toDigits 10 y)

/-- The lines of an armored text: header line, headers, an empty line, the data in base64, the checksum in base64, tail line. -/
def armorLines (label : List Char) (headers : List (List Char × List Char)) (body : List (List Char)) (sum : List Char) : List (List Char) :=
  ["-----BEGIN ".toList ++ label ++ "-----".toList] ++ headers.map (fun h => h.1 ++ ": ".toList ++ h.2) ++ [[]] ++ body ++ ['=' :: sum] ++
    ["-----END ".toList ++ label ++ "-----".toList]

/-- The value of the last header with this key. -/
def lastHeader (key : List Char) (headers : List (List Char × List Char)) : Option (List Char) := ((headers.filter (·.1 = key)).getLast?).map (·.2)

/-- The headers that have a value, in the order of the RFC's list. -/
def givenHeaders (version comment messageId hash charset : Option (List Char)) : List (List Char × List Char) :=
  [("Version".toList, version), ("Comment".toList, comment), ("MessageID".toList, messageId), ("Hash".toList, hash), ("Charset".toList, charset)].filterMap
    fun h => h.2.map fun v => (h.1, v)

end Pgp.Spec
