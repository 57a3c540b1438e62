import Verif.Spec.Bytes
import Verif.Spec.S2k
/-
Specification for C87: the octets of string-to-key specifiers, RFC 4880 section 3.7.1. The layouts of the packets (sections 5.1 to 5.14) stand in the theorems.
-/
namespace Pgp.Spec

/-- A string-to-key specifier. -/
inductive Specifier where
  | simple (hash : UInt8)
  | salted (hash : UInt8) (salt : List UInt8)
  | iterated (hash : UInt8) (salt : List UInt8) (count : UInt8)

/-- Its octets: the type (0, 1 or 3), the hash algorithm, the salt, the coded count. -/
def Specifier.octets : Specifier → List UInt8
  | simple h => [0, h]
  | salted h s => 1 :: h :: s
  | iterated h s c => 3 :: h :: (s ++ [c])

/-- A salt has eight octets. -/
def Specifier.wellFormed : Specifier → Prop
  | simple _ => True
  | salted _ s => s.length = 8
  | iterated _ s _ => s.length = 8

end Pgp.Spec
