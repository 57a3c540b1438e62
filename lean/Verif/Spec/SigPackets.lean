import Verif.Model.SigPackets
import Verif.Spec.Hex
import Verif.Spec.Bytes
/-
Specification vocabulary for signature subpackets and packets: which values each kind of subpacket can hold on the wire.
-/
namespace Pgp.Spec

/-- Type codes to which the format assigns a meaning that the library knows. -/
def knownTypes : List Nat :=
  [2, 3, 4, 5, 6, 7, 9, 10, 11, 12, 16, 20, 21, 22, 23, 24, 25, 26, 27, 28, 29, 30, 31, 32]

/-- Values a subpacket other than an embedded signature can hold, for the kinds whose reader and writer agree. (Regular
expressions, additional recipients, revocation keys, targets and non-text notations are not among them.) -/
def PlainOk : Plain → Prop
  | .creationTime t => t < 2 ^ 32
  | .expiration t => t < 2 ^ 32
  | .keyExpiration t => t < 2 ^ 32
  | .exportable _ => True
  | .revocable _ => True
  | .primaryUserId _ => True
  | .trust d a => d < 256 ∧ a < 256
  | .prefSym l => ∀ x ∈ l, x < 256
  | .prefHash l => ∀ x ∈ l, x < 256
  | .prefComp l => ∀ x ∈ l, x < 256
  | .issuer k => k.length = 16 ∧ UpperHex k
  | .note name ns (.text v) => '@' ∉ name ∧ ns ≠ some [] ∧ (utf8Encode v).length < 65536 ∧
      (utf8Encode (name ++ (ns.map ('@' :: ·)).getD [])).length < 65536
  | .keyServerPrefs _ => True
  | .prefKeyServer u => u ≠ []
  | .policyUri u => u ≠ []
  | .keyFlags _ => True
  | .userId _ => True
  | .revocationReason c _ => c < 256
  | .features _ => True
  | .other t => t < 128 ∧ t ∉ knownTypes
  | .regex _ | .additionalRecipient _ _ _ | .revocationKey _ _ _ | .target _ _ _ _ | .note _ _ (.raw _) => False

mutual
/-- A subpacket that fits: its value does, and its octets do. -/
inductive SubOk (fl : Nat → Nat) : Sub → Prop
  | plain {critical : Bool} {v : Plain} (h : PlainOk v) : SubOk fl (.plain critical v)
  | embedded {critical : Bool} {sig : Sig} (h : SigOk fl sig) : SubOk fl (.embedded critical sig)

/-- A version 4 signature that fits: octet-sized codes, subpacket areas below 2^16 octets each holding subpackets that fit, two
octets of hash, and integers that can be written. -/
inductive SigOk (fl : Nat → Nat) : Sig → Prop
  | v4 {t p h : Nat} {hashed unhashed : List Sub} {hash2 : List UInt8} {values : List Nat}
      (ht : t < 256) (hp : p < 256) (hh : h < 256)
      (hhashed : ∀ s ∈ hashed, SubOk fl s) (hunhashed : ∀ s ∈ unhashed, SubOk fl s)
      (hhl : ∃ e, subsBytes fl hashed = .ok e ∧ e.length < 65536)
      (hul : ∃ e, subsBytes fl unhashed = .ok e ∧ e.length < 65536)
      (h2 : hash2.length = 2) (hv : ∀ i ∈ values, LogRoom fl i) :
      SigOk fl (.v4 4 t p h hashed unhashed hash2 (values.map some))
end

end Pgp.Spec
