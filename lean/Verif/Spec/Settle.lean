import Verif.Spec.KeyFile
/-
Specification for C122: which signatures and keys, once read, can be written and read again.  The exceptions are the ones the library has no proper octets for.
-/
namespace Pgp.Spec

/-- Everything but regular expressions (written without their final zero octet), additional recipients (of which only half is read, and written at another place) and
notations that are longer than their two-octet lengths can say. -/
def PlainStorable : Plain → Prop
  | .regex _ => False
  | .additionalRecipient _ _ _ => False
  | .note name ns (.text v) => (utf8Encode v).length < 65536 ∧ (utf8Encode (name ++ (ns.map ('@' :: ·)).getD [])).length < 65536
  | _ => True

mutual
/-- A subpacket that can be stored. -/
inductive SubStorable (fl : Nat → Nat) (good : Nat → Prop) : Sub → Prop
  | plain {critical : Bool} {v : Plain} (h : PlainStorable v) : SubStorable fl good (.plain critical v)
  | embedded {critical : Bool} {sig : Sig} (h : SigStorable fl good sig) : SubStorable fl good (.embedded critical sig)

/-- A version 4 signature that can be stored: its subpackets can, those of either area take fewer than 2^16 octets, both octets of the hash are there, and its
integers are `good`. -/
inductive SigStorable (fl : Nat → Nat) (good : Nat → Prop) : Sig → Prop
  | v4 {version t p h : Nat} {hashed unhashed : List Sub} {hash2 : List UInt8} {values : List (Option Nat)}
      (hhashed : ∀ s ∈ hashed, SubStorable fl good s) (hunhashed : ∀ s ∈ unhashed, SubStorable fl good s)
      (lh : ∀ e, subsBytes fl hashed = .ok e → e.length < 65536) (lu : ∀ e, subsBytes fl unhashed = .ok e → e.length < 65536)
      (h2 : hash2.length = 2) (hv : ∀ i, some i ∈ values → good i) :
      SigStorable fl good (.v4 version t p h hashed unhashed hash2 values)
end

/-- The integers of a public key. -/
def pubKeyInts (k : PubKey) : List Nat :=
  [k.modulus, k.exponent, k.prime, k.groupOrder, k.groupGenerator, k.keyValue].filterMap id

/-- A packet of a key that can be stored. -/
def BodyStorable (fl : Nat → Nat) (good : Nat → Prop) : KBody → Prop
  | .sig s => SigStorable fl good s
  | .key _ _ k _ => ∀ i ∈ pubKeyInts k, good i
  | _ => True

end Pgp.Spec
