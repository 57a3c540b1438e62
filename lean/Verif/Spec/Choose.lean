import Verif.Spec.Revoked
import Verif.Model.Revoked
/-
Specification for C119: the key a message is encrypted to.
-/
namespace Pgp.Spec

/-- The self-signature of a part that is listed last. -/
def LastOwn (ids : List Str) (at' : Place) (sigs : List SigObj) (s : SigObj) : Prop :=
  ∃ n : Nat, sigs[n]? = some s ∧ SelfSig (ownTypes at') ids s ∧ ∀ (m : Nat) (s' : SigObj), n < m → sigs[m]? = some s' → ¬SelfSig (ownTypes at') ids s'

/-- The first key flags of the signature have the flag for the encryption of communications (RFC 4880, 5.2.3.21). -/
def SaysEncrypt (s : SigObj) : Prop := ∃ c k l, s.subs 27 = .plain c (.keyFlags k) :: l ∧ k.encComms = true

/-- Its issuers, dates and key flags can be read. -/
def Legible (now : Int) (s : SigObj) : Prop := Dated now s ∧ Readable s ∧ ∀ x ∈ s.subs 27, ∃ c k, x = .plain c (.keyFlags k)

/-- A part with these signatures is fit for encryption: it is not revoked, and the self-signature listed last has the flag. -/
def FitFor (ids : List Str) (now : Int) (at' : Place) (sigs : List SigObj) : Prop :=
  (¬∃ s ∈ sigs, SaysRevoked ids now at' s) ∧ ∃ s, LastOwn ids at' sigs s ∧ SaysEncrypt s

/-- The first of `n` subkeys that is fit, else the primary key if it is, else none. -/
inductive EncryptsTo (n : Nat) (fit : Place → Prop) : Option Place → Prop where
  | subkey (i : Nat) (hi : i < n) (hf : fit (.sub i)) (first : ∀ j < i, ¬fit (.sub j)) : EncryptsTo n fit (some (.sub i))
  | primary (hn : ∀ j < n, ¬fit (.sub j)) (hf : fit .primary) : EncryptsTo n fit (some .primary)
  | nothing (hn : ∀ j < n, ¬fit (.sub j)) (hf : ¬fit .primary) : EncryptsTo n fit none

/-- The key has this part, of version 4, with these signatures, all of them legible. -/
def HasPart (k : TKey) (now : Int) (at' : Place) (sigs : List SigObj) : Prop :=
  (∃ g, k.part at' = some g ∧ groupSigs g = .ok sigs ∧ 4 ≤ g.1.partVersion) ∧ ∀ s ∈ sigs, Legible now s

end Pgp.Spec
