import Verif.Model.Commands
import Verif.Spec.Armor
/-
Specification vocabulary for the encryption command.
-/
namespace Pgp.Spec

/-- A cipher every recipient lists. -/
def SharedCipher (keys : List RecipientKey) (c : Nat) : Prop := ∀ k ∈ keys, c ∈ k.ciphers

/-- `c` is the sender's first preference among the ciphers every recipient lists. -/
def FirstShared (preferred : List Nat) (keys : List RecipientKey) (c : Nat) : Prop :=
  ∃ pre post, preferred = pre ++ c :: post ∧ SharedCipher keys c ∧ ∀ d ∈ pre, ¬ SharedCipher keys d

/-- The key to encrypt to: the first subkey that is not revoked and may encrypt, else the primary key if it may encrypt. -/
def EncryptionKey {K : Type} (pk : PubKeyInfo K) (k : K) : Prop :=
  (∃ pre post, pk.subkeys = pre ++ (k, false, true) :: post ∧ ∀ x ∈ pre, ¬ (x.2.1 = false ∧ x.2.2 = true)) ∨
  ((∀ x ∈ pk.subkeys, ¬ (x.2.1 = false ∧ x.2.2 = true)) ∧ pk.encrypts = true ∧ k = pk.key)

/-- A text made of words of printable ASCII characters, with spaces and tabs between them and at either end. -/
inductive SpacedWords : List Char → List (List Char) → Prop
  | nil {s} : White s → SpacedWords s []
  | cons {s w t ws} : White s → w ≠ [] → (∀ c ∈ w, 33 ≤ c.toNat ∧ c.toNat ≤ 126) → (t = [] ∨ ∃ c t', t = c :: t' ∧ White [c]) →
      SpacedWords t ws → SpacedWords (s ++ w ++ t) (w :: ws)

end Pgp.Spec
