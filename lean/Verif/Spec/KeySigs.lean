import Verif.Model.KeySigs
import Verif.Spec.Signature
/-
Specification vocabulary for what keys read from their signatures, and for signature checking.
-/
namespace Pgp.Spec

/-- The signature claims to be issued by one of the given keys. -/
def IssuedBy (own : List Str) (s : SigObj) : Prop := ∃ ids, s.issuers = .ok ids ∧ ∃ k ∈ ids, k ∈ own

/-- A self-signature of one of the given types. -/
def SelfSig (types : List Nat) (own : List Str) (s : SigObj) : Prop := IssuedBy own s ∧ s.sigType ∈ types

/-- Issuers and creation time can be read. -/
def Readable (s : SigObj) : Prop := (∃ ids, s.issuers = .ok ids) ∧ ∃ t, s.creationTime = .ok t

/-- Creation times of the self-signatures do not decrease along the list. -/
def InOrder (types : List Nat) (own : List Str) (l : List SigObj) : Prop :=
  l.Pairwise (fun a b => SelfSig types own a → SelfSig types own b → ∀ ta tb, a.creationTime = .ok ta → b.creationTime = .ok tb → ta ≤ tb)

/-- Two signatures name a common issuer. -/
def Shares (a b : SigObj) : Prop := ∃ x y, a.issuers = .ok x ∧ b.issuers = .ok y ∧ ∃ k ∈ x, k ∈ y

/-- The signature types that revoke a key, a subkey or a certification (RFC 4880, 5.2.1). -/
def revocationTypes : List Nat := [0x20, 0x28, 0x30]

/-- Among all signatures of a part, the one at index `i` shares an issuer with exactly one other signature, `t`. -/
def OnlyOther (sigs : List SigObj) (i : Nat) (r t : SigObj) : Prop :=
  sigs[i]? = some r ∧ ∃ j, j ≠ i ∧ sigs[j]? = some t ∧ Shares r t ∧ ∀ k z, k ≠ i → k ≠ j → sigs[k]? = some z → ¬Shares r z

/-- The last `n` characters. -/
def lastChars (n : Nat) (s : Str) : Str := s.drop (s.length - n)

/-- Among the signatures of a key there is a binding signature or direct signature that appoints the owner of a key with the given fingerprint to revoke it. -/
def Appointed (sigs : List SigObj) (fp : Str) : Prop :=
  ∃ x ∈ sigs, (x.sigType = 0x18 ∨ x.sigType = 0x1f) ∧ ∃ c cls alg, Sub.plain c (.revocationKey fp cls alg) ∈ x.subs 12

/-- All such subpackets are what their type says. -/
def AppointsReadably (x : SigObj) : Prop := ∀ u ∈ x.subs 12, ∃ c fp cls alg, u = Sub.plain c (.revocationKey fp cls alg)

/-- A revocation of the key, as `check_signature_values` sees it: by the primary key, or by anyone if the key is appointed to revoke itself. -/
def Revokes (k : CheckKey) (s : SigObj) : Prop :=
  (s.sigType = 0x28 ∨ s.sigType = 0x20) ∧
  ((∃ ids, s.issuers = .ok ids ∧ k.parentId ∈ ids) ∨ ∃ fp, Appointed k.sigs fp ∧ lastChars 8 fp = lastChars 8 k.keyId)

end Pgp.Spec
