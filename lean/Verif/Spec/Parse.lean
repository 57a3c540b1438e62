import Verif.Model.Parse
import Verif.Spec.Bytes
import Verif.Spec.Hex
/-
What a user of the pgpdump based parser expects (RFC 4880, sections 5.2.3 and 11.1).
-/
namespace Pgp.Spec

/-- The signature subpacket types of RFC 4880 section 5.2.3.1 that have a meaning. -/
def definedSubtypes : List Nat := [2, 3, 4, 5, 6, 7, 9, 11, 12, 16, 20, 21, 22, 23, 24, 25, 26, 27, 28, 29, 30, 31, 32]

/-- What a subpacket says of a signature of type `sigType`, for the subpackets that are not restricted to self-signatures (RFC 4880 section 5.2.3). -/
inductive Says (sigType : Nat) : PSub → PField → PVal → Prop
  | creation {c} {t : Bytes} : t.length = 4 → Says sigType ⟨2, c, true, t⟩ .creationTime (.int (beNat t))
  | expiration {c h} {t : Bytes} : t.length = 4 → beNat t ≠ 0 → Says sigType ⟨3, c, h, t⟩ .expirationSeconds (.int (beNat t))
  | trustLevel {c h} {l a : UInt8} : Says sigType ⟨5, c, h, [l, a]⟩ .trustLevel (.int l.toNat)
  | trustAmount {c h} {l a : UInt8} : Says sigType ⟨5, c, h, [l, a]⟩ .trustAmount (.int a.toNat)
  | exportable {c h} {x : UInt8} : x ≠ 0 → Says sigType ⟨4, c, h, [x]⟩ .exportable (.bool true)
  | revocable {c h} {x : UInt8} : Says sigType ⟨7, c, h, [x]⟩ .revocable (.bool (x ≠ 0))
  | revoker {c h} {x a : UInt8} {fp : Bytes} : 0x80 ≤ x.toNat → Says sigType ⟨12, c, h, x :: a :: fp⟩ .revocationKey (.str (hexText fp))
  | revokerAlg {c h} {x a : UInt8} {fp : Bytes} : 0x80 ≤ x.toNat → Says sigType ⟨12, c, h, x :: a :: fp⟩ .revocationKeyAlg (.int a.toNat)
  | revokerSensitive {c h} {x a : UInt8} {fp : Bytes} : 0x80 ≤ x.toNat →
      Says sigType ⟨12, c, h, x :: a :: fp⟩ .revocationKeySensitive (.bool (x.toNat % 0x80 / 0x40 = 1))
  | keyServer {c h} {s : Str} : Says sigType ⟨24, c, h, utf8Encode s⟩ .preferredKeyServer (.str s)
  | policy {c h} {s : Str} : Says sigType ⟨26, c, h, utf8Encode s⟩ .policyUri (.str s)
  | signer {c h} {s : Str} : Says sigType ⟨28, c, h, utf8Encode s⟩ .userId (.str s)
  | certify {c h} {x : UInt8} {r} : Says sigType ⟨27, c, h, x :: r⟩ .mayCertifyOthers (.bool (x.toNat % 2 = 1))
  | signData {c h} {x : UInt8} {r} : Says sigType ⟨27, c, h, x :: r⟩ .maySignData (.bool (x.toNat / 2 % 2 = 1))
  | encryptComms {c h} {x : UInt8} {r} : Says sigType ⟨27, c, h, x :: r⟩ .mayEncryptComms (.bool (x.toNat / 4 % 2 = 1))
  | encryptStorage {c h} {x : UInt8} {r} : Says sigType ⟨27, c, h, x :: r⟩ .mayEncryptStorage (.bool (x.toNat / 8 % 2 = 1))
  | auth {c h} {x : UInt8} {r} : Says sigType ⟨27, c, h, x :: r⟩ .mayBeUsedForAuth (.bool (x.toNat / 32 % 2 = 1))
  | revocationCode {c h} {x : UInt8} {s : Str} : sigType = 0x20 ∨ sigType = 0x28 → x.toNat ∈ [0, 1, 2, 3, 32] ∨ (100 ≤ x.toNat ∧ x.toNat ≤ 110) →
      Says sigType ⟨29, c, h, x :: utf8Encode s⟩ .revocationCode (.int x.toNat)
  | revocationReason {c h} {x : UInt8} {s : Str} : sigType = 0x20 ∨ sigType = 0x28 → x.toNat ∈ [0, 1, 2, 3, 32] ∨ (100 ≤ x.toNat ∧ x.toNat ≤ 110) →
      Says sigType ⟨29, c, h, x :: utf8Encode s⟩ .revocationReason (.str s)
  | targetAlg {c h} {a b : UInt8} {d : Bytes} : Says sigType ⟨31, c, h, a :: b :: d⟩ .targetPubAlg (.int a.toNat)
  | targetHashAlg {c h} {a b : UInt8} {d : Bytes} : Says sigType ⟨31, c, h, a :: b :: d⟩ .targetHashAlg (.int b.toNat)
  | targetHash {c h} {a b : UInt8} {d : Bytes} : Says sigType ⟨31, c, h, a :: b :: d⟩ .targetHash (.str (hexText d))

/-- What a subpacket says of a self-signature of type `sigType` on a part of packet type `owner`, for the subpackets that only count in self-signatures: validity period of
the key, preferred algorithms, "no modification" by key servers (one flag), primary user id, the flags for split and shared keys, modification detection. -/
inductive SaysSelf (sigType owner : Nat) : PSub → PField → PVal → Prop
  | keyExpiration {c h} {t : Bytes} : t.length = 4 → beNat t ≠ 0 → SaysSelf sigType owner ⟨9, c, h, t⟩ .keyExpirationSeconds (.int (beNat t))
  | ciphers {c h} {d : Bytes} : SaysSelf sigType owner ⟨11, c, h, d⟩ .preferredSym (.ints (d.map UInt8.toNat))
  | hashes {c h} {d : Bytes} : SaysSelf sigType owner ⟨21, c, h, d⟩ .preferredHash (.ints (d.map UInt8.toNat))
  | compressions {c h} {d : Bytes} : SaysSelf sigType owner ⟨22, c, h, d⟩ .preferredCompression (.ints (d.map UInt8.toNat))
  | mayModify {c h} {n : Nat} : SaysSelf sigType owner ⟨23, c, h, 0 :: List.replicate n 0⟩ .keyServerNoModify (.bool false)
  | noModify {c h} {n : Nat} : SaysSelf sigType owner ⟨23, c, h, 0x80 :: List.replicate n 0⟩ .keyServerNoModify (.bool true)
  | primary {c h} {x : UInt8} : owner = 13 ∨ owner = 17 → SaysSelf sigType owner ⟨25, c, h, [x]⟩ .primary (.int x.toNat)
  | split {c h} {x : UInt8} {r} : sigType = 0x1f ∨ sigType = 0x18 → SaysSelf sigType owner ⟨27, c, h, x :: r⟩ .mayHaveBeenSplit (.bool (x.toNat / 16 % 2 = 1))
  | shared {c h} {x : UInt8} {r} : sigType = 0x1f ∨ sigType = 0x18 → SaysSelf sigType owner ⟨27, c, h, x :: r⟩ .mayHaveMultipleOwners (.bool (x.toNat / 128 = 1))
  | noDetection {c h} {n : Nat} : SaysSelf sigType owner ⟨30, c, h, 0 :: List.replicate n 0⟩ .supportsModification (.int 0)
  | detection {c h} {n : Nat} : SaysSelf sigType owner ⟨30, c, h, 1 :: List.replicate n 0⟩ .supportsModification (.int 1)

/-- The fields that only self-signatures have. -/
def selfFields : List PField :=
  [.keyExpirationSeconds, .preferredSym, .preferredHash, .preferredCompression, .keyServerNoModify, .primary, .mayHaveBeenSplit, .mayHaveMultipleOwners, .supportsModification]

/-- A notation: four octets of flags (the first bit: human readable; no other is set), lengths of name and value, name and value. The name is text of the form
`name@domain` or without a domain; the value is text if it is human readable, and shown in base64 otherwise. -/
inductive Noted : PSub → PNotation → Prop
  | text {h : Bool} {name domain value : Str} : '@' ∉ name → (utf8Encode (name ++ '@' :: domain)).length < 65536 → (utf8Encode value).length < 65536 →
      Noted ⟨20, false, h, [0x80, 0, 0, 0] ++ beBytes 2 (utf8Encode (name ++ '@' :: domain)).length ++ beBytes 2 (utf8Encode value).length ++
        utf8Encode (name ++ '@' :: domain) ++ utf8Encode value⟩ ⟨name, some domain, true, value, h⟩
  | plain {h : Bool} {name value : Str} : '@' ∉ name → (utf8Encode name).length < 65536 → (utf8Encode value).length < 65536 →
      Noted ⟨20, false, h, [0x80, 0, 0, 0] ++ beBytes 2 (utf8Encode name).length ++ beBytes 2 (utf8Encode value).length ++ utf8Encode name ++ utf8Encode value⟩
        ⟨name, none, true, value, h⟩
  | octets {h : Bool} {name domain : Str} {value : Bytes} : '@' ∉ name → (utf8Encode (name ++ '@' :: domain)).length < 65536 → value.length < 65536 →
      Noted ⟨20, false, h, [0, 0, 0, 0] ++ beBytes 2 (utf8Encode (name ++ '@' :: domain)).length ++ beBytes 2 value.length ++ utf8Encode (name ++ '@' :: domain) ++ value⟩
        ⟨name, some domain, false, b64encode value, h⟩

/-! ### Transferable public keys -/

/-- A signature packet of one of these types. -/
def PSigOf (types : List Nat) (p : PPacket) : Prop := p.raw = 2 ∧ p.sigType ∈ types

/-- A user id (13) or user attribute (17) with its certifications. -/
def CertifiedPart (raw : Nat) (g : List PPacket) : Prop := ∃ u certs, g = u :: certs ∧ u.raw = raw ∧ ∀ c ∈ certs, PSigOf [0x10, 0x11, 0x12, 0x13] c

/-- A subkey, its binding signature, and possibly the revocation of it. -/
def BoundSubkey (g : List PPacket) : Prop :=
  ∃ s b r, g = s :: b :: r ∧ s.raw = 14 ∧ PSigOf [0x18] b ∧ (r = [] ∨ ∃ x, r = [x] ∧ PSigOf [0x28] x)

/-- A transferable public key: the key, signatures directly on it and revocations of it, user ids, user attributes, and for version 4 subkeys. -/
def PublicKeySequence (ps : List PPacket) : Prop :=
  ∃ k direct uids attrs subs, ps = k :: (direct ++ List.flatten uids ++ List.flatten attrs ++ List.flatten subs) ∧ k.raw = 6 ∧
    (∀ p ∈ direct, PSigOf [0x1f, 0x20] p) ∧ (∀ g ∈ uids, CertifiedPart 13 g) ∧ (∀ g ∈ attrs, CertifiedPart 17 g) ∧ (∀ g ∈ subs, BoundSubkey g) ∧
    (k.version < 4 → subs = [])

end Pgp.Spec
