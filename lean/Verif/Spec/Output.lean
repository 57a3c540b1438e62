import Verif.Model.Output
/-
What the templates of photo viewer commands mean (gpg manual, `--photo-viewer`).
-/
namespace Pgp.Spec
open Pgp

/-- A piece of the template: an ordinary character, or one of the marks. -/
inductive PhotoPiece where
  | char (c : Char)
  | keyId | longKeyId | fingerprint | extension | mimeType | validity | fullValidity | userId
  | percent
  deriving DecidableEq

/-- How the piece is written in the template. -/
def PhotoPiece.written : PhotoPiece → List Char
  | .char c => [c]
  | .keyId => ['%', 'k'] | .longKeyId => ['%', 'K'] | .fingerprint => ['%', 'f'] | .extension => ['%', 't'] | .mimeType => ['%', 'T']
  | .validity => ['%', 'v'] | .fullValidity => ['%', 'V'] | .userId => ['%', 'U']
  | .percent => ['%', '%']

/-- What stands for it in the command. -/
def PhotoPiece.meaning (i : PhotoInfo) : PhotoPiece → List Char
  | .char c => [c]
  | .keyId => i.keyId | .longKeyId => i.longKeyId | .fingerprint => i.fingerprint | .extension => i.extension | .mimeType => i.mimeType
  | .validity => i.validity | .fullValidity => i.fullValidity | .userId => i.userId
  | .percent => ['%']

/-- No ordinary character of the template is a per cent sign. -/
def photoTemplate (l : List PhotoPiece) : Prop := ∀ c, PhotoPiece.char c ∈ l → c ≠ '%'

/-- Behind a mark `%%` there is the end of the template or an ordinary character other than those used in marks. -/
inductive PercentsApart : List PhotoPiece → Prop
  | nil : PercentsApart []
  | piece (p : PhotoPiece) (l : List PhotoPiece) (hp : p ≠ .percent) (h : PercentsApart l) : PercentsApart (p :: l)
  | last : PercentsApart [.percent]
  | apart (c : Char) (l : List PhotoPiece) (hc : c ∉ ['k', 'K', 'f', 't', 'T', 'v', 'V', 'U', 'i', 'I']) (h : PercentsApart l) :
      PercentsApart (.percent :: .char c :: l)

/-- The values hold no per cent sign. -/
def noPercent (i : PhotoInfo) : Prop :=
  '%' ∉ i.keyId ∧ '%' ∉ i.longKeyId ∧ '%' ∉ i.fingerprint ∧ '%' ∉ i.extension ∧ '%' ∉ i.mimeType ∧ '%' ∉ i.validity ∧ '%' ∉ i.fullValidity ∧ '%' ∉ i.userId

end Pgp.Spec
