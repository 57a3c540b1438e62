import Verif.Model.Py
/-
Specification vocabulary for line endings, independent of the model of the substitution.
-/
namespace Pgp.Spec

/-- Every CR is followed by LF and every LF is preceded by CR. -/
def CanonicalLines (b : Bytes) : Prop :=
  (∀ pre post, b = pre ++ 13 :: post → ∃ t, post = 10 :: t) ∧ (∀ pre post, b = pre ++ 10 :: post → ∃ t, pre = t ++ [13])

/-- The canonical form the standard asks for (RFC 4880, 5.2.4): each line ending, whether LF, CR or CR LF, becomes CR LF and nothing
else changes. -/
def canonicalForm : Bytes → Bytes
  | [] => []
  | 13 :: 10 :: rest => 13 :: 10 :: canonicalForm rest
  | x :: rest => if x = 13 ∨ x = 10 then 13 :: 10 :: canonicalForm rest else x :: canonicalForm rest

end Pgp.Spec
