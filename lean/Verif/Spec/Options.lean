import Verif.Model.PyStr
import Mathlib.Data.List.Forall2
/-
What a user expects of the options, without reference to the model.
-/
namespace Pgp.Spec

/-- The names of the digest algorithms and their numbers (RFC 4880, 9.4). -/
def digestNames : List (String × Nat) :=
  [("md5", 1), ("sha1", 2), ("ripemd160", 3), ("sha256", 8), ("sha384", 9), ("sha512", 10), ("sha224", 11)]

/-- The names `--compress-algo` accepts (arguments.py:1618) and their numbers (RFC 4880, 9.3). -/
def compressionNames : List (String × Nat) := [("zip", 1), ("zlib", 2), ("bzip2", 3)]

/-- The name that counts: that of the option, else the first personal preference, else the default. -/
def nameThatCounts (given : Option String) (personal : List String) (default : String) : String :=
  given.getD (personal.headD default)

/-- The lines of a text that are separated by LF. -/
inductive TextLines : List Char → List (List Char) → Prop
  | one {l} : '\n' ∉ l → TextLines l [l]
  | cons {l s ls} : '\n' ∉ l → TextLines s ls → TextLines (l ++ '\n' :: s) (l :: ls)

/-- A line that mailers change. -/
def FromLine (l : List Char) : Prop := ∃ rest, l = "From ".toList ++ rest

/-- Such a line is prefixed with a dash and a space, any other is kept. -/
inductive EscapedLine : List Char → List Char → Prop
  | escaped {l} : FromLine l → EscapedLine l ("- ".toList ++ l)
  | kept {l} : ¬ FromLine l → EscapedLine l l

/-- The text with all its lines escaped. -/
def EscapedText (s t : List Char) : Prop := ∃ ls ks, TextLines s ls ∧ TextLines t ks ∧ List.Forall₂ EscapedLine ls ks

end Pgp.Spec
