/-
Vocabulary for the ASCII armor properties.
-/
namespace Pgp.Spec

/-- The characters at which Python's `str.splitlines` ends a line. -/
def lineTerminators : List Char :=
  ['\n', '\r', '\x0b', '\x0c', '\x1c', '\x1d', '\x1e', '\u0085', '\u2028', '\u2029']

/-- Text that stays on one line. -/
def OneLine (s : List Char) : Prop := ∀ c ∈ s, c ∉ lineTerminators

/-- The header keys the reader knows. -/
def knownKeys : List (List Char) :=
  ["Version".toList, "Comment".toList, "MessageID".toList, "Hash".toList, "Charset".toList]

/-- The lines of a text, each ended by `eol`. -/
def textOf (eol : List Char) (lines : List (List Char)) : List Char := lines.flatMap (· ++ eol)

/-- A line consisting of spaces, tabs and similar only. -/
def White (s : List Char) : Prop := ∀ c ∈ s, c = ' ' ∨ c = '\t'

end Pgp.Spec
