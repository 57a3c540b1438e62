import Verif.Model.PyStr
/-
What a conventional OpenPGP user id looks like, independently of the parser: `Name <local@domain>`, `Name (comment) <local@domain>`,
`local@domain`, or just a name.
-/
namespace Pgp.Spec

/-- A word of a name: not empty, no white space, none of the characters mail addresses reserve. Dots are allowed (`J. R.`). -/
def NameWord (w : Str) : Prop := w ≠ [] ∧ ∀ c ∈ w, isPySpace c = false ∧ c ∉ "()<>@,:;\"[]".toList

/-- A part of a mail address: no white space and no reserved character; dots are allowed. -/
def AddrText (s : Str) : Prop := ∀ c ∈ s, isPySpace c = false ∧ c ∉ "()<>@,:;\"[]".toList

/-- The text of a comment: no parentheses, backslashes or carriage returns, and not empty. -/
def CommentText (s : Str) : Prop := s ≠ [] ∧ ∀ c ∈ s, c ∉ "()\\\r".toList

/-- The words of a name, each followed by one space. -/
def nameText (ws : List Str) : Str := ws.flatMap (· ++ [' '])

/-- `Name <local@domain>`. -/
def plainId (ws : List Str) (loc dom : Str) : Str := nameText ws ++ '<' :: loc ++ '@' :: dom ++ ['>']

/-- `Name (comment) <local@domain>`. -/
def commentId (ws : List Str) (c loc dom : Str) : Str := nameText ws ++ '(' :: c ++ ")".toList ++ ' ' :: '<' :: loc ++ '@' :: dom ++ ['>']

/-- `w` is a way to write the text `s`: any character may be preceded by a backslash, and those in `stops` have to be. -/
inductive Escaped (stops : List Char) : Str → Str → Prop
  | nil : Escaped stops [] []
  | plain {w s : Str} {c : Char} : c ∉ stops → Escaped stops w s → Escaped stops (c :: w) (c :: s)
  | escaped {w s : Str} {c : Char} : Escaped stops w s → Escaped stops ('\\' :: c :: w) (c :: s)

/-- `"Name" <local@domain>`, the name as written between the quotes. -/
def quotedId (w loc dom : Str) : Str := '"' :: w ++ '"' :: ' ' :: '<' :: loc ++ '@' :: dom ++ ['>']

end Pgp.Spec
