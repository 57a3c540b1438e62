import Verif.Spec.UserId
/-
Names, addresses and comments that a user id can carry as given.
-/
namespace Pgp.Spec

/-- Text in ASCII. -/
def AsciiText (s : Str) : Prop := ∀ c ∈ s, c.toNat < 128

/-- A name: ASCII; empty, or words separated by single spaces, or any text with a character that mail syntax reserves, without carriage returns and
without white space at its ends. -/
structure PlainName (s : Str) : Prop where
  ascii : AsciiText s
  form : s = [] ∨ (∃ ws : List Str, ws ≠ [] ∧ (∀ w ∈ ws, NameWord w) ∧ s = pyJoin [' '] ws) ∨
    ((∃ c ∈ s, c ∈ "[]()<>@,:;.\\\"".toList) ∧ '\r' ∉ s ∧ pyStrip s = s)

/-- A mail address `local@domain` in ASCII. -/
def PlainAddress (s : Str) : Prop := AsciiText s ∧ ∃ loc dom, s = loc ++ '@' :: dom ∧ loc ≠ [] ∧ AddrText loc ∧ AddrText dom

/-- No comment, or one without parentheses, backslashes and carriage returns that does not occur in the name. -/
def CommentFor (name c : Str) : Prop := c = [] ∨ (CommentText c ∧ ¬ c <:+: name)

end Pgp.Spec
