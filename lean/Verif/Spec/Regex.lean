import Verif.Model.PyStr
/-
The regular expressions of RFC 4880 section 8, over symbols.  A symbol is a character or a backslash with the character it escapes.

  A regular expression is zero or more branches, separated by `|`.  A branch is zero or more pieces, concatenated.  A piece is an atom
  possibly followed by `*`, `+` or `?`.  An atom is a regular expression in parentheses, a range, or a single symbol with no other
  significance.  A range is a sequence of symbols in `[]`; a literal `]` may come first, following a possible `^`.
-/
namespace Pgp.Spec

/-- A character other than a backslash, or a backslash with the character it escapes. -/
def IsSymbol (t : Str) : Prop := (∃ c, t = [c] ∧ c ≠ '\\') ∨ ∃ c, t = ['\\', c] ∧ c ≠ '\n'

/-- The symbols with a significance of their own. -/
def rxSpecial : List Str := [['|'], ['*'], ['+'], ['?'], ['('], [')'], ['['], [']']]

/-- What a range encloses: a possible `^`, a first symbol, and then anything but `]`. -/
def RangeContent (c : List Str) : Prop :=
  ∃ neg x rest, c = neg ++ x :: rest ∧ (neg = [] ∧ x ≠ ['^'] ∨ neg = [['^']]) ∧ [']'] ∉ rest

inductive RxKind | regex | branch | piece | atom

/-- The grammar. -/
inductive Pattern : RxKind → List Str → Prop
  | one {b} : Pattern .branch b → Pattern .regex b
  | alt {b r} : Pattern .branch b → Pattern .regex r → Pattern .regex (b ++ ['|'] :: r)
  | nil : Pattern .branch []
  | cons {p b} : Pattern .piece p → Pattern .branch b → Pattern .branch (p ++ b)
  | once {a} : Pattern .atom a → Pattern .piece a
  | rep {a t} : Pattern .atom a → t = ['*'] ∨ t = ['+'] ∨ t = ['?'] → Pattern .piece (a ++ [t])
  | group {r} : Pattern .regex r → Pattern .atom (['('] :: (r ++ [[')']]))
  | range {c} : RangeContent c → Pattern .atom (['['] :: (c ++ [[']']]))
  | single {t} : t ∉ rxSpecial → Pattern .atom [t]

end Pgp.Spec
