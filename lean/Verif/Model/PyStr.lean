import Verif.Model.Armor
/-
Python string methods used by the modelled code.  A `str` is a list of characters.
-/
namespace Pgp

/-- `s.split(sep)` for a one-character separator. -/
def pySplit (sep : Char) : List Char → List (List Char)
  | [] => [[]]
  | c :: s =>
    if c = sep then [] :: pySplit sep s
    else match pySplit sep s with
      | [] => [[c]]
      | w :: ws => (c :: w) :: ws

/-- `s.split()`: maximal runs of characters that are not white space; `cur` is the run being collected. -/
def pyWordsAux (cur : List Char) : List Char → List (List Char)
  | [] => if cur = [] then [] else [cur]
  | c :: s => if isPySpace c then (if cur = [] then pyWordsAux [] s else cur :: pyWordsAux [] s) else pyWordsAux (cur ++ [c]) s

/-- `s.split()`. -/
def pyWords (s : List Char) : List (List Char) := pyWordsAux [] s

/-- `s.strip()`. -/
def pyStrip (s : List Char) : List Char := ((s.dropWhile isPySpace).reverse.dropWhile isPySpace).reverse

/-- `sep.join(parts)`. -/
def pyJoin (sep : List Char) : List (List Char) → List Char
  | [] => []
  | [w] => w
  | w :: v :: ws => w ++ sep ++ pyJoin sep (v :: ws)

end Pgp
