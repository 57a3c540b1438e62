import Verif.Spec.Hex
import Verif.Model.Text
/-
Specification for requests to keyservers: URLs of keyservers, and forms (application/x-www-form-urlencoded) as servers read them.
-/
namespace Pgp.Spec

/-- The text `s` is the scheme `name`, in upper or lower case. -/
def SchemeText (name s : List Char) : Prop := s.map Char.toLower = name

/-- A host, with a port and a user if there are any. -/
def HostText (host : List Char) : Prop := host ≠ [] ∧ ∀ c ∈ host, c ∉ ['/', '?', '#']

/-- The name of a directory. -/
def DirText (d : List Char) : Prop := d ≠ [] ∧ d ≠ ['.'] ∧ d ≠ ['.', '.'] ∧ ∀ c ∈ d, c ∉ ['/', '?', '#', ';']

/-- The directories of a path, each followed by a slash. -/
def dirsText (dirs : List (List Char)) : List Char := '/' :: dirs.flatMap (· ++ ['/'])

/-- The steps written in a path, and the directories from the root that they lead to: a single dot stays, two dots go up one directory, if there is one, and
an empty step, between two slashes, stays. -/
inductive Steps : List (List Char) → List (List Char) → Prop
  | nil : Steps [] []
  | down {w dirs : List (List Char)} (d : List Char) (h : Steps w dirs) (hd : DirText d) : Steps (w ++ [d]) (dirs ++ [d])
  | up {w dirs : List (List Char)} (h : Steps w dirs) : Steps (w ++ [['.', '.']]) dirs.dropLast
  | stay {w dirs : List (List Char)} (h : Steps w dirs) : Steps (w ++ [['.']]) dirs
  | empty {w dirs : List (List Char)} (h : Steps w dirs) : Steps (w ++ [[]]) dirs

/-- The path of a URL, and the directories it leads to: none at all, or steps with or without a file in the last directory. -/
inductive PathText : List (List Char) → List Char → Prop
  | none : PathText [] []
  | path (w dirs : List (List Char)) (file : List Char) (hd : Steps w dirs) (hf : ∀ c ∈ file, c ∉ ['/', '?', '#', ';']) : PathText dirs (dirsText w ++ file)

/-- What may follow the path: nothing, a query or a fragment. -/
def TailText (t : List Char) : Prop := t = [] ∨ ∃ r, t = '?' :: r ∨ t = '#' :: r

/-- The octets `b` as the text of a form field. -/
inductive FormOctets : List UInt8 → List Char → Prop
  | nil : FormOctets [] []
  | space {b : List UInt8} {s : List Char} (h : FormOctets b s) : FormOctets (32 :: b) ('+' :: s)
  | hex (x : UInt8) {b : List UInt8} {s : List Char} (h : FormOctets b s) : FormOctets (x :: b) ('%' :: hexText [x] ++ s)
  | plain (x : UInt8) {b : List UInt8} {s : List Char} (h1 : 32 < x.toNat) (h2 : x.toNat < 127) (h3 : Char.ofNat x.toNat ∉ ['+', '%', '&', '=', '#']) (h : FormOctets b s) :
      FormOctets (x :: b) (Char.ofNat x.toNat :: s)

/-- The text of a form with these fields, names before values. -/
inductive FormText : List (List Char × List Char) → List Char → Prop
  | one {k v a b : List Char} (hk : FormOctets (utf8Encode k) a) (hv : FormOctets (utf8Encode v) b) : FormText [(k, v)] (a ++ '=' :: b)
  | more {k v a b s : List Char} {q : List Char × List Char} {ps : List (List Char × List Char)} (hk : FormOctets (utf8Encode k) a) (hv : FormOctets (utf8Encode v) b)
      (h : FormText (q :: ps) s) : FormText ((k, v) :: q :: ps) (a ++ '=' :: b ++ '&' :: s)

end Pgp.Spec
