/-
Python run-time vocabulary used by every model module.  Nothing here is specific to /repo; it fixes how the
Python constructs occurring in /repo/pgp are represented.
-/
namespace Pgp

/-- Exception classes that the modelled code can raise (Python built-ins and pgp/exceptions.py).
`diverges` marks a loop that has used up the fuel given to it. -/
inductive PyErr where
  | indexError | valueError | typeError | attributeError | assertionError | keyError
  | notImplemented | unboundLocal | unicodeError | runtimeError | stopIteration | diverges
  /-- an exception class of pgp/exceptions.py, named -/
  | pgp (name : String)
  deriving DecidableEq, Repr, Inhabited

abbrev Py (α : Type) := Except PyErr α

/-- `bytes` / `bytearray`. -/
abbrev Bytes := List UInt8

/-- `data[offset]` for a non-negative offset: `IndexError` past the end. -/
def idx (data : Bytes) (offset : Nat) : Py UInt8 :=
  match data.drop offset with
  | x :: _ => .ok x
  | [] => .error .indexError

/-- `data[i:j]` for non-negative `i`, `j`: clamps at both ends. -/
def slice {α : Type} (data : List α) (i j : Nat) : List α := (data.drop i).take (j - i)

/-- `bytearray.append(n)` / `bytearray([n])` for a non-negative int: `ValueError` unless `n < 256`. -/
def byteOf (n : Nat) : Py UInt8 :=
  if n < 256 then .ok (UInt8.ofNat n) else .error .valueError

/-- The octet `n & 0xff` (never raises). -/
def lowByte (n : Nat) : UInt8 := UInt8.ofNat (n % 256)

/-- `assert c`. -/
def pyAssert (c : Bool) : Py Unit := if c then .ok () else .error .assertionError

/-- Result is an error of any kind. -/
def Raises {α : Type} (r : Py α) : Prop := ∃ e, r = .error e

end Pgp
