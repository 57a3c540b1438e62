import Verif.Model.Py
/-
Python's text codecs as used throughout /repo/pgp: `str.encode('utf8', 'replace')`, `bytes.decode('utf8'[, 'replace'])`,
and the 'ascii' codec with 'replace'.  A `str` is a `List Char`: lone surrogates, which a Python `str` may also contain, are
not represented.
-/
namespace Pgp

/-- The continuation octet carrying the low six bits of `n`. -/
def contOctet (n : Nat) : UInt8 := UInt8.ofNat (0x80 + n % 64)

/-- UTF-8 octets of one character. -/
def utf8Char (c : Char) : Bytes :=
  let n := c.toNat
  if n < 0x80 then [UInt8.ofNat n]
  else if n < 0x800 then [UInt8.ofNat (0xc0 + n / 64), contOctet n]
  else if n < 0x10000 then [UInt8.ofNat (0xe0 + n / 4096), contOctet (n / 64), contOctet n]
  else [UInt8.ofNat (0xf0 + n / 262144), contOctet (n / 4096), contOctet (n / 64), contOctet n]

/-- `s.encode('utf8', ...)`. -/
def utf8Encode (s : List Char) : Bytes := s.flatMap utf8Char

def inRange (lo hi : Nat) (x : UInt8) : Bool := lo ≤ x.toNat && x.toNat ≤ hi

/-- Number of continuation octets announced by a lead octet and the range of the first one; `none`: not a lead octet. -/
def utf8Lead (x : UInt8) : Option (Nat × Nat × Nat) :=
  let n := x.toNat
  if 0xc2 ≤ n ∧ n ≤ 0xdf then some (1, 0x80, 0xbf)
  else if n = 0xe0 then some (2, 0xa0, 0xbf)
  else if n = 0xed then some (2, 0x80, 0x9f)
  else if 0xe1 ≤ n ∧ n ≤ 0xef then some (2, 0x80, 0xbf)
  else if n = 0xf0 then some (3, 0x90, 0xbf)
  else if 0xf1 ≤ n ∧ n ≤ 0xf3 then some (3, 0x80, 0xbf)
  else if n = 0xf4 then some (3, 0x80, 0x8f)
  else none

/-- Reads up to `need` continuation octets, the next one in `lo..hi`: the number read and the accumulated value if all
were there. -/
def utf8Cont : (need lo hi acc : Nat) → Bytes → Nat × Option Nat
  | 0, _, _, acc, _ => (0, some acc)
  | need + 1, lo, hi, acc, x :: t =>
    if inRange lo hi x then
      let (k, r) := utf8Cont need 0x80 0xbf (acc * 64 + x.toNat % 64) t
      (k + 1, r)
    else (0, none)
  | _ + 1, _, _, _, [] => (0, none)

/-- Value bits of a lead octet announcing `need` continuation octets. -/
def leadBits (need : Nat) (x : UInt8) : Nat := x.toNat % 2 ^ (6 - need)

/-- CPython's UTF-8 decoder: one element per character, `none` for each maximal malformed part. -/
def utf8Units (b : Bytes) : List (Option Char) :=
  match b with
  | [] => []
  | x :: t =>
    if x.toNat < 0x80 then some (Char.ofNat x.toNat) :: utf8Units t
    else
      match utf8Lead x with
      | none => none :: utf8Units t
      | some (need, lo, hi) =>
        let (k, r) := utf8Cont need lo hi (leadBits need x) t
        r.map Char.ofNat :: utf8Units (t.drop k)
termination_by b.length
decreasing_by all_goals simp_wf <;> omega

/-- U+FFFD. -/
def replacementChar : Char := Char.ofNat 0xfffd

/-- `b.decode('utf8', 'replace')`. -/
def utf8DecodeReplace (b : Bytes) : List Char := (utf8Units b).map (·.getD replacementChar)

/-- `b.decode('utf8')`: `UnicodeDecodeError` on malformed input. -/
def utf8DecodeStrict (b : Bytes) : Py (List Char) :=
  (utf8Units b).mapM fun | some c => .ok c | none => .error .unicodeError

/-- `s.encode('ascii', 'replace')`. -/
def asciiEncodeReplace (s : List Char) : Bytes := s.map fun c => if c.toNat < 128 then UInt8.ofNat c.toNat else 0x3f

/-- `b.decode('ascii', 'replace')`. -/
def asciiDecodeReplace (b : Bytes) : List Char :=
  b.map fun x => if x.toNat < 128 then Char.ofNat x.toNat else replacementChar

end Pgp
