import Verif.Model.Crc24
/-
Model of /repo/pgp/armor.py.  A Python `str` is a `List Char` (lone surrogates, which a `str` may contain, are not
represented).  `base64.b64encode`/`b64decode`, `str.splitlines`, `str.strip` (used only as a blank test),
`str.split(sep, 1)`, `str.replace` and the header regular expression are transcribed, not assumed.
-/
namespace Pgp

abbrev Str := List Char

/-- Keys of `data_types`, armor.py:32-37. -/
inductive ArmorType where
  | message | publicKey | privateKey | signature
  deriving DecidableEq, Repr

/-- `data_types`, armor.py:32-37. -/
def ArmorType.name : ArmorType → Str
  | .message => "PGP MESSAGE".toList
  | .publicKey => "PGP PUBLIC KEY BLOCK".toList
  | .privateKey => "PGP PRIVATE KEY BLOCK".toList
  | .signature => "PGP SIGNATURE".toList

/-- armor.py:40 `DASHES`. -/
def DASHES : Str := "-----".toList

/-- The `extra_headers` argument, armor.py:175: `None`, a dict (iterated over its keys at line 235), or a list of
pairs. -/
inductive ExtraHeaders where
  | none
  | dict (entries : List (Str × Str))
  | pairs (entries : List (Str × Str))
  deriving DecidableEq, Repr

/-- The attributes of an `ASCIIArmor`, armor.py:173-185. -/
structure Armor where
  dataType : ArmorType
  data : Bytes
  part : Option Nat := none
  totalParts : Option Nat := none
  version : Option Str := none
  comment : Option Str := none
  messageId : Option Str := none
  hashAlgorithms : Option Str := none
  charset : Option Str := none
  extraHeaders : ExtraHeaders := .none
  deriving DecidableEq, Repr

/-! ### Python library functions used -/

/-- The line boundaries of `str.splitlines` other than the pair `\r\n`. -/
def isLineBreak (c : Char) : Bool :=
  c = '\n' || c = '\r' || c = '\x0b' || c = '\x0c' || c = '\x1c' || c = '\x1d' || c = '\x1e' ||
  c = '\u0085' || c = '\u2028' || c = '\u2029'

/-- `str.splitlines()`; `acc` is the current line, reversed. -/
def splitlinesAux : Str → Str → List Str
  | acc, [] => if acc.isEmpty then [] else [acc.reverse]
  | acc, '\r' :: '\n' :: t => acc.reverse :: splitlinesAux [] t
  | acc, c :: t => if isLineBreak c then acc.reverse :: splitlinesAux [] t else splitlinesAux (c :: acc) t

def splitlines (t : Str) : List Str := splitlinesAux [] t

/-- `str.isspace` for one character, the set removed by `str.strip()`. -/
def isPySpace (c : Char) : Bool :=
  let n := c.toNat
  (9 ≤ n && n ≤ 13) || (28 ≤ n && n ≤ 32) || n = 0x85 || n = 0xa0 || n = 0x1680 || (0x2000 ≤ n && n ≤ 0x200a) ||
  n = 0x2028 || n = 0x2029 || n = 0x202f || n = 0x205f || n = 0x3000

/-- `not len(line.strip())`. -/
def isBlank (line : Str) : Bool := line.all isPySpace

/-- `s.split(': ', 1)` unpacked into two names: `ValueError` when the separator does not occur. -/
def splitColon : Str → Py (Str × Str)
  | [] => .error .valueError
  | ':' :: ' ' :: t => .ok ([], t)
  | c :: t => do
    let (k, v) ← splitColon t
    return (c :: k, v)

/-- `s.replace('BEGIN', 'END')`. -/
def replaceBeginEnd : Str → Str
  | [] => []
  | 'B' :: 'E' :: 'G' :: 'I' :: 'N' :: t => 'E' :: 'N' :: 'D' :: replaceBeginEnd t
  | c :: t => c :: replaceBeginEnd t

/-- Decimal rendering of an int by `format`, least significant digit first. -/
def decRev (n : Nat) : Str :=
  if h : n < 10 then [Char.ofNat (48 + n)] else Char.ofNat (48 + n % 10) :: decRev (n / 10)
termination_by n
decreasing_by omega

def decimal (n : Nat) : Str := (decRev n).reverse

def isAsciiDigit (c : Char) : Bool := '0' ≤ c && c ≤ '9'

/-- `int(s)` for a string of ASCII digits. -/
def decValue (s : Str) : Nat := s.foldl (fun a c => a * 10 + (c.toNat - 48)) 0

/-- The base64 alphabet. -/
def b64Char (n : Nat) : Char :=
  if n < 26 then Char.ofNat (65 + n)
  else if n < 52 then Char.ofNat (97 + (n - 26))
  else if n < 62 then Char.ofNat (48 + (n - 52))
  else if n = 62 then '+' else '/'

/-- `table_a2b_base64` of CPython's binascii module: `none` for characters outside the alphabet. -/
def b64Val (c : Char) : Option Nat :=
  let n := c.toNat
  if 65 ≤ n ∧ n ≤ 90 then some (n - 65)
  else if 97 ≤ n ∧ n ≤ 122 then some (n - 97 + 26)
  else if 48 ≤ n ∧ n ≤ 57 then some (n - 48 + 52)
  else if n = 43 then some 62
  else if n = 47 then some 63
  else none

/-- `base64.b64encode(data).decode('us-ascii')`. -/
def b64encode : Bytes → Str
  | [] => []
  | [a] => [b64Char (a.toNat / 4), b64Char (a.toNat % 4 * 16), '=', '=']
  | [a, b] =>
    [b64Char (a.toNat / 4), b64Char (a.toNat % 4 * 16 + b.toNat / 16), b64Char (b.toNat % 16 * 4), '=']
  | a :: b :: c :: t =>
    b64Char (a.toNat / 4) :: b64Char (a.toNat % 4 * 16 + b.toNat / 16) ::
      b64Char (b.toNat % 16 * 4 + c.toNat / 64) :: b64Char (c.toNat % 64) :: b64encode t

/-- The loop of CPython's `binascii.a2b_base64` (non-strict, as `b64decode` calls it): `quad` is the position within
the group of four, `left` the bits not yet output, `pads` the run of padding characters seen. Characters outside the
alphabet are skipped; enough padding ends the input; a group left open at the end is `binascii.Error`, a subclass of
`ValueError`. -/
def a2bLoop : Str → (quad left pads : Nat) → Py Bytes
  | [], quad, _, _ => if quad = 0 then .ok [] else .error .valueError
  | ch :: t, quad, left, pads =>
    if ch = '=' then
      if 2 ≤ quad then
        if 4 ≤ quad + (pads + 1) then .ok [] else a2bLoop t quad left (pads + 1)
      else a2bLoop t quad left pads
    else
      match b64Val ch with
      | none => a2bLoop t quad left pads
      | some v =>
        match quad with
        | 0 => a2bLoop t 1 v 0
        | 1 => do return lowByte (left * 4 + v / 16) :: (← a2bLoop t 2 (v % 16) 0)
        | 2 => do return lowByte (left * 16 + v / 4) :: (← a2bLoop t 3 (v % 4) 0)
        | _ => do return lowByte (left * 64 + v) :: (← a2bLoop t 0 0 0)

/-- `base64.b64decode(s)` for a `str`: non-ASCII text is a `ValueError`. -/
def b64decode (s : Str) : Py Bytes :=
  if s.all (fun c => c.toNat < 128) then a2bLoop s 0 0 0 else .error .valueError

/-! ### armor.py -/

/-- `s` without the given prefix. -/
def dropPrefix (p s : Str) : Option Str := if p.isPrefixOf s then some (s.drop p.length) else none

/-- `[1-9][0-9]*` matched greedily at the start of `s`. (No backtracking is ever useful: in the pattern the digits are
followed by `/` or `-`.) -/
def matchNumber (s : Str) : Option (Nat × Str) :=
  match s with
  | c :: _ =>
    if '1' ≤ c ∧ c ≤ '9' then some (decValue (s.takeWhile isAsciiDigit), s.dropWhile isAsciiDigit) else none
  | [] => none

/-- The tail of the message alternative of `header_line_expr`, armor.py:43-48 and 52: optional part numbers, dashes,
end of line. -/
def matchMessageTail (s : Str) : Option (Option Nat × Option Nat) :=
  if s = DASHES then some (none, none)
  else do
    let s ← dropPrefix ", PART ".toList s
    let (p, s) ← matchNumber s
    if s = DASHES then return (some p, none)
    let s ← dropPrefix "/".toList s
    let (q, s) ← matchNumber s
    if s = DASHES then return (some p, some q)
    none

/-- `header_line_expr.match(line)` and the group tests of armor.py:92-107. A line contains no line break here, so
`$` means the end of the line. -/
def matchHeader (line : Str) : Option (ArmorType × Option Nat × Option Nat) := do
  let s ← dropPrefix (DASHES ++ "BEGIN ".toList) line
  match dropPrefix ArmorType.message.name s with
  | some s => do
    let (p, q) ← matchMessageTail s
    return (.message, p, q)
  | none =>
    if s = ArmorType.publicKey.name ++ DASHES then return (.publicKey, none, none)
    if s = ArmorType.privateKey.name ++ DASHES then return (.privateKey, none, none)
    if s = ArmorType.signature.name ++ DASHES then return (.signature, none, none)
    none

/-- armor.py:61-68 for a `str` argument. -/
def isArmor (data : Str) : Bool := data.take DASHES.length = DASHES

/-- armor.py:61-68 for a `bytes` argument; a non-ASCII prefix decodes to nothing equal to the dashes. -/
def isArmorBytes (data : Bytes) : Bool :=
  let canary := data.take DASHES.length
  if canary.all (fun b => b < 128) then canary.map (fun b => Char.ofNat b.toNat) = DASHES else false

/-- armor.py:79-80: skip blank lines; `IndexError` when there is no other. -/
def skipBlank : List Str → Py (Str × List Str)
  | [] => .error .indexError
  | l :: ls => if isBlank l then skipBlank ls else .ok (l, ls)

/-- armor.py:109-115: the variables of the header loop. -/
structure ArmorHeaders where
  version : Option Str := none
  comment : Option Str := none
  messageId : Option Str := none
  hashAlgorithms : Option Str := none
  charset : Option Str := none
  extra : List (Str × Str) := []

/-- armor.py:118-135: one header line. (`extra` keeps every occurrence; it is never used afterwards.) -/
def ArmorHeaders.add (h : ArmorHeaders) (k v : Str) : ArmorHeaders :=
  if k = "Version".toList then { h with version := some v }
  else if k = "Comment".toList then { h with comment := some v }
  else if k = "MessageID".toList then { h with messageId := some v }
  else if k = "Hash".toList then { h with hashAlgorithms := some v }
  else if k = "Charset".toList then { h with charset := some v }
  else { h with extra := h.extra ++ [(k, v)] }

/-- armor.py:117-138: header lines up to and including the blank line. -/
def headerLoop : List Str → ArmorHeaders → Py (ArmorHeaders × List Str)
  | [], _ => .error .indexError
  | l :: ls, h =>
    if isBlank l then .ok (h, ls)
    else do
      let (k, v) ← splitColon l
      headerLoop ls (h.add k v)

/-- armor.py:140-144: lines up to the one starting with `=`. Returns the data lines, the checksum line and the
following lines. -/
def dataLoop : List Str → Py (List Str × Str × List Str)
  | [] => .error .indexError
  | l :: ls =>
    if l.take 1 = ['='] then .ok ([], l, ls)
    else do
      let (d, c, r) ← dataLoop ls
      return (l :: d, c, r)

/-- armor.py:75-171 after `splitlines`. -/
def armorFromLines (lines : List Str) : Py Armor := do
  let (headerLine, lines) ← skipBlank lines
  match matchHeader headerLine with
  | none => .error .valueError
  | some (dataType, part, totalParts) =>
    let (h, lines) ← headerLoop lines {}
    let (dataLines, checksumLine, lines) ← dataLoop lines
    let data ← b64decode dataLines.flatten
    let checksumData ← b64decode (checksumLine.drop 1)
    let c0 ← idx checksumData 0
    let c1 ← idx checksumData 1
    let c2 ← idx checksumData 2
    let expected := (c0.toNat <<< 16) + (c1.toNat <<< 8) + c2.toNat
    if crc24 data ≠ expected then .error .valueError
    else
      match lines with
      | [] => .error .indexError
      | tailLine :: _ =>
        if tailLine ≠ replaceBeginEnd headerLine then .error .valueError
        else
          -- armor.py:170-171: extra_headers is not passed to the constructor
          return { dataType := dataType, data := data, part := part, totalParts := totalParts
                   version := h.version, comment := h.comment, messageId := h.messageId
                   hashAlgorithms := h.hashAlgorithms, charset := h.charset }

/-- armor.py:74-171 `ASCIIArmor.from_ascii`. -/
def fromAscii (text : Str) : Py Armor := armorFromLines (splitlines text)

/-- armor.py:188-218: the header line. -/
def Armor.headerLine (a : Armor) : Str :=
  DASHES ++ "BEGIN ".toList ++ a.dataType.name ++
    (if a.dataType = .message then
      match a.part, a.totalParts with
      | some p, some q => ", PART ".toList ++ decimal p ++ "/".toList ++ decimal q
      | some p, none => ", PART ".toList ++ decimal p
      | none, _ => []
    else []) ++ DASHES

def headerField (key : String) : Option Str → List Str
  | none => []
  | some v => [key.toList ++ ": ".toList ++ v]

/-- armor.py:234-236: `for k, v in self.extra_headers`. Iterating a dict yields its keys, and unpacking a key into two
names is a `ValueError` unless it has exactly two characters. -/
def extraLines : ExtraHeaders → Py (List Str)
  | .none => .ok []
  | .pairs l => .ok (l.map fun kv => kv.1 ++ ": ".toList ++ kv.2)
  | .dict l => l.mapM fun kv =>
    match kv.1 with
    | [a, b] => .ok ([a] ++ ": ".toList ++ [b])
    | _ => .error .valueError

/-- armor.py:241-243: lines of 72 characters. -/
def wrap72 (s : Str) : List Str :=
  (List.range ((s.length + 71) / 72)).map fun l => slice s (l * 72) (l * 72 + 72)

/-- armor.py:187-253: the lines. -/
def Armor.toLines (a : Armor) : Py (List Str) := do
  let extra ← extraLines a.extraHeaders
  let v := crc24 a.data
  let sum := b64encode [lowByte (v >>> 16), lowByte (v >>> 8), lowByte v]
  return [a.headerLine] ++ headerField "Version" a.version ++ headerField "Comment" a.comment ++
    headerField "MessageID" a.messageId ++ headerField "Hash" a.hashAlgorithms ++ headerField "Charset" a.charset ++
    extra ++ [[]] ++ wrap72 (b64encode a.data) ++ ['=' :: sum] ++ [replaceBeginEnd a.headerLine]

/-- armor.py:255: `'\n'.join(lines) + '\n'` (the list is never empty). -/
def joinLines (lines : List Str) : Str := lines.flatMap (· ++ ['\n'])

/-- armor.py:187-255 `ASCIIArmor.__str__`. -/
def Armor.toStr (a : Armor) : Py Str := do return joinLines (← a.toLines)

end Pgp
