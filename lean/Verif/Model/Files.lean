import Verif.Model.KeyFile
import Verif.Model.Message
/-
Model of reading keys and messages from text, octets and files with detection of armor, and of writing keys to files (pgp/shortcuts.py:15-98).
-/
namespace Pgp

/-- What `read_key` and `read_message` are given: a `str` or `bytes`. -/
inductive FileData where
  | text (s : Str)
  | octets (b : Bytes)
  deriving DecidableEq

/-- `data.decode('us-ascii')`. -/
def asciiDecodeStrict (b : Bytes) : Py Str := if b.all (fun x => x < 128) then .ok (b.map fun x => Char.ofNat x.toNat) else .error .unicodeError

/-- The octets `bytes.strip` removes. -/
def isByteSpace (x : UInt8) : Bool := x = 32 || (9 ≤ x && x ≤ 13)

/-- shortcuts.py:16-26, 42-52 with parsers.py:35-47: the octets given to the packet parser, `armored` being the caller's flag. `bytes` given to the armor parser
have no line that is not blank (IndexError) or meet a `str` pattern (TypeError, armor.py:79-84); a `str` given to the packet parser raises TypeError at its first
character (packets.py:1672). -/
def inputOctets (armored : Bool) : FileData → Py Bytes
  | .octets b =>
    if isArmorBytes b then do
      let t ← asciiDecodeStrict b
      let a ← fromAscii t
      return a.data
    else if armored then .error (if b.all isByteSpace then .indexError else .typeError)
    else .ok b
  | .text s =>
    if isArmor s || armored then do
      let a ← fromAscii s
      return a.data
    else if s = [] then .ok [] else .error .typeError

/-- `read_key(data, armored)` (shortcuts.py:41-59). -/
def readKeyAny (magic : Bytes → Str) (armored : Bool) (d : FileData) : Py TKey := do
  let b ← inputOctets armored d
  readKey magic b

/-- `read_message(data, armored)` (shortcuts.py:15-28). -/
def readMessageAny (accept : RawPacket → Py Unit) (armored : Bool) (d : FileData) : Py Msg := do
  let b ← inputOctets armored d
  readMessage accept b

/-- Universal newlines: what a file opened with mode `'r'` does to line ends. -/
def universalNewlines : Str → Str
  | [] => []
  | '\r' :: '\n' :: t => '\n' :: universalNewlines t
  | '\r' :: t => '\n' :: universalNewlines t
  | c :: t => c :: universalNewlines t

/-- `open(filename, mode)`, `fh.read()` (shortcuts.py:32-38, 63-69); text files are taken to be in UTF-8. -/
def readFileAs (armored : Bool) (content : Bytes) : Py FileData :=
  if armored then do
    let s ← utf8DecodeStrict content
    return .text (universalNewlines s)
  else .ok (.octets content)

/-- `read_key_file(filename, armored)` for a file with this content (shortcuts.py:62-69). -/
def readKeyFile (magic : Bytes → Str) (armored : Bool) (content : Bytes) : Py TKey := do
  let d ← readFileAs armored content
  readKeyAny magic armored d

/-- `read_message_file(filename, armored)` (shortcuts.py:31-38). -/
def readMessageFile (accept : RawPacket → Py Unit) (armored : Bool) (content : Bytes) : Py Msg := do
  let d ← readFileAs armored content
  readMessageAny accept armored d

/-- The class of a key object, from its primary key packet. -/
def TKey.keyClass (k : TKey) : KeyClass :=
  match k.primary.1.item with
  | .key true _ _ _ => .secretKey
  | _ => .publicKey

/-- `serialize_key(key, armored=True, header_format)` (shortcuts.py:72-87). -/
def serializeKeyArmored (fl : FloorLog2) (headerFormat : Option HeaderFormat) (k : TKey) : Py Str := do
  let data ← serializeKey fl headerFormat k
  let ty ← armorTypeOf k.keyClass
  ({ dataType := ty, data := data, version := some keyVersion } : Armor).toStr

/-- `write_key_file(key, filename, armored)` (shortcuts.py:90-97): the content of the file. Text is written in UTF-8, `'\n'` as it is. -/
def writeKeyFile (fl : FloorLog2) (armored : Bool) (k : TKey) : Py Bytes :=
  if armored then do
    let t ← serializeKeyArmored fl none k
    return utf8Encode t
  else serializeKey fl none k

end Pgp
