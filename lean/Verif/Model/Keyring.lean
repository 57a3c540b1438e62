import Verif.Model.Framing
/-
Model of the keyring file resource, /repo/pgp/db/gpg.py:299-465 (Keyring), and of the resource selection of GPGDatabase
(509-557) and get_resource (468-506).
-/
namespace Pgp

/-- What the keyring code asks of parsed packets: `check p` is the packet class's parser (it may raise), `keyId p` the `key_id` of
a key packet. -/
structure PacketInfo where
  check : RawPacket → Py Unit
  keyId : RawPacket → Py (List Char)

/-- gpg.py:321-325: public or secret primary key. -/
def isKeyType (t : Nat) : Bool := t == 6 || t == 5

/-- One step of `parse_binary_packet_stream` (parsers.py:23-32) on the unread part of the file: the packet, parsed, and the rest. -/
def nextPacket (I : PacketInfo) (fh : Bytes) : Py (RawPacket × Bytes) := do
  let (p, fh') ← packetFromStream fh
  I.check p
  return (p, fh')

/-- `offset_table`: a dict, as the list of assignments in order. -/
abbrev OffsetTable := List (List Char × Nat)

/-- `table[k]`: the last assignment wins; `none` is KeyError. -/
def tableGet (t : OffsetTable) (k : List Char) : Option Nat :=
  match t.reverse.find? (fun e => e.1 == k) with
  | some e => some e.2
  | none => none

/-- gpg.py:308-331, the loop of `_update_offset_table`: `size` is the file's length, so `fh.tell()` is `size - fh.length`. -/
def scanLoop (I : PacketInfo) (size : Nat) : (fuel : Nat) → (fh : Bytes) → (fmt : Option HeaderFormat) → (t : OffsetTable) →
    Py (OffsetTable × Option HeaderFormat)
  | 0, fh, fmt, t => if fh = [] then .ok (t, fmt) else .error .diverges
  | fuel + 1, fh, fmt, t =>
    if fh = [] then .ok (t, fmt)
    else do
      let (p, fh') ← nextPacket I fh
      let fmt := fmt.or (some p.fmt)
      if isKeyType p.type then do
        let k ← I.keyId p
        scanLoop I size fuel fh' fmt (t ++ [(lastN k 8, size - fh.length)])
      else scanLoop I size fuel fh' fmt t

/-- A Keyring object and the file it stands for. -/
structure Keyring where
  file : Bytes
  table : OffsetTable
  fmt : Option HeaderFormat
  readOnly : Bool

/-- gpg.py:308-331 `_update_offset_table`. -/
def Keyring.updateTable (I : PacketInfo) (k : Keyring) : Py Keyring := do
  let (t, f) ← scanLoop I k.file.length k.file.length k.file k.fmt []
  return { k with table := t, fmt := f }

/-- gpg.py:303-307 with BaseResource (161-167) on an existing file. -/
def Keyring.open (I : PacketInfo) (file : Bytes) (readOnly : Bool) : Py Keyring :=
  Keyring.updateTable I ⟨file, [], none, readOnly⟩

/-- BaseResource._maybe_create, gpg.py:188-195, on a missing file: `create_db` takes no argument. -/
def Keyring.create (force : Bool) : Py Keyring := if force then .error .typeError else .error .runtimeError

/-- gpg.py:333-351: the packets of the key at an offset; compressed packets are skipped and the next key packet ends the loop. -/
def keyLoop (I : PacketInfo) : (fuel : Nat) → (fh : Bytes) → (acc : List RawPacket) → Py (List RawPacket)
  | 0, fh, acc => if fh = [] then .ok acc else .error .diverges
  | fuel + 1, fh, acc =>
    if fh = [] then .ok acc
    else do
      let (p, fh') ← nextPacket I fh
      if p.type = 8 then keyLoop I fuel fh' acc
      else if acc ≠ [] ∧ isKeyType p.type then .ok acc
      else keyLoop I fuel fh' (acc ++ [p])

/-- gpg.py:333-363 `_get_key`, up to `from_packets`. -/
def Keyring.getAt (I : PacketInfo) (k : Keyring) (offset : Nat) : Py (List RawPacket) := do
  let ps ← keyLoop I k.file.length (k.file.drop offset) []
  match ps with
  | [] => .error .keyError
  | p :: _ => if isKeyType p.type then return ps else .error .valueError

/-- gpg.py:372-374 `get_transferrable_key`. -/
def Keyring.get (I : PacketInfo) (k : Keyring) (fingerprint : List Char) : Py (List RawPacket) :=
  match tableGet k.table (lastN fingerprint 8) with
  | none => .error .keyError
  | some off => k.getAt I off

/-- The key handed to `add` and `update`: its fingerprint and `b''.join(map(bytes, key.to_packets(fmt)))`. -/
structure NewKey where
  fingerprint : List Char
  bytes : Option HeaderFormat → Py Bytes

/-- gpg.py:388-396: writing the file and refreshing the table; the outcome and the object afterwards. -/
def Keyring.write (I : PacketInfo) (k : Keyring) (data : Bytes) : Py Unit × Keyring :=
  let k' := { k with file := data }
  match k'.updateTable I with
  | .error e => (.error e, k')
  | .ok k'' => (.ok (), k'')

/-- gpg.py:376-396 `add_transferrable_key`. -/
def Keyring.add (I : PacketInfo) (k : Keyring) (key : NewKey) : Py Unit × Keyring :=
  if k.readOnly then (.error .typeError, k)
  else if (tableGet k.table key.fingerprint).isSome then (.error .keyError, k)
  else
    match key.bytes k.fmt with
    | .error e => (.error e, k)
    | .ok b => k.write I (k.file ++ b)

/-- The loop of gpg.py:413-424 and 449-460: `packets` stays empty, so it runs to the end of the file; returns the header format of
the first packet. -/
def tailLoop (I : PacketInfo) : (fuel : Nat) → (fh : Bytes) → (fmt : Option HeaderFormat) → Py (Option HeaderFormat × Bytes)
  | 0, fh, fmt => if fh = [] then .ok (fmt, fh) else .error .diverges
  | fuel + 1, fh, fmt =>
    if fh = [] then .ok (fmt, fh)
    else do
      let (p, fh') ← nextPacket I fh
      tailLoop I fuel fh' (fmt.or (some p.fmt))

/-- gpg.py:398-432 `update_transferrable_key`. -/
def Keyring.update (I : PacketInfo) (k : Keyring) (key : NewKey) : Py Unit × Keyring :=
  if k.readOnly then (.error .typeError, k)
  else
    match tableGet k.table (lastN key.fingerprint 8) with
    | none => (.error .keyError, k)
    | some off =>
      match (do
        let (fmt, rest) ← tailLoop I k.file.length (k.file.drop off) none
        if k.file.drop off = [] then .error .unboundLocal
        else do
          let b ← key.bytes fmt
          return k.file.take off ++ rest ++ b : Py Bytes) with
      | .error e => (.error e, k)
      | .ok data => k.write I data

/-- gpg.py:434-465 `delete_transferrable_key`. -/
def Keyring.delete (I : PacketInfo) (k : Keyring) (fingerprint : List Char) : Py Unit × Keyring :=
  if k.readOnly then (.error .typeError, k)
  else
    match tableGet k.table (lastN fingerprint 8) with
    | none => (.error .keyError, k)
    | some off =>
      match (do
        let (_, rest) ← tailLoop I k.file.length (k.file.drop off) none
        if k.file.drop off = [] then .error .unboundLocal
        else return k.file.take off ++ rest : Py Bytes) with
      | .error e => (.error e, k)
      | .ok data => k.write I data

/-! ### The database -/

/-- The class of a key object handed to the database. -/
inductive KeyClass where
  | publicKey | secretKey
  deriving DecidableEq

/-- `isinstance(key, TransferablePublicKey)`: TransferableSecretKey is a subclass of it (transferrable_keys.py:1077). -/
def KeyClass.isPublicInstance : KeyClass → Bool
  | .publicKey => true
  | .secretKey => true

/-- `isinstance(key, TransferableSecretKey)`. -/
def KeyClass.isSecretInstance : KeyClass → Bool
  | .publicKey => false
  | .secretKey => true

/-- gpg.py:532-543, 545-556, 558-569: the position of the resource (the resources are given by their `secret` flags, in order) the
operation is applied to. `none`: no resource matches and nothing happens. -/
def chooseResource (c : KeyClass) (secretFlags : List Bool) : Py (Option Nat) :=
  if c.isPublicInstance then .ok (secretFlags.findIdx? (fun s => !s))
  else if c.isSecretInstance then .ok (secretFlags.findIdx? (fun s => s))
  else .error .typeError

/-- constants of gpg.py:470-506. -/
inductive ResourceKind where
  | keyring | keybox | gdbm
  deriving DecidableEq

/-- `s.startswith(p)`. -/
def startsWith (s p : List Char) : Bool := s.take p.length == p

/-- `magic in GDBM_MAGIC`: substring search in the eight magic octets. -/
def isInfix (a b : Bytes) : Bool := (List.range (b.length + 1)).any fun i => (b.drop i).take a.length == a

/-- gpg.py:43-46. -/
def gdbmMagic : Bytes := [0x13, 0x57, 0x9a, 0xce, 0xce, 0x9a, 0x57, 0x13]

/-- gpg.py:468-495: the kind of resource and the (not yet absolute) file name; `content` is the file's content, `none` if it cannot
be opened. -/
def getResource (filename : List Char) (content : List Char → Option Bytes) : ResourceKind × List Char :=
  if startsWith filename "gnupg-keyring:".toList then (.keyring, filename.drop 12)
  else if startsWith filename "gnupg-kbx:".toList then (.keybox, filename.drop 11)
  else
    match content filename with
    | none => (.keyring, filename)
    | some d =>
      if isInfix (d.take 4) gdbmMagic then (.gdbm, filename)
      else if ((d.drop 4).take 4).take 1 = [1] ∧ (d.drop 8).take 4 = [0x4b, 0x42, 0x58, 0x66] then (.keybox, filename)
      else (.keyring, filename)

end Pgp
