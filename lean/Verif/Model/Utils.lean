import Verif.Model.Py
/-
Model of the byte-level codecs of /repo/pgp/utils.py.
-/
namespace Pgp

/-! ### Integers -/

/-- utils.py:529-534 `bytes_to_int(bytes_, offset, length)`:
`for i in range(length): result += bytes_[offset + i] << 8 * (length - i - 1)`.
`rem` is `length - i`, `off` is `offset + i`. -/
def bytesToIntLoop (b : Bytes) (off : Nat) (result : Nat) : (rem : Nat) → Py Nat
  | 0 => .ok result
  | rem + 1 =>
    match idx b off with
    | .ok x => bytesToIntLoop b (off + 1) (result + x.toNat <<< (8 * rem)) rem
    | .error e => .error e

/-- utils.py:529-534. -/
def bytesToInt (b : Bytes) (offset length : Nat) : Py Nat := bytesToIntLoop b offset 0 length

/-- utils.py:537-538. -/
def byteToInt (b : Bytes) (offset : Nat) : Py Nat := bytesToInt b offset 1
/-- utils.py:541-542. -/
def shortToInt (b : Bytes) (offset : Nat) : Py Nat := bytesToInt b offset 2
/-- utils.py:545-546. -/
def longToInt (b : Bytes) (offset : Nat) : Py Nat := bytesToInt b offset 4

/-- `int(math.ceil(n / 8.0))` (utils.py:551, 564, 648); float division by 8 is exact for the values below 2^53
that occur. -/
def ceil8 (n : Nat) : Nat := (n + 7) / 8

/-- `(i >> s) & 0xff` as an octet. -/
def octet (i s : Nat) : UInt8 := lowByte (i >>> s)

/-- `[(i >> (j * 8)) & 0xff for j in range(n - 1, -1, -1)]` (utils.py:565-568, 650-651). -/
def octetsDown (i : Nat) : (n : Nat) → Bytes
  | 0 => []
  | n + 1 => octet i (n * 8) :: octetsDown i n

/-- The floating-point `int(math.floor(float(math.log(i, 2))))` (utils.py:563, 625, 647).  It is a parameter of the
model because it is not always exact: CPython overshoots from 2^48-1 on and undershoots from 2^2955 on. -/
abbrev FloorLog2 := Nat → Nat

/-- utils.py:562-569 `int_to_bytes(i)`; `math.log(0, 2)` raises ValueError. -/
def intToBytes (fl : FloorLog2) (i : Nat) : Py Bytes :=
  if i = 0 then .error .valueError
  else
    let bitsRequired := fl i + 1
    let bytesRequired := ceil8 bitsRequired
    .ok (octetsDown i bytesRequired)

/-- utils.py:572-580. -/
def intTo2byte (i : Nat) : Bytes := [octet i 8, octet i 0]
/-- utils.py:583-593. -/
def intTo4byte (i : Nat) : Bytes := [octet i 24, octet i 16, octet i 8, octet i 0]
/-- utils.py:596-610. -/
def intTo8byte (i : Nat) : Bytes :=
  [octet i 56, octet i 48, octet i 40, octet i 32, octet i 24, octet i 16, octet i 8, octet i 0]

/-! ### Multi-precision integers -/

/-- utils.py:549-551. -/
def mpiLength (b : Bytes) (offset : Nat) : Py Nat := do
  let bits ← shortToInt b offset
  return ceil8 bits

/-- utils.py:554-559; returns the value and the new offset. -/
def mpiToInt (b : Bytes) (offset : Nat) : Py (Nat × Nat) := do
  let n ← mpiLength b offset
  let offset := offset + 2
  let r ← bytesToInt b offset n
  return (r, offset + n)

/-- utils.py:642-652 `int_to_mpi(i)` on a Python int. -/
def intToMpi (fl : FloorLog2) (i : Int) : Py Bytes :=
  if i < 0 then .error .valueError
  else if i = 0 then .ok [0, 0]
  else
    let bitsRequired := fl i.toNat + 1
    let bytesRequired := ceil8 bitsRequired
    .ok (intTo2byte bitsRequired ++ octetsDown i.toNat bytesRequired)

/-! ### S2K count -/

/-- utils.py:616-617 (`byte` is an octet value). -/
def s2kCountToInt (byte : Nat) : Nat := (16 + (byte &&& 15)) <<< ((byte >>> 4) + 6)

/-- utils.py:620-629; `bytes([n])` raises ValueError for n > 255.  The subtraction `shift - EXPBIAS` is done in the
integers; it is negative only if the logarithm is wrong (then `bytes([negative])` raises ValueError). -/
def intToS2kCount (fl : FloorLog2) (i : Nat) : Py Bytes :=
  if i < 1024 then .error .valueError
  else if i > 65011712 then .error .valueError
  else
    let shift : Nat := fl i - 4
    if i &&& ((1 <<< shift) - 1) ≠ 0 then .error .valueError
    else
      let bits := (i >>> shift) &&& 15
      if shift < 6 then .error .valueError
      else do
        let x ← byteOf (((shift - 6) <<< 4) + bits)
        return [x]

/-! ### Packet lengths -/

/-- A file object: the octets not read yet.  `fh.read(n)` returns up to `n` octets. -/
def readN (fh : Bytes) (n : Nat) : Bytes × Bytes := (fh.take n, fh.drop n)

/-- `ord(fh.read(1))`: `ord(b'')` raises TypeError. -/
def readOrd (fh : Bytes) : Py (UInt8 × Bytes) :=
  match fh with
  | x :: rest => .ok (x, rest)
  | [] => .error .typeError

/-- utils.py:658-669; returns the length and the rest of the file. -/
def oldPacketLengthFromStream (fh : Bytes) : Py (Nat × Bytes) := do
  let (t, fh) ← readOrd fh
  let lengthType := t.toNat &&& 3
  if lengthType = 0 then
    let (x, fh) ← readOrd fh
    return (x.toNat, fh)
  else if lengthType = 1 then
    let (d, fh) := readN fh 2
    let n ← shortToInt d 0
    return (n, fh)
  else if lengthType = 2 then
    let (d, fh) := readN fh 4
    let n ← longToInt d 0
    return (n, fh)
  else .error .valueError

/-- utils.py:672-687; returns the new offset and the length. -/
def oldPacketLength (data : Bytes) (offset : Nat) : Py (Nat × Nat) := do
  let t ← idx data offset
  let lengthType := t.toNat &&& 3
  let offset := offset + 1
  if lengthType = 0 then
    let x ← idx data offset
    return (offset + 1, x.toNat)
  else if lengthType = 1 then
    let n ← shortToInt data offset
    return (offset + 2, n)
  else if lengthType = 2 then
    let n ← longToInt data offset
    return (offset + 4, n)
  else
    return (offset, data.length - offset)

/-- utils.py:690-702; returns the length, the partial flag and the rest of the file. -/
def newPacketLengthFromStream (fh : Bytes) : Py (Nat × Bool × Bytes) := do
  let (x, fh) ← readOrd fh
  let length := x.toNat
  if length < 192 then
    return (length, false, fh)
  else if length < 224 then
    let (y, fh) ← readOrd fh
    return (((length - 192) <<< 8) + y.toNat + 192, false, fh)
  else if length = 255 then
    let (d, fh) := readN fh 4
    let n ← longToInt d 0
    return (n, false, fh)
  else
    return (1 <<< (length &&& 0x1f), true, fh)

/-- utils.py:705-720; returns the new offset, the length and the partial flag. -/
def newPacketLength (data : Bytes) (offset : Nat) : Py (Nat × Nat × Bool) := do
  let x ← idx data offset
  let length := x.toNat
  let offset := offset + 1
  if length < 192 then
    return (offset, length, false)
  else if length < 224 then
    let y ← idx data offset
    return (offset + 1, ((length - 192) <<< 8) + y.toNat + 192, false)
  else if length = 255 then
    let n ← longToInt data offset
    return (offset + 4, n, false)
  else
    return (offset, 1 <<< (length &&& 0x1f), true)

/-- utils.py:655. -/
def MAX_PACKET_LENGTH : Nat := 4294967295

/-- utils.py:723-756; returns the length octets and `remaining`. -/
def newPacketLengthToBytes (dataLength : Nat) (allowPartial : Bool) : Py (Bytes × Nat) :=
  if dataLength < 192 then do
    let x ← byteOf dataLength
    return ([x], 0)
  else if dataLength < 8384 then do
    let stored := dataLength - 192
    let hi ← byteOf ((stored >>> 8) + 192)
    return ([hi, octet stored 0], 0)
  else if dataLength ≤ MAX_PACKET_LENGTH then
    .ok ([0xff, octet dataLength 24, octet dataLength 16, octet dataLength 8, octet dataLength 0], 0)
  else if allowPartial then do
    let x ← byteOf (0xe0 + 0x1e)
    return ([x], dataLength - 2 ^ 0x1e)
  else .error .valueError

/-- utils.py:759-777; returns the length type and a list of ints (not yet octets). -/
def oldPacketLengthToBytes (dataLength : Nat) : Nat × List Nat :=
  if dataLength < 256 then (0, [dataLength])
  else if dataLength < 65536 then (1, [dataLength >>> 8, dataLength &&& 0xff])
  else if dataLength < 16777216 then
    (2, [dataLength >>> 24, (dataLength >>> 16) &&& 0xff, (dataLength >>> 8) &&& 0xff, dataLength &&& 0xff])
  else (3, [])

/-- `bytearray.extend(list of ints)`: ValueError if an element is not an octet. -/
def extendInts (l : List Nat) : Py Bytes := l.mapM byteOf

/-! ### Hexadecimal -/

/-- A hexadecimal digit character, upper case: what `'{:X}'` prints. -/
def hexDigit (n : Nat) : Char :=
  if n < 10 then Char.ofNat (48 + n) else Char.ofNat (55 + n)

/-- Value of a hexadecimal digit as accepted by `int(s, 16)`; `none` = ValueError.
Simplification: `int(s, 16)` also accepts signs, underscores and surrounding blanks ("+1", " 1"); those
never occur in the key ids and fingerprints the code passes. -/
def hexVal (c : Char) : Option Nat :=
  let n := c.toNat
  if 48 ≤ n ∧ n ≤ 57 then some (n - 48)
  else if 65 ≤ n ∧ n ≤ 70 then some (n - 55)
  else if 97 ≤ n ∧ n ≤ 102 then some (n - 87)
  else none

/-- The loop of utils.py:785-787: `for i in range(int(len(hex_val) / 2))`, a trailing odd digit is ignored. -/
def hexPairs : List Char → Py Bytes
  | a :: b :: rest => do
    match hexVal a, hexVal b with
    | some x, some y =>
      let r ← hexPairs rest
      return lowByte (x * 16 + y) :: r
    | _, _ => .error .valueError
  | _ => .ok []

/-- `l[-n:]`: the last `n` elements; `l[-0:]` is all of `l`. -/
def lastN {α : Type} (l : List α) (n : Nat) : List α := if n = 0 then l else l.drop (l.length - n)

/-- utils.py:780-791 `hex_to_bytes(hex_val, expected_length=None)`. -/
def hexToBytes (hex : List Char) (expected : Option Nat) : Py Bytes := do
  let r ← hexPairs hex
  match expected with
  | none => return r
  | some n => return lastN (List.replicate n 0 ++ r) n

/-- `'{:02X}'.format(x)` for an octet. -/
def hexOfByte (x : UInt8) : List Char := [hexDigit (x.toNat / 16), hexDigit (x.toNat % 16)]

/-- The loop of utils.py:802-804 (`while i < end: result += ...`): `n` octets from `off`. -/
def hexLoop (arr : Bytes) (off : Nat) : (n : Nat) → Py (List Char)
  | 0 => .ok []
  | n + 1 => do
    let x ← idx arr off
    let r ← hexLoop arr (off + 1) n
    return hexOfByte x ++ r

/-- utils.py:794-810 `bytearray_to_hex(arr, offset, expected)`.  `expected` counts hexadecimal digits. After the
loop the result has exactly `expected` digits, so lines 805-809 leave it unchanged. -/
def bytearrayToHex (arr : Bytes) (offset : Nat) (expected : Option Nat) : Py (List Char) :=
  match expected with
  | some e =>
    if e % 2 ≠ 0 then .error .assertionError
    else do
      let r ← hexLoop arr offset (e / 2)
      return lastN r e
  | none => hexLoop arr offset (arr.length - offset)

/-- `'{:X}'.format(i)`, most significant digit first (at least one digit). -/
def hexDigitsOf (i : Nat) : List Char := (Nat.toDigits 16 i).map Char.toUpper

/-- utils.py:632-639 `int_to_hex(i, expected_size)`. -/
def intToHex (i : Nat) (expected : Option Nat) : List Char :=
  match expected with
  | none => hexDigitsOf i
  | some n => lastN (List.replicate (n - (hexDigitsOf i).length) '0' ++ hexDigitsOf i) n

end Pgp

namespace Pgp

/-- The loop at the end of utils.py:846-887 (lines 882-885): `while offset < data_len: mpi, offset = mpi_to_int(...)`.
Fuel: each MPI takes at least two octets, so `data.length` iterations always suffice (theorem
`Pgp.Props.C03_mpi_loop_terminates`). -/
def mpiLoop (data : Bytes) : (fuel : Nat) → (offset : Nat) → Py (List Nat)
  | 0, offset => if offset < data.length then .error .diverges else .ok []
  | fuel + 1, offset =>
    if offset < data.length then do
      let (v, offset) ← mpiToInt data offset
      let r ← mpiLoop data fuel offset
      return v :: r
    else .ok []

/-- utils.py:846-887 `get_signature_values(signature_packet_data)`. A version that is neither 2, 3 nor at least 4
leaves `offset = 1`. -/
def getSignatureValues (data : Bytes) : Py (List Nat) := do
  let v ← idx data 0
  let offset := 1
  if v.toNat = 2 ∨ v.toNat = 3 then
    mpiLoop data data.length (offset + 1 + 1 + 4 + 8 + 1 + 1 + 2)
  else if v.toNat ≥ 4 then do
    let offset := offset + 1 + 1 + 1
    let length ← shortToInt data offset
    let offset := offset + 2 + length
    let length ← shortToInt data offset
    let offset := offset + 2 + length
    mpiLoop data data.length (offset + 2)
  else mpiLoop data data.length offset

/-- Reading a fixed number of consecutive MPIs (the pattern of packets.py:704-731, 352-381, ...). -/
def readMpis (data : Bytes) : (n : Nat) → (offset : Nat) → Py (List Nat × Nat)
  | 0, offset => .ok ([], offset)
  | n + 1, offset => do
    let (v, offset) ← mpiToInt data offset
    let (r, offset) ← readMpis data n offset
    return (v :: r, offset)

/-- Writing consecutive MPIs (`for i in ...: data.extend(int_to_mpi(i))`). -/
def writeMpis (fl : FloorLog2) : List Nat → Py Bytes
  | [] => .ok []
  | i :: l => do
    let a ← intToMpi fl i
    let b ← writeMpis fl l
    return a ++ b

end Pgp
