import Verif.Model.Framing
import Verif.Model.Text
/-
Model of the data packets and small packets of /repo/pgp/packets/packets.py (compressed, literal, trust, user id, comment, user
attribute, encrypted data, MDC, GnuPG control), of /repo/pgp/packets/user_attribute_subpackets.py and of the compression wrappers of
/repo/pgp/utils.py:301-419.
-/
namespace Pgp

/-! ### Compression -/

/-- What zlib's objects do: `compressobj(level)`, `decompressobj()`, `compress`, `decompress`, `flush`. -/
structure Zlib where
  Comp : Type
  newComp : Option Nat → Py Comp
  compress : Comp → Bytes → Bytes × Comp
  compFlush : Comp → Bytes
  Decomp : Type
  newDecomp : Decomp
  decompress : Decomp → Bytes → Py (Bytes × Decomp)
  decompFlush : Decomp → Bytes

/-- utils.py:314-319, 360-365: `_obj` with `_compress`, `_result` (None once flushed), `level`. -/
inductive CompObj (Z : Zlib) where
  | none
  | comp (c : Z.Comp)
  | decomp (d : Z.Decomp)

structure CompState (Z : Zlib) where
  obj : CompObj Z
  result : Option Bytes
  level : Option Nat

def CompState.new (Z : Zlib) (level : Option Nat) : CompState Z := ⟨.none, some [], level⟩

/-- utils.py:321-332 `ZlibCompression.compress`: data is only fed when the object is created. -/
def zlibCompress {Z : Zlib} (s : CompState Z) (data : Bytes) : Py (Bytes × CompState Z) :=
  match s.result with
  | .none => .error .valueError
  | some r =>
    match s.obj with
    | .decomp _ => .error .valueError
    | .none => do
      let c ← Z.newComp s.level
      let (o, c) := Z.compress c data
      return ([], { s with obj := .comp c, result := some (r ++ o) })
    | .comp _ => .ok ([], s)

/-- utils.py:334-344 `ZlibCompression.decompress`. -/
def zlibDecompress {Z : Zlib} (s : CompState Z) (data : Bytes) : Py (Bytes × CompState Z) :=
  match s.result with
  | .none => .error .valueError
  | some r =>
    match s.obj with
    | .comp _ => .error .valueError
    | .none => do
      let (o, d) ← Z.decompress Z.newDecomp data
      return ([], { s with obj := .decomp d, result := some (r ++ o) })
    | .decomp d => do
      let (o, d) ← Z.decompress d data
      return ([], { s with obj := .decomp d, result := some (r ++ o) })

/-- utils.py:346-351 `ZlibCompression.flush` (`None.flush` is AttributeError). -/
def zlibFlush {Z : Zlib} (s : CompState Z) : Py (Bytes × CompState Z) :=
  match s.result with
  | .none => .error .valueError
  | some r =>
    match s.obj with
    | .none => .error .attributeError
    | .comp c => .ok (r ++ Z.compFlush c, { s with result := .none })
    | .decomp d => .ok (r ++ Z.decompFlush d, { s with result := .none })

/-- utils.py:367-377 `DeflateCompression.compress`. -/
def deflateCompress {Z : Zlib} (s : CompState Z) (data : Bytes) : Py (Bytes × CompState Z) :=
  match s.result with
  | .none => .error .valueError
  | some r =>
    match s.obj with
    | .decomp _ => .error .valueError
    | .none => do
      let c ← Z.newComp s.level
      let (o, c) := Z.compress c data
      return ([], { s with obj := .comp c, result := some (r ++ o) })
    | .comp c =>
      let (o, c) := Z.compress c data
      .ok ([], { s with obj := .comp c, result := some (r ++ o) })

/-- utils.py:379-391 `DeflateCompression.decompress`: a zlib header is fed first. -/
def deflateDecompress {Z : Zlib} (s : CompState Z) (data : Bytes) : Py (Bytes × CompState Z) :=
  match s.result with
  | .none => .error .valueError
  | some r =>
    match s.obj with
    | .comp _ => .error .valueError
    | .none => do
      let (_, d) ← Z.decompress Z.newDecomp [0x78, 0x9c]
      let (o, d) ← Z.decompress d data
      return ([], { s with obj := .decomp d, result := some (r ++ o) })
    | .decomp d => do
      let (o, d) ← Z.decompress d data
      return ([], { s with obj := .decomp d, result := some (r ++ o) })

/-- `x[2:-4]`. -/
def stripZlib (x : Bytes) : Bytes := slice x 2 (x.length - 4)

/-- utils.py:393-402 `DeflateCompression.flush`. -/
def deflateFlush {Z : Zlib} (s : CompState Z) : Py (Bytes × CompState Z) :=
  match s.result with
  | .none => .error .valueError
  | some r =>
    match s.obj with
    | .none => .error .attributeError
    | .comp c => .ok (stripZlib (r ++ Z.compFlush c), { s with result := .none })
    | .decomp d => .ok (r ++ Z.decompFlush d, { s with result := .none })

/-- The bzip2 compressor object (bz2.BZ2Compressor): it has `compress` and `flush` but no `decompress`. -/
structure Bz2 where
  Comp : Type
  newComp : Option Nat → Py Comp
  compress : Comp → Bytes → Bytes × Comp
  flush : Comp → Bytes

/-- What `get_compression_instance(type_, level)` (utils.py:405-419) returns. -/
inductive CompInstance (Z : Zlib) (B : Bz2) where
  | noop
  | deflate (s : CompState Z)
  | zlib (s : CompState Z)
  | bz2 (c : B.Comp)
  | none

/-- utils.py:405-419. -/
def getCompression (Z : Zlib) (B : Bz2) (type : Nat) (level : Option Nat) : Py (CompInstance Z B) :=
  if type = 0 then .ok .noop
  else if type = 1 then .ok (.deflate (CompState.new Z level))
  else if type = 2 then .ok (.zlib (CompState.new Z level))
  else if type = 3 then do
    let c ← B.newComp level
    return .bz2 c
  else .ok .none

/-- `.compress(data)` on the instance. -/
def CompInstance.compress {Z : Zlib} {B : Bz2} : CompInstance Z B → Bytes → Py (Bytes × CompInstance Z B)
  | .noop, d => .ok (d, .noop)
  | .deflate s, d => do
    let (o, s) ← deflateCompress s d
    return (o, .deflate s)
  | .zlib s, d => do
    let (o, s) ← zlibCompress s d
    return (o, .zlib s)
  | .bz2 c, d => let (o, c) := B.compress c d; .ok (o, .bz2 c)
  | .none, _ => .error .attributeError

/-- `.decompress(data)`. -/
def CompInstance.decompress {Z : Zlib} {B : Bz2} : CompInstance Z B → Bytes → Py (Bytes × CompInstance Z B)
  | .noop, d => .ok (d, .noop)
  | .deflate s, d => do
    let (o, s) ← deflateDecompress s d
    return (o, .deflate s)
  | .zlib s, d => do
    let (o, s) ← zlibDecompress s d
    return (o, .zlib s)
  | .bz2 _, _ => .error .attributeError
  | .none, _ => .error .attributeError

/-- `.flush()`. -/
def CompInstance.flush {Z : Zlib} {B : Bz2} : CompInstance Z B → Py (Bytes × CompInstance Z B)
  | .noop => .ok ([], .noop)
  | .deflate s => do
    let (o, s) ← deflateFlush s
    return (o, .deflate s)
  | .zlib s => do
    let (o, s) ← zlibFlush s
    return (o, .zlib s)
  | .bz2 c => .ok (B.flush c, .bz2 c)
  | .none => .error .attributeError

/-- packets.py:1154-1160 `CompressedDataPacket.compress_packets`. -/
def compressPackets (Z : Zlib) (B : Bz2) (algorithm : Nat) (level : Option Nat) (packets : List RawPacket) : Py Bytes := do
  let algo ← getCompression Z B algorithm level
  let es ← packets.mapM (Packet.toBytes 1)
  let (data, algo) ← algo.compress es.flatten
  let (more, _) ← algo.flush
  return data ++ more

/-- packets.py:1162-1173 `CompressedDataPacket.decompress_data`; the loop is that of `parse_binary_packet_data`. -/
def decompressData (Z : Zlib) (B : Bz2) (algorithm : Nat) (data : Bytes) : Py (List RawPacket) := do
  let algo ← getCompression Z B algorithm .none
  let (out, algo) ← algo.decompress data
  let (more, _) ← algo.flush
  parseBinaryPacketData (out ++ more)

/-- packets.py:1139-1152, 1182-1185: algorithm octet and compressed data. -/
structure Compressed where
  algorithm : Nat
  data : Bytes
  deriving DecidableEq

def Compressed.content (c : Compressed) : Py Bytes := do
  let a ← byteOf c.algorithm
  return a :: c.data

def Compressed.parse (data : Bytes) : Py Compressed := do
  let a ← idx data 0
  return ⟨a.toNat, data.drop 1⟩

/-! ### Literal data -/

/-- `self.time`: a datetime (as its DST-free local timestamp) when built by the user, an int when parsed. -/
inductive LitTime where
  | datetime (timestamp : Nat)
  | int (n : Nat)
  deriving DecidableEq

/-- `self.data`: bytes or str. -/
inductive LitData where
  | octets (b : Bytes)
  | text (s : List Char)
  deriving DecidableEq

structure Literal where
  dataFormat : UInt8
  filename : List Char
  time : LitTime
  data : LitData
  deriving DecidableEq

/-- `s.encode('latin-1', 'replace')`. -/
def latin1Encode (s : List Char) : Bytes := s.map fun c => if c.toNat < 256 then UInt8.ofNat c.toNat else 0x3f

/-- `b.decode('latin-1')`. -/
def latin1Decode (b : Bytes) : List Char := b.map fun x => Char.ofNat x.toNat

/-- packets.py:1299 `time.mktime(self.time.timetuple())`: an int has no `timetuple`. -/
def LitTime.timestamp : LitTime → Py Nat
  | .datetime t => .ok t
  | .int _ => .error .attributeError

/-- packets.py:1301-1310: the octets of the data; the results of the `replace` calls are discarded, so line endings are not changed
(but `bytes` do not accept `str` arguments). -/
def LitData.encode (format : UInt8) : LitData → Py Bytes
  | .octets b => if format = 0x74 ∨ format = 0x75 then .error .typeError else .ok b
  | .text s =>
    if format = 0x74 then .ok (latin1Encode s)
    else if format = 0x75 then .ok (utf8Encode s)
    else .error .typeError

/-- packets.py:1288-1311 `LiteralDataPacket.content`. -/
def Literal.content (l : Literal) : Py Bytes :=
  if ¬ (l.dataFormat ∈ ([0x6c, 0x31, 0x62, 0x74, 0x75] : Bytes)) then .error .valueError
  else do
    let n ← byteOf l.filename.length
    let ts ← l.time.timestamp
    let body ← l.data.encode l.dataFormat
    return l.dataFormat :: n :: (utf8Encode l.filename ++ intTo4byte ts ++ body)

/-- packets.py:1253-1267: decoding the data (the result of `replace` is discarded). -/
def litDecode (format : UInt8) (content : Bytes) : Py LitData :=
  if format = 0x74 then .ok (.text (latin1Decode content))
  else if format = 0x75 then do
    let s ← utf8DecodeStrict content
    return .text s
  else .ok (.octets content)

/-- packets.py:1237-1272 `LiteralDataPacket.from_packet_content`. -/
def Literal.parse (data : Bytes) : Py Literal := do
  let f ← idx data 0
  let n ← idx data 1
  let filename := utf8DecodeReplace (slice data 2 (2 + n.toNat))
  let offset := 2 + n.toNat
  let t ← longToInt data offset
  let content := data.drop (offset + 4)
  let body ← litDecode f content
  return ⟨f, filename, .int t, body⟩

/-! ### Small packets -/

/-- packets.py:1314-1357. -/
structure Trust where
  value : Nat
  sigCache : Option Nat
  deriving DecidableEq

def Trust.parse (data : Bytes) : Py Trust := do
  let v ← idx data 0
  if v.toNat = 0 ∧ data.length = 2 then do
    let c ← idx data 1
    if c.toNat &&& 0x80 ≠ 0 then .error .valueError
    else return ⟨v.toNat, some c.toNat⟩
  else return ⟨v.toNat, none⟩

def Trust.content (t : Trust) : Py Bytes := do
  let v ← byteOf t.value
  match t.sigCache with
  | none => return [v]
  | some c => do
    let c ← byteOf c
    return [v, c]

/-- packets.py:1360-1394 `UserIDPacket`: the content is decoded with 'replace'. -/
def userIdParse (data : Bytes) : List Char := utf8DecodeReplace data
def userIdContent (s : List Char) : Bytes := utf8Encode s

/-- packets.py:1397-1426, 1529-1538: comments, decoded strictly. -/
def commentParse (data : Bytes) : Py (List Char) := utf8DecodeStrict data
def commentContent (s : List Char) : Bytes := utf8Encode s

/-- packets.py:1474-1501. -/
structure Seipd where
  version : Nat
  data : Bytes
  deriving DecidableEq

def Seipd.content (c : Seipd) : Py Bytes := do
  let a ← byteOf c.version
  return a :: c.data

def Seipd.parse (data : Bytes) : Py Seipd := do
  let a ← idx data 0
  return ⟨a.toNat, data.drop 1⟩

/-- packets.py:1504-1526. -/
def mdcParse (data : Bytes) : Py Bytes := if data.length = 20 then .ok data else .error .assertionError
def mdcContent (data : Bytes) : Bytes := data

/-- packets.py:1541-1581. -/
structure GpgControl where
  marker : Bytes
  control : Nat
  data : Bytes
  deriving DecidableEq

def GpgControl.parse (data : Bytes) : Py GpgControl := do
  let c ← idx data 8
  return ⟨data.take 8, c.toNat, data.drop 9⟩

def GpgControl.content (g : GpgControl) : Py Bytes := do
  let c ← byteOf g.control
  return g.marker ++ [c] ++ g.data

/-! ### User attributes -/

/-- user_attribute_subpackets.py: an image, or any other subpacket (only its type is kept). -/
inductive AttrSub where
  | other (type : Nat)
  | image (headerVersion headerLength : Nat) (imageFormat : Option Nat) (data : Bytes)
  deriving DecidableEq

/-- user_attribute_subpackets.py:50-79 `ImageAttributeSubpacket.from_subpacket_content` (`parse_unknown` is False). -/
def imageParse (d : Bytes) : Py AttrSub := do
  let a ← idx d 0
  let b ← idx d 1
  let headerLength := a.toNat + (b.toNat <<< 8)
  let v ← idx d 2
  if v.toNat = 1 then
    if headerLength ≠ 16 then .error .valueError
    else do
      let f ← idx d 3
      if (slice d 4 16).any (fun x => x != 0) then .error .valueError
      else return .image v.toNat headerLength (some f.toNat) (d.drop headerLength)
  else .error .valueError

/-- user_attribute_subpackets.py:36-37, 99-112 `content`. -/
def AttrSub.content : AttrSub → Py Bytes
  | .other _ => .ok []
  | .image v hl f d => do
    let v ← byteOf v
    match f with
    | some f => do
      let f ← byteOf f
      return [lowByte hl, lowByte (hl >>> 8), v] ++ [f] ++ List.replicate (hl - 4) 0 ++ d
    | none => return [lowByte hl, lowByte (hl >>> 8), v] ++ List.replicate (hl - 3) 0 ++ d

def AttrSub.type : AttrSub → Nat
  | .other t => t
  | .image .. => 1

/-- user_attribute_subpackets.py:40-48 `__bytes__`. -/
def AttrSub.toBytes (a : AttrSub) : Py Bytes := do
  let data ← a.content
  let (lb, _) ← newPacketLengthToBytes (data.length + 1) false
  let t ← byteOf a.type
  return lb ++ [t] ++ data

/-- user_attribute_subpackets.py:120-136 `user_attribute_subpacket_from_data`: the subpacket and the new offset. With a length of 0
`sub_data_end` is the position of the type octet. -/
def attrFromData (data : Bytes) (offset : Nat) : Py (AttrSub × Nat) := do
  let (offset, len, part) ← newPacketLength data offset
  if part then .error .valueError
  else do
    let t ← idx data offset
    let stop := offset + 1 + len - 1
    let d := slice data (offset + 1) stop
    if t.toNat = 1 then do
      let a ← imageParse d
      return (a, stop)
    else return (.other t.toNat, stop)

/-- The loop of packets.py:1431-1443. -/
def attrsLoop (data : Bytes) : (fuel offset : Nat) → Py (List AttrSub)
  | 0, offset => if offset < data.length then .error .diverges else .ok []
  | fuel + 1, offset =>
    if offset < data.length then do
      let (a, offset) ← attrFromData data offset
      let r ← attrsLoop data fuel offset
      return a :: r
    else .ok []

/-- packets.py:1431-1447 `UserAttributePacket.from_packet_content`. -/
def attrsParse (data : Bytes) : Py (List AttrSub) := attrsLoop data data.length 0

/-- packets.py:1456-1461 `UserAttributePacket.content`. -/
def attrsContent (as : List AttrSub) : Py Bytes := do
  let es ← as.mapM AttrSub.toBytes
  return es.flatten

end Pgp
