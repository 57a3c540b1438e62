import Verif.Model.Utils
/-
Model of packet framing: /repo/pgp/packets/packets.py (Packet.__bytes__, packet_from_packet_data,
packet_from_packet_stream) and /repo/pgp/packets/parsers.py.
-/
namespace Pgp

/-- constants.py:37-38 `NEW_PACKET_HEADER_TYPE = 1`, `OLD_PACKET_HEADER_TYPE = 2`. -/
inductive HeaderFormat where
  | new | old
  deriving DecidableEq, Repr, Inhabited

/-- packets.py:87-119: header format, type and content of a packet (the attributes every packet class has). -/
structure RawPacket where
  fmt : HeaderFormat
  type : Nat
  content : Bytes
  deriving DecidableEq, Repr, Inhabited

/-- constants.py:29-34 `DATA_TYPES`. -/
def DATA_TYPES : List Nat := [8, 9, 11, 18]

/-- The loop of packets.py:131-142 (`while remaining:`). Note that the code passes `data_length`, not `remaining`,
to the length writer on every iteration.  `fuel` bounds the number of iterations. -/
def serializeLoop (data : Bytes) (allowPartial : Bool) :
    (fuel : Nat) → (remaining offset : Nat) → (result : Bytes) → Py Bytes
  | 0, remaining, _, result => if remaining = 0 then .ok result else .error .diverges
  | fuel + 1, remaining, offset, result =>
    if remaining = 0 then .ok result
    else do
      let (lengthBytes, remaining) ← newPacketLengthToBytes data.length allowPartial
      let result := result ++ lengthBytes
      let result := result ++ slice data offset (data.length - remaining)
      serializeLoop data allowPartial fuel remaining (data.length - remaining) result

/-- packets.py:121-153 `Packet.__bytes__`. -/
def Packet.toBytes (fuel : Nat) (p : RawPacket) : Py Bytes :=
  let data := p.content
  match p.fmt with
  | .new => do
    let tag ← byteOf (0x80 + (0x40 + p.type))
    serializeLoop data (p.type ∈ DATA_TYPES) fuel data.length 0 [tag]
  | .old => do
    let (lengthType, lengthBytes) := oldPacketLengthToBytes data.length
    let tag ← byteOf (0x80 + (p.type <<< 2) + lengthType)
    let lb ← extendInts lengthBytes
    return [tag] ++ lb ++ data

/-- packets.py:1672-1682: reading the tag octet. Returns tag, header format and the new offset (the old-format
length reader re-reads the tag octet, so the offset stays). The top bit is not checked. -/
def readTag (data : Bytes) (offset : Nat) : Py (Nat × HeaderFormat × Nat) := do
  let b ← idx data offset
  let tag := b.toNat &&& 0x3f
  if b.toNat &&& 0x40 ≠ 0 then return (tag, .new, offset + 1)
  else return (tag >>> 2, .old, offset)

/-- packets.py:1671 `if not tag:`: the tag is read on the first iteration, and again while it is 0 (falsy). -/
def tagStep (data : Bytes) (st : Option (Nat × HeaderFormat)) (offset : Nat) : Py (Nat × HeaderFormat × Nat) :=
  match st with
  | some (t, f) => if t ≠ 0 then .ok (t, f, offset) else readTag data offset
  | none => readTag data offset

/-- The loop of packets.py:1670-1691. `st` is the pair (tag, header_type) once it has been read; a tag of 0 is falsy,
so it is read again on the next iteration. -/
def frameLoop (data : Bytes) :
    (fuel : Nat) → (st : Option (Nat × HeaderFormat)) → (offset : Nat) → (packetData : Bytes) → Py (Nat × RawPacket)
  | 0, _, _, _ => .error .diverges
  | fuel + 1, st, offset, packetData => do
    let (tag, fmt, offset) ← tagStep data st offset
    match fmt with
    | .new => do
      let (offset, dataLength, incomplete) ← newPacketLength data offset
      let packetData := packetData ++ slice data offset (offset + dataLength)
      let offset := offset + dataLength
      if incomplete then frameLoop data fuel (some (tag, fmt)) offset packetData
      else .ok (offset, ⟨fmt, tag, packetData⟩)
    | .old => do
      let (offset, dataLength) ← oldPacketLength data offset
      let packetData := packetData ++ slice data offset (offset + dataLength)
      let offset := offset + dataLength
      .ok (offset, ⟨fmt, tag, packetData⟩)

/-- packets.py:1661-1696 `packet_from_packet_data(data, offset)`, up to the choice of the packet class: the frame
(header format, type, content) handed to `cls.from_packet_content`, and the new offset. Each iteration consumes at
least one octet, so `data.length + 1` iterations suffice (theorem `C11_parser_terminates`). -/
def packetFromData (data : Bytes) (offset : Nat) : Py (Nat × RawPacket) :=
  frameLoop data (data.length + 1) none offset []

/-- The loop of parsers.py:35-39 `parse_binary_packet_data`, as consumed by `list(...)`. -/
def parseLoop (data : Bytes) : (fuel : Nat) → (offset : Nat) → Py (List RawPacket)
  | 0, offset => if offset < data.length then .error .diverges else .ok []
  | fuel + 1, offset =>
    if offset < data.length then do
      let (offset, p) ← packetFromData data offset
      let r ← parseLoop data fuel offset
      return p :: r
    else .ok []

/-- parsers.py:35-39. -/
def parseBinaryPacketData (data : Bytes) : Py (List RawPacket) := parseLoop data data.length 0

/-- The loop of packets.py:1628-1653 `packet_from_packet_stream(fh)`; `fh` is the unread part of the file.
`previous_header_type` is never assigned in the code, so its check never fires and is omitted.
`previousTag` is the 6-bit tag before the shift of line 1649. -/
def streamLoop : (fuel : Nat) → (fh : Bytes) → (previousTag : Option Nat) → (packetData : Bytes) →
    Py (RawPacket × Bytes)
  | 0, _, _, _ => .error .diverges
  | fuel + 1, fh, previousTag, packetData => do
    let (first, fh1) ← readOrd fh
    let tag := first.toNat &&& 0x3f
    let bad := (match previousTag with
      | some t => decide (tag ≠ t)
      | none => false)
    if bad then .error .valueError
    else if first.toNat &&& 0x40 ≠ 0 then do
      let (dataLength, incomplete, fh2) ← newPacketLengthFromStream fh1
      let packetData := packetData ++ fh2.take dataLength
      let fh3 := fh2.drop dataLength
      if incomplete then streamLoop fuel fh3 (some tag) packetData
      else .ok (⟨.new, tag, packetData⟩, fh3)
    else do
      -- `fh.seek(fh.tell() - 1)`: the length reader reads the tag octet again
      let (dataLength, fh2) ← oldPacketLengthFromStream (first :: fh1)
      .ok (⟨.old, tag >>> 2, packetData ++ fh2.take dataLength⟩, fh2.drop dataLength)

/-- packets.py:1617-1658, up to the choice of the packet class; returns the frame and the rest of the file. -/
def packetFromStream (fh : Bytes) : Py (RawPacket × Bytes) := streamLoop (fh.length + 1) fh none []

/-- The loop of parsers.py:23-32 `parse_binary_packet_stream`, as consumed by `list(...)`. -/
def parseStreamLoop : (fuel : Nat) → (fh : Bytes) → Py (List RawPacket)
  | 0, fh => if fh = [] then .ok [] else .error .diverges
  | fuel + 1, fh =>
    if fh = [] then .ok []
    else do
      let (p, fh) ← packetFromStream fh
      let r ← parseStreamLoop fuel fh
      return p :: r

/-- parsers.py:23-32. -/
def parseBinaryPacketStream (fh : Bytes) : Py (List RawPacket) := parseStreamLoop fh.length fh

end Pgp
