import Verif.Model.Armor
import Verif.Model.Keyring
import Verif.Model.Framing
/-
Model of reading and writing keys as files or text (pgp/shortcuts.py) and of submitting a key to a keyserver (pgp/keyserver/hkp.py).
A key is given by its class and the packets `key.to_packets(header_format)` returns.
-/
namespace Pgp

/-- `b''.join(map(bytes, packets))` (shortcuts.py:75). -/
def joinPackets (ps : List RawPacket) : Py Bytes := do
  let es ← ps.mapM (Packet.toBytes 1)
  return es.flatten

/-- The type of armor chosen by `serialize_key` (shortcuts.py:77-80). -/
def armorTypeOf (c : KeyClass) : Py ArmorType :=
  if c.isPublicInstance then .ok .publicKey else if c.isSecretInstance then .ok .privateKey else .error .unboundLocal

/-- The version header of `serialize_key` (shortcuts.py:82-84, pgp/__init__.py). -/
def keyVersion : Str := "Python PGP 0.0.1".toList

/-- `serialize_key(key, armored=True)` (shortcuts.py:72-86). -/
def serializeKeyText (c : KeyClass) (ps : List RawPacket) : Py Str := do
  let data ← joinPackets ps
  let ty ← armorTypeOf c
  ({ dataType := ty, data := data, version := some keyVersion } : Armor).toStr

/-- `serialize_key(key, armored=False)` (shortcuts.py:72-86). -/
def serializeKeyBytes (ps : List RawPacket) : Py Bytes := joinPackets ps

/-- The class `read_key` chooses from the first packet (shortcuts.py:54-59). -/
def classOf (ps : List RawPacket) : Py KeyClass :=
  match ps with
  | [] => .error .indexError
  | p :: _ => if p.type = 6 then .ok .publicKey else if p.type = 5 then .ok .secretKey else .error .valueError

/-- `read_key(text, armored=True)` (shortcuts.py:41-59) up to the class and the packets. Simplified: the packets stay raw. -/
def readKeyText (text : Str) : Py (KeyClass × List RawPacket) := do
  let a ← fromAscii text
  let ps ← parseBinaryPacketData a.data
  let c ← classOf ps
  return (c, ps)

/-- `read_key(data)` for octets that are not armor (shortcuts.py:41-59). -/
def readKeyBytes (data : Bytes) : Py (KeyClass × List RawPacket) := do
  let ps ← parseBinaryPacketData data
  let c ← classOf ps
  return (c, ps)

/-- The `keytext` that `HKPKeyserverClient.submit` posts (hkp.py:177-182). -/
def submitText (ps : List RawPacket) : Py Str := do
  let data ← joinPackets ps
  ({ dataType := .publicKey, data := data } : Armor).toStr

end Pgp
