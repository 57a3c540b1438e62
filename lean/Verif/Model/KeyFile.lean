import Verif.Model.Keys
import Verif.Model.SecretKey
import Verif.Model.Shortcuts
/-
Model of reading a key from octets and writing it back (pgp/shortcuts.py:41-87): framing (Model/Framing), the packet classes
(Model/PublicKey, Model/SigPackets, Model/DataPackets) and the key objects (Model/Keys) put together.
-/
namespace Pgp

theorem otherType_ok {t : Nat} (h : ¬ (t = 6 ∨ t = 14)) (h' : ¬ (t = 5 ∨ t = 7)) (h2 : t ≠ 2) (h13 : t ≠ 13) (h17 : t ≠ 17)
    (h12 : t ≠ 12) : t ∉ [2, 5, 6, 7, 12, 13, 14, 17] := by
  simp only [List.mem_cons, List.not_mem_nil, or_false]; omega

/-- `PACKET_TYPES.get(tag, Packet).from_packet_content(…)` (packets.py:1585-1614, 1693-1695) for the packets keys are made of. Simplified:
the content of packets that cannot occur in a
key is not looked at. -/
def readBody (p : RawPacket) : Py KBody :=
  if h1 : p.type = 6 ∨ p.type = 14 then do
    let (_, k) ← parsePubKey p.content
    return .key false (p.type = 14) k none
  else if h2 : p.type = 5 ∨ p.type = 7 then do
    let k ← parseSecKey p.content
    return .key true (p.type = 7) k.pub (some ⟨k.s2k, k.sym, k.iv, k.enc, k.checksum, k.hash⟩)
  else if h3 : p.type = 2 then do
    let s ← parseSig p.content
    return .sig s
  else if h4 : p.type = 13 then return .uid (userIdParse p.content)
  else if h5 : p.type = 17 then do
    let as ← attrsParse p.content
    return .attr as
  else if h6 : p.type = 12 then do
    let t ← Trust.parse p.content
    return .trust t
  else return .other ⟨p.type, otherType_ok h1 h2 h3 h4 h5 h6⟩

/-- A packet with its header format. -/
def readPacket (p : RawPacket) : Py KPacket := do
  let b ← readBody p
  return ⟨p.fmt, b⟩

/-- `packet.content` (packets.py:774-804, 1061-1101, 440-490, 1391-1394, 1465-1471, 1345-1357). -/
def KBody.content (fl : FloorLog2) : KBody → Py Bytes
  | .key _ _ k none => k.publicContent fl
  | .key _ sub k (some p) => SecKey.content fl (resealedParsed sub) ⟨k, p.s2k, p.sym, p.iv, p.enc, p.checksum, p.hash⟩
  | .sig s => Sig.content fl s
  | .uid s => .ok (userIdContent s)
  | .attr as => attrsContent as
  | .trust t => t.content
  | .other _ => .error .notImplemented

/-- A packet as framed; `hf` is the `header_format` argument of `to_packet`, which wins over the element's own format
(transferrable_keys.py:244-249, 683-686, 801-808, signature.py:159-161). -/
def KPacket.raw (fl : FloorLog2) (hf : Option HeaderFormat) (p : KPacket) : Py RawPacket := do
  let c ← p.body.content fl
  return ⟨hf.getD p.fmt, p.body.type, c⟩

/-- `read_key(data)` for octets that are not armor (shortcuts.py:41-59). Simplified: all frames are read before the first content. -/
def readKey (magic : Bytes → Str) (data : Bytes) : Py TKey := do
  let rs ← parseBinaryPacketData data
  let ps ← rs.mapM readPacket
  let c ← classOf rs
  TKey.fromPackets magic c.isSecretInstance ps

/-- `b''.join(map(bytes, key.to_packets(hf)))` (shortcuts.py:75). -/
def TKey.octets (fl : FloorLog2) (hf : Option HeaderFormat) (k : TKey) : Py Bytes := do
  let ps ← k.toPackets
  let rs ← ps.mapM (KPacket.raw fl hf)
  joinPackets rs

/-- `serialize_key(key, armored=False, header_format)` (shortcuts.py:72-87): the old format unless asked otherwise. -/
def serializeKey (fl : FloorLog2) (headerFormat : Option HeaderFormat) (k : TKey) : Py Bytes :=
  k.octets fl (some (headerFormat.getD .old))

/-- `BaseSecretKey.to_public_key` and `SecretSubkey.to_public_key` (transferrable_keys.py:461-470, 653-662) of one element: the public values and the header
format. (The RSA prime an unlocked key has in addition is in Model/SecretKey; it is not written.) -/
def KElem.toPublic (e : KElem) : KElem :=
  match e.item with
  | .key _ sub k _ => ⟨e.fmt, .key false sub k none⟩
  | _ => e

/-- `TransferableSecretKey.to_public_key` (transferrable_keys.py:1090-1095). The expiration times of the primary key (`expires 0`) and of each subkey are read
on the way, which may raise (Model/KeySigs); for version 4 keys the constructor's argument has no further effect. -/
def TKey.toPublic (expires : Nat → Py Unit) (k : TKey) : Py TKey := do
  expires 0
  let _ ← (List.range k.subs.length).mapM fun i => expires (i + 1)
  return ⟨(k.primary.1.toPublic, k.primary.2), k.uids, k.attrs, k.subs.map fun g => (g.1.toPublic, g.2)⟩

end Pgp
