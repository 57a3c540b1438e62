import Verif.Model.SigPackets
import Verif.Model.SessionKey
import Verif.Model.EncData
import Verif.Model.DataPackets
import Verif.Model.Shortcuts
import Verif.Model.Hashing
/-
Model of messages (pgp/message.py): recognising a message in a packet sequence, opening it, and turning it back into packets.
Time zones without daylight saving are assumed, so that `fromtimestamp` and `mktime` are inverse: a datetime is its timestamp.
-/
namespace Pgp

/-- The packets messages are made of, by class; any other packet class is `other` with its type. -/
inductive MBody where
  | pkesk (p : PkEsk)
  | skesk (p : SkEsk)
  | sed (data : Bytes)
  | seipd (p : Seipd)
  | onePass (p : OnePass)
  | sig (s : Sig)
  | compressed (c : Compressed)
  | literal (l : Literal)
  | other (type : { t : Nat // t ∉ [1, 2, 3, 4, 8, 9, 11, 18] })

/-- A packet with its header format. -/
structure MPacket where
  fmt : HeaderFormat
  body : MBody

/-- `packet.type` (packets/constants.py:2-18). -/
def MBody.type : MBody → Nat
  | .pkesk _ => 1
  | .sig _ => 2
  | .skesk _ => 3
  | .onePass _ => 4
  | .compressed _ => 8
  | .sed _ => 9
  | .literal _ => 11
  | .seipd _ => 18
  | .other t => t.1

/-- The session key objects (message.py:238-384). -/
inductive SessKey where
  | pub (fmt : HeaderFormat) (p : PkEsk)
  | sym (alg : Nat) (s2k : S2K) (esk : Option Bytes)
  | default
  deriving DecidableEq

/-- The message objects (message.py:137-728). -/
inductive Msg where
  /-- TextMessage or BinaryMessage. -/
  | literal (text : Bool) (data : LitData) (filename : Str) (timestamp : Nat)
  | compressed (algorithm : Nat) (data : Bytes)
  /-- EncryptedMessageWrapper with its SymmetricallyEncryptedMessageData; `data` is None when nothing was encrypted. -/
  | encrypted (keys : List SessKey) (integrity : Bool) (version : Option Nat) (data : Option Bytes)
  | signed (sigs : List (HeaderFormat × Sig)) (message : Option Msg) (onePass : Bool)

/-! ### From packets -/

/-- `LiteralMessage.from_packet` (message.py:141-151): `fromtimestamp` of a datetime (a packet that was not parsed) is TypeError. -/
def literalMessage (l : Literal) : Py Msg :=
  match l.time with
  | .int t => .ok (.literal (l.dataFormat = 0x75 ∨ l.dataFormat = 0x74) l.data l.filename t)
  | .datetime _ => .error .typeError

/-- `parse_encrypted_message_packet` (message.py:391-405, 548-549): session key packets have no `encrypted_data`, and neither have
packets of type 9 (packets.py:1188-1209: the attribute is called `data`). -/
def encryptedMessage (keys : List SessKey) : MBody → Py Msg
  | .sed _ => .error .attributeError
  | .seipd p => .ok (.encrypted keys true (some p.version) (some p.data))
  | .pkesk _ => .error .attributeError
  | .skesk _ => .error .attributeError
  | _ => .error .typeError

/-- The session key object of a packet (message.py:244-247, 310-319, 552-557), if it is a session key packet. -/
def sessKeyOf : MPacket → Option SessKey
  | ⟨f, .pkesk p⟩ => some (.pub f p)
  | ⟨_, .skesk p⟩ => some (.sym p.sym p.s2k p.esk)
  | _ => none

/-- The loop of `EncryptedMessageWrapper.from_packets` (message.py:569-582), from the current packet on. Packets after the data packet
are not looked at. -/
def encryptedLoop (keys : List SessKey) (packet : MPacket) : List MPacket → Py Msg
  | [] =>
    match sessKeyOf packet with
    | some k => encryptedMessage (keys ++ [k]) packet.body
    | none => encryptedMessage keys packet.body
  | next :: rest =>
    match sessKeyOf packet with
    | some k => encryptedLoop (keys ++ [k]) next rest
    | none => encryptedMessage keys packet.body

/-- `EncryptedMessageWrapper.from_packets` (message.py:562-582), for a first packet of an encrypted message type. `session_keys` is never
empty then. -/
def encryptedFromPackets (packet : MPacket) (rest : List MPacket) : Py Msg :=
  if packet.body.type = 9 ∨ packet.body.type = 18 then encryptedLoop [.default] packet rest else encryptedLoop [] packet rest

/-- `open_pgp_message_from_packets([packet])` (message.py:731-746) for a packet that is not a signature or one-pass signature packet. -/
def openSingle (p : MPacket) : Py Msg :=
  match p.body with
  | .pkesk _ => encryptedFromPackets p []
  | .skesk _ => encryptedFromPackets p []
  | .sed _ => encryptedFromPackets p []
  | .seipd _ => encryptedFromPackets p []
  | .compressed c => .ok (.compressed c.algorithm c.data)
  | .literal l => literalMessage l
  | _ => .error .unboundLocal

/-- `SignedMessageWrapper.from_packets` (message.py:639-659). -/
def signedLoop (onePass : Bool) (sigs : List (HeaderFormat × Sig)) (message : Option Msg) : List MPacket → Py Msg
  | [] => .ok (.signed sigs message onePass)
  | p :: ps =>
    match p.body, message with
    | .onePass _, _ => signedLoop true sigs message ps
    | .sig s, some _ => signedLoop onePass (sigs ++ [(p.fmt, s)]) message ps
    | .sig _, none => .error .typeError
    | _, none => do
      let m ← openSingle p
      signedLoop onePass sigs (some m) ps
    | _, some _ => .error .typeError

/-- `open_pgp_message_from_packets` (message.py:731-746): popping from an empty deque is IndexError; for other packet types `result` is
never assigned. -/
def openMessage : List MPacket → Py Msg
  | [] => .error .indexError
  | p :: ps =>
    match p.body with
    | .pkesk _ => encryptedFromPackets p ps
    | .skesk _ => encryptedFromPackets p ps
    | .sed _ => encryptedFromPackets p ps
    | .seipd _ => encryptedFromPackets p ps
    | .onePass _ => signedLoop false [] none (p :: ps)
    | .sig _ => signedLoop false [] none (p :: ps)
    | .compressed c => .ok (.compressed c.algorithm c.data)
    | .literal l => literalMessage l
    | .other _ => .error .unboundLocal

/-! ### Opening an encrypted message -/

/-- What the user offers to open a message: a passphrase (its UTF-8 octets; `isStr`: given as text), or a secret key with the outcome of
decrypting a session key packet with it. -/
inductive Offer where
  | passphrase (isStr : Bool) (octets : Bytes)
  | secretKey (locked : Bool) (decrypt : PkEsk → Py (Nat × Bytes))

/-- `get_algorithm_and_session_key` (message.py:256-263, 345-353, 376-380). A passphrase has no `is_locked`; a key object has no length
(TypeError in `to_key`), and hashing it or a `str` is a TypeError. For a GnuPG specifier `to_key` returns None. -/
def sessionKeyFor (S : BlockCiphers) (H : Digest) : Offer → SessKey → Py (Nat × Option Bytes)
  | .passphrase _ _, .pub _ _ => .error .attributeError
  | .passphrase _ p, .sym alg s2k esk => skEskGetKey S H s2k alg p esk
  | .passphrase isStr p, .default => if isStr then .error .typeError else .ok (1, some (H 1 p))
  | .secretKey locked dec, .pub _ p => if locked then .error .runtimeError else do
    let (a, k) ← dec p
    return (a, some k)
  | .secretKey _ _, .sym _ _ _ => .error .typeError
  | .secretKey _ _, .default => .error .typeError

/-- The loop of `EncryptedMessageWrapper.get_message` (message.py:594-619): only ValueError, and only from a public key session key, is
skipped. `decrypt` is `message_data_obj.decrypt`. -/
def getMessageLoop {α : Type} (get : SessKey → Py (Nat × Option Bytes)) (decrypt : Nat → Option Bytes → Py α) : List SessKey → Py α
  | [] => .error .valueError
  | k :: ks =>
    match get k with
    | .ok (alg, key) => decrypt alg key
    | .error e =>
      match k with
      | .pub _ _ => if e = .valueError then getMessageLoop get decrypt ks else .error e
      | _ => .error e

/-! ### The octets of packets -/

/-- The content of a packet (packets.py, the `content` properties); the packets of other classes are not modelled and given by `o`. -/
def MBody.content (fl : FloorLog2) (o : Nat → Py Bytes) : MBody → Py Bytes
  | .pkesk p => p.content
  | .skesk p => p.content fl
  | .sed d => .ok d
  | .seipd p => p.content
  | .onePass p => p.content
  | .sig s => s.content fl
  | .compressed c => c.content
  | .literal l => l.content
  | .other t => o t.1

/-- The raw packet. -/
def MPacket.raw (fl : FloorLog2) (o : Nat → Py Bytes) (p : MPacket) : Py RawPacket := do
  let c ← p.body.content fl o
  return ⟨p.fmt, p.body.type, c⟩

/-- Parsing the content of a raw packet (packets.py:1584-1614, 1693-1700): the classes by type; `accept` is the parsing of the classes that
are not modelled here. -/
def parseMBody (accept : RawPacket → Py Unit) (p : RawPacket) : Py MBody :=
  if p.type = 1 then do let x ← parsePkEsk p.content; return .pkesk x
  else if p.type = 2 then do let x ← parseSig p.content; return .sig x
  else if p.type = 3 then do let x ← parseSkEsk p.content; return .skesk x
  else if p.type = 4 then do let x ← parseOnePass p.content; return .onePass x
  else if p.type = 8 then do let x ← Compressed.parse p.content; return .compressed x
  else if p.type = 9 then .ok (.sed p.content)
  else if p.type = 11 then do let x ← Literal.parse p.content; return .literal x
  else if p.type = 18 then do let x ← Seipd.parse p.content; return .seipd x
  else if h : p.type ∉ [1, 2, 3, 4, 8, 9, 11, 18] then do
    accept p
    return .other ⟨p.type, h⟩
  else .error .runtimeError

def parseMPacket (accept : RawPacket → Py Unit) (p : RawPacket) : Py MPacket := do
  let b ← parseMBody accept p
  return ⟨p.fmt, b⟩

/-- `read_message`-like: octets to packets (packets.py `parse_binary_packet_data`) to a message. The frames are all found before the
contents are parsed, which only affects which of two exceptions is raised. -/
def readMessage (accept : RawPacket → Py Unit) (data : Bytes) : Py Msg := do
  let rs ← parseBinaryPacketData data
  let ps ← rs.mapM (parseMPacket accept)
  openMessage ps

/-! ### To packets -/

/-- `session_key.to_packet()` (message.py:288-299, 321-331); DefaultSessionKey has none. -/
def SessKey.toPacket : SessKey → Py MPacket
  | .pub f p => .ok ⟨f, .pkesk p⟩
  | .sym alg s2k esk => .ok ⟨.new, .skesk ⟨4, alg, s2k, esk⟩⟩
  | .default => .error .attributeError

/-- `SymmetricallyEncryptedMessageData.to_packet` (message.py:527-542). Serialising a packet whose data is None raises TypeError; that
error is raised here already. -/
def encDataPacket (integrity : Bool) (version : Option Nat) (data : Option Bytes) : Py MPacket :=
  match data with
  | none => .error .typeError
  | some d =>
    if integrity then
      match version with
      | some v => .ok ⟨.new, .seipd ⟨v, d⟩⟩
      | none => .error .typeError
    else .ok ⟨.new, .sed d⟩

/-- `LiteralMessage.to_packet` (message.py:174-179, 194-199): format `u` for text and `b` otherwise, whatever was read. -/
def literalPacket (text : Bool) (data : LitData) (filename : Str) (ts : Nat) : MPacket :=
  ⟨.new, .literal ⟨if text then 0x75 else 0x62, filename, .datetime ts, data⟩⟩

/-- One one-pass signature packet (message.py:668-682): `issuer_key_ids[0]` (signature.py:325-333; `_issuer_key_ids` does not exist for
versions 2 and 3), `nested` is whether this is not the last signature. -/
def onePassPacket (last : Bool) : HeaderFormat × Sig → Py MPacket
  | (_, .v3 ..) => .error .attributeError
  | (f, .v4 _ t p h hs us _ _) =>
    match issuersOf (hs ++ us) with
    | [] => .error .indexError
    | id :: _ => .ok ⟨f, .onePass ⟨3, t, h, p, id, if last then 0 else 1⟩⟩

/-- The loop of message.py:668-682. -/
def onePassPackets : List (HeaderFormat × Sig) → Py (List MPacket)
  | [] => .ok []
  | s :: ss => do
    let p ← onePassPacket ss.isEmpty s
    let r ← onePassPackets ss
    return p :: r

/-- `BaseSignature.to_packet` (signature.py:159-180): the `creation_time` of versions 2 and 3 is TypeError (signature.py:301-306). -/
def sigPacket : HeaderFormat × Sig → Py MPacket
  | (_, .v3 ..) => .error .typeError
  | (f, s) => .ok ⟨f, .sig s⟩

/-- `to_packets()` (message.py:162, 618-625, 662-689, 727), called without a header format. -/
def Msg.toPackets : Msg → Py (List MPacket)
  | .literal text data name ts => .ok [literalPacket text data name ts]
  | .compressed alg data => .ok [⟨.new, .compressed ⟨alg, data⟩⟩]
  | .encrypted keys integrity version data => do
    let ks ← keys.mapM SessKey.toPacket
    let d ← encDataPacket integrity version data
    return ks ++ [d]
  | .signed sigs message onePass => do
    let os ← if onePass then onePassPackets sigs else .ok []
    match message with
    | none => .error .attributeError
    | some m => do
      let ms ← m.toPackets
      let ss ← sigs.mapM sigPacket
      return os ++ ms ++ ss

/-- `b''.join(map(bytes, message.to_packets()))` (message.py:88, 127). -/
def Msg.bytes (fl : FloorLog2) (o : Nat → Py Bytes) (m : Msg) : Py Bytes := do
  let ps ← m.toPackets
  let rs ← ps.mapM (MPacket.raw fl o)
  joinPackets rs

/-! ### Encrypting and opening -/

/-- `symmetric_encrypt` (message.py:96-133) with the specifier already made; `sk` is the session key given or drawn, `iv` what is drawn for
the data. -/
def symmetricEncrypt (S : BlockCiphers) (H : Digest) (fl : FloorLog2) (o : Nat → Py Bytes) (m : Msg) (alg : Nat) (pass : Bytes) (s2k : S2K)
    (sk iv : Bytes) (integrity : Bool) : Py Msg := do
  let esk ← setSessionKey S H s2k alg pass (some sk)
  let data ← m.bytes fl o
  let c ← newEncryptedData S H iv integrity alg sk data
  return .encrypted [.sym alg s2k esk] integrity (some 1) c

/-- `SymmetricallyEncryptedMessageData.decrypt` (message.py:453-521): the packets found are parsed and opened. `bytes(None)` and a key of
None are TypeError; `op` is the primitive's OpenPGP mode. -/
def decryptMessage (S : BlockCiphers) (H : Digest) (op : Nat → Bytes → Bytes → Bytes → Py Bytes) (accept : RawPacket → Py Unit)
    (integrity : Bool) (data : Option Bytes) (alg : Nat) (key : Option Bytes) : Py Msg :=
  match data, key with
  | some d, some k =>
    if integrity then do
      let rs ← decryptIntegrity S H (fun p => do let _ ← parseMBody accept p) alg k d
      let ps ← rs.mapM (parseMPacket accept)
      openMessage ps
    else decryptPlain S op (fun p => do let _ ← parseMBody accept p)
      (fun rs => do let ps ← rs.mapM (parseMPacket accept); openMessage ps) alg k d
  | _, _ => .error .typeError

/-- `get_message(key_or_passphrase)` of an encrypted message (message.py:587-616); other classes of messages have no such argument. -/
def Msg.getMessage (S : BlockCiphers) (H : Digest) (op : Nat → Bytes → Bytes → Bytes → Py Bytes) (accept : RawPacket → Py Unit)
    (offer : Offer) : Msg → Py Msg
  | .encrypted keys integrity _ data =>
    getMessageLoop (sessionKeyFor S H offer) (decryptMessage S H op accept integrity data) keys
  | _ => .error .typeError

end Pgp
