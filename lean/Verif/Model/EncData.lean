import Verif.Model.SymCipher
import Verif.Model.Framing
/-
Model of `SymmetricallyEncryptedMessageData` of /repo/pgp/message.py: encrypted data packets, with and without integrity protection.
-/
namespace Pgp

/-- `utils.symmetric_cipher_block_lengths[alg]` (KeyError for unknown codes). -/
def blockLengthOf (alg : Nat) : Py Nat :=
  match blockLengths alg with
  | some n => .ok n
  | none => .error .keyError

/-- The constant `b'\xd3\x14'` (message.py:446, 487): the header of an MDC packet. -/
def mdcHeader : Bytes := [0xd3, 0x14]

/-- message.py:417-451 `encrypt` with `integrity_protected`; `iv` is what the random source delivers (`block_len` octets). `H 2` is
SHA-1. -/
def encryptIntegrity (S : BlockCiphers) (H : Digest) (iv : Bytes) (alg : Nat) (key message : Bytes) : Py Bytes := do
  let bl ← blockLengthOf alg
  let o ← getCfb S alg key (List.replicate bl 0)
  let padding := bl - (message.length + 2 + 22) % bl
  let (c1, o) ← cfbEncrypt S alg key o iv
  let message := message ++ mdcHeader
  let mdc := H 2 (iv ++ lastN iv 2 ++ message)
  let message := message ++ mdc ++ List.replicate padding 0
  let (c2, _) ← cfbEncrypt S alg key o (lastN iv 2 ++ message)
  return c1 ++ dropLast c2 padding

/-- message.py:417-437 `encrypt` without integrity protection. -/
def encryptPlain (S : BlockCiphers) (iv : Bytes) (alg : Nat) (key message : Bytes) : Py Bytes := do
  let bl ← blockLengthOf alg
  let o ← getCfb S alg key (List.replicate bl 0)
  let padding := bl - message.length % bl
  let message := message ++ List.replicate padding 0
  let (c1, _) ← cfbEncrypt S alg key o (iv ++ lastN iv 2)
  let o ← getCfb S alg key iv
  let (c2, _) ← cfbEncrypt S alg key o message
  return c1 ++ c2

/-- message.py:407-415 `__init__`: data that is not empty is encrypted at once; empty data leaves `self.data = None`. -/
def newEncryptedData (S : BlockCiphers) (H : Digest) (iv : Bytes) (integrity : Bool) (alg : Nat) (key data : Bytes) :
    Py (Option Bytes) :=
  if data = [] then .ok none
  else do
    let c ← if integrity then encryptIntegrity S H iv alg key data else encryptPlain S iv alg key data
    return some c

/-- message.py:453-481 `decrypt` with integrity protection, up to the stripping of the padding: the decrypted prefix and the
decrypted octets after the repeated two. `(len(encrypted_data) - offset) % block_len` is `len(encrypted_data) % block_len`, as
`offset` is two blocks and Python's `%` is not negative. -/
def decryptOctets (S : BlockCiphers) (alg : Nat) (key data : Bytes) : Py (Bytes × Bytes) := do
  let bl ← blockLengthOf alg
  let o ← getCfb S alg key (List.replicate bl 0)
  let (div, o) ← cfbDecrypt S alg key o (slice data 0 bl)
  let (first, o) ← cfbDecrypt S alg key o (slice data bl (bl + bl))
  if slice first 0 2 ≠ lastN div 2 then .error .valueError
  else
    let padding := bl - data.length % bl
    let padded := data ++ List.replicate padding 0
    let (rest, _) ← cfbDecrypt S alg key o (padded.drop (bl + bl))
    return (div, dropLast (first.drop 2 ++ rest) padding)

/-- message.py:482-502: taking the decrypted octets apart into packets, the MDC packet held back. `accept` is the class-specific
part of `packet_from_packet_data` (packets.py:1693-1696), which may raise. Simplification: the contents are parsed after all
frames were found, which only affects which of two exceptions is raised. -/
def splitPackets (accept : RawPacket → Py Unit) (decrypted : Bytes) : Py (List RawPacket) := do
  let held := negSlice decrypted 22 20 = mdcHeader
  let mdcData := if held then lastN decrypted 22 else []
  let mainData := if held then dropLast decrypted 22 else decrypted
  let ps ← parseBinaryPacketData mainData
  ps.forM accept
  if mdcData ≠ [] then
    let (_, p) ← packetFromData mdcData 0
    accept p
    return ps ++ [p]
  else return ps

/-- packets.py:1506-1508: an MDC packet must have twenty octets. -/
def acceptMdc (p : RawPacket) : Py Unit := pyAssert (p.type ≠ 19 || p.content.length == 20)

/-- message.py:504-518 (integrity check) on the packets found; `decrypted_packets[-1]` of an empty list is IndexError. -/
def checkMdc (H : Digest) (iv decrypted : Bytes) (ps : List RawPacket) : Py (List RawPacket) :=
  match ps.getLast? with
  | none => .error .indexError
  | some mdc =>
    if mdc.type ≠ 19 then .error .valueError
    else if mdc.content ≠ H 2 (iv ++ lastN iv 2 ++ dropLast decrypted 20) then .error .valueError
    else .ok ps.dropLast

/-- message.py:453-520 `decrypt` with integrity protection, up to `open_pgp_message_from_packets`: the packets of the message. -/
def decryptIntegrity (S : BlockCiphers) (H : Digest) (accept : RawPacket → Py Unit) (alg : Nat) (key data : Bytes) :
    Py (List RawPacket) := do
  let (iv, decrypted) ← decryptOctets S alg key data
  let ps ← splitPackets (fun p => do acceptMdc p; accept p) decrypted
  checkMdc H iv decrypted ps

/-- message.py:453-520 `decrypt` without integrity protection. `openpgp alg key iv` is the whole-message decryption of the
primitive's OpenPGP mode (which may raise). `padding` is 0, so `decrypted_data[:-padding]` is empty. `open_pgp_message_from_packets([])`
(message.py:731-746) looks at the first packet: IndexError. -/
def decryptPlain {α : Type} (S : BlockCiphers) (openpgp : Nat → Bytes → Bytes → Bytes → Py Bytes) (accept : RawPacket → Py Unit)
    (openMessage : List RawPacket → Py α) (alg : Nat) (key data : Bytes) : Py α := do
  let bl ← blockLengthOf alg
  let o ← getCfb S alg key (List.replicate bl 0)
  let _ ← cfbDecrypt S alg key o (slice data 0 bl)
  let d ← openpgp alg key (slice data 0 (bl + 2)) data
  let decrypted := dropLast d 0
  let ps ← splitPackets (fun p => do acceptMdc p; accept p) decrypted
  match ps with
  | [] => .error .indexError
  | p :: ps => openMessage (p :: ps)

end Pgp
