import Verif.Model.PyStr
import Verif.Model.SigPackets
import Verif.Model.PublicKey
import Verif.Model.DataPackets
import Verif.Model.S2k
/-
Model of transferable keys (pgp/transferrable_keys.py:838-1066): the order check, building a key from packets, and back.
Time zones without daylight saving are assumed, so that
`fromtimestamp` and `mktime` are inverse.
-/
namespace Pgp

/-- What a secret key packet holds besides the public values (packets.py:889-919): `s2k_specification`, `symmetric_algorithm`, `iv`, `encrypted_portion`,
`checksum` and `hash`. The key objects copy them from and to packets unchanged (transferrable_keys.py:434-459, 472-476). -/
structure SecPart where
  s2k : S2K
  sym : Nat
  iv : Bytes
  enc : Bytes
  checksum : Bool
  hash : Bool
  deriving DecidableEq

/-- The packets a transferable key is checked for, by class; any other packet class is `other` with its type. -/
inductive KBody where
  | key (secret sub : Bool) (k : PubKey) (priv : Option SecPart)
  | sig (s : Sig)
  | uid (s : Str)
  | attr (as : List AttrSub)
  | trust (t : Trust)
  | other (type : { t : Nat // t ∉ [2, 5, 6, 7, 12, 13, 14, 17] })

/-- A packet with its header format. -/
structure KPacket where
  fmt : HeaderFormat
  body : KBody

/-- `packet.type` (packets/constants.py:2-18). -/
def KBody.type : KBody → Nat
  | .key false false _ _ => 6
  | .key true false _ _ => 5
  | .key false true _ _ => 14
  | .key true true _ _ => 7
  | .sig _ => 2
  | .uid _ => 13
  | .attr _ => 17
  | .trust _ => 12
  | .other t => t.1

def Sig.sigType : Sig → Nat
  | .v3 _ t _ _ _ _ _ _ => t
  | .v4 _ t _ _ _ _ _ _ => t

/-- `packet.signature_type`, read only of signature packets. -/
def KBody.sigType : KBody → Nat
  | .sig s => s.sigType
  | _ => 0

/-- `packet.version`, read only of the primary key packet. -/
def KBody.version : KBody → Nat
  | .key _ _ k _ => k.version
  | _ => 0

/-- The last packet before that is not a trust packet (transferrable_keys.py:855-859). -/
def prevPacket (before : List KBody) : Option KBody := (before.reverse.dropWhile (fun p => p.type = 12)).head?

/-- `previous_non_sig` (transferrable_keys.py:867-871). -/
def prevNonSig (before : List KBody) : Option Nat :=
  (((before.reverse.dropWhile (fun p => p.type = 12)).map KBody.type).filter (fun t => t ≠ 2 ∧ t ≠ 12)).head?

/-- `for t in type_order[:i]: if t not in types: raise`. -/
def onlyBefore (before : List KBody) (types : List Nat) : Py Unit :=
  if before.all (fun p => p.type ∈ types) then .ok () else .error (.pgp "InvalidKeyPacketOrder")

/-- transferrable_keys.py:880-894. -/
def checkBinding (subType : Nat) (prev : KBody) (nonSig : Nat) : Py Unit :=
  if nonSig ≠ subType then .error (.pgp "InvalidKeyPacketOrder")
  else if prev.type = 2 ∧ prev.sigType ≠ 0x18 then .error (.pgp "InvalidKeyPacketOrder")
  else .ok ()

/-- The signature rules (transferrable_keys.py:865-925). -/
def checkKeySig (keyType subType : Nat) (before : List KBody) (t : Nat) (prev : KBody) (nonSig : Nat) : Py Unit :=
  if t = 0x1f then onlyBefore before [keyType, 2]
  else if t = 0x18 then checkBinding subType prev nonSig
  else if t = 0x20 then onlyBefore before [keyType, 2, 12]
  else if t = 0x28 then if prev.type ≠ 2 ∨ prev.sigType ≠ 0x28 then .error (.pgp "InvalidKeyPacketOrder") else .ok ()
  else if t = 0x10 ∨ t = 0x11 ∨ t = 0x12 ∨ t = 0x13 ∨ t = 0x30 then
    if nonSig ∉ [13, 17, 12] then .error (.pgp "InvalidKeyPacketOrder") else .ok ()
  else .error (.pgp "InvalidKeyPacketType")

/-- The subkey rule (transferrable_keys.py:942-952). -/
def checkSubkey (version : Nat) (after : List KBody) : Py Unit :=
  if version < 4 then .error (.pgp "InvalidKeyPacketType")
  else match after with
    | [] => .error .indexError
    | n :: _ => if n.type ≠ 2 ∨ n.sigType ≠ 0x18 then .error (.pgp "InvalidKeyPacketOrder") else .ok ()

/-- One turn of the loop of `validate_transferrable_key` (transferrable_keys.py:853-958). -/
def checkKeyPacket (secret : Bool) (version : Nat) (before : List KBody) (this : KBody) (after : List KBody) : Py Unit :=
  let keyType := if secret then 5 else 6
  let subType := if secret then 7 else 14
  if this.type = keyType then if before ≠ [] then .error (.pgp "InvalidKeyPacketOrder") else .ok ()
  else if this.type = 2 then
    match prevPacket before, prevNonSig before with
    | some prev, some nonSig => checkKeySig keyType subType before this.sigType prev nonSig
    | _, _ => .error .indexError
  else if this.type = 13 then onlyBefore before [keyType, 2, 13, 12]
  else if this.type = 17 then onlyBefore before [keyType, 2, 13, 17, 12]
  else if this.type = 14 ∨ this.type = 7 then checkSubkey version after
  else if this.type = 12 then
    match prevPacket before with
    | some prev => if prev.type ≠ 2 then .error (.pgp "InvalidKeyPacketOrder") else .ok ()
    | none => .error .indexError
  else .error (.pgp "InvalidKeyPacketType")

def validateLoop (secret : Bool) (version : Nat) : (before rest : List KBody) → Py Unit
  | _, [] => .ok ()
  | before, p :: rest => do
    checkKeyPacket secret version before p rest
    validateLoop secret version (before ++ [p]) rest

/-- `validate_transferrable_key` (transferrable_keys.py:838-958). -/
def validateKey (secret : Bool) (ps : List KBody) : Py Unit :=
  match ps with
  | [] => .error .indexError
  | p :: _ => if p.type ≠ (if secret then 5 else 6) then .error (.pgp "InvalidKeyPacketOrder") else validateLoop secret p.version [] ps

/-! ### From packets and back -/

/-- What `from_packet` followed by `to_packet` does to a key packet's public part (transferrable_keys.py:193-249): the validity period of a
version 2 or 3 key is dropped by `_init_args_from_packet`, and `_to_packet_args` writes none for later versions. -/
def keyRound (k : PubKey) : PubKey := { k with expirationDays := none }

/-- A content item of a user attribute (transferrable_keys.py:747-786). `magic` is the detection of other image types. -/
def attrItem (magic : Bytes → Str) : AttrSub → Py (Str × Bytes)
  | .other _ => .error .attributeError
  | .image _ _ f d => .ok (if f = some 1 then "image/jpeg".toList else magic (d.take 1024), d)

/-- `to_subpacket` (transferrable_keys.py:772-786); `none` is Python's None. -/
def attrSubOf (item : Str × Bytes) : Option AttrSub :=
  if (item.1.takeWhile (· ≠ '/')) ≠ "image".toList then none
  else some (.image 1 16 (some (if "/jpeg".toList.isSuffixOf item.1 then 1 else 101)) item.2)

/-- An element of a key object: what `from_packet` reads from a packet of the class. -/
inductive KItem where
  | key (secret sub : Bool) (k : PubKey) (priv : Option SecPart)
  | sig (s : Sig)
  | uid (s : Str)
  | attr (items : List (Str × Bytes))

/-- The header format is kept with each element (`packet_header_type`). -/
structure KElem where
  fmt : HeaderFormat
  item : KItem

/-- The signatures that follow (the inner loops of `from_packets`): the signatures and the rest. -/
def takeSigs : List KPacket → List KElem × List KPacket
  | ⟨f, .sig s⟩ :: ps => let (a, b) := takeSigs ps; (⟨f, .sig s⟩ :: a, b)
  | ps => ([], ps)

/-- An element with its signatures. -/
abbrev KGroup := KElem × List KElem

/-- The user ids (transferrable_keys.py:986-1001). `fuel` is the number of packets. -/
def takeUids : (fuel : Nat) → List KPacket → List KGroup × List KPacket
  | fuel + 1, ⟨f, .uid s⟩ :: ps =>
    let (sigs, rest) := takeSigs ps
    let (gs, rest') := takeUids fuel rest
    ((⟨f, .uid s⟩, sigs) :: gs, rest')
  | _, ps => ([], ps)

/-- The user attributes (transferrable_keys.py:1003-1022). -/
def takeAttrs (magic : Bytes → Str) : (fuel : Nat) → List KPacket → Py (List KGroup × List KPacket)
  | fuel + 1, ⟨f, .attr as⟩ :: ps => do
    let items ← as.mapM (attrItem magic)
    let (sigs, rest) := takeSigs ps
    let (gs, rest') ← takeAttrs magic fuel rest
    return ((⟨f, .attr items⟩, sigs) :: gs, rest')
  | _, ps => .ok ([], ps)

/-- The subkeys (transferrable_keys.py:1024-1045). -/
def takeSubs : (fuel : Nat) → List KPacket → List KGroup × List KPacket
  | fuel + 1, ⟨f, .key sec true k priv⟩ :: ps =>
    let (sigs, rest) := takeSigs ps
    let (gs, rest') := takeSubs fuel rest
    ((⟨f, .key sec true (keyRound k) priv⟩, sigs) :: gs, rest')
  | _, ps => ([], ps)

/-- A transferable key object. -/
structure TKey where
  primary : KGroup
  uids : List KGroup
  attrs : List KGroup
  subs : List KGroup

/-- `from_packets` (transferrable_keys.py:969-1047); packets after the last group are ignored. -/
def TKey.fromPackets (magic : Bytes → Str) (secret : Bool) (ps : List KPacket) : Py TKey := do
  validateKey secret (ps.map KPacket.body)
  match ps with
  | ⟨f, .key sec sub k priv⟩ :: rest => do
    let (sigs, r1) := takeSigs rest
    let (uids, r2) := takeUids r1.length r1
    let (attrs, r3) ← takeAttrs magic r2.length r2
    let (subs, _) := takeSubs r3.length r3
    return ⟨(⟨f, .key sec sub (keyRound k) priv⟩, sigs), uids, attrs, subs⟩
  | _ => .error .attributeError

/-- `to_packet` of an element (transferrable_keys.py:229-249, 693-696, 803-810, signature.py:159-180). A version 2 or 3 signature reads
its creation time with `fromtimestamp(datetime)`: TypeError. A content item that is not an image becomes a `None` subpacket, with which
the packet cannot be serialised (TypeError); that error is raised here already. -/
def KElem.toPacket (e : KElem) : Py KPacket :=
  match e.item with
  | .key sec sub k priv => .ok ⟨e.fmt, .key sec sub k priv⟩
  | .sig (.v3 ..) => .error .typeError
  | .sig s => .ok ⟨e.fmt, .sig s⟩
  | .uid s => .ok ⟨e.fmt, .uid s⟩
  | .attr items =>
    match items.mapM attrSubOf with
    | some as => .ok ⟨e.fmt, .attr as⟩
    | none => .error .typeError

def groupPackets (g : KGroup) : Py (List KPacket) := do
  let p ← g.1.toPacket
  let ss ← g.2.mapM KElem.toPacket
  return p :: ss

/-- `to_packets` (transferrable_keys.py:1049-1066). -/
def TKey.toPackets (k : TKey) : Py (List KPacket) := do
  let a ← groupPackets k.primary
  let b ← k.uids.mapM groupPackets
  let c ← k.attrs.mapM groupPackets
  let d ← k.subs.mapM groupPackets
  return a ++ b.flatten ++ c.flatten ++ d.flatten

end Pgp
