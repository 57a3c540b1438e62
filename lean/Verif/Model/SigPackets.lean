import Verif.Model.S2k
import Verif.Model.Text
/-
Model of /repo/pgp/packets/signature_subpackets.py and of SignaturePacket, /repo/pgp/packets/packets.py:299-522.
-/
namespace Pgp

/-- signature_subpackets.py:432-466: the attributes of KeyFlagsSubpacket. -/
structure KeyFlags where
  certify : Bool
  sign : Bool
  encComms : Bool
  encStorage : Bool
  auth : Bool
  split : Bool
  multi : Bool
  deriving DecidableEq, Repr

/-- Value of a NotationSubpacket: text when `human_readable` is truthy, octets otherwise (signature_subpackets.py:294-344;
an object whose flag and value type disagree is not represented). -/
inductive NoteValue where
  | text (s : List Char)
  | raw (b : Bytes)
  deriving DecidableEq, Repr

/-- All subpacket classes of signature_subpackets.py other than EmbeddedSignatureSubpacket, with their attributes. -/
inductive Plain where
  | creationTime (t : Nat)                                                -- 60-75
  | expiration (t : Nat)                                                  -- 78-83
  | exportable (b : Bool)                                                 -- 86-103
  | trust (depth amount : Nat)                                            -- 106-125
  | regex (pattern : List Char)                                           -- 128-144
  | revocable (b : Bool)                                                  -- 147-164
  | keyExpiration (t : Nat)                                               -- 167-172
  | additionalRecipient (strong : Bool) (alg : Nat) (fp : List Char)      -- 175-212
  | prefSym (l : List Nat)                                                -- 215-233
  | revocationKey (fp : List Char) (alg : Nat) (sensitive : Bool)         -- 236-270
  | issuer (keyId : List Char)                                            -- 273-291
  | note (name : List Char) (ns : Option (List Char)) (value : NoteValue) -- 294-344
  | prefHash (l : List Nat)                                               -- 347-354
  | prefComp (l : List Nat)                                               -- 357-367
  | keyServerPrefs (noModify : Bool)                                      -- 370-385
  | prefKeyServer (uri : List Char)                                       -- 388-403
  | primaryUserId (b : Bool)                                              -- 406-422
  | policyUri (uri : List Char)                                           -- 425-429
  | keyFlags (f : KeyFlags)                                               -- 432-475
  | userId (s : List Char)                                                -- 478-492
  | revocationReason (code : Nat) (reason : List Char)                    -- 495-516
  | features (mdc : Bool)                                                 -- 519-537
  | target (alg hashAlg : Nat) (hash : List Char) (hashLength : Option Nat) -- 540-579
  | other (type : Nat)                                                    -- 24-57
  deriving DecidableEq, Repr

/-- The type code each class passes to SignatureSubpacket.__init__ (constants.py:59-84). -/
def Plain.type : Plain → Nat
  | creationTime _ => 2 | expiration _ => 3 | exportable _ => 4 | trust _ _ => 5 | regex _ => 6 | revocable _ => 7
  | keyExpiration _ => 9 | additionalRecipient _ _ _ => 10 | prefSym _ => 11 | revocationKey _ _ _ => 12
  | issuer _ => 16 | note _ _ _ => 20 | prefHash _ => 21 | prefComp _ => 22 | keyServerPrefs _ => 23
  | prefKeyServer _ => 24 | primaryUserId _ => 25 | policyUri _ => 26 | keyFlags _ => 27 | userId _ => 28
  | revocationReason _ _ => 29 | features _ => 30 | target _ _ _ _ => 31 | other t => t

/-- signature_subpackets.py:468-475. -/
def KeyFlags.octet (f : KeyFlags) : Nat :=
  (if f.certify then 0x01 else 0) + (if f.sign then 0x02 else 0) + (if f.encComms then 0x04 else 0) +
  (if f.encStorage then 0x08 else 0) + (if f.split then 0x10 else 0) + (if f.auth then 0x20 else 0) +
  (if f.multi then 0x80 else 0)

/-- signature_subpackets.py:438-446. -/
def KeyFlags.ofOctet (x : UInt8) : KeyFlags :=
  { certify := x.toNat.testBit 0
    sign := x.toNat.testBit 1
    encComms := x.toNat.testBit 2
    encStorage := x.toNat.testBit 3
    auth := x.toNat.testBit 5
    split := x.toNat.testBit 4
    multi := x.toNat.testBit 7 }

/-- `bytearray([int(bool(b))])`. -/
def boolOctet (b : Bool) : Bytes := [if b then 1 else 0]

/-- signature_subpackets.py:331-344: the octets of the notation name. -/
def noteName (name : List Char) (ns : Option (List Char)) : Bytes :=
  match ns with
  | some (c :: s) => utf8Encode name ++ [0x40] ++ utf8Encode (c :: s)
  | _ => utf8Encode name

/-- signature_subpackets.py:335-344. -/
def noteContent (name : List Char) (ns : Option (List Char)) (value : NoteValue) : Bytes :=
  let rawName := noteName name ns
  match value with
  | .text s => [0x80, 0, 0, 0] ++ intTo2byte rawName.length ++ intTo2byte (utf8Encode s).length ++ rawName ++ utf8Encode s
  | .raw b => [0, 0, 0, 0] ++ intTo2byte rawName.length ++ intTo2byte b.length ++ rawName ++ b

/-- The `content` properties of signature_subpackets.py.
* RevocationKey (264-270): `bytearray_to_hex(fingerprint_string, 20)` formats characters with '{:02X}': ValueError if the
  string has more than 20 characters (the constructor requires 40), otherwise `list + ''` is a TypeError.
* Target (568-579): `list + bytearray` is a TypeError (after hex_to_bytes, which may raise ValueError).
* RegularExpression (142-144): no terminating zero octet is written. -/
def Plain.content : Plain → Py Bytes
  | creationTime t => .ok (intTo4byte t)
  | expiration t => .ok (intTo4byte t)
  | exportable b => .ok (boolOctet b)
  | trust d a => do
    let d ← byteOf d
    let a ← byteOf a
    return [d, a]
  | regex p => .ok (asciiEncodeReplace p)
  | revocable b => .ok (boolOctet b)
  | keyExpiration t => .ok (intTo4byte t)
  | additionalRecipient strong alg fp => do
    let a ← byteOf alg
    let f ← hexToBytes fp (some 20)
    return [if strong then 0x80 else 0, a] ++ f
  | prefSym l => extendInts l
  | revocationKey fp _ _ => if fp.length > 20 then .error .valueError else .error .typeError
  | issuer k => hexToBytes k (some 8)
  | note name ns value => .ok (noteContent name ns value)
  | prefHash l => extendInts l
  | prefComp l => extendInts l
  | keyServerPrefs b => .ok [if b then 0x80 else 0]
  | prefKeyServer u => .ok (utf8Encode u)
  | primaryUserId b => .ok (boolOctet b)
  | policyUri u => .ok (utf8Encode u)
  | keyFlags f => do
    let x ← byteOf f.octet
    return [x]
  | userId s => .ok (utf8Encode s)
  | revocationReason code reason => do
    let c ← byteOf code
    return [c] ++ utf8Encode reason
  | features b => .ok [if b then 0x01 else 0]
  | target _ hashAlg hash hashLength => do
    let _ ← hexToBytes hash ((hashLengths hashAlg).or hashLength)
    .error .typeError
  | other _ => .ok []

/-! ### Reading the content of one subpacket -/

/-- signature_subpackets.py:63-66 (also 78-83 and 167-172, which inherit it). -/
def readTime (d : Bytes) : Py Nat := do
  pyAssert (d.length == 4)
  longToInt d 0

/-- signature_subpackets.py:89-93, 150-154, 409-413. -/
def readBool (d : Bytes) : Py Bool := do
  pyAssert (d.length == 1)
  let x ← idx d 0
  pyAssert (x.toNat &&& 0xfe == 0)
  return x != 0

/-- signature_subpackets.py:109-113. -/
def readTrust (d : Bytes) : Py Plain := do
  pyAssert (d.length == 2)
  let depth ← idx d 0
  let amount ← idx d 1
  return .trust depth.toNat amount.toNat

/-- signature_subpackets.py:131-135. -/
def readRegex (d : Bytes) : Py Plain := do
  pyAssert (d.length > 0)
  pyAssert (d.getLast? == some 0)
  return .regex (asciiDecodeReplace d.dropLast)

/-- signature_subpackets.py:187-192. -/
def readAdditionalRecipient (d : Bytes) : Py Plain := do
  let x ← idx d 0
  let a ← idx d 1
  let fp ← bytearrayToHex d 2 (some 20)
  return .additionalRecipient (x.toNat.testBit 7) a.toNat fp

/-- signature_subpackets.py:239-242: `tag = sub_data; tag & 0x80` is a TypeError. -/
def readRevocationKey (d : Bytes) : Py Plain := do
  pyAssert (d.length == 22)
  .error .typeError

/-- signature_subpackets.py:276-279. -/
def readIssuer (d : Bytes) : Py Plain := do
  pyAssert (d.length == 8)
  let k ← bytearrayToHex d 0 (some 16)
  return .issuer k

/-- `s.split('@', 1) + [None]`, first two elements (signature_subpackets.py:315). -/
def splitAt : List Char → List Char × Option (List Char)
  | [] => ([], none)
  | c :: s => if c = '@' then ([], some s) else ((c :: (splitAt s).1), (splitAt s).2)

/-- signature_subpackets.py:297-320; `human_readable = 0x80` always. -/
def readNote (d : Bytes) : Py Plain := do
  pyAssert (decide (d.length ≥ 8))
  pyAssert ((slice d 1 4).all (· == 0))
  let f ← idx d 0
  pyAssert (f.toNat &&& 0x7f == 0)
  let nameLength ← shortToInt d 4
  let valueLength ← shortToInt d 6
  let rawName := slice d 8 (8 + nameLength)
  let value := slice d (8 + nameLength) (8 + nameLength + valueLength)
  pyAssert (8 + nameLength + valueLength == d.length)
  let p := splitAt (utf8DecodeReplace rawName)
  return .note p.1 p.2 (.text (utf8DecodeReplace value))

/-- First octet of a non-empty content (signature_subpackets.py:373-375, 435-437, 522-524). -/
def readFirst (d : Bytes) : Py UInt8 := do
  pyAssert (d.length > 0)
  idx d 0

/-- signature_subpackets.py:391-394. -/
def readUri (d : Bytes) : Py (List Char) := do
  pyAssert (d.length > 0)
  return utf8DecodeReplace d

/-- signature_subpackets.py:498-501. -/
def readReason (d : Bytes) : Py Plain := do
  let c ← idx d 0
  return .revocationReason c.toNat (utf8DecodeReplace (d.drop 1))

/-- signature_subpackets.py:547-550: the hash length, which must agree with a known algorithm's. -/
def targetLength (d : Bytes) (hashAlg : Nat) : Py Nat :=
  match hashLengths hashAlg with
  | none => .ok (d.length - 2)
  | some n => do
    pyAssert (n == d.length - 2)
    return n

/-- signature_subpackets.py:543-554: `len(sub_data) - 2` is used as a number of hex digits, so only half of the octets are
kept and an odd number raises. -/
def readTarget (d : Bytes) : Py Plain := do
  pyAssert (decide (d.length > 2))
  let alg ← idx d 0
  let hashAlg ← idx d 1
  let hashLength ← targetLength d hashAlg.toNat
  let h ← bytearrayToHex d 2 (some (d.length - 2))
  return .target alg.toNat hashAlg.toNat h (some hashLength)

/-- signature_subpackets.py:603-639 (the class table) and the `from_subpacket_content` methods of the classes. -/
def parsePlain (ty : Nat) (d : Bytes) : Py Plain :=
  match ty with
  | 2 => do return .creationTime (← readTime d)
  | 3 => do return .expiration (← readTime d)
  | 4 => do return .exportable (← readBool d)
  | 5 => readTrust d
  | 6 => readRegex d
  | 7 => do return .revocable (← readBool d)
  | 9 => do return .keyExpiration (← readTime d)
  | 10 => readAdditionalRecipient d
  | 11 => .ok (.prefSym (d.map UInt8.toNat))
  | 12 => readRevocationKey d
  | 16 => readIssuer d
  | 20 => readNote d
  | 21 => .ok (.prefHash (d.map UInt8.toNat))
  | 22 => .ok (.prefComp (d.map UInt8.toNat))
  | 23 => do return .keyServerPrefs ((← readFirst d).toNat.testBit 7)
  | 24 => do return .prefKeyServer (← readUri d)
  | 25 => do return .primaryUserId (← readBool d)
  | 26 => do return .policyUri (← readUri d)
  | 27 => do return .keyFlags (KeyFlags.ofOctet (← readFirst d))
  | 28 => do return .userId (← utf8DecodeStrict d)
  | 29 => readReason d
  | 30 => do return .features ((← readFirst d).toNat.testBit 0)
  | 31 => readTarget d
  | t => .ok (.other t)

/-! ### Signatures -/

mutual
/-- A signature subpacket with its critical bit; the embedded signature (signature_subpackets.py:582-600) holds a
signature packet. -/
inductive Sub where
  | plain (critical : Bool) (v : Plain)
  | embedded (critical : Bool) (sig : Sig)

/-- A SignaturePacket, packets.py:413-437: versions 2/3 have a creation time and key id, versions from 4 on have subpackets.
Values that are `None` are skipped when writing. -/
inductive Sig where
  | v3 (version sigType pubAlg hashAlg : Nat) (created : Nat) (keyId : List Char) (hash2 : Bytes) (values : List (Option Nat))
  | v4 (version sigType pubAlg hashAlg : Nat) (hashed unhashed : List Sub) (hash2 : Bytes) (values : List (Option Nat))
end

/-- signature_subpackets.py:45-57 `__bytes__`, given the content. -/
def subBytes (ty : Nat) (critical : Bool) (content : Bytes) : Py Bytes := do
  let (l, _) ← newPacketLengthToBytes (content.length + 1) false
  let t ← byteOf (ty + if critical then 0x80 else 0)
  return l ++ [t] ++ content

/-- packets.py:484-488. -/
def sigValues (fl : FloorLog2) : List (Option Nat) → Py Bytes
  | [] => .ok []
  | none :: l => sigValues fl l
  | some v :: l => do
    let a ← intToMpi fl v
    let b ← sigValues fl l
    return a ++ b

mutual
/-- signature_subpackets.py:45-57; embedded: 598-600. -/
def Sub.toBytes (fl : FloorLog2) : Sub → Py Bytes
  | .plain critical v => do
    let c ← v.content
    subBytes v.type critical c
  | .embedded critical sig => do
    let c ← Sig.content fl sig
    subBytes 32 critical c

/-- packets.py:463-466: `for sp in subpackets: data.extend(bytes(sp))`. -/
def subsBytes (fl : FloorLog2) : List Sub → Py Bytes
  | [] => .ok []
  | s :: l => do
    let a ← Sub.toBytes fl s
    let b ← subsBytes fl l
    return a ++ b

/-- packets.py:452-490 `content`. Versions 2 and 3: `data.extend(self.key_id)` with a `str` is a TypeError (line 478), after
the version, marker and type octets. -/
def Sig.content (fl : FloorLog2) : Sig → Py Bytes
  | .v3 version sigType _ _ _ _ _ _ => do
    let _ ← byteOf version
    let _ ← byteOf sigType
    .error .typeError
  | .v4 version sigType pubAlg hashAlg hashed unhashed hash2 values => do
    let v ← byteOf version
    let t ← byteOf sigType
    let p ← byteOf pubAlg
    let h ← byteOf hashAlg
    let hd ← subsBytes fl hashed
    let ud ← subsBytes fl unhashed
    let vs ← sigValues fl values
    return [v, t, p, h] ++ intTo2byte hd.length ++ hd ++ intTo2byte ud.length ++ ud ++ hash2 ++ vs
end

/-- signature_subpackets.py:642-652: type, critical bit, content and the offset after the subpacket. A length of zero gives
`length = -1`: an empty content and an offset one past the length octet. -/
def subHeader (data : Bytes) (off : Nat) : Py (Nat × Bool × Bytes × Nat) := do
  let (o, length, isPartial) ← newPacketLength data off
  pyAssert (!isPartial)
  let tag ← idx data o
  return (tag.toNat &&& 0x7f, tag.toNat.testBit 7, slice data (o + 1) (o + length), o + length)

/-- packets.py:381-382 and 388-392: the two hash octets, then MPIs to the end. -/
def sigTail (data : Bytes) (off : Nat) : Py (Bytes × List (Option Nat)) := do
  let vs ← mpiLoop data data.length (off + 2)
  return (slice data off (off + 2), vs.map some)

/-- packets.py:310-346: versions 2 and 3. The key id is read as 8 hex digits (4 octets), then 8 octets are skipped. -/
def parseSigV3 (data : Bytes) (version : Nat) : Py Sig := do
  let five ← idx data 1
  if five ≠ 5 then .error .valueError
  else do
    let t ← idx data 2
    let created ← longToInt data 3
    let keyId ← bytearrayToHex data 7 (some 8)
    let p ← idx data 15
    let h ← idx data 16
    let (hash2, values) ← sigTail data 17
    return .v3 version t.toNat p.toNat h.toNat created keyId hash2 values

mutual
/-- packets.py:364-369, 375-380: `while offset < subpacket_end: subpacket, offset = signature_subpacket_from_data(...)`, with
signature_subpackets.py:653-657 (choice of class). The dynamic test marks a step that would make no progress as `diverges`;
it is always true (`subHeader_progress`). -/
def parseSubs (data : Bytes) (off stop : Nat) : Py (List Sub × Nat) :=
  if off < stop then
    match subHeader data off with
    | .error e => .error e
    | .ok (ty, critical, sub, off') =>
      if h : sub.length < data.length ∧ off < off' ∧ off < data.length then do
        let s ← (if ty = 32 then do
            let sig ← parseSig sub
            return Sub.embedded critical sig
          else do
            let v ← parsePlain ty sub
            return Sub.plain critical v : Py Sub)
        let (l, o) ← parseSubs data off' stop
        return (s :: l, o)
      else .error .diverges
  else .ok ([], off)
termination_by (data.length, 0, data.length - off)
decreasing_by
  · exact Prod.Lex.left _ _ h.1
  · exact Prod.Lex.right _ (Prod.Lex.right _ (by omega))

/-- packets.py:304-399 `from_packet_content`. -/
def parseSig (data : Bytes) : Py Sig := do
  let v ← idx data 0
  if v = 2 ∨ v = 3 then parseSigV3 data v.toNat
  else if v = 4 then do
    let t ← idx data 1
    let p ← idx data 2
    let h ← idx data 3
    let l1 ← shortToInt data 4
    let (hashed, off) ← parseSubs data 6 (6 + l1)
    let l2 ← shortToInt data off
    let (unhashed, off) ← parseSubs data (off + 2) (off + 2 + l2)
    let (hash2, values) ← sigTail data off
    return .v4 4 t.toNat p.toNat h.toNat hashed unhashed hash2 values
  else .error .valueError
termination_by (data.length, 1, 0)
decreasing_by
  all_goals exact Prod.Lex.right _ (Prod.Lex.left _ _ (by omega))
end

end Pgp
