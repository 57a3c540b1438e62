import Verif.Model.Utils
import Verif.Model.Text
import Verif.Model.Regex
import Verif.Model.Armor
/-
Model of /repo/pgp/parse.py: reading signatures, keys and key streams from the packets of the external library
pgpdump.  A pgpdump packet is represented by the attributes parse.py reads; how pgpdump makes it is not modelled.
-/
namespace Pgp

/-! ### Signature subpackets -/

/-- A signature subpacket of pgpdump, with the attributes used by parse.py:112-350. -/
structure PSub where
  subtype : Nat
  critical : Bool
  hashed : Bool
  data : Bytes
  deriving DecidableEq, Repr

/-- The keys of the dictionary a signature is parsed into (parse.py:40-63, 119-327, 363-380). -/
inductive PField where
  | hashAlgorithmType | pubAlgorithmType | sigType | sigVersion
  | creationTime | expirationSeconds | exportable | trustLevel | trustAmount | regex | revocable | keyExpirationSeconds
  | preferredSym | revocationKeySensitive | revocationKeyAlg | revocationKey | preferredHash | preferredCompression
  | keyServerNoModify | preferredKeyServer | primary | policyUri
  | mayCertifyOthers | maySignData | mayEncryptComms | mayEncryptStorage | mayHaveBeenSplit | mayBeUsedForAuth | mayHaveMultipleOwners
  | userId | revocationCode | revocationReason | supportsModification | targetPubAlg | targetHashAlg | target | targetHash
  deriving DecidableEq, Repr

/-- A value of that dictionary. -/
inductive PVal where
  | int (n : Nat) | bool (b : Bool) | str (s : Str) | ints (l : List Nat)
  deriving DecidableEq, Repr

/-- A parsed notation (parse.py:90-96). -/
structure PNotation where
  name : Str
  namespace_ : Option Str
  humanReadable : Bool
  value : Str
  hashed : Bool
  deriving DecidableEq, Repr

/-- The dictionary of a signature. The list-valued entries are kept apart; an absent list is the empty list. -/
structure PSig where
  vals : PField → Option PVal
  regexes : List (Str × Bool)
  keyIds : List (Str × Bool)
  notations : List PNotation
  selfsig : Bool
  hashed : List PField

/-- `signature[k] = v`. -/
def PSig.set (s : PSig) (k : PField) (v : PVal) : PSig := { s with vals := fun j => if j = k then some v else s.vals j }

/-- `subpacket_type_to_keys` (parse.py:39-63). -/
def subpacketTypeToKeys : Nat → Option (List PField)
  | 2 => some [.creationTime]
  | 3 => some [.expirationSeconds]
  | 4 => some [.exportable]
  | 5 => some [.trustLevel, .trustAmount]
  | 6 => some [.regex]
  | 7 => some [.revocable]
  | 9 => some [.keyExpirationSeconds]
  | 11 => some [.preferredSym]
  | 12 => some [.revocationKey]
  | 21 => some [.preferredHash]
  | 22 => some [.preferredCompression]
  | 23 => some [.keyServerNoModify]
  | 24 => some [.preferredKeyServer]
  | 25 => some [.primary]
  | 26 => some [.policyUri]
  | 27 => some [.mayCertifyOthers, .maySignData, .mayEncryptComms, .mayEncryptStorage, .mayHaveBeenSplit, .mayBeUsedForAuth, .mayHaveMultipleOwners]
  | 28 => some [.userId]
  | 29 => some [.revocationCode, .revocationReason]
  | 30 => some [.supportsModification]
  | 31 => some [.targetPubAlg, .targetHashAlg, .target]
  | _ => none

/-- `(name.split('@', 1) + [None])[:2]` (parse.py:75-76). -/
def splitAt1 (s : Str) : Str × Option Str :=
  match s.dropWhile (· ≠ '@') with
  | [] => (s, none)
  | _ :: r => (s.takeWhile (· ≠ '@'), some r)

/-- `parse_notation` (parse.py:66-96) with the default encoding of values that are not human readable (base64 text). -/
def parseNotation (data : Bytes) (hashed : Bool) : Py (Option PNotation) := do
  let flags ← longToInt data 0
  let nameLen ← shortToInt data 4
  let valueLen ← shortToInt data 6
  let name := splitAt1 (utf8DecodeReplace (slice data 8 (8 + nameLen)))
  let value := slice data (8 + nameLen) (8 + nameLen + valueLen)
  if flags % 0x1000000 ≠ 0 then return none
  else
    let readable := decide (flags / 0x1000000 % 256 = 0x80)
    return some ⟨name.1, name.2, readable, if readable then utf8DecodeReplace value else b64encode value, hashed⟩

/-- A pgpdump signature packet, with the attributes used by parse.py:353-426. `keyId` and `creationTime` are those of versions 2 and 3. -/
structure PSigPacket where
  version : Nat
  hashAlg : Nat
  pubAlg : Nat
  sigType : Nat
  hash2 : Bytes
  keyId : Str
  creationTime : Nat
  subpackets : List PSub

/-- What `parse_signature_subpacket` can see besides the subpacket: whether the signature is a self-signature, its type and the packet type of its owner. -/
structure PEnv where
  selfsig : Bool
  sigType : Nat
  owner : Nat

/-- subtype 2 (parse.py:119-126). -/
def subCreation (sub : PSub) (s : PSig) : Py PSig :=
  if sub.hashed = false then .ok s else do return s.set .creationTime (.int (← longToInt sub.data 0))

/-- subtype 3 (parse.py:127-133). -/
def subExpiration (sub : PSub) (s : PSig) : Py PSig := do
  let t ← longToInt sub.data 0
  if t ≠ 0 then return s.set .expirationSeconds (.int t) else return s

/-- subtype 4 (parse.py:134-157). -/
def subExportable (sub : PSub) (s : PSig) : Py PSig := do
  let x ← idx sub.data 0
  if x = 0 then .error (.pgp "LocalCertificationSignature") else return s.set .exportable (.bool true)

/-- subtype 5 (parse.py:158-160). -/
def subTrust (sub : PSub) (s : PSig) : Py PSig := do
  let l ← idx sub.data 0
  let a ← idx sub.data 1
  return (s.set .trustLevel (.int l.toNat)).set .trustAmount (.int a.toNat)

/-- subtype 6 (parse.py:161-178). -/
def subRegex (sub : PSub) (s : PSig) : Py PSig := do
  let r := asciiDecodeReplace sub.data.dropLast
  match ← validateRegex r with
  | some _ => return s
  | none => return { s with regexes := s.regexes ++ [(r, sub.hashed)] }

/-- subtype 7 (parse.py:179-180). -/
def subRevocable (sub : PSub) (s : PSig) : Py PSig := do
  let x ← idx sub.data 0
  return s.set .revocable (.bool (x ≠ 0))

/-- subtype 9 (parse.py:181-192). -/
def subKeyExpiration (env : PEnv) (sub : PSub) (s : PSig) : Py PSig :=
  if env.selfsig = false then .ok s else do
    let t ← longToInt sub.data 0
    if t = 0 then return s else return s.set .keyExpirationSeconds (.int t)

/-- subtypes 11, 21 and 22 (parse.py:193-197, 238-248). -/
def subPreferences (k : PField) (env : PEnv) (sub : PSub) (s : PSig) : Py PSig :=
  if env.selfsig = false then .ok s else .ok (s.set k (.ints (sub.data.map (·.toNat))))

/-- subtype 12 (parse.py:198-214). -/
def subRevocationKey (sub : PSub) (s : PSig) : Py PSig := do
  let x ← idx sub.data 0
  if x.toNat < 0x80 then return s
  else do
    let a ← idx sub.data 1
    let h ← bytearrayToHex (sub.data.drop 2) 0 none
    return ((s.set .revocationKeySensitive (.bool (x.toNat / 0x40 % 2 = 1))).set .revocationKeyAlg (.int a.toNat)).set .revocationKey (.str h)

/-- subtype 16 (parse.py:215-226). -/
def subIssuer (sub : PSub) (s : PSig) : Py PSig := do
  let h ← bytearrayToHex sub.data 0 (some 8)
  return { s with keyIds := s.keyIds ++ [(h, sub.hashed)] }

/-- subtype 20 (parse.py:227-236). -/
def subNotation (sub : PSub) (s : PSig) : Py PSig := do
  match ← parseNotation sub.data sub.hashed with
  | none => return s
  | some n => if sub.critical then .error (.pgp "CannotParseCriticalNotation") else return { s with notations := s.notations ++ [n] }

/-- subtype 23 (parse.py:249-257). -/
def subNoModify (env : PEnv) (sub : PSub) (s : PSig) : Py PSig :=
  if env.selfsig = false then .ok s else do
    let x ← idx sub.data 0
    if x.toNat % 0x80 ≠ 0 ∨ (sub.data.drop 1).any (· ≠ 0) = true then return s
    else return s.set .keyServerNoModify (.bool (0x80 ≤ x.toNat))

/-- subtypes 24, 26 and 28 (parse.py:258-260, 278-279, 295-296). -/
def subText (k : PField) (sub : PSub) (s : PSig) : Py PSig := .ok (s.set k (.str (utf8DecodeReplace sub.data)))

/-- subtype 25 (parse.py:261-277). -/
def subPrimary (env : PEnv) (sub : PSub) (s : PSig) : Py PSig :=
  if env.selfsig = false then .ok s
  else if env.owner ≠ 13 ∧ env.owner ≠ 17 then .ok s
  else do return s.set .primary (.int (← idx sub.data 0).toNat)

/-- subtype 27 (parse.py:280-294). -/
def subKeyFlags (env : PEnv) (sub : PSub) (s : PSig) : Py PSig := do
  let x ← idx sub.data 0
  let bit (n : Nat) : PVal := .bool (x.toNat.testBit n)
  let s := ((((s.set .mayCertifyOthers (bit 0)).set .maySignData (bit 1)).set .mayEncryptComms (bit 2)).set .mayEncryptStorage (bit 3)).set .mayBeUsedForAuth (bit 5)
  if env.selfsig = true ∧ (env.sigType = 0x1f ∨ env.sigType = 0x18) then
    return (s.set .mayHaveBeenSplit (bit 4)).set .mayHaveMultipleOwners (bit 7)
  else return s

/-- The revocation codes of parse.py:303-304. -/
def knownRevocation (c : Nat) : Bool := c ∈ [0, 1, 2, 3, 32] || (99 < c && c < 111)

/-- subtype 29 (parse.py:297-307). -/
def subRevocationReason (env : PEnv) (sub : PSub) (s : PSig) : Py PSig :=
  if env.sigType ≠ 0x20 ∧ env.sigType ≠ 0x28 then .ok s else do
    let x ← idx sub.data 0
    if knownRevocation x.toNat then
      return (s.set .revocationCode (.int x.toNat)).set .revocationReason (.str (utf8DecodeReplace (sub.data.drop 1)))
    else return s

/-- subtype 30 (parse.py:308-318). -/
def subFeatures (env : PEnv) (sub : PSub) (s : PSig) : Py PSig :=
  if env.selfsig = false then .ok s else do
    let x ← idx sub.data 0
    if x.toNat / 2 ≠ 0 then return s
    else if (sub.data.drop 1).any (· ≠ 0) = true then return s
    else return s.set .supportsModification (.int (x.toNat % 2))

/-- subtype 31 (parse.py:319-323). -/
def subTarget (sub : PSub) (s : PSig) : Py PSig := do
  let p ← idx sub.data 0
  let h ← idx sub.data 1
  let t ← bytearrayToHex (sub.data.drop 2) 0 none
  return ((s.set .targetPubAlg (.int p.toNat)).set .targetHashAlg (.int h.toNat)).set .targetHash (.str t)

/-- The key ids first (parse.py:400-403): every issuer subpacket, whatever its place. -/
def issuerLoop : List PSub → PSig → Py PSig
  | [], s => .ok s
  | sub :: subs, s => if sub.subtype = 16 then do issuerLoop subs (← subIssuer sub s) else issuerLoop subs s

/-- The fields that are always present (parse.py:363-380). `hash2` and `validated` are left out: nothing reads them. -/
def sigStart (p : PSigPacket) : PSig :=
  { vals := fun k => match k with
      | .hashAlgorithmType => some (.int p.hashAlg)
      | .pubAlgorithmType => some (.int p.pubAlg)
      | .sigType => some (.int p.sigType)
      | .sigVersion => some (.int p.version)
      | _ => none
    regexes := [], keyIds := [], notations := [], selfsig := false
    hashed := [.hashAlgorithmType, .pubAlgorithmType, .sigType, .sigVersion] }

/-- The first half of `parse_signature_packet` (parse.py:363-409, 423-424): up to the decision whether this is a self-signature. `parents` is
`parent_key_ids`: Python's None, or a list whose elements may be None. -/
def sigHeader (p : PSigPacket) (parents : Option (List (Option Str))) : Py PSig :=
  if p.version = 2 ∨ p.version = 3 then
    match parents with
    | none => .error .typeError
    | some ids =>
      .ok { (sigStart p).set .creationTime (.int p.creationTime) with
        keyIds := [(p.keyId.map Char.toUpper, true)]
        selfsig := decide (some (p.keyId.map Char.toUpper) ∈ ids)
        hashed := (sigStart p).hashed ++ [.creationTime] }
  else if 4 ≤ p.version then do
    let s ← issuerLoop p.subpackets (sigStart p)
    match parents with
    | none => .error .typeError
    | some ids => return { s with selfsig := s.keyIds.any fun k => decide (some k.1 ∈ ids) }
  else .error (.pgp "UnsupportedSignatureVersion")

/-- subtype 32 (parse.py:324-328) with `parse_embedded_signature` (parse.py:99-109). `embed` makes the pgpdump packet. The packet is parsed
without key ids, and `sigHeader` without key ids raises, so nothing after it is reached. -/
def subEmbedded (embed : Bytes → Py PSigPacket) (sub : PSub) : Py PSig := do
  let p ← embed sub.data
  sigHeader p none

/-- subtypes without a meaning (parse.py:335-350). -/
def subUnknown (sub : PSub) (s : PSig) : Py PSig := if sub.critical then .error (.pgp "CannotParseCritical") else .ok s

/-- `parse_signature_subpacket` (parse.py:112-350), as `parse_signature_packet` calls it (`signature_hashed` False). -/
def parseSub (embed : Bytes → Py PSigPacket) (env : PEnv) (sub : PSub) (s : PSig) : Py PSig :=
  match sub.subtype with
  | 2 => subCreation sub s
  | 3 => subExpiration sub s
  | 4 => subExportable sub s
  | 5 => subTrust sub s
  | 6 => subRegex sub s
  | 7 => subRevocable sub s
  | 9 => subKeyExpiration env sub s
  | 11 => subPreferences .preferredSym env sub s
  | 12 => subRevocationKey sub s
  | 16 => subIssuer sub s
  | 20 => subNotation sub s
  | 21 => subPreferences .preferredHash env sub s
  | 22 => subPreferences .preferredCompression env sub s
  | 23 => subNoModify env sub s
  | 24 => subText .preferredKeyServer sub s
  | 25 => subPrimary env sub s
  | 26 => subText .policyUri sub s
  | 27 => subKeyFlags env sub s
  | 28 => subText .userId sub s
  | 29 => subRevocationReason env sub s
  | 30 => subFeatures env sub s
  | 31 => subTarget sub s
  | 32 => subEmbedded embed sub
  | _ => subUnknown sub s

/-- `hashed[k] = v` on a dictionary that keeps the order of first insertion. -/
def dictSet : List (Nat × Bool) → Nat → Bool → List (Nat × Bool)
  | [], k, v => [(k, v)]
  | (j, w) :: d, k, v => if j = k then (k, v) :: d else (j, w) :: dictSet d k v

/-- The second loop of parse.py:411-416. -/
def subLoop (embed : Bytes → Py PSigPacket) (env : PEnv) (sigHashed : Bool) : List PSub → PSig → List (Nat × Bool) → Py (PSig × List (Nat × Bool))
  | [], s, d => .ok (s, d)
  | sub :: subs, s, d =>
    if sub.subtype = 16 then subLoop embed env sigHashed subs s d
    else do
      let s ← parseSub embed env sub s
      subLoop embed env sigHashed subs s (if sub.subtype ∈ [6, 16, 20, 32] then d else dictSet d sub.subtype (sigHashed || sub.hashed))

/-- The loop of parse.py:418-422; `extend(None)` is a TypeError. -/
def hashedNames : List (Nat × Bool) → Py (List PField)
  | [] => .ok []
  | (k, v) :: d =>
    if k = 0 ∨ v = false then hashedNames d
    else match subpacketTypeToKeys k with
      | none => .error .typeError
      | some keys => do return keys ++ (← hashedNames d)

/-- `parse_signature_packet(p, parent_type, parent_key_ids, sig_hashed)` (parse.py:353-426). -/
def parseSigPacket (embed : Bytes → Py PSigPacket) (p : PSigPacket) (owner : Nat) (parents : Option (List (Option Str))) (sigHashed : Bool) : Py PSig := do
  let s ← sigHeader p parents
  if p.version = 2 ∨ p.version = 3 then return s
  else do
    let (s, d) ← subLoop embed ⟨s.selfsig, p.sigType, owner⟩ sigHashed p.subpackets s []
    let names ← hashedNames d
    return { s with hashed := s.hashed ++ names }

/-! ### User attributes -/

/-- An item yielded by `parse_user_attribute_subpackets`. -/
structure PAttr where
  subType : Nat
  content : Bytes
  mime : Str
  deriving DecidableEq, Repr

/-- What one subpacket yields (parse.py:470-513); `mime` is the file type detection of the external library magic. -/
def attrItems (mime : Bytes → Py Str) (parseUnknown : Bool) (subType : UInt8) (d : Bytes) : Py (List PAttr) :=
  if subType ≠ 1 then .ok [] else do
    let a ← idx d 0
    let b ← idx d 1
    let v ← idx d 2
    if v = 1 then
      if a.toNat + b.toNat * 256 ≠ 16 then return []
      else do
        let f ← idx d 3
        if (slice d 4 16).any (· ≠ 0) = true then return []
        else if f = 1 ∨ (99 < f.toNat ∧ f.toNat < 111) then return [⟨1, d.drop 16, ← mime (slice d 16 1040)⟩]
        else return []
    else if parseUnknown then return [⟨1, d.drop (a.toNat + b.toNat * 256), ← mime ((d.drop (a.toNat + b.toNat * 256)).take 1024)⟩]
    else return []

/-- `parse_user_attribute_subpackets` (parse.py:449-513), exhausted by `list`. Every turn moves the offset forward, so the length of the data is
enough fuel. -/
def userAttrLoop (mime : Bytes → Py Str) (parseUnknown : Bool) (data : Bytes) : (fuel : Nat) → (offset : Nat) → Py (List PAttr)
  | 0, _ => .error .diverges
  | fuel + 1, offset =>
    if data.length ≤ offset then .ok []
    else do
      let (subOffset, subLen, isPartial) ← newPacketLength data offset
      if isPartial then return []
      else do
        let t ← idx data subOffset
        let start := offset + subOffset + 1
        let items ← attrItems mime parseUnknown t (slice data start (start + subLen))
        let rest ← userAttrLoop mime parseUnknown data fuel (start + subLen)
        return items ++ rest

def parseUserAttr (mime : Bytes → Py Str) (parseUnknown : Bool) (data : Bytes) : Py (List PAttr) :=
  userAttrLoop mime parseUnknown data (data.length + 1) 0

/-! ### Keys and key streams -/

/-- A pgpdump packet as parse.py:621-694 reads it. `sigType` is meaningful for signatures and `version` for keys. -/
structure PPacket where
  raw : Nat
  sigType : Nat
  version : Nat
  deriving DecidableEq, Repr

def orderErr : Py Unit := .error (.pgp "InvalidKeyPacketOrder")
def typeErr : Py Unit := .error (.pgp "InvalidKeyPacketType")

/-- The last packet before that is not a signature (parse.py:639). -/
def lastNonSig (before : List PPacket) : Option PPacket := (before.reverse.filter (·.raw ≠ 2)).head?

/-- A signature (parse.py:637-673). -/
def checkPSig (before : List PPacket) (this : PPacket) : Py Unit :=
  match before.getLast?, lastNonSig before with
  | some prev, some nonSig =>
    if this.sigType = 0x1f then if before.all (fun t => decide (t.raw ∈ [6, 2])) then .ok () else orderErr
    else if this.sigType = 0x18 then if prev.raw ≠ 14 then orderErr else .ok ()
    else if this.sigType = 0x20 then if before.all (fun t => decide (t.raw ∈ [6, 2])) then .ok () else orderErr
    else if this.sigType = 0x28 then if prev.raw ≠ 2 ∨ prev.sigType ≠ 0x18 then orderErr else .ok ()
    else if this.sigType ∈ [0x10, 0x11, 0x12, 0x13] then if nonSig.raw ∉ [13, 17] then orderErr else .ok ()
    else typeErr
  | _, _ => .error .indexError

/-- A subkey (parse.py:686-692); `after` is what follows. -/
def checkPSub (version : Nat) (after : List PPacket) : Py Unit :=
  if version < 4 then typeErr
  else match after with
    | [] => .error .indexError
    | n :: _ => if n.raw ≠ 2 ∨ n.sigType ≠ 0x18 then orderErr else .ok ()

/-- One turn of the loop of parse.py:629-694. -/
def checkPPacket (version : Nat) (before : List PPacket) (this : PPacket) (after : List PPacket) : Py Unit :=
  if this.raw = 6 then if before ≠ [] then orderErr else .ok ()
  else if this.raw = 2 then checkPSig before this
  else if this.raw = 13 then if before.all (fun t => decide (t.raw ∈ [6, 2, 13])) then .ok () else orderErr
  else if this.raw = 17 then if before.all (fun t => decide (t.raw ∈ [6, 2, 13, 17])) then .ok () else orderErr
  else if this.raw = 14 then checkPSub version after
  else typeErr

def validatePLoop (version : Nat) : (before rest : List PPacket) → Py Unit
  | _, [] => .ok ()
  | before, p :: rest => do
    checkPPacket version before p rest
    validatePLoop version (before ++ [p]) rest

/-- `validate_transferrable_public_key` (parse.py:621-694). -/
def validatePublicKey : List PPacket → Py Unit
  | [] => .error .indexError
  | p :: ps => if p.raw ≠ 6 then orderErr else validatePLoop p.version [] (p :: ps)

/-- What `next(packets)` gives, one element a call: a packet, or `none` for an exception other than StopIteration. After the list, StopIteration. -/
abbrev PStream := List (Option PPacket)

/-- `skip_to_next_key` (parse.py:429-446): the key packet, how many packets were skipped, and the rest of the stream. `first` tells whether no
packet has been read by this call yet (the counter starts at 1 and is not advanced by the first packet). -/
def skipToKey : PStream → (skipped : Nat) → (first : Bool) → Option PPacket × Nat × PStream
  | [], skipped, _ => (none, skipped, [])
  | none :: rest, skipped, _ => let (p, extra, rest') := skipToKey rest 1 true; (p, skipped + extra + 1, rest')
  | some p :: rest, skipped, first =>
    let n := if first then skipped else skipped + 1
    if p.raw = 6 then (some p, n, rest) else skipToKey rest n false

theorem skipToKey_length (s : PStream) (n : Nat) (f : Bool) : (skipToKey s n f).2.2.length ≤ s.length := by
  induction s generalizing n f with
  | nil => exact Nat.le_refl _
  | cons x rest ih =>
    cases x with
    | none => simp only [skipToKey]; exact Nat.le_succ_of_le (ih 1 true)
    | some p =>
      simp only [skipToKey]
      split
      · exact Nat.le_succ _
      · exact Nat.le_succ_of_le (ih _ _)

/-- What a run of the generator `parse` gives: the keys yielded, and the exception that ends it, if any. -/
structure PRun (κ : Type) where
  keys : List κ
  stop : Py Unit

def PRun.yield {κ : Type} (k : κ) (r : PRun κ) : PRun κ := { r with keys := k :: r.keys }

/-- validate, then `yield parse_key_packets(key_packets)` (parse.py:731-733, 738-740). -/
def oneKey {κ : Type} (parseKey : List PPacket → Py κ) (ps : List PPacket) : Py κ := do
  validatePublicKey ps
  parseKey ps

/-- Yield a key and go on, or stop with its exception. -/
def yieldThen {κ : Type} (r : Py κ) (k : PRun κ) : PRun κ :=
  match r with
  | .ok v => k.yield v
  | .error e => ⟨[], .error e⟩

/-- The loop of `parse` (parse.py:708-740): the current packet, the packets of the current key, the rest of the stream. What is written to the
error stream is not modelled. -/
def keyStreamLoop {κ : Type} (parseKey : List PPacket → Py κ) (packet : PPacket) (acc : List PPacket) (stream : PStream) : PRun κ :=
  match stream with
  | [] => yieldThen (oneKey parseKey (acc ++ [packet])) ⟨[], .ok ()⟩
  | none :: rest =>
    match h : skipToKey rest 1 true with
    | (none, _, _) => ⟨[], .ok ()⟩
    | (some p, _, rest') => keyStreamLoop parseKey p [p] rest'
  | some n :: rest =>
    if n.raw = 6 then yieldThen (oneKey parseKey (acc ++ [packet])) (keyStreamLoop parseKey n [] rest)
    else keyStreamLoop parseKey n (acc ++ [packet]) rest
termination_by stream.length
decreasing_by
  · have := skipToKey_length rest 1 true
    rw [h] at this
    simp only [List.length_cons] at this ⊢
    omega
  · simp
  · simp

/-- `parse` (parse.py:697-740). The first `next` is outside the `try`: an empty stream is a RuntimeError (StopIteration inside a generator), an
exception of the first packet passes through. -/
def parseKeyStream {κ : Type} (parseKey : List PPacket → Py κ) (err : PyErr) : PStream → PRun κ
  | [] => ⟨[], .error .runtimeError⟩
  | none :: _ => ⟨[], .error err⟩
  | some p :: rest => keyStreamLoop parseKey p [] rest

/-- `parse_key` with its default `hash_key_data` (parse.py:516-527, utils.py:820-843): sorting with `cmp=` is a TypeError in Python 3. -/
def parseKeyDefault (_ : List PPacket) : Py PSig := .error .typeError

end Pgp
