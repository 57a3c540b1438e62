import Verif.Model.Signature
import Verif.Model.PublicKey
/-
Model of what a key, user id or user attribute reads from its signatures (pgp/transferrable_keys.py:45-182, 285-297; pgp/signature.py:550-565, 794-856), of
signature checking (pgp/signature_verification.py) and of merging (pgp/merge.py).
-/
namespace Pgp

/-- A signed part of a key: primary key, subkey, user id or user attribute. `own` are the key ids of the primary key and its subkeys. -/
structure Part where
  version : Nat
  selfTypes : List Nat
  revTypes : List Nat
  own : List Str
  sigs : List SigObj

/-- `bytes(signature.to_packet())` (signature.py:244-245, packets.py:121-153). -/
def SigObj.bytes (fl : FloorLog2) (s : SigObj) : Py Bytes := do
  let sig ← s.toPacket
  let c ← Sig.content fl sig
  Packet.toBytes 1 ⟨s.fmt, 2, c⟩

/-- `KeySignature.is_self_signature` (transferrable_keys.py:169-181). -/
def SigObj.isSelf (own : List Str) (s : SigObj) : Py Bool := do
  let ids ← s.issuers
  return ids.any (· ∈ own)

/-- 1900-01-01 in microseconds since the epoch. -/
def year1900 : Int := -2208988800 * 1000000

/-- `set(a) & set(b)` is not empty. -/
def meets (a b : List Str) : Bool := a.any (· ∈ b)

/-- The loop of `get_most_recent_selfsig` (transferrable_keys.py:94-114), from index `i`; `last_signature_created` is never updated. The result is the index of the
signature chosen. -/
def mostRecentLoop (types : List Nat) (own : List Str) : (i : Nat) → Option Nat → List SigObj → Py (Option Nat)
  | _, best, [] => .ok best
  | i, best, s :: l => do
    let self ← s.isSelf own
    if !self then mostRecentLoop types own (i + 1) best l
    else if s.sigType ∉ types then mostRecentLoop types own (i + 1) best l
    else do
      let t ← s.creationTime
      mostRecentLoop types own (i + 1) (if year1900 < t then some i else best) l

/-- `get_most_recent_selfsig(revocation)` (transferrable_keys.py:94-114). -/
def Part.mostRecent (p : Part) (revocation : Bool) : Py (Option Nat) :=
  mostRecentLoop (if revocation then p.revTypes else p.selfTypes) p.own 0 none p.sigs

/-- `getattr(x, name, default)` where the getter may raise: an AttributeError raised inside the getter is replaced by the default. -/
def swallow {α : Type} (default : α) : Py α → Py α
  | .error .attributeError => .ok default
  | r => r

/-- The properties of a part made by `__selfsig_attribute` from a property of the signature (transferrable_keys.py:134-161). -/
inductive KeyAttr where
  | prefComp | prefHash | prefSym | noModify | prefKeyServer | primaryUserId | policyUri | mayCertify | maySign | mayEncryptComms
  | mayEncryptStorage | mayAuth | maySplit | mayMulti | supportsMdc
  deriving DecidableEq, Repr

/-- The signature property each one is made from (transferrable_keys.py:140-161). -/
def KeyAttr.field : KeyAttr → Field
  | .prefComp => .prefComp
  | .prefHash => .prefHash
  | .prefSym => .prefSym
  | .noModify => .noModify
  | .prefKeyServer => .prefKeyServer
  | .primaryUserId => .primaryUserId
  | .policyUri => .policyUri
  | .mayCertify => .flag .certify
  | .maySign => .flag .sign
  | .mayEncryptComms => .flag .encComms
  | .mayEncryptStorage => .flag .encComms
  | .mayAuth => .flag .encComms
  | .maySplit => .flag .split
  | .mayMulti => .flag .multi
  | .supportsMdc => .flag .multi

/-- What the getter returns: nothing (the default: None or []) or the value read from the signature (which may be None). -/
inductive Got (α : Type) where
  | default
  | value (v : Option α)

/-- The getter of `__selfsig_attribute` (transferrable_keys.py:118-123): below version 4 `result` is unbound. -/
def Part.attr (p : Part) (a : KeyAttr) : Py (Got a.field.Val) :=
  if p.version ≥ 4 then do
    match ← p.mostRecent false with
    | none => return .default
    | some i =>
      match p.sigs[i]? with
      | none => return .default
      | some s => swallow .default (do let v ← s.get a.field; return .value v)
  else .error .unboundLocal

/-! ### The signature a signature refers to -/

/-- The fallback of `target` (signature.py:822-831): the signatures other than `i` that share an issuer with it. -/
def sharing (ids : List Str) (i : Nat) : (j : Nat) → List SigObj → Py (List SigObj)
  | _, [] => .ok []
  | j, s :: l =>
    if j = i then sharing ids i (j + 1) l
    else do
      let js ← s.issuers
      let r ← sharing ids i (j + 1) l
      return (if meets ids js then s :: r else r)

/-- The loop over the target subpackets (signature.py:810-820): with a signature to compare, `self.signature_version` does not exist (after `to_packet` of that
signature). -/
def targetSubs (sigs : List SigObj) : List Sub → Py Unit
  | [] => .ok ()
  | .plain _ (.target _ _ _ _) :: l =>
    match sigs with
    | [] => targetSubs sigs l
    | s :: _ => do
      let _ ← s.toPacket
      .error .attributeError
  | _ :: _ => .error .attributeError

/-- `if len(revocable) == 1: return revocable[0]`, else None (signature.py:832-833). -/
def onlyOne {α : Type} : List α → Option α
  | [t] => some t
  | _ => none

/-- `target` of the signature with index `i` (signature.py:806-833). In the fallback `self.issuer_key_ids` is read again for every other signature. -/
def targetOf (sigs : List SigObj) (i : Nat) (s : SigObj) : Py (Option SigObj) := do
  targetSubs sigs (s.subs 31)
  if sigs.length ≤ 1 then return none
  else do
    let ids ← s.issuers
    let r ← sharing ids i 0 sigs
    return onlyOne r

/-- `revocation` (signature.py:798-803). -/
def SigObj.revocation (s : SigObj) : Bool := s.sigType = 0x30 || s.sigType = 0x20 || s.sigType = 0x28

/-- `s.target == self`: comparing None with a signature calls `self.__eq__(None)`, which raises (signature.py:244-245). -/
def targetIs (fl : FloorLog2) (target : Option SigObj) (self : SigObj) : Py Bool :=
  match target with
  | none => .error .attributeError
  | some t => do
    let a ← t.bytes fl
    let b ← self.bytes fl
    return a = b

/-- The loop of `revoked` (signature.py:853-855). -/
def revokedLoop (fl : FloorLog2) (sigs : List SigObj) (self : SigObj) : (j : Nat) → List SigObj → Py Bool
  | _, [] => .ok false
  | j, s :: l =>
    if s.revocation then do
      let t ← targetOf sigs j s
      let hit ← targetIs fl t self
      if hit then return true else revokedLoop fl sigs self (j + 1) l
    else revokedLoop fl sigs self (j + 1) l

/-- `revoked` of a signature of a part with the given signatures (signature.py:841-856). -/
def sigRevoked (fl : FloorLog2) (sigs : List SigObj) (self : SigObj) : Py Bool :=
  if self.sigType ∈ [0x1f, 0x18, 0x10, 0x11, 0x12, 0x13] then revokedLoop fl sigs self 0 sigs else .ok false

/-! ### Key expiration -/

/-- `expiration_time` of a key: None, the number 0, or a date. -/
inductive KeyExp where
  | never
  | zero
  | at (t : Int)
  deriving DecidableEq, Repr

/-- `self.target.creation_time + timedelta(seconds=t)` (signature.py:558). -/
def addPeriod (target : Option SigObj) (t : Nat) : Py KeyExp :=
  match target with
  | none => .error .attributeError
  | some o => do
    let c ← o.creationTime
    return .at (c + fromTimestamp t)

/-- `_get_key_expiration_time` of the signature with index `i` (signature.py:550-558): relative to the creation time of the signature `target`. -/
def keyExpirationOf (sigs : List SigObj) (i : Nat) (s : SigObj) : Py KeyExp := do
  match ← timeOf (s.subs 9) with
  | none => return .never
  | some 0 => return .zero
  | some t => do
    let o ← targetOf sigs i s
    addPeriod o t

/-- `BasePublicKey.expiration_time` (transferrable_keys.py:285-289, 118-123); `stored` is `_expiration_time`. -/
def Part.expirationTime (p : Part) (stored : KeyExp) : Py KeyExp :=
  if p.version = 2 ∨ p.version = 3 then .ok stored
  else if p.version ≥ 4 then do
    match ← p.mostRecent false with
    | none => return .never
    | some i =>
      match p.sigs[i]? with
      | none => return .never
      | some s => swallow .never (keyExpirationOf p.sigs i s)
  else .ok .never

/-- `_expiration_time` of a key made from a packet (transferrable_keys.py:196-203): only versions from 4 on, whose packets have no validity period, can get one. -/
def storedExpiration (k : PubKey) : KeyExp :=
  match k.expirationDays with
  | none => .never
  | some d => if k.version < 4 ∨ d = 0 then .never else .at (fromTimestamp k.creationTime + (d : Int) * 86400 * 1000000)

/-! ### Signature checking -/

/-- The key a signature is checked against. `parentId` is the key id of the primary key. -/
structure CheckKey where
  keyId : Str
  parentId : Str
  creation : Int
  expiration : Py KeyExp
  sigs : List SigObj

/-- `[rev_key.fingerprint for rev_key in sig.revocation_keys]` (signature.py:612-617). -/
def revFingerprints : List Sub → Py (List Str)
  | [] => .ok []
  | .plain _ (.revocationKey fp _ _) :: l => do
    let r ← revFingerprints l
    return fp :: r
  | _ :: _ => .error .attributeError

/-- `s[-n:]` for `n > 0`. -/
def tailN (n : Nat) (s : Str) : Str := s.drop (s.length - n)

/-- signature_verification.py:137-145. -/
def collectRevKeys : List SigObj → Py (List Str)
  | [] => .ok []
  | s :: l =>
    if s.sigType = 0x18 ∨ s.sigType = 0x1f then do
      let f ← revFingerprints (s.subs 12)
      let r ← collectRevKeys l
      return f.map (tailN 8) ++ r
    else collectRevKeys l

/-- signature_verification.py:146-161. -/
def revocationLoop (k : CheckKey) (strict : Bool) (revKeys : List Str) : Bool → List SigObj → Py Bool
  | revoked, [] => .ok revoked
  | revoked, s :: l =>
    if s.sigType = 0x28 ∨ s.sigType = 0x20 then do
      let t ← s.creationTime
      if t < k.creation ∧ strict = true then .error (.pgp "SignedByRevokedKey")
      else do
        let ids ← s.issuers
        if k.parentId ∈ ids ∨ (revKeys ≠ [] ∧ tailN 8 k.keyId ∈ revKeys) then
          if strict then .error (.pgp "SigningKeyHasBeenRevoked") else revocationLoop k strict revKeys true l
        else revocationLoop k strict revKeys revoked l
    else revocationLoop k strict revKeys revoked l

/-- signature_verification.py:124-128: comparing the number 0 with a date is a TypeError. -/
def checkKeyExpired (e : KeyExp) (now : Int) (strict : Bool) : Py Bool :=
  match e with
  | .never => .ok false
  | .zero => .error .typeError
  | .at t => if t < now then if strict then .error (.pgp "SigningKeyHasExpired") else .ok true else .ok false

/-- signature_verification.py:130-161. -/
def checkRevocation (k : CheckKey) (s : SigObj) (strict : Bool) : Py Bool := do
  let revocable ← s.get .revocable
  if revocable = some false then return false
  else do
    let revKeys ← collectRevKeys k.sigs
    revocationLoop k strict revKeys false k.sigs

/-- `check_signature_values` (signature_verification.py:103-163): whether the key has expired and whether it has been revoked. -/
def checkSignatureValues (k : CheckKey) (s : SigObj) (now : Int) (strict : Bool) : Py (Bool × Bool) := do
  let sc ← s.creationTime
  if k.creation > sc then .error (.pgp "SignatureCreatedBeforeContent")
  else if k.creation > now then .error (.pgp "SigningKeyCreatedInTheFuture")
  else if sc > now then .error (.pgp "SignatureCreatedInTheFuture")
  else do
    let e ← k.expiration
    let expired ← checkKeyExpired e now strict
    let revoked ← checkRevocation k s strict
    return (expired, revoked)

/-- `check_signature` (signature_verification.py:184-201): `strict` is passed as the third positional argument, which is `current_time`, also given by name. -/
def checkSignature (_ : CheckKey) (_ : SigObj) (_ : Bool) (_ : Option Int) : Py (Bool × Bool) := .error .typeError

/-- What `validate_signature` reads of the signature with type 0x30 and its surroundings. -/
structure RevCtx where
  parentRevKeys : Py (List Str)
  target : Py (Option SigObj)

/-- signature_verification.py:287-305. `signature.target` is read up to four times; it has the same value each time. -/
def validateCertRevocation (signingKey : CheckKey) (s : SigObj) (ctx : RevCtx) : Py (Bool × Bool) := do
  let fps ← ctx.parentRevKeys
  match ← ctx.target with
  | none => return (false, false)
  | some t => do
    let ids ← t.issuers
    if signingKey.keyId ∉ ids ∧ signingKey.keyId ∉ fps.map (tailN 16) then .error (.pgp "SignatureVerificationFailed")
    else do
      let r ← t.get .revocable
      if r = some false then .error (.pgp "SignatureVerificationFailed")
      else do
        let a ← t.creationTime
        let b ← s.creationTime
        if a > b then .error (.pgp "SignatureCreatedBeforeContent") else return (false, false)

/-- `get_revocation_keys` (signature_verification.py:54-63). -/
def getRevocationKeys : List SigObj → Py (List Str)
  | [] => .ok []
  | s :: l =>
    if s.sigType = 0x20 then do
      let f ← revFingerprints (s.subs 12)
      let r ← getRevocationKeys l
      return f.map (tailN 16) ++ r
    else getRevocationKeys l

/-- `check_revocation_keys` (signature_verification.py:218-227); the generator is run to its end here, while Python stops at the first hit. -/
def checkRevocationKeys (k : CheckKey) (s : SigObj) (signingKey : CheckKey) (strict : Bool) (now : Option Int) : Py (Option (Bool × Bool)) := do
  let rks ← getRevocationKeys k.sigs
  if rks.any (fun rk => tailN k.keyId.length rk = k.keyId) then do
    let r ← checkSignature signingKey s strict now
    return some r
  else return none

/-- `validate_signature` (signature_verification.py:230-313). `hashing` is the outcome of computing the hash (lines 243-256). -/
def validateSignature (hashing : Py Unit) (s : SigObj) (signingKey publicKey : CheckKey) (ctx : RevCtx) (strict : Bool) (now : Option Int) :
    Py (Option (Bool × Bool)) := do
  hashing
  if s.sigType = 0x20 then do
    let ids ← s.issuers
    if publicKey.keyId ∉ ids then checkRevocationKeys publicKey s signingKey strict now
    else do
      let r ← checkSignature publicKey s strict now
      return some r
  else if s.sigType = 0x28 then do
    let r ← checkSignature publicKey s strict now
    return some r
  else if s.sigType = 0x18 then do
    let ids ← s.issuers
    if publicKey.keyId ∉ ids then .error (.pgp "InvalidSubkeyBindingSignature")
    else do
      let r ← checkSignature publicKey s strict now
      return some r
  else if s.sigType = 0x1f then do
    let r ← checkSignature publicKey s strict now
    return some r
  else if s.sigType ∈ [0x10, 0x12, 0x13, 0x11] then do
    let r ← checkSignature signingKey s strict now
    return some r
  else if s.sigType = 0x19 then .error (.pgp "UnexpectedSignatureType")
  else if s.sigType = 0x30 then do
    let r ← validateCertRevocation signingKey s ctx
    return some r
  else .error (.pgp "UnexpectedSignatureType")

/-- Subclasses of `InvalidSignature` (exceptions.py:142-198) and of `CannotValidateSignature` (112-139). -/
def PyErr.isInvalidSignature : PyErr → Bool
  | .pgp n => n ∈ ["InvalidSignature", "SignatureDigestMismatch", "SignatureVerificationFailed", "InvalidSubkeyBindingSignature", "MissingBackSignature",
      "InvalidBackSignature", "SignatureTimeConflict", "SigningKeyCreatedInTheFuture", "SignatureCreatedInTheFuture", "SignatureCreatedBeforeContent"]
  | _ => false

def PyErr.isCannotValidate : PyErr → Bool
  | .pgp n => n ∈ ["CannotValidateSignature", "UnexpectedSignatureType", "UnsupportedPublicKeyAlgorithm", "PublicKeyAlgorithmCannotSign", "UnsupportedDigestAlgorithm"]
  | _ => false

/-- The inner loop of `validate_signatures` for one signature (signature_verification.py:327-349), over the candidate signing keys of its issuers (none where no
key is known): the mark `validated`. `stale` says whether `key_expired` has been bound by an earlier signature. -/
def validateOne (validate : CheckKey → Py (Option (Bool × Bool))) (stale : Bool) : Option Bool → List (Option CheckKey) → Py (Option Bool)
  | mark, [] => .ok mark
  | mark, none :: l => validateOne validate stale mark l
  | _, some k :: l =>
    match validate k with
    | .ok none => .error .typeError
    | .ok (some _) => .ok (some true)
    | .error e =>
      if e.isInvalidSignature then .ok (some false)
      else if e.isCannotValidate then if stale then validateOne validate stale none l else .error .unboundLocal
      else .error e

/-! ### Merging -/

/-- `signature_key` (merge.py:87-95): raises if the creation time or the issuers cannot be read. -/
def signatureKey (s : SigObj) : Py Unit := do
  let _ ← s.creationTime
  let _ ← s.issuers
  return ()

/-- A key with its lists of parts; `none` is Python's None, both for a list and for a signature. -/
structure MKey (P : Type) where
  base : P
  sigs : List (Option SigObj)
  uids : Option (List (P × List (Option SigObj)))
  attrs : Option (List (P × List (Option SigObj)))
  subs : Option (List (P × List (Option SigObj)))

/-- `signature_key(sig)` for every signature of a part (merge.py:57-58); an element None has no attributes. -/
def signatureKeys : List (Option SigObj) → Py Unit
  | [] => .ok ()
  | none :: _ => .error .attributeError
  | some s :: l => do
    signatureKey s
    signatureKeys l

/-- `merge_sigpairs` (merge.py:41-77). Every part is a dictionary key of its own (parts are compared by identity; a part object present in both lists is not
represented), the list it is mapped to is empty, so nothing is ever appended to it: all signatures of all parts are replaced by a single None. The function
returns None. -/
def mergeSigpairs {P : Type} (parts : List (P × List (Option SigObj))) : Py (List (P × List (Option SigObj))) := do
  parts.forM (fun p => signatureKeys p.2)
  return parts.map (fun p => (p.1, [none]))

/-- The loop over the candidate's own signatures (merge.py:102-113): the key has a set in it, which is not hashable. -/
def mergeOwn : List (Option SigObj) → Py Unit
  | [] => .ok ()
  | none :: _ => .error .attributeError
  | some s :: _ => do
    signatureKey s
    .error .typeError

/-- `part1 + part2` of lists that may be None. -/
def addLists {α : Type} : Option (List α) → Option (List α) → Py (List α)
  | some a, some b => .ok (a ++ b)
  | _, _ => .error .typeError

/-- `merge` (merge.py:98-136): the merged key, and the parts of the two keys as they are left. `equivalent` is `keys_equivalent`. -/
def merge {P : Type} (equivalent : P → P → Bool) (key candidate : MKey P) : Py (MKey P × List (P × List (Option SigObj))) :=
  if !equivalent key.base candidate.base then .ok (key, [])
  else do
    mergeOwn candidate.sigs
    let u ← addLists key.uids candidate.uids
    let u' ← mergeSigpairs u
    let a ← addLists key.attrs candidate.attrs
    let a' ← mergeSigpairs a
    let b ← addLists key.subs candidate.subs
    let b' ← mergeSigpairs b
    return (⟨key.base, key.sigs, none, none, none⟩, u' ++ a' ++ b')

end Pgp
