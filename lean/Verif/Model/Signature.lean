import Verif.Model.SigPackets
import Verif.Model.Armor
import Verif.Model.Framing
/-
Model of signature objects, pgp/signature.py:111-874.  Subpackets are modelled as values: a subpacket object that is shared between two
signatures (or listed twice) is not represented.  Dates are counted in microseconds since the epoch in a time zone without daylight saving, so that
`fromtimestamp` and `mktime` are inverse; dates beyond the year 9999 (OverflowError) are not represented.
-/
namespace Pgp

/-- A signature object (signature.py:217-242). `created` and `keyId` are the attributes `_creation_time`, `_issuer_key_id`, set for versions 2
and 3 only. -/
structure SigObj where
  version : Nat
  sigType : Nat
  pubAlg : Nat
  hashAlg : Nat
  created : Option Int
  keyId : Option Str
  hashed : List Sub
  unhashed : List Sub
  hash2 : Bytes
  values : List (Option Nat)
  fmt : HeaderFormat

/-- `datetime.datetime.fromtimestamp(seconds)`. -/
def fromTimestamp (seconds : Nat) : Int := (seconds : Int) * 1000000

/-- `BaseSignature.from_packet` (signature.py:130-157). -/
def SigObj.fromPacket (fmt : HeaderFormat) : Sig → Py SigObj
  | .v3 version sigType pubAlg hashAlg created keyId hash2 values =>
    if version = 2 ∨ version = 3 then
      .ok ⟨version, sigType, pubAlg, hashAlg, some (fromTimestamp created), some keyId, [], [], hash2, values, fmt⟩
    else .error .valueError
  | .v4 version sigType pubAlg hashAlg hashed unhashed hash2 values =>
    if version ≥ 4 then .ok ⟨version, sigType, pubAlg, hashAlg, none, none, hashed, unhashed, hash2, values, fmt⟩
    else .error .valueError

/-- The attribute `type` of a subpacket (signature_subpackets.py:30-32). -/
def Sub.type : Sub → Nat
  | .plain _ v => v.type
  | .embedded _ _ => 32

/-- `_get_subpackets` (signature.py:250-255). -/
def SigObj.subs (s : SigObj) (ty : Nat) : List Sub := (s.hashed ++ s.unhashed).filter (fun x => x.type = ty)

/-! ### Attributes stored in one subpacket -/

/-- The boolean attributes of KeyFlagsSubpacket. -/
inductive Flag where
  | certify | sign | encComms | encStorage | auth | split | multi
  deriving DecidableEq, Repr

/-- The properties of a signature that read and write one attribute of one subpacket class. -/
inductive Field where
  | exportable          -- signature.py:382-392
  | revocable           -- 458: defined with the accessors of `exportable`
  | issuerUserId        -- 486-496
  | prefComp            -- 570-582
  | prefHash            -- 584-596
  | prefSym             -- 598-610
  | noModify            -- 638-649 key_server_should_not_modify
  | prefKeyServer       -- 651-662
  | primaryUserId       -- 664-675
  | policyUri           -- 677-687
  | mdc                 -- 689-701 supports_modification_detection
  | flag (f : Flag)     -- 703-792 may_certify_others ... may_have_multiple_owners
  deriving DecidableEq, Repr

/-- The kind of value the property holds. -/
@[reducible] def Field.Val : Field → Type
  | .exportable | .revocable | .noModify | .primaryUserId | .mdc | .flag _ => Bool
  | .issuerUserId | .prefKeyServer | .policyUri => Str
  | .prefComp | .prefHash | .prefSym => List Nat

/-- The subpacket type code passed by the accessors. -/
def Field.subType : Field → Nat
  | .exportable | .revocable => 4
  | .issuerUserId => 28 | .prefComp => 22 | .prefHash => 21 | .prefSym => 11 | .noModify => 23 | .prefKeyServer => 24
  | .primaryUserId => 25 | .policyUri => 26 | .mdc => 30 | .flag _ => 27

/-- One attribute of a KeyFlagsSubpacket. -/
def KeyFlags.get (k : KeyFlags) : Flag → Bool
  | .certify => k.certify | .sign => k.sign | .encComms => k.encComms | .encStorage => k.encStorage | .auth => k.auth
  | .split => k.split | .multi => k.multi

/-- `setattr` of one attribute of a KeyFlagsSubpacket. -/
def KeyFlags.set (k : KeyFlags) (b : Bool) : Flag → KeyFlags
  | .certify => { k with certify := b }
  | .sign => { k with sign := b }
  | .encComms => { k with encComms := b }
  | .encStorage => { k with encStorage := b }
  | .auth => { k with auth := b }
  | .split => { k with split := b }
  | .multi => { k with multi := b }

/-- `getattr(subpacket, attr)` (signature.py:269-279). -/
def Field.getattr : (f : Field) → Plain → Py f.Val
  | .exportable, .exportable b => .ok b
  | .revocable, .exportable b => .ok b
  | .issuerUserId, .userId s => .ok s
  | .prefComp, .prefComp l => .ok l
  | .prefHash, .prefHash l => .ok l
  | .prefSym, .prefSym l => .ok l
  | .noModify, .keyServerPrefs b => .ok b
  | .prefKeyServer, .prefKeyServer u => .ok u
  | .primaryUserId, .primaryUserId b => .ok b
  | .policyUri, .policyUri u => .ok u
  | .mdc, .features b => .ok b
  | .flag x, .keyFlags k => .ok (k.get x)
  | _, _ => .error .attributeError

/-- `setattr(subpacket, attr, value)` (signature.py:281-285). A subpacket object of another class would get a stray attribute; that is not
represented. -/
def Field.setattr : (f : Field) → f.Val → Plain → Plain
  | .exportable, v, .exportable _ => .exportable v
  | .revocable, v, .exportable _ => .exportable v
  | .issuerUserId, v, .userId _ => .userId v
  | .prefComp, v, .prefComp _ => .prefComp v
  | .prefHash, v, .prefHash _ => .prefHash v
  | .prefSym, v, .prefSym _ => .prefSym v
  | .noModify, v, .keyServerPrefs _ => .keyServerPrefs v
  | .prefKeyServer, v, .prefKeyServer _ => .prefKeyServer v
  | .primaryUserId, v, .primaryUserId _ => .primaryUserId v
  | .policyUri, v, .policyUri _ => .policyUri v
  | .mdc, v, .features _ => .features v
  | .flag x, v, .keyFlags k => .keyFlags (k.set v x)
  | _, _, p => p

/-- The constructor `Class(critical=..., preferred_algorithms=...)` asserts octets (signature_subpackets.py:223-225). -/
def algsOk (l : List Nat) : Py Unit := pyAssert (l.all (· < 256))

/-- `Class(**{attr: value, 'critical': False})` (signature.py:289-293, signature_subpackets.py). The other attributes of a KeyFlagsSubpacket
default to True (450-453). -/
def Field.construct : (f : Field) → f.Val → Py Plain
  | .exportable, v => .ok (.exportable v)
  | .revocable, v => .ok (.exportable v)
  | .issuerUserId, v => .ok (.userId v)
  | .prefComp, v => do algsOk v; return .prefComp v
  | .prefHash, v => do algsOk v; return .prefHash v
  | .prefSym, v => do algsOk v; return .prefSym v
  | .noModify, v => .ok (.keyServerPrefs v)
  | .prefKeyServer, v => .ok (.prefKeyServer v)
  | .primaryUserId, v => .ok (.primaryUserId v)
  | .policyUri, v => .ok (.policyUri v)
  | .mdc, v => .ok (.features v)
  | .flag x, v => .ok (.keyFlags (KeyFlags.set ⟨true, true, true, true, true, true, true⟩ v x))

/-- `getattr` of a subpacket object. -/
def Field.read (f : Field) : Sub → Py f.Val
  | .plain _ v => f.getattr v
  | .embedded _ _ => .error .attributeError

/-- `setattr` of a subpacket object. -/
def Field.write (f : Field) (v : f.Val) : Sub → Sub
  | .plain c p => .plain c (f.setattr v p)
  | .embedded c s => .embedded c s

/-- `_get_subpacket_values(type, attr)` (signature.py:269-279): the first one's value, or None. -/
def SigObj.get (s : SigObj) (f : Field) : Py (Option f.Val) :=
  match s.subs f.subType with
  | [] => .ok none
  | x :: _ => do
    let v ← f.read x
    return some v

/-- `_update_subpacket_values` and `_add_subpacket_values` (signature.py:281-293). -/
def SigObj.set (s : SigObj) (f : Field) (v : f.Val) : Py SigObj :=
  match s.subs f.subType with
  | [] => do
    let p ← f.construct v
    return { s with hashed := s.hashed ++ [.plain false p] }
  | _ :: _ =>
    let upd (x : Sub) : Sub := if x.type = f.subType then f.write v x else x
    .ok { s with hashed := s.hashed.map upd, unhashed := s.unhashed.map upd }

/-! ### Dates -/

/-- The attribute `time` of the first subpacket of a type, or None. Only used for the types 2, 3 and 9, whose classes have it. -/
def timeOf : List Sub → Py (Option Nat)
  | [] => .ok none
  | .plain _ (.creationTime t) :: _ => .ok (some t)
  | .plain _ (.expiration t) :: _ => .ok (some t)
  | .plain _ (.keyExpiration t) :: _ => .ok (some t)
  | _ :: _ => .error .attributeError

/-- `_get_creation_time` (signature.py:301-308). For versions 2 and 3 `fromtimestamp` is given a datetime (or None). -/
def SigObj.creationTime (s : SigObj) : Py Int :=
  if s.version = 2 ∨ s.version = 3 then .error .typeError
  else if s.version ≥ 4 then do
    match ← timeOf (s.subs 2) with
    | none => .error .typeError
    | some t => return fromTimestamp t
  else .error .unboundLocal

/-- `_set_creation_time` (signature.py:310-321): `self.signature__expiration_time` does not exist. -/
def SigObj.setCreationTime (_ : SigObj) (_ : Int) : Py SigObj := .error .attributeError

/-- `_get_signature_expiration_time` (signature.py:356-364). -/
def SigObj.expirationTime (s : SigObj) : Py (Option Int) := do
  match ← timeOf (s.subs 3) with
  | none => return none
  | some 0 => return none
  | some t => do
    let c ← s.creationTime
    return some (c + fromTimestamp t)

/-- Writing the attribute `time` of the subpackets of a type, or adding one (signature.py:281-293). -/
def SigObj.setTime (s : SigObj) (ty : Nat) (mk : Nat → Plain) (t : Nat) : SigObj :=
  match s.subs ty with
  | [] => { s with hashed := s.hashed ++ [.plain false (mk t)] }
  | _ :: _ =>
    let upd (x : Sub) : Sub := match x with
      | .plain c p => if p.type = ty then .plain c (mk t) else x
      | x => x
    { s with hashed := s.hashed.map upd, unhashed := s.unhashed.map upd }

/-- `_set_signature_expiration_time` (signature.py:366-376): None changes nothing. -/
def SigObj.setExpirationTime (s : SigObj) : Option Int → Py SigObj
  | none => .ok s
  | some dt => do
    let c ← s.creationTime
    if dt < c then .error .valueError
    else do
      let c ← s.creationTime
      return s.setTime 3 .expiration ((dt - c) / 1000000).toNat

/-- `expired` (signature.py:836-839). -/
def SigObj.expired (now : Int) (s : SigObj) : Py Bool := do
  match ← s.expirationTime with
  | none => return false
  | some t => return decide (now > t)

/-! ### Issuers -/

/-- The attribute `key_id` of issuer subpackets, as a list (signature.py:269-275). -/
def issuerIds : List Sub → Py (List Str)
  | [] => .ok []
  | .plain _ (.issuer k) :: l => do
    let ks ← issuerIds l
    return k :: ks
  | _ :: _ => .error .attributeError

/-- `_get_issuer_key_ids` (signature.py:325-331): `self._issuer_key_ids` does not exist. -/
def SigObj.issuers (s : SigObj) : Py (List Str) :=
  if s.version = 2 ∨ s.version = 3 then .error .attributeError
  else if s.version ≥ 4 then issuerIds (s.subs 16)
  else .error .typeError

/-- The class of a subpacket: its type code, or 0 for the base class. -/
def Sub.cls : Sub → Nat
  | .plain _ (.other _) => 0
  | x => x.type

/-- `SignatureSubpacket.__eq__` (signature_subpackets.py:34-38), for subpackets that can be written; equality by object identity of
subpackets that cannot is not represented. -/
def Sub.same (fl : FloorLog2) (a b : Sub) : Bool :=
  a.cls = b.cls &&
  match Sub.toBytes fl a, Sub.toBytes fl b with
  | .ok x, .ok y => x = y
  | _, _ => false

/-- `getattr(sp, 'key_id') == value` for an issuer subpacket (signature.py:298). -/
def Sub.hasIssuer (k : Str) : Sub → Bool
  | .plain _ (.issuer k') => k' = k
  | _ => false

/-- The subpackets equal to an issuer subpacket with the given id. -/
def SigObj.issuerHit (fl : FloorLog2) (s : SigObj) (k : Str) (x : Sub) : Bool := (s.subs 16).any (fun y => y.hasIssuer k && Sub.same fl y x)

/-- `_remove_subpacket_values` and `_remove_subpacket` for issuers (signature.py:263-267, 295-299). -/
def SigObj.removeIssuer (fl : FloorLog2) (s : SigObj) (k : Str) : SigObj :=
  { s with hashed := s.hashed.filter (fun x => !s.issuerHit fl k x), unhashed := s.unhashed.filter (fun x => !s.issuerHit fl k x) }

/-- One turn of the loop of `_set_issuer_key_ids` (signature.py:333-352). -/
def issuerStep (fl : FloorLog2) (existing ids : List Str) (s : SigObj) (k : Str) : SigObj :=
  if k ∈ existing ∧ ids ≠ [] then s
  else if k ∈ existing then s.removeIssuer fl k
  else { s with hashed := s.hashed ++ [.plain false (.issuer k)] }

/-- `_set_issuer_key_ids` (signature.py:333-352). `order` is the order in which Python iterates over the set of the given elements. -/
def SigObj.setIssuers (fl : FloorLog2) (order : List Str → List Str) (s : SigObj) (ids : List Str) : Py SigObj := do
  let existing ← s.issuers
  return (order (ids ++ existing)).foldl (issuerStep fl existing ids) s

/-! ### Construction and conversion -/

/-- `BaseSignature.__init__` with version 4 or later (signature.py:217-242): with an issuer, the list assignment reads `hashed_subpackets` before it
exists; the creation time is put in an attribute that is never read again. -/
def SigObj.new (version sigType pubAlg hashAlg : Nat) (hash2 : Bytes) (values : List (Option Nat)) (created : Option Int) (keyId : Option Str)
    (hashed unhashed : List Sub) (fmt : HeaderFormat := .new) : Py SigObj :=
  if version = 2 ∨ version = 3 then .ok ⟨version, sigType, pubAlg, hashAlg, created, keyId, hashed, unhashed, hash2, values, fmt⟩
  else if version ≥ 4 then
    if keyId ≠ none then .error .attributeError
    else .ok ⟨version, sigType, pubAlg, hashAlg, created, none, hashed, unhashed, hash2, values, fmt⟩
  else .ok ⟨version, sigType, pubAlg, hashAlg, none, none, hashed, unhashed, hash2, values, fmt⟩

/-- `to_packet` (signature.py:159-180). -/
def SigObj.toPacket (s : SigObj) : Py Sig :=
  if s.version ≥ 4 then .ok (.v4 s.version s.sigType s.pubAlg s.hashAlg s.hashed s.unhashed s.hash2 s.values)
  else if s.version = 2 ∨ s.version = 3 then do
    let c ← s.creationTime
    let ids ← s.issuers
    match ids with
    | [] => .error .indexError
    | k :: _ => return .v3 s.version s.sigType s.pubAlg s.hashAlg (c / 1000000).toNat k s.hash2 s.values
  else .error .unboundLocal

end Pgp
