import Verif.Model.Certify
import Verif.Model.KeySigs
import Verif.Model.KeyIds
import Verif.Model.SigLists
import Verif.Model.KeyUse
/-
Model of what a part of a key says about its revocation (/repo/pgp/transferrable_keys.py:47-92, 134-137, 146-147), for the parts of a key object (Model/Keys).
The attributes `issuer_key_expired` and `issuer_key_revoked` of a signature are None unless a validation has succeeded (signature.py:123-124;
signature_verification.py:346-349), which none does (C40); they are left out.
-/
namespace Pgp

/-- `_self_sig_types` (transferrable_keys.py:187, 618, 670-673, 789-792). -/
def Place.selfTypes : Place → List Nat
  | .primary => [0x1f]
  | .sub _ => [0x18]
  | .uid _ => [0x10, 0x11, 0x12, 0x13]
  | .attr _ => [0x10, 0x11, 0x12, 0x13]

/-- `_revocation_sig_types` (transferrable_keys.py:188, 619, 674, 793). -/
def Place.revTypes : Place → List Nat
  | .primary => [0x20]
  | .sub _ => [0x28]
  | .uid _ => [0x30]
  | .attr _ => [0x30]

/-- A signature object of a part (signature.py:129-157). -/
def KElem.sigObj (e : KElem) : Py SigObj :=
  match e.item with
  | .sig s => SigObj.fromPacket e.fmt s
  | _ => .error .attributeError

/-- `part.signatures`. -/
def groupSigs (g : KGroup) : Py (List SigObj) := List.mapM KElem.sigObj g.2

/-- The key ids of the primary key and of its subkeys (transferrable_keys.py:51-56, 171-179; `key_id`: 328-341). -/
def TKey.ownIds (fl : FloorLog2) (H : Digest) (k : TKey) : Py (List Str) :=
  match k.pubKeys with
  | none => .error .attributeError
  | some l => List.mapM (fun p => p.objectKeyId fl H) l

/-- The version of a part: of the key, or 4 (transferrable_keys.py:675, 794). -/
def KElem.partVersion (e : KElem) : Nat :=
  match e.pubKey with
  | some p => p.version
  | none => 4

/-- `self_signatures` (transferrable_keys.py:47-60): the key ids are computed for each signature. -/
def selfSignatures (own : Py (List Str)) : List SigObj → Py (List SigObj)
  | [] => .ok []
  | s :: l => do
    let o ← own
    let ids ← s.issuers
    let r ← selfSignatures own l
    return (if meets o ids then s :: r else r)

/-- Whether a self-signature counts (transferrable_keys.py:66-72, 80-86), from left to right. -/
def sigCounts (fl : FloorLog2) (now : Int) (types : List Nat) (all : List SigObj) (s : SigObj) : Py Bool :=
  if s.sigType ∈ types then do
    let r ← sigRevoked fl all s
    if r then return false
    else do
      let e ← s.expired now
      return !e
  else .ok false

/-- The loops of `current_self_signatures` and `revocation_signatures` (transferrable_keys.py:62-88). -/
def countingSigs (fl : FloorLog2) (now : Int) (types : List Nat) (all : List SigObj) : List SigObj → Py (List SigObj)
  | [] => .ok []
  | s :: l => do
    let b ← sigCounts fl now types all s
    let r ← countingSigs fl now types all l
    return (if b then s :: r else r)

/-- `current_self_signatures` (transferrable_keys.py:62-74) for `types` the self-signature types, `revocation_signatures` (76-88) for the revocation types. -/
def signaturesOf (fl : FloorLog2) (now : Int) (types : List Nat) (own : Py (List Str)) (sigs : List SigObj) : Py (List SigObj) := do
  let l ← selfSignatures own sigs
  countingSigs fl now types sigs l

/-- `part.current_self_signatures`. -/
def TKey.currentSelf (fl : FloorLog2) (H : Digest) (now : Int) (k : TKey) (at' : Place) : Py (List SigObj) :=
  match k.part at' with
  | none => .error .indexError
  | some g => do
    let sigs ← groupSigs g
    signaturesOf fl now at'.selfTypes (k.ownIds fl H) sigs

/-- `part.revocation_signatures`. -/
def TKey.revocations (fl : FloorLog2) (H : Digest) (now : Int) (k : TKey) (at' : Place) : Py (List SigObj) :=
  match k.part at' with
  | none => .error .indexError
  | some g => do
    let sigs ← groupSigs g
    signaturesOf fl now at'.revTypes (k.ownIds fl H) sigs

/-- `part.revoked` (transferrable_keys.py:90-92). -/
def TKey.revoked (fl : FloorLog2) (H : Digest) (now : Int) (k : TKey) (at' : Place) : Py Bool := do
  let l ← k.revocations fl H now at'
  return !l.isEmpty

/-- The part as `get_most_recent_selfsig` sees it (Model/KeySigs); the key ids have been computed. -/
def TKey.signedPart (fl : FloorLog2) (H : Digest) (k : TKey) (at' : Place) : Py Part :=
  match k.part at' with
  | none => .error .indexError
  | some g => do
    let sigs ← groupSigs g
    let own ← k.ownIds fl H
    return ⟨g.1.partVersion, at'.selfTypes, at'.revTypes, own, sigs⟩

/-- The getter of `__selfsig_attribute(name, default, revocation)` (transferrable_keys.py:117-123) for an attribute `get` of the signature; the default if there
is no signature or the attribute raises AttributeError. -/
def Part.selfsig {α : Type} (p : Part) (revocation : Bool) (default : α) (get : SigObj → Py α) : Py α :=
  if p.version ≥ 4 then do
    match ← p.mostRecent revocation with
    | none => return default
    | some i =>
      match p.sigs[i]? with
      | none => return default
      | some s => swallow default (get s)
  else .error .unboundLocal

/-- `part.revocation_reason` (transferrable_keys.py:134-135, signature.py:498-501), for signatures as they were read. -/
def Part.revocationReason (p : Part) : Py (Option Scalar) := p.selfsig true none fun s => TrustObj.revocationReason ⟨s, none, none⟩

/-- `part.revocation_code` (transferrable_keys.py:136). -/
def Part.revocationCode (p : Part) : Py (Option Nat) := p.selfsig true none SigObj.revocationCode

/-- `part.revocation_keys` (transferrable_keys.py:146-147). -/
def Part.revocationKeys (p : Part) : Py (List RevInfo) := p.selfsig false [] SigObj.revocationKeys

end Pgp
