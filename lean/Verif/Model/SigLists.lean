import Verif.Model.KeySigs
import Verif.Model.UserId
/-
Model of the attributes of signature objects that Model/Signature.lean leaves out (pgp/signature.py:36-108, 394-546, 612-636, 857-874): notations, regular
expressions, embedded signatures, revocation keys, trust, revocation reason and code, and the parts of the issuer's user id.
An embedded signature packet shares its subpacket lists with the object it was made from; here it is a copy. The header format of an embedded packet, which is
never written, is taken to be the new one. Not modelled: the setter of the key expiration time (560-565).
-/
namespace Pgp

/-! ### Assigning a list -/

/-- One turn of the loops of the list setters (signature.py:430-445, 467-480, 530-543, 621-634). `same` is the equality used by `k in existing`. -/
def listStep {α : Type} (same : α → α → Bool) (add remove : SigObj → α → SigObj) (existing given : List α) (s : SigObj) (k : α) : SigObj :=
  if existing.any (same k) && !given.isEmpty then s
  else if existing.any (same k) then remove s k
  else add s k

/-- `_remove_subpacket` (signature.py:263-267). -/
def SigObj.removeSub (fl : FloorLog2) (s : SigObj) (sp : Sub) : SigObj :=
  { s with hashed := s.hashed.filter (fun x => !Sub.same fl x sp), unhashed := s.unhashed.filter (fun x => !Sub.same fl x sp) }

/-- `_add_subpacket` (signature.py:257-261). -/
def SigObj.addSub (s : SigObj) (sp : Sub) : SigObj := { s with hashed := s.hashed ++ [sp] }

/-- `a == b` of objects compared by the octets they are written as; the octets exist, as both were hashed before. -/
def sameOctets {α : Type} (octets : α → Py Bytes) (a b : α) : Bool :=
  match octets a, octets b with
  | .ok x, .ok y => x = y
  | _, _ => false

/-! ### Notations -/

/-- A `Notation` (signature.py:36-75); `human_readable` is part of the value. -/
structure NoteObj where
  ns : Option Str
  name : Str
  value : NoteValue
  deriving DecidableEq

/-- `Notation.from_subpacket` (signature.py:43-49). -/
def NoteObj.ofSub : Sub → Py NoteObj
  | .plain critical p =>
    if critical then .error (.pgp "CannotParseCriticalNotation") else
    match p with
    | .note name ns value => .ok ⟨ns, name, value⟩
    | _ => .error .attributeError
  | .embedded critical _ => if critical then .error (.pgp "CannotParseCriticalNotation") else .error .attributeError

/-- `Notation.to_subpacket` (signature.py:51-58). -/
def NoteObj.toSub (n : NoteObj) : Sub := .plain false (.note n.name n.ns n.value)

/-- What `__eq__` and `__hash__` of a notation are computed from (signature.py:66-70). -/
def NoteObj.octets (fl : FloorLog2) (n : NoteObj) : Py Bytes := Sub.toBytes fl n.toSub

/-- `_get_notations` (signature.py:460-465). -/
def SigObj.notations (s : SigObj) : Py (List NoteObj) := (s.subs 20).mapM NoteObj.ofSub

/-- `_set_notations` (signature.py:467-482). `order` gives the elements of the Python set of a list. -/
def SigObj.setNotations (fl : FloorLog2) (order : List NoteObj → List NoteObj) (s : SigObj) (given : List NoteObj) : Py SigObj := do
  let existing ← s.notations
  let _ ← given.mapM (NoteObj.octets fl)
  let _ ← existing.mapM (NoteObj.octets fl)
  return (order (given ++ existing)).foldl
    (listStep (sameOctets (NoteObj.octets fl)) (fun s k => s.addSub k.toSub) (fun s k => s.removeSub fl k.toSub) existing given) s

/-! ### Regular expressions -/

/-- The attribute `pattern` of a subpacket. -/
def regexOf : Sub → Py Str
  | .plain _ (.regex p) => .ok p
  | _ => .error .attributeError

/-- `_get_regular_expressions` (signature.py:418-423); a compiled expression is represented by its pattern, `compiles` says which ones `re.compile` accepts. -/
def SigObj.regexes (compiles : Str → Bool) (s : SigObj) : Py (List Str) := do
  let ps ← (s.subs 6).mapM regexOf
  if ps.all compiles then return ps else .error (.pgp "re.error")

/-- Does a subpacket have the given pattern (signature.py:298)? -/
def hasPattern (k : Str) : Sub → Bool
  | .plain _ (.regex p) => p = k
  | _ => false

/-- `_remove_subpacket_values` for patterns (signature.py:295-299). -/
def SigObj.removeRegex (fl : FloorLog2) (s : SigObj) (k : Str) : SigObj :=
  (s.subs 6).foldl (fun z sp => if hasPattern k sp then z.removeSub fl sp else z) s

/-- `_set_regular_expressions` (signature.py:425-443). -/
def SigObj.setRegexes (fl : FloorLog2) (compiles : Str → Bool) (order : List Str → List Str) (s : SigObj) (given : List Str) : Py SigObj := do
  let existing ← s.regexes compiles
  return (order (given ++ existing)).foldl
    (listStep (fun a b => a = b) (fun s k => s.addSub (.plain false (.regex k))) (fun s k => s.removeRegex fl k) existing given) s

/-! ### Embedded signatures -/

/-- `from_packet(s.signature, self)` for the signature of a subpacket (signature.py:521-526). -/
def embeddedOf : Sub → Py SigObj
  | .embedded _ sig => SigObj.fromPacket .new sig
  | .plain _ _ => .error .attributeError

/-- `_get_embedded_signatures` (signature.py:521-526). -/
def SigObj.embeddedSigs (s : SigObj) : Py (List SigObj) := (s.subs 32).mapM embeddedOf

/-- `k.to_packet().to_embedded_subpacket()` (signature.py:536-543, packets.py:301-302); the packet exists, as the signature was hashed before. -/
def SigObj.toSub (k : SigObj) : Sub := .embedded false (match k.toPacket with
  | .ok p => p
  | .error _ => .v3 0 0 0 0 0 [] [] [])

/-- `_set_embedded_signatures` (signature.py:528-543). -/
def SigObj.setEmbedded (fl : FloorLog2) (order : List SigObj → List SigObj) (s : SigObj) (given : List SigObj) : Py SigObj := do
  let existing ← s.embeddedSigs
  let _ ← given.mapM (SigObj.bytes fl)
  let _ ← existing.mapM (SigObj.bytes fl)
  return (order (given ++ existing)).foldl
    (listStep (sameOctets (SigObj.bytes fl)) (fun s k => s.addSub k.toSub) (fun s k => s.removeSub fl k.toSub) existing given) s

/-! ### Revocation keys -/

/-- A `RevocationKeyInfo` (signature.py:78-108). -/
structure RevInfo where
  alg : Nat
  fingerprint : Str
  sensitive : Bool
  deriving DecidableEq

/-- `RevocationKeyInfo.from_subpacket` (signature.py:85-89). -/
def RevInfo.ofSub : Sub → Py RevInfo
  | .plain _ (.revocationKey fp alg sensitive) => .ok ⟨alg, fp, sensitive⟩
  | _ => .error .attributeError

/-- `RevocationKeyInfo.to_subpacket` (signature.py:91-97); the constructor asserts 40 digits (signature_subpackets.py:253-257). -/
def RevInfo.toSub (r : RevInfo) : Py Sub := do
  pyAssert (r.fingerprint.length = 40)
  return .plain false (.revocationKey r.fingerprint r.alg r.sensitive)

/-- What `__eq__` and `__hash__` are computed from (signature.py:104-108). -/
def RevInfo.octets (fl : FloorLog2) (r : RevInfo) : Py Bytes := do
  let x ← r.toSub
  Sub.toBytes fl x

/-- `_get_revocation_keys` (signature.py:612-617). -/
def SigObj.revocationKeys (s : SigObj) : Py (List RevInfo) := (s.subs 12).mapM RevInfo.ofSub

/-- `_set_revocation_keys` (signature.py:619-634). Once hashed, `to_subpacket` has succeeded. -/
def SigObj.setRevocationKeys (fl : FloorLog2) (order : List RevInfo → List RevInfo) (s : SigObj) (given : List RevInfo) : Py SigObj := do
  let existing ← s.revocationKeys
  let _ ← given.mapM (RevInfo.octets fl)
  let _ ← existing.mapM (RevInfo.octets fl)
  return (order (given ++ existing)).foldl
    (listStep (sameOctets (RevInfo.octets fl)) (fun s k => match k.toSub with | .ok x => s.addSub x | .error _ => s)
      (fun s k => match k.toSub with | .ok x => s.removeSub fl x | .error _ => s) existing given) s

/-! ### Trust, revocation reason and revocation code -/

/-- A number or a text. -/
inductive Scalar where
  | num (n : Nat)
  | text (s : Str)
  deriving DecidableEq

/-- A signature object together with the attributes `trust_amount` and `trust_depth` of its trust subpackets: no such attributes exist until an assignment
creates them (signature.py:281-285: on every trust subpacket at once). -/
structure TrustObj where
  sig : SigObj
  amount : Option Scalar
  depth : Option Scalar

/-- `_get_subpacket_values(TRUST, attr)` (signature.py:269-279) for an attribute that was created or not. -/
def trustGet (s : SigObj) (attr : Option Scalar) : Py (Option Scalar) :=
  match s.subs 5, attr with
  | [], _ => .ok none
  | _ :: _, none => .error .attributeError
  | _ :: _, some v => .ok (some v)

/-- `_get_trust_amount`, `_get_trust_depth` (signature.py:394-397, 406-409). -/
def TrustObj.trustAmount (t : TrustObj) : Py (Option Scalar) := trustGet t.sig t.amount
def TrustObj.trustDepth (t : TrustObj) : Py (Option Scalar) := trustGet t.sig t.depth

/-- `_set_trust_amount` (signature.py:399-402). Without a trust subpacket one is to be made with an unknown keyword argument (TypeError). -/
def TrustObj.setTrustAmount (t : TrustObj) (v : Scalar) : Py TrustObj :=
  match t.sig.subs 5 with
  | [] => .error .typeError
  | _ :: _ => .ok { t with amount := some v }

/-- `_set_trust_depth` (signature.py:411-414). -/
def TrustObj.setTrustDepth (t : TrustObj) (v : Scalar) : Py TrustObj :=
  match t.sig.subs 5 with
  | [] => .error .typeError
  | _ :: _ => .ok { t with depth := some v }

/-- `_get_revocation_reason` (signature.py:498-501): an attribute of the trust subpacket that is never created. -/
def TrustObj.revocationReason (t : TrustObj) : Py (Option Scalar) := trustGet t.sig none

/-- `_set_revocation_reason` (signature.py:503-506). -/
def TrustObj.setRevocationReason (t : TrustObj) (v : Scalar) : Py TrustObj := t.setTrustAmount v

/-- The attribute `revocation_code` of a subpacket. -/
def codeOf : Sub → Py Nat
  | .plain _ (.revocationReason c _) => .ok c
  | _ => .error .attributeError

/-- `_get_revocation_code` (signature.py:511-514). -/
def SigObj.revocationCode (s : SigObj) : Py (Option Nat) :=
  match s.subs 29 with
  | [] => .ok none
  | x :: _ => do
    let c ← codeOf x
    return some c

/-- Setting the attribute `revocation_code` of a subpacket of that type. -/
def withCode (v : Nat) : Sub → Sub
  | .plain c (.revocationReason _ r) => .plain c (.revocationReason v r)
  | x => x

/-- `_set_revocation_code` (signature.py:516-519). Without a subpacket one is to be made without the reason (TypeError). -/
def SigObj.setRevocationCode (s : SigObj) (v : Nat) : Py SigObj :=
  match s.subs 29 with
  | [] => .error .typeError
  | _ :: _ => .ok { s with hashed := s.hashed.map (withCode v), unhashed := s.unhashed.map (withCode v) }

/-! ### The issuer's user id -/

/-- `issuer_user_name`, `issuer_user_email`, `issuer_user_comment` (signature.py:857-874). -/
def SigObj.issuerParts (s : SigObj) : Py (Option (Str × Str × Str)) := do
  match ← s.get .issuerUserId with
  | none => return none
  | some u => do
    let p ← parseUserId u
    return some p

end Pgp
