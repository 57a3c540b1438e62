import Verif.Model.SessionKey
import Verif.Model.SecretKey
import Verif.Model.DataPackets
import Verif.Model.Signature
/-
`==` of packet objects.
-/
namespace Pgp

/-- The packet classes of pgp/packets/packets.py (`PACKET_TYPES`, 1584-1614) with their attributes; `base` is the class `Packet` itself, used for types that are
not in the table. -/
inductive AnyBody where
  | pkEsk (p : PkEsk)
  | sig (s : Sig)
  | skEsk (p : SkEsk)
  | onePass (p : OnePass)
  | pub (sub : Bool) (k : PubKey)
  | sec (sub : Bool) (k : SecKey)
  | compressed (c : Compressed)
  | encrypted (data : Bytes)
  | literal (l : Literal)
  | trust (t : Trust)
  | uid (s : List Char)
  | comment (gpg : Bool) (s : List Char)
  | attrs (as : List AttrSub)
  | seipd (s : Seipd)
  | mdc (data : Bytes)
  | control (g : GpgControl)
  | base (type : Nat) (content : Bytes)

structure AnyPacket where
  fmt : HeaderFormat
  body : AnyBody

/-- `PACKET_TYPES.get(tag, Packet).from_packet_content(…)` (packets.py:1584-1614, 1693-1695). A marker packet cannot be constructed: `self.content = content` on a
property without a setter raises AttributeError (packets.py:1225). -/
def readAny (p : RawPacket) : Py AnyPacket := do
  let b ← match p.type with
    | 1 => AnyBody.pkEsk <$> parsePkEsk p.content
    | 2 => .sig <$> parseSig p.content
    | 3 => .skEsk <$> parseSkEsk p.content
    | 4 => .onePass <$> parseOnePass p.content
    | 5 => .sec false <$> parseSecKey p.content
    | 6 => (fun x => .pub false x.2) <$> parsePubKey p.content
    | 7 => .sec true <$> parseSecKey p.content
    | 8 => .compressed <$> Compressed.parse p.content
    | 9 => .ok (.encrypted p.content)
    | 10 => .error .attributeError
    | 11 => .literal <$> Literal.parse p.content
    | 12 => .trust <$> Trust.parse p.content
    | 13 => .ok (.uid (userIdParse p.content))
    | 14 => (fun x => .pub true x.2) <$> parsePubKey p.content
    | 16 => .comment false <$> commentParse p.content
    | 17 => .attrs <$> attrsParse p.content
    | 18 => .seipd <$> Seipd.parse p.content
    | 19 => .mdc <$> mdcParse p.content
    | 61 => .comment true <$> commentParse p.content
    | 63 => .control <$> GpgControl.parse p.content
    | t => .ok (.base t p.content)
  return ⟨p.fmt, b⟩

/-- s2k.py:27-34 `SimpleS2K.__eq__`, 181-187 `GnuPGS2K.__eq__`; the class comes first. -/
def S2K.pyEq (a b : S2K) : Bool :=
  match a, b with
  | .gnupg h m s n l, .gnupg h' m' s' n' l' => h = h' && s = s' && m = m' && n = n' && l = l'
  | .simple .., .simple .. | .salted .., .salted .. | .iterated .., .iterated .. =>
    a.hash = b.hash && a.sym = b.sym && a.saltOf = b.saltOf && a.countOf = b.countOf
  | _, _ => false

/-- packets.py:188-195. -/
def PkEsk.pyEq (a b : PkEsk) : Bool := a.version = b.version && a.keyId = b.keyId && a.alg = b.alg && a.esk = b.esk

/-- packets.py:556-563. -/
def SkEsk.pyEq (a b : SkEsk) : Bool := a.version = b.version && a.sym = b.sym && a.s2k.pyEq b.s2k && a.esk = b.esk

/-- packets.py:664-672: the version is not compared. -/
def OnePass.pyEq (a b : OnePass) : Bool :=
  a.sigType = b.sigType && a.hashAlg = b.hashAlg && a.pubAlg = b.pubAlg && a.keyId = b.keyId && a.nested = b.nested

/-- packets.py:759-772. -/
def PubKey.pyEq (a b : PubKey) : Bool :=
  a.version = b.version && a.creationTime = b.creationTime && a.algorithm = b.algorithm && a.expirationDays = b.expirationDays && a.modulus = b.modulus &&
  a.exponent = b.exponent && a.prime = b.prime && a.groupGenerator = b.groupGenerator && a.groupOrder = b.groupOrder && a.keyValue = b.keyValue

/-- packets.py:922-931. -/
def SecKey.pyEq (a b : SecKey) : Bool :=
  a.pub.pyEq b.pub && a.s2k.pyEq b.s2k && a.sym = b.sym && a.iv = b.iv && a.enc = b.enc && a.checksum = b.checksum && a.hash = b.hash

/-- user_attribute_subpackets.py:30-34, 90-97. -/
def AttrSub.pyEq : AttrSub → AttrSub → Bool
  | .other t, .other t' => t = t'
  | .image v l f d, .image v' l' f' d' => v = v' && l = l' && f = f' && d = d'
  | _, _ => false

/-- `==` of two lists. -/
def listEq {α : Type} (eq : α → α → Bool) : List α → List α → Bool
  | [], [] => true
  | a :: l, b :: m => eq a b && listEq eq l m
  | _, _ => false

/-- `set(a) == set(b)` of lists of subpackets (packets.py:448-449): building the sets needs the octets of every subpacket (signature_subpackets.py:34-41). -/
def subSetEq (fl : FloorLog2) (a b : List Sub) : Py Bool := do
  let _ ← a.mapM (Sub.toBytes fl)
  let _ ← b.mapM (Sub.toBytes fl)
  return a.all (fun x => b.any (Sub.same fl x)) && b.all (fun y => a.any (Sub.same fl y))

/-- packets.py:439-450 `SignaturePacket.__eq__`: signatures of versions 2 and 3 have no subpacket lists (428-430), so the comparison ends in AttributeError if
nothing before it differs. -/
def Sig.pyEq (fl : FloorLog2) : Sig → Sig → Py Bool
  | .v3 v t p h _ _ h2 vs, .v3 v' t' p' h' _ _ h2' vs' =>
    if v = v' ∧ t = t' ∧ p = p' ∧ h = h' ∧ h2 = h2' ∧ vs = vs' then .error .attributeError else .ok false
  | .v4 v t p h hs us h2 vs, .v4 v' t' p' h' hs' us' h2' vs' =>
    if v = v' ∧ t = t' ∧ p = p' ∧ h = h' ∧ h2 = h2' ∧ vs = vs' then do
      let x ← subSetEq fl hs hs'
      if x then subSetEq fl us us' else .ok false
    else .ok false
  | .v3 .., .v4 .. => .ok false
  | .v4 .., .v3 .. => .ok false

/-- `__eq__` without the header format (packets.py:103-108 for the class and the type, 1174-1179, 1201-1205, 1281-1288, 1337-1342, 1377-1381, 1416-1420,
1451-1455, 1490-1495, 1518-1522, 1568-1574). The class `Packet` itself does not look at the content. -/
def AnyBody.pyEq (fl : FloorLog2) : AnyBody → AnyBody → Py Bool
  | .pkEsk a, .pkEsk b => .ok (a.pyEq b)
  | .sig a, .sig b => a.pyEq fl b
  | .skEsk a, .skEsk b => .ok (a.pyEq b)
  | .onePass a, .onePass b => .ok (a.pyEq b)
  | .pub s a, .pub s' b => .ok (s = s' && a.pyEq b)
  | .sec s a, .sec s' b => .ok (s = s' && a.pyEq b)
  | .compressed a, .compressed b => .ok (a.algorithm = b.algorithm && a.data = b.data)
  | .encrypted a, .encrypted b => .ok (a = b)
  | .literal a, .literal b => .ok (a.dataFormat = b.dataFormat && a.filename = b.filename && a.time = b.time && a.data = b.data)
  | .trust a, .trust b => .ok (a.value = b.value && a.sigCache = b.sigCache)
  | .uid a, .uid b => .ok (a = b)
  | .comment g a, .comment g' b => .ok (g = g' && a = b)
  | .attrs a, .attrs b => .ok (listEq AttrSub.pyEq a b)
  | .seipd a, .seipd b => .ok (a.version = b.version && a.data = b.data)
  | .mdc a, .mdc b => .ok (a = b)
  | .control a, .control b => .ok (a.marker = b.marker && a.control = b.control && a.data = b.data)
  | .base t _, .base t' _ => .ok (t = t')
  | _, _ => .ok false

/-- `a == b` of packets (packets.py:103-108). -/
def AnyPacket.pyEq (fl : FloorLog2) (a b : AnyPacket) : Py Bool :=
  if a.fmt = b.fmt then a.body.pyEq fl b.body else .ok false

end Pgp
