import Verif.Model.Keyring
import Verif.Spec.Framing
/-
Specification vocabulary for keyring files: a keyring is a list of keys, a key is a key packet followed by other packets.
-/
namespace Pgp.Spec

/-- The octets of a packet (empty if it cannot be written). -/
def packetOctets (p : RawPacket) : List UInt8 :=
  match Packet.toBytes 1 p with
  | .ok e => e
  | .error _ => []

/-- The octets of a sequence of packets. -/
def packetsOctets (ps : List RawPacket) : List UInt8 := ps.flatMap packetOctets

/-- A stored key: its primary key packet, the packets that belong to it, and its key id. -/
structure KeyBlock where
  head : RawPacket
  rest : List RawPacket
  keyId : List Char

/-- All its packets. -/
def KeyBlock.packets (b : KeyBlock) : List RawPacket := b.head :: b.rest

/-- Its octets in the file. -/
def KeyBlock.octets (b : KeyBlock) : List UInt8 := packetsOctets b.packets

/-- The block is a well-formed key: a public (6) or secret (5) key packet with that key id, followed by packets that are neither
keys nor compressed data (8); all writable and readable. -/
structure KeyBlock.WF (I : PacketInfo) (b : KeyBlock) : Prop where
  headType : b.head.type = 6 ∨ b.head.type = 5
  headId : I.keyId b.head = .ok b.keyId
  restType : ∀ p ∈ b.rest, p.type ≠ 6 ∧ p.type ≠ 5 ∧ p.type ≠ 8
  expressible : ∀ p ∈ b.packets, Expressible p
  readable : ∀ p ∈ b.packets, I.check p = .ok ()

/-- The octets of a keyring file holding these keys. -/
def ringOctets (bs : List KeyBlock) : List UInt8 := bs.flatMap KeyBlock.octets

/-- The last eight characters of a key id or fingerprint. -/
def shortId (k : List Char) : List Char := k.drop (k.length - 8)

/-- Does the stored key have this short id? -/
def KeyBlock.hasShort (short : List Char) (b : KeyBlock) : Bool := shortId b.keyId == short

/-- The last stored key with this short id. -/
def lastMatch (bs : List KeyBlock) (short : List Char) : Option KeyBlock := bs.reverse.find? (KeyBlock.hasShort short)

/-- The keys stored before the last one with this short id (meaningful if there is one). -/
def beforeLast (bs : List KeyBlock) (short : List Char) : List KeyBlock :=
  ((bs.reverse.dropWhile (fun b => ! b.hasShort short)).drop 1).reverse

/-- The keys stored after it. -/
def afterLast (bs : List KeyBlock) (short : List Char) : List KeyBlock :=
  (bs.reverse.takeWhile (fun b => ! b.hasShort short)).reverse

/-- A key to be stored: fingerprint and, for each preferred packet format, its packets. -/
structure SpecKey where
  fingerprint : List Char
  block : Option HeaderFormat → KeyBlock

/-- It is storable: its packets are well formed, its key id ends the fingerprint, and the fingerprint has more than 8 characters
(real ones have 32 or 40). -/
structure SpecKey.WF (I : PacketInfo) (k : SpecKey) : Prop where
  wf : ∀ f, (k.block f).WF I
  short : ∀ f, shortId (k.block f).keyId = shortId k.fingerprint
  long : 8 < k.fingerprint.length

/-- As seen by the keyring object. -/
def SpecKey.toNew (k : SpecKey) : NewKey := ⟨k.fingerprint, fun f => .ok (k.block f).octets⟩

/-- An operation on a keyring. -/
inductive RingOp where
  | add (k : SpecKey)
  | delete (fingerprint : List Char)
  | update (k : SpecKey)

def RingOp.WF (I : PacketInfo) : RingOp → Prop
  | .add k => k.WF I
  | .delete _ => True
  | .update k => k.WF I

/-- A keyring as a user sees it: the keys in it, and the packet format new keys are written in. -/
structure ListRing where
  keys : List KeyBlock
  fmt : Option HeaderFormat

/-- The format is fixed by the first packet ever seen. -/
def ListRing.settle (r : ListRing) : ListRing := ⟨r.keys, r.fmt.or (r.keys.head?.map (fun b => b.head.fmt))⟩

/-- What the operations of this library do to the list of keys (not what one would like them to do): adding appends, whatever is
there; deleting truncates the list at the last key with that short id; updating does so and then appends. -/
def ListRing.step (r : ListRing) : RingOp → Py Unit × ListRing
  | .add k => (.ok (), ListRing.settle ⟨r.keys ++ [k.block r.fmt], r.fmt⟩)
  | .delete fp =>
    match lastMatch r.keys (shortId fp) with
    | none => (.error .keyError, r)
    | some _ => (.ok (), ListRing.settle ⟨beforeLast r.keys (shortId fp), r.fmt⟩)
  | .update k =>
    match lastMatch r.keys (shortId k.fingerprint) with
    | none => (.error .keyError, r)
    | some b => (.ok (), ListRing.settle ⟨beforeLast r.keys (shortId k.fingerprint) ++ [k.block (some b.head.fmt)], r.fmt⟩)

/-- A history of operations: the outcome of each, and the final list. -/
def ListRing.run (r : ListRing) : List RingOp → List (Py Unit) × ListRing
  | [] => ([], r)
  | op :: ops => ((r.step op).1 :: ((r.step op).2.run ops).1, ((r.step op).2.run ops).2)

/-- The same history on the keyring object. -/
def ringStep (I : PacketInfo) (r : Keyring) : RingOp → Py Unit × Keyring
  | .add k => r.add I k.toNew
  | .delete fp => r.delete I fp
  | .update k => r.update I k.toNew

def ringRun (I : PacketInfo) (r : Keyring) : List RingOp → List (Py Unit) × Keyring
  | [] => ([], r)
  | op :: ops => ((ringStep I r op).1 :: (ringRun I (ringStep I r op).2 ops).1, (ringRun I (ringStep I r op).2 ops).2)

end Pgp.Spec
