import Verif.Model.Database
import Verif.Model.KeyUse
/-
Model of storing a key in a keyring file: `keyring.add_transferrable_key(read_key(data))` and `keyring.get_transferrable_key(fingerprint)` with the packets and key objects
of Model/KeyFile in place of the parameters of Model/Keyring and Model/Database.
-/
namespace Pgp

/-- `packet.key_id` (packets.py:815-821) of a packet as it is read. -/
def rawKeyId (fl : FloorLog2) (H : Digest) (p : RawPacket) : Py (List Char) := do
  let b ← readBody p
  match b with
  | .key _ _ k _ => k.keyId fl H
  | _ => .error .attributeError

/-- The parsers of the packets keys are made of (packets.py:1585-1614, 1693-1695), as the keyring sees them. -/
def keyInfo (fl : FloorLog2) (H : Digest) : PacketInfo :=
  ⟨fun p => do
    let _ ← readPacket p
    return (), rawKeyId fl H⟩

/-- db/gpg.py:353-361: the key object made from the packets at an offset. -/
def buildKey (magic : Bytes → Str) (rs : List RawPacket) : Py TKey := do
  let ps ← rs.mapM readPacket
  let c ← classOf rs
  TKey.fromPackets magic c.isSecretInstance ps

/-- `Keyring.get_transferrable_key` (db/gpg.py:333-363, 372-374). -/
def Keyring.lookup (fl : FloorLog2) (H : Digest) (magic : Bytes → Str) (r : Keyring) (fingerprint : List Char) : Py TKey := do
  let rs ← r.get (keyInfo fl H) fingerprint
  buildKey magic rs

/-- `key.fingerprint` (transferrable_keys.py:340-342). -/
def TKey.fingerprint (fl : FloorLog2) (H : Digest) (k : TKey) : Py (List Char) :=
  match k.primary.1.pubKey with
  | some p => p.fingerprint fl H
  | none => .error .attributeError

/-- `keyring.add_transferrable_key(key)` (db/gpg.py:376-396). Simplified: the fingerprint is computed before the keyring is asked whether it is read only. -/
def Keyring.store (fl : FloorLog2) (H : Digest) (r : Keyring) (k : TKey) : Py Unit × Keyring :=
  match k.fingerprint fl H with
  | .error e => (.error e, r)
  | .ok fp => r.add (keyInfo fl H) ⟨fp, fun f => k.octets fl f⟩

/-- `keyring.add_transferrable_key(read_key(data))` (shortcuts.py:41-59, db/gpg.py:376-396). -/
def Keyring.importFile (fl : FloorLog2) (H : Digest) (magic : Bytes → Str) (r : Keyring) (data : Bytes) : Py Unit × Keyring :=
  match readKey magic data with
  | .error e => (.error e, r)
  | .ok k => r.store fl H k

/-- The same for several files in turn; the results, and the keyring in the end. -/
def Keyring.importFiles (fl : FloorLog2) (H : Digest) (magic : Bytes → Str) (r : Keyring) : List Bytes → List (Py Unit) × Keyring
  | [] => ([], r)
  | d :: ds =>
    let (a, r') := r.importFile fl H magic d
    let (l, r'') := r'.importFiles fl H magic ds
    (a :: l, r'')

/-- `keyring.update_transferrable_key(key)` (db/gpg.py:398-432). -/
def Keyring.replace (fl : FloorLog2) (H : Digest) (r : Keyring) (k : TKey) : Py Unit × Keyring :=
  match k.fingerprint fl H with
  | .error e => (.error e, r)
  | .ok fp => r.update (keyInfo fl H) ⟨fp, fun f => k.octets fl f⟩

/-- `keyring.update_transferrable_key(read_key(data))` (shortcuts.py:41-59, db/gpg.py:398-432). -/
def Keyring.replaceFile (fl : FloorLog2) (H : Digest) (magic : Bytes → Str) (r : Keyring) (data : Bytes) : Py Unit × Keyring :=
  match readKey magic data with
  | .error e => (.error e, r)
  | .ok k => r.replace fl H k

/-- An operation of a user with key files: `add_transferrable_key`, `update_transferrable_key`, `delete_transferrable_key` (db/gpg.py:376-465). -/
inductive FileOp where
  | store (data : Bytes)
  | replace (data : Bytes)
  | remove (id : Str)

/-- The operation on the keyring; for the last one the key given is only asked for its fingerprint. -/
def Keyring.fileStep (fl : FloorLog2) (H : Digest) (magic : Bytes → Str) (r : Keyring) : FileOp → Py Unit × Keyring
  | .store d => r.importFile fl H magic d
  | .replace d => r.replaceFile fl H magic d
  | .remove q => r.delete (keyInfo fl H) q

/-- Several operations in turn; the results, and the keyring in the end. -/
def Keyring.fileRun (fl : FloorLog2) (H : Digest) (magic : Bytes → Str) (r : Keyring) : List FileOp → List (Py Unit) × Keyring
  | [] => ([], r)
  | op :: ops =>
    let (a, r') := r.fileStep fl H magic op
    let (l, r'') := r'.fileRun fl H magic ops
    (a :: l, r'')

end Pgp
