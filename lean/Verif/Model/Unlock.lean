import Verif.Model.KeyFile
/-
The secret key objects inside a key that was read: the bridge between the key object of Model/KeyFile, which keeps what is written back, and the
objects of Model/SecretKey, which are locked and unlocked.
-/
namespace Pgp

/-- The attributes a secret key object takes from its packet (transferrable_keys.py:193-218, 434-459); the expiration time is left out. -/
def KElem.secObj (e : KElem) : Option SecObj :=
  match e.item with
  | .key true _ k (some p) => some (SecObj.fromPacket ⟨k, p.s2k, p.sym, p.iv, p.enc, p.checksum, p.hash⟩)
  | _ => none

/-- A TransferableSecretKey (transferrable_keys.py:1077-1105) with its `subkeys`. -/
def TKey.secRing (k : TKey) : Option SecRing := do
  let m ← k.primary.1.secObj
  let subs ← k.subs.mapM fun g => g.1.secObj
  return ⟨m, subs⟩

end Pgp
