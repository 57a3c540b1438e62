import Verif.Model.Revoked
/-
Model of the choice of the key a message is encrypted to (/repo/pgp/commands/gpg/recipient_helper.py:70-94), for the key object of Model/Keys.
-/
namespace Pgp

/-- `if part.may_encrypt_comms:` (recipient_helper.py:90, 92; transferrable_keys.py:117-123, 154). The default is None. -/
def TKey.mayEncrypt (fl : FloorLog2) (H : Digest) (k : TKey) (at' : Place) : Py Bool := do
  let p ← k.signedPart fl H at'
  match ← p.attr .mayEncryptComms with
  | .value (some true) => return true
  | _ => return false

/-- The loop over the subkeys (recipient_helper.py:85-91), for those with these indices. -/
def TKey.encryptionSubkey (fl : FloorLog2) (H : Digest) (now : Int) (k : TKey) : List Nat → Py (Option Nat)
  | [] => .ok none
  | n :: l => do
    let r ← k.revoked fl H now (.sub n)
    if r then k.encryptionSubkey fl H now l
    else do
      let b ← k.mayEncrypt fl H (.sub n)
      if b then return some n else k.encryptionSubkey fl H now l

/-- `find_recipient_public_key` (recipient_helper.py:70-94) when the keyring helper finds the key `k`: the part that is returned, or None. The FatalException cannot
be made, see `chooseCipherLoop` in Model/Commands. -/
def TKey.encryptionPart (fl : FloorLog2) (H : Digest) (now : Int) (k : TKey) : Py (Option Place) := do
  let r ← k.revoked fl H now .primary
  if r then .error .attributeError
  else do
    match ← k.encryptionSubkey fl H now (List.range k.subs.length) with
    | some n => return some (.sub n)
    | none => do
      let b ← k.mayEncrypt fl H .primary
      return (if b then some .primary else none)

end Pgp
