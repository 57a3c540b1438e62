import Verif.Model.Import
/-
Model of searching the database for keys (/repo/pgp/db/gpg.py:577-609) with the key objects of Model/Keys in place of the parameters of Model/Database.
-/
namespace Pgp

/-- The text of a user id (transferrable_keys.py:676-684, 698-702). -/
def KElem.idText (e : KElem) : Option Str :=
  match e.item with
  | .uid s => some s
  | _ => none

/-- `[uid.user_id for uid in key.user_ids]` (db/gpg.py:579-580). -/
def TKey.idTexts (k : TKey) : List Str := k.uids.filterMap fun g => g.1.idText

/-- Key objects as the database sees them; `lower` is `str.lower`. -/
def keyBuilder (magic : Bytes → Str) (lower : Str → Str) : KeyBuilder TKey := ⟨buildKey magic, TKey.idTexts, lower⟩

/-- `database.search(fingerprint, key_id, user_id)` (db/gpg.py:589-609). -/
def searchKeys (fl : FloorLog2) (H : Digest) (magic : Bytes → Str) (lower : Str → Str) (db : Database) (fingerprint keyId userId : Option Str) : Py (List TKey) :=
  dbSearch (keyInfo fl H) (keyBuilder magic lower) db fingerprint keyId userId

end Pgp
