import Verif.Model.KeySigs
import Verif.Model.SecretKey
/-
Model of the identification of keys when merging (pgp/merge.py:27-38, 139-149).
-/
namespace Pgp

/-- `keys_equivalent` (merge.py:27-38) on the public attributes of two key objects; of the validity period there is no comparison. The
creation time of the objects is the time of day of the seconds of `creationTime`. -/
def keysEquivalent (a b : PubKey) : Bool :=
  a.version = b.version && a.algorithm = b.algorithm && a.modulus = b.modulus && a.exponent = b.exponent && a.prime = b.prime &&
  a.groupGenerator = b.groupGenerator && a.groupOrder = b.groupOrder && a.keyValue = b.keyValue && a.creationTime = b.creationTime

/-- `merge_key` (merge.py:139-149). `byHash` says that the database has the attribute `get_key_by_hash`; then `utils.hash_entire_key`, which does
not exist, is looked up. `found` is what `db.search(key_id=…)` gives. -/
def mergeKey (byHash : Bool) (key : MKey PubKey) (found : Py (List (MKey PubKey))) : Py (MKey PubKey × List (PubKey × List (Option SigObj))) :=
  if byHash then .error .attributeError
  else do
    let l ← found
    match l with
    | [] => .ok (key, [])
    | c :: _ => merge keysEquivalent key c

end Pgp
