import Verif.Model.Keyring
import Verif.Model.Text
/-
Model of the key database, /repo/pgp/db/gpg.py:509-609 (GPGDatabase), over keyring files (Model/Keyring).
-/
namespace Pgp

/-- A registered resource: its name (the absolute file name), its `secret` flag and the keyring. -/
structure Resource where
  name : List Char
  secret : Bool
  ring : Keyring

/-- `_resources`, an OrderedDict from names to resources, in order (gpg.py:511-514). -/
abbrev Database := List Resource

/-- gpg.py:571-575 `register_resource`: `setdefault`, then `move_to_end(name, last=False)` for a primary resource; returns the resource registered under that name. -/
def dbRegister (db : Database) (r : Resource) (primary : Bool) : Resource × Database :=
  match db.find? (fun x => x.name == r.name) with
  | some old => (old, if primary then old :: db.filter (fun x => x.name != r.name) else db)
  | none => (r, if primary then r :: db else db ++ [r])

/-- gpg.py:532-569 `add_key`, `delete_key`, `update_key`: `f` is what is done to the chosen keyring. -/
def dbApply (c : KeyClass) (db : Database) (f : Keyring → Py Unit × Keyring) : Py Unit × Database :=
  match chooseResource c (db.map (·.secret)) with
  | .error e => (.error e, db)
  | .ok none => (.ok (), db)
  | .ok (some i) =>
    match db[i]? with
    | none => (.ok (), db)
    | some r => ((f r.ring).1, db.set i { r with ring := (f r.ring).2 })

/-- gpg.py:532-543. -/
def dbAdd (I : PacketInfo) (c : KeyClass) (db : Database) (k : NewKey) : Py Unit × Database := dbApply c db (fun r => r.add I k)
/-- gpg.py:545-556. -/
def dbDelete (I : PacketInfo) (c : KeyClass) (db : Database) (fingerprint : List Char) : Py Unit × Database := dbApply c db (fun r => r.delete I fingerprint)
/-- gpg.py:558-569. -/
def dbUpdate (I : PacketInfo) (c : KeyClass) (db : Database) (k : NewKey) : Py Unit × Database := dbApply c db (fun r => r.update I k)

/-- The keys of the dict `_offset_table` (gpg.py:308-309): in the order of first assignment. -/
def tableKeys (t : OffsetTable) : List (List Char) := t.foldl (fun ks e => if e.1 ∈ ks then ks else ks ++ [e.1]) []

/-- gpg.py:583-587 `GPGDatabase.keys`. -/
def dbKeys (db : Database) : List (List Char) := db.flatMap fun r => tableKeys r.ring.table

/-- How key objects are made of packets and asked for their user ids: `build` is `from_packets` (gpg.py:353-361, Model/Keys), `uids` the text of `key.user_ids`,
`lower` is `str.lower`. -/
structure KeyBuilder (K : Type) where
  build : List RawPacket → Py K
  uids : K → List (List Char)
  lower : List Char → List Char

/-- `a in b` for texts. -/
def isSubstring (a b : List Char) : Bool := (List.range (b.length + 1)).any fun i => (b.drop i).take a.length == a

/-- gpg.py:577-583 `_matches_user_id`. -/
def matchesUserId {K : Type} (B : KeyBuilder K) (key : K) (userId : List Char) : Bool := (B.uids key).any fun u => isSubstring (B.lower userId) (B.lower u)

/-- `resource.get_transferrable_key(w)` as an object. -/
def Keyring.getKey {K : Type} (I : PacketInfo) (B : KeyBuilder K) (r : Keyring) (w : List Char) : Py K := do
  let ps ← r.get I w
  B.build ps

/-- `resource.values()` (gpg.py:170-173). -/
def Keyring.values {K : Type} (I : PacketInfo) (B : KeyBuilder K) (r : Keyring) : Py (List K) := (tableKeys r.table).mapM (r.getKey I B)

/-- `list(resource.items())` (gpg.py:169-171). -/
def Keyring.items {K : Type} (I : PacketInfo) (B : KeyBuilder K) (r : Keyring) : Py (List (List Char × K)) :=
  (tableKeys r.table).mapM fun k => do
    let key ← r.getKey I B k
    return (k, key)

/-- `fingerprint in resource` (gpg.py:180-181). -/
def Keyring.contains (r : Keyring) (fingerprint : List Char) : Bool := fingerprint ∈ tableKeys r.table

/-- What `__iter__` returns is asked for its next element only if it is an iterator (`__next__`), which a view of a dict's keys is not; a
generator is one. -/
inductive IterResult where
  | view (keys : List (List Char))
  | generator (keys : List (List Char))

/-- `Keyring.keys` (gpg.py:308-309), which returns a view, and `BaseResource.__iter__` (gpg.py:177-178), which returns the same. -/
def Keyring.iter (r : Keyring) : IterResult := .view (tableKeys r.table)

/-- `for k in resource`, `list(resource)`: `iter()` raises TypeError on a non-iterator. -/
def forIn : IterResult → Py (List (List Char))
  | .view _ => .error .typeError
  | .generator ks => .ok ks

/-- `fingerprint or key_id`: an empty text counts as absent. -/
def searchTerm (fingerprint keyId : Option (List Char)) : Option (List Char) :=
  match fingerprint with
  | some (c :: cs) => some (c :: cs)
  | _ =>
    match keyId with
    | some (c :: cs) => some (c :: cs)
    | _ => none

/-- The body of the loop of gpg.py:593-608 for one resource. `_matches_user_id(key, None)` raises AttributeError at the first user id. Simplified: all keys of the
resource are read before the first is compared. -/
def searchResource {K : Type} (I : PacketInfo) (B : KeyBuilder K) (term userId : Option (List Char)) (r : Keyring) : Py (List K) :=
  match term with
  | some w =>
    match r.getKey I B w with
    | .error e => if e = .keyError then .ok [] else .error e
    | .ok key =>
      match userId with
      | some u => .ok (if matchesUserId B key u then [key] else [])
      | none => .ok [key]
  | none => do
    let ks ← r.values I B
    match userId with
    | some u => .ok (ks.filter fun k => matchesUserId B k u)
    | none => if ks.all (fun k => (B.uids k).isEmpty) then .ok [] else .error .attributeError

/-- gpg.py:589-609 `GPGDatabase.search`. -/
def dbSearch {K : Type} (I : PacketInfo) (B : KeyBuilder K) (db : Database) (fingerprint keyId userId : Option (List Char)) : Py (List K) :=
  if fingerprint = none ∧ keyId = none ∧ userId = none then .ok []
  else do
    let rs ← db.mapM fun r => searchResource I B (searchTerm fingerprint keyId) userId r.ring
    return rs.flatten

end Pgp
