import Verif.Spec.Keyring
import Verif.Model.Database
/-
Specification of the key database: a list of named stores, each a list of keys.
-/
namespace Pgp.Spec

/-- A store as a user sees it. -/
structure KeyStore where
  name : List Char
  secret : Bool
  ring : ListRing

/-- An operation on the database changes the first store that is not secret, and nothing happens if there is none. -/
def storeStep : List KeyStore → RingOp → Py Unit × List KeyStore
  | [], _ => (.ok (), [])
  | s :: rest, op =>
    if s.secret then ((storeStep rest op).1, s :: (storeStep rest op).2)
    else ((s.ring.step op).1, { s with ring := (s.ring.step op).2 } :: rest)

/-- A history of operations: the outcomes and the final stores. -/
def storeRun (ss : List KeyStore) : List RingOp → List (Py Unit) × List KeyStore
  | [] => ([], ss)
  | op :: ops => ((storeStep ss op).1 :: (storeRun (storeStep ss op).2 ops).1, (storeRun (storeStep ss op).2 ops).2)

/-- The short ids of the keys, each once, in the order in which they first occur. -/
def shortIds (keys : List KeyBlock) : List (List Char) := (keys.map fun b => shortId b.keyId).eraseDups

/-- The keys that can be reached: for each short id the last key that has it. -/
def reachable (keys : List KeyBlock) : List KeyBlock := (shortIds keys).filterMap (lastMatch keys)

/-- The resource `r` has been opened (for writing) on a file holding the keys of the store. -/
structure Opened (I : PacketInfo) (r : Resource) (name : List Char) (secret : Bool) (bs : List KeyBlock) : Prop where
  named : r.name = name
  flag : r.secret = secret
  wf : ∀ b ∈ bs, b.WF I
  opened : Keyring.open I (ringOctets bs) false = .ok r.ring

/-- The store at that moment. -/
def freshStore (name : List Char) (secret : Bool) (bs : List KeyBlock) : KeyStore := ⟨name, secret, ListRing.settle ⟨bs, none⟩⟩

/-- One operation on the database object, with a key of the given class. -/
def dbStep (I : PacketInfo) (db : Database) : KeyClass × RingOp → Py Unit × Database
  | (c, .add k) => dbAdd I c db k.toNew
  | (c, .delete fp) => dbDelete I c db fp
  | (c, .update k) => dbUpdate I c db k.toNew

def dbRun (I : PacketInfo) (db : Database) : List (KeyClass × RingOp) → List (Py Unit) × Database
  | [] => ([], db)
  | op :: ops => ((dbStep I db op).1 :: (dbRun I (dbStep I db op).2 ops).1, (dbRun I (dbStep I db op).2 ops).2)

end Pgp.Spec
