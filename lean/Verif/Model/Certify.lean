import Verif.Model.KeyFile
import Verif.Model.Hashing
/-
Model of adding a signature to a part of a key: `part.signatures.append(key.sign(part, ...))`, with the `to_signable_data` of the parts
(/repo/pgp/transferrable_keys.py:244-250, 459-461, 633-640, 688-696, 813-821) taken from the key object (Model/Keys).
-/
namespace Pgp

/-- The parts of a transferable key that carry signatures: the key itself, `key.user_ids[n]`, `key.user_attributes[n]` and `key.subkeys[n]`
(transferrable_keys.py:963-1075). -/
inductive Place where
  | primary
  | uid (n : Nat)
  | attr (n : Nat)
  | sub (n : Nat)
  deriving DecidableEq

/-- The part at a place with its signatures; `none` stands for IndexError. -/
def TKey.part (k : TKey) : Place → Option KGroup
  | .primary => some k.primary
  | .uid n => k.uids[n]?
  | .attr n => k.attrs[n]?
  | .sub n => k.subs[n]?

/-- `part.signatures.append(signature)`: the `signatures` attribute is a plain list (transferrable_keys.py:45-46, 283, 703, 829). -/
def TKey.addSignature (k : TKey) (e : KElem) : Place → TKey
  | .primary => { k with primary := (k.primary.1, k.primary.2 ++ [e]) }
  | .uid n => { k with uids := k.uids.modify n fun g => (g.1, g.2 ++ [e]) }
  | .attr n => { k with attrs := k.attrs.modify n fun g => (g.1, g.2 ++ [e]) }
  | .sub n => { k with subs := k.subs.modify n fun g => (g.1, g.2 ++ [e]) }

/-- `self.to_packet().content` of an element, of a secret key's public part (transferrable_keys.py:244-250, 459-461, 688-696, 813-821). -/
def KElem.signedContent (fl : FloorLog2) (e : KElem) : Py Bytes := do
  let p ← e.toPublic.toPacket
  p.body.content fl

/-- A subkey as `sign` sees it, with the primary key (transferrable_keys.py:633-640, and 459-461 for a SecretSubkey). -/
def subkeyItem (p c : Bytes) : KItem → Item
  | .key true _ _ _ => .secretSubkey p c
  | _ => .subkey p c

/-- What `sign` and `verify` hash for the part at a place (Model/Hashing `Item`). -/
def TKey.itemAt (fl : FloorLog2) (k : TKey) (at' : Place) : Py Item :=
  match at', k.part at' with
  | _, none => .error .indexError
  | .primary, some g => do
    let c ← g.1.signedContent fl
    return .key c
  | .uid _, some g => do
    let p ← k.primary.1.signedContent fl
    let c ← g.1.signedContent fl
    return .userId p c
  | .attr _, some g => do
    let p ← k.primary.1.signedContent fl
    let c ← g.1.signedContent fl
    return .userAttribute p c
  | .sub _, some g => do
    let p ← k.primary.1.signedContent fl
    let c ← g.1.signedContent fl
    return subkeyItem p c g.1.item

end Pgp
