import Verif.Model.KeySigs
/-
Model of assignments to the attributes of a key, user id or user attribute, pgp/transferrable_keys.py:116-161, 285-301, and of the setter of the key expiration
time of a signature, pgp/signature.py:560-568.
-/
namespace Pgp

/-- The setter of `__selfsig_attribute` (transferrable_keys.py:125-128), for the attributes kept in one subpacket. `setattr(None, ...)` raises AttributeError; below
version 4 nothing happens. -/
def Part.setAttr (p : Part) (a : KeyAttr) (v : a.field.Val) : Py Part :=
  if p.version ≥ 4 then do
    match ← p.mostRecent false with
    | none => .error .attributeError
    | some i =>
      match p.sigs[i]? with
      | none => .error .attributeError
      | some s => do
        let s' ← s.set a.field v
        return { p with sigs := p.sigs.set i s' }
  else .ok p

/-- `BasePublicKey._set_expiration_time` (transferrable_keys.py:295-299): the new `_expiration_time`; `super(...).expiration_time = value` raises AttributeError. -/
def Part.setExpiration (p : Part) (stored : KeyExp) (v : Int) : Py KeyExp :=
  if p.version = 2 ∨ p.version = 3 then .ok (.at v)
  else if p.version ≥ 4 then .error .attributeError
  else .ok stored

/-- `target.creation_time`; None has no attributes. -/
def creationOf : Option SigObj → Py Int
  | none => .error .attributeError
  | some o => o.creationTime

/-- The number of seconds computed by `_set_key_expiration_time` (signature.py:561-562) for the signature with index `i`: it may be negative. -/
def keyPeriod (sigs : List SigObj) (i : Nat) (s : SigObj) (v : Int) : Py Int := do
  let o ← targetOf sigs i s
  let c ← creationOf o
  return (v - c) / 1000000

/-- `_set_key_expiration_time` (signature.py:560-565), for a number of seconds that is not negative; a negative one is kept by Python (see `int4`), but not
represented here. -/
def setKeyExpirationOf (sigs : List SigObj) (i : Nat) (s : SigObj) (v : Int) : Py SigObj := do
  let t ← keyPeriod sigs i s v
  return s.setTime 9 .keyExpiration t.toNat

/-- `int_to_4byte` of a number that may be negative (utils.py:583-593): `>>` rounds down, `&` takes the remainder. -/
def int4 (i : Int) : Bytes :=
  [UInt8.ofNat (i / 2 ^ 24 % 256).toNat, UInt8.ofNat (i / 2 ^ 16 % 256).toNat, UInt8.ofNat (i / 2 ^ 8 % 256).toNat, UInt8.ofNat (i % 256).toNat]

end Pgp
