import Verif.Model.SecretKey
/-
Model of the encryption of private values given as numbers (pgp/packets/packets.py:954-992), done when a secret key packet with an empty encrypted portion is
written (1075-1099).  The cipher object is a parameter: making it may raise; its method `encrypt` returns `bytes` or raises (the OpenPGP mode of the external library).
-/
namespace Pgp

/-- The arguments `passphrase`, `exponent_d`, `prime_p`, `prime_q`, `multiplicative_inverse_u`, `exponent_x` of the constructor (packets.py:889-919). -/
structure PrivateArgs where
  pass : Option Bytes
  d : Option Nat
  p : Option Nat
  q : Option Nat
  u : Option Nat
  x : Option Nat

/-- packets.py:962-964: the values as multi-precision integers; `int_to_mpi(None)` is a TypeError. -/
def plainValues (fl : FloorLog2) : List (Option Nat) → Py Bytes
  | [] => .ok []
  | none :: _ => .error .typeError
  | some v :: l => do
    let a ← intToMpi fl v
    let r ← plainValues fl l
    return a ++ r

/-- packets.py:954-992 `encrypt_key_values`. From version 4 on `encrypted_data` is `bytes`, which has no method `extend` (983, 990: AttributeError); for versions 2 and 3
`cipher.sync()` is an AttributeError (972; before it `math.log(0, 2)` is a ValueError); before version 2 `encrypted_data` has no value when it is used.
Simplification: the digest of line 988 is not given an exception. -/
def encryptKeyValues (fl : FloorLog2) (sha : Bytes → Bytes) (cipher : Py (Bytes → Py Bytes)) (version : Nat) (values : List (Option Nat)) (checksum hash : Bool) : Py Bytes := do
  let enc ← cipher
  let plain ← plainValues fl values
  if version ≥ 4 then
    let e ← enc plain
    if checksum || hash then .error .attributeError else return e
  else if version = 2 ∨ version = 3 then
    match values with
    | [] =>
      let h ← if hash then enc (sha plain) else return []
      return (if checksum then [0, 0] else []) ++ h
    | some 0 :: _ => .error .valueError
    | _ :: _ => .error .attributeError
  else .error .unboundLocal

/-- packets.py:1078-1088: the private values of the algorithm. -/
def privateValues (alg : Nat) (a : PrivateArgs) : Py (List (Option Nat)) :=
  if isRsa alg then .ok [a.d, a.p, a.q, a.u]
  else if isDl alg then .ok [a.x]
  else .error .valueError

/-- packets.py:1078-1099: the values by algorithm, the key from the passphrase (`None` is a TypeError in `to_key`), and the encryption. `mk` is
`get_symmetric_cipher(alg, key, OPENPGP, iv, syncable=True)`. -/
def SecKey.reseal (fl : FloorLog2) (H : Digest) (mk : Nat → Bytes → Bytes → Py (Bytes → Py Bytes)) (k : SecKey) (a : PrivateArgs) : Py Bytes := do
  let values ← privateValues k.pub.algorithm a
  match a.pass with
  | none => .error .typeError
  | some pass =>
    let key ← k.s2k.toKey H pass
    match key with
    | none => .error .typeError
    | some key => encryptKeyValues fl (H 2) (mk k.sym key k.iv) k.pub.version values k.checksum (!k.checksum)

end Pgp
