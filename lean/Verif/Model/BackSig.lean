import Verif.Model.SigLists
import Verif.Model.KeySigs
/-
Model of the checking of back signatures of subkeys (pgp/signature_verification.py:66-100, 166-173, 204-215).
-/
namespace Pgp

/-- `get_hashed_subpacket_data` (signature_verification.py:166-173); None for versions below 2. -/
def hashedSubpacketData (fl : FloorLog2) (s : SigObj) : Py (Option Bytes) :=
  if s.version = 2 ∨ s.version = 3 then .ok (some [])
  else if s.version ≥ 4 then do
    let b ← subsBytes fl s.hashed
    return some b
  else .ok none

/-- The loop over the embedded signatures (signature_verification.py:72-92): `subkey_binding_signature.target()` calls the value of the property `target`,
which is None or a signature, neither of which can be called. -/
def backLoop (data : Py (Option Bytes)) (target : Py (Option SigObj)) : List SigObj → Py Unit
  | [] => .ok ()
  | e :: l =>
    if e.sigType = 0x19 then do
      let _ ← data
      let _ ← target
      .error .typeError
    else backLoop data target l

/-- `check_back_signatures` (signature_verification.py:66-100) for the signature with index `i` of a subkey with the signatures `sigs`. The key, the time and
`strict` are used behind the call that fails only. -/
def checkBackSignatures (fl : FloorLog2) (sigs : List SigObj) (i : Nat) (s : SigObj) : Py Unit := do
  let l ← s.embeddedSigs
  backLoop (hashedSubpacketData fl s) (targetOf sigs i s) l
  match ← s.get (.flag .sign) with
  | some true => .error (.pgp "MissingBackSignature")
  | _ => .ok ()

/-- `validate_key_signature` (signature_verification.py:204-215). The attribute `public_key_parent` does not exist. -/
def validateKeySignature (key : CheckKey) (s : SigObj) (strict : Bool) (now : Option Int) : Py (Bool × Bool) := do
  let _ ← checkSignature key s strict now
  .error .attributeError

end Pgp
