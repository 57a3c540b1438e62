import Verif.Model.Keyring
/-
Model of the file system calls of /repo/pgp/db/gpg.py:376-465 (Keyring) and of several Keyring objects on the same file.
-/
namespace Pgp

/-- The calls by which a keyring file is changed: `open(filename, 'wb')` truncates it, `fh.write(data)` extends it. -/
inductive FileCall where
  | truncate
  | write (data : Bytes)

/-- What a completed call does to the content of the file. -/
def FileCall.run (file : Bytes) : FileCall → Bytes
  | .truncate => []
  | .write d => file ++ d

/-- gpg.py:392-393, 428-429 and 461-462: `with open(self.filename, 'wb') as fh: fh.write(data)`. -/
def writeCalls (data : Py Bytes) : List FileCall :=
  match data with
  | .error _ => []
  | .ok d => [.truncate, .write d]

/-- gpg.py:377-391: what `add_transferrable_key` writes, or the exception raised before the file is opened for writing. -/
def Keyring.addData (k : Keyring) (key : NewKey) : Py Bytes :=
  if k.readOnly then .error .typeError
  else if (tableGet k.table key.fingerprint).isSome then .error .keyError
  else do return k.file ++ (← key.bytes k.fmt)

/-- gpg.py:401-427: what `update_transferrable_key` writes, or the exception raised before. -/
def Keyring.updateData (I : PacketInfo) (k : Keyring) (key : NewKey) : Py Bytes :=
  if k.readOnly then .error .typeError
  else
    match tableGet k.table (lastN key.fingerprint 8) with
    | none => .error .keyError
    | some off => do
      let (fmt, rest) ← tailLoop I k.file.length (k.file.drop off) none
      if k.file.drop off = [] then .error .unboundLocal
      else do
        let b ← key.bytes fmt
        return k.file.take off ++ rest ++ b

/-- gpg.py:435-460: what `delete_transferrable_key` writes, or the exception raised before. -/
def Keyring.deleteData (I : PacketInfo) (k : Keyring) (fingerprint : List Char) : Py Bytes :=
  if k.readOnly then .error .typeError
  else
    match tableGet k.table (lastN fingerprint 8) with
    | none => .error .keyError
    | some off => do
      let (_, rest) ← tailLoop I k.file.length (k.file.drop off) none
      if k.file.drop off = [] then .error .unboundLocal
      else return k.file.take off ++ rest

/-- A Keyring object holds the name of the file, not its content: this is the object when the file has this content
(gpg.py:303-307; the file is read anew at lines 316, 336, 387, 411 and 445). -/
def Keyring.on (k : Keyring) (file : Bytes) : Keyring := { k with file := file }

/-- A keyring file and the objects that were made for it. (The `file` fields of the objects are not used.) -/
structure SharedRing where
  file : Bytes
  objects : List Keyring

/-- The operation `op` done by the object number `i`; operations do not overlap in time (gpg.py:384, 407, 443: the lock). -/
def SharedRing.step {α : Type} (s : SharedRing) (i : Nat) (op : Keyring → α × Keyring) : Option (α × SharedRing) :=
  match s.objects[i]? with
  | none => none
  | some k => some ((op (k.on s.file)).1, ⟨(op (k.on s.file)).2.file, s.objects.set i (op (k.on s.file)).2⟩)

end Pgp
