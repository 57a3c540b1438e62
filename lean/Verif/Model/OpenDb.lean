import Verif.Model.Keyring
/-
Model of opening the file of a key database: get_resource (pgp/db/gpg.py:468-506) and the constructors of the resources it makes
(160-195, 200-207, 303-307).
-/
namespace Pgp

/-- `get_resource(filename, force, read_only=…)` (gpg.py:468-506). `content` gives the content of a file, `none` if there is none; `haveGdbm` says that the
module gdbm is installed. The constructor of GDBM calls `self.firstkey()` (gpg.py:202), a method the class does not have. The lock is not modelled
here (see Model/Lock). -/
def openResource (I : PacketInfo) (haveGdbm force readOnly : Bool) (filename : List Char) (content : List Char → Option Bytes) : Py Keyring :=
  match getResource filename content with
  | (.keybox, _) => .error .valueError
  | (.gdbm, _) => if haveGdbm then .error .attributeError else .error .runtimeError
  | (.keyring, name) =>
    match content name with
    | none => Keyring.create force
    | some d => Keyring.open I d readOnly

end Pgp
