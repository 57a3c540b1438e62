import Verif.Model.Options
/-
Model of the sign commands of the command line: pgp/commands/gpg/sign.py, clearsign.py, detach_sign.py with message_.py, and the parts of
io_helper.py, keyring_helper.py and formatter.py they use.
-/
namespace Pgp

/-- The files: content and time of change. Simplified: every name can be opened for writing. -/
abbrev CmdFiles := Str → Option (Bytes × Nat)

/-- The three commands. -/
inductive SignKind where
  | sign
  | clearsign
  | detach
  deriving DecidableEq

/-- `MessageCommand.__init__` (message_.py:10-19): the name that goes into the message. -/
def messageName (given : Option Str) (forYourEyesOnly : Bool) : Option Str := if forYourEyesOnly then some "_CONSOLE".toList else given

/-- `file_to_literal_message` with `binary=True` (message_.py:21-41), with `get_timestamp` (io_helper.py:115-128), in which `self.self` is AttributeError, and
`open_file` (io_helper.py:282-285). A file that is missing is OSError. -/
def literalOfFile (files : CmdFiles) (name : Option Str) : Option Str → Py Msg
  | none => .error .attributeError
  | some f =>
    match files f with
    | none => .error (.pgp "OSError")
    | some (d, t) =>
      match name with
      | some (c :: n) => .ok (.literal false (.octets d) (c :: n) t)
      | _ => .ok (.literal false (.octets d) f t)

/-- `open(name, 'wb')`: the file is there, and empty. -/
def openForWriting (files : CmdFiles) (now : Nat) (name : Str) : CmdFiles := fun n => if n = name then some ([], now) else files n

/-- What a command is given: the secret key of the keyring (`get_secret_key`, keyring_helper.py:18-19, of the library returns None), its hash preferences, and the
options. -/
structure SignOptions where
  key : Option SignKey
  prefs : Py (Got (List Nat))
  algo : AlgoOptions
  forceV3 : Bool
  armor : Bool
  name : Option Str
  forYourEyesOnly : Bool

/-- `sign_message` (sign.py:27-36, clearsign.py:7-10): `msg.sign` is called; nothing is returned. Nothing is an attribute of None: without a key AttributeError. -/
def signCall (fl : Nat → Nat) (H : Digest) (o : SignOptions) (kind : SignKind) (now : Nat) (m : Msg) : Py Unit :=
  match o.key with
  | none => .error .attributeError
  | some K => do
    let _ ← m.sign fl H K o.prefs (if o.forceV3 then 3 else 4) (if kind = .clearsign then 1 else 0) o.algo.digest true now
    return ()

/-- `run` (sign.py:48-52): the literal message is made and signed; `postprocess_message` (sign.py:41-46, clearsign.py:12-14) is called with None, which has no
`compress`; `output` (sign.py:54-59, clearsign.py:16-21, detach_sign.py:6-12) opens the file (`write_output`, io_helper.py:264-280) to write what
`format_message` (formatter.py:56-59) returns, which is None and has no `read`; a detached signature is taken from None, which has no `signatures`, before that. Gives
the result and the files. -/
def signRun (fl : Nat → Nat) (H : Digest) (o : SignOptions) (kind : SignKind) (now : Nat) (files : CmdFiles) (filename : Option Str) : Py Unit × CmdFiles :=
  match literalOfFile files (messageName o.name o.forYourEyesOnly) filename with
  | .error e => (.error e, files)
  | .ok m =>
    match signCall fl H o kind now m with
    | .error e => (.error e, files)
    | .ok () =>
      if kind ≠ .clearsign ∧ o.algo.compression ≠ 0 then (.error .attributeError, files)
      else if kind = .detach then (.error .attributeError, files)
      else match outputName o.armor filename with
        | none => (.error .attributeError, files)
        | some n => (.error .attributeError, openForWriting files now n)

end Pgp
