import Verif.Model.Py
import Verif.Model.PyStr
/-
Model of the output of the command line: `IOHelper` (pgp/commands/gpg/io_helper.py:156-285).
-/
namespace Pgp

/-! ### write_output -/

/-- The loop of `write_output` (io_helper.py:273-280) on what is left in the stream: `read(1024)`, `write` (which takes all it is given and returns the number),
and the comparison with the limit, which is a local variable that may have no value. `raise FatalException(1)` raises AttributeError, as the constructor reads an
attribute that is not there (exceptions.py:3-4). Gives the result and the octets written. -/
def writeLoop (limit : Option Nat) (total : Nat) (data : Bytes) : Py Nat × Bytes :=
  let total' := total + (data.take 1024).length
  match limit with
  | none => (.error .unboundLocal, data.take 1024)
  | some l =>
    if l ≠ 0 ∧ total' > l then (.error .attributeError, data.take 1024)
    else if h : data = [] then (.ok total', [])
    else
      let r := writeLoop limit total' (data.drop 1024)
      (r.1, data.take 1024 ++ r.2)
termination_by data.length
decreasing_by
  simp only [List.length_drop]
  have : data.length ≠ 0 := fun e => h (List.length_eq_zero_iff.mp e)
  omega

/-- `write_output` (io_helper.py:264-280): where the octets go, the result and the octets. `limit` is assigned only if `max_output` is true in the sense of Python.
The names given are those of the caller and of the option `--output`. -/
def writeOutput (maxOutput : Option Nat) (optionName callerName : Option Str) (data : Bytes) : Option Str × Py Nat × Bytes :=
  let limit := match maxOutput with
    | none => none
    | some n => if n = 0 then none else some n
  let name := match callerName with
    | none => optionName
    | some n => some n
  let dest := match name with
    | some (c :: n) => some (c :: n)
    | _ => none
  (dest, writeLoop limit 0 data)

/-! ### write_status, write_log, write_attribute -/

/-- A pair of options like `--status-fd` and `--status-file`. -/
structure Channel where
  fd : Option Nat
  file : Option Str

/-- Where something is written. -/
inductive Dest where
  | stdout
  | fd (n : Nat)
  | file (name : Str)
  deriving DecidableEq

/-- `if self.status_fd:`. -/
def Channel.hasFd (c : Channel) : Bool :=
  match c.fd with
  | some (_ + 1) => true
  | _ => false

/-- `if self.status_file:`. -/
def Channel.hasFile (c : Channel) : Bool :=
  match c.file with
  | some (_ :: _) => true
  | _ => false

/-- `os.fdopen(fd, 'wb')`: TypeError on None, OSError if the descriptor is not open; both are caught, hence no distinction. -/
def openFd (fdOk : Nat → Bool) : Option Nat → Option Dest
  | some n => if fdOk n then some (.fd n) else none
  | none => none

/-- `open_filename(name, 'wb')`: TypeError on None, OSError if it cannot be opened. Special file names are not modelled. -/
def openName (fileOk : Str → Bool) : Option Str → Option Dest
  | some n => if fileOk n then some (.file n) else none
  | none => none

/-- The common part of `write_status`, `write_log` and `write_attribute` (io_helper.py:210-262): `status` are the options tested, `own` those used. `encode` is
`.encode(display_charset)`, whose errors are ValueErrors. Gives what is written where (nothing after an error, which is caught) and whether `exit(1)` is called. -/
def writeChannel (status own : Channel) (exitOnError : Bool) (fdOk : Nat → Bool) (fileOk : Str → Bool) (encode : Str → Option Bytes) (text : Str) :
    List (Dest × Bytes) × Bool :=
  let dest : Option Dest :=
    match (if status.hasFd then openFd fdOk own.fd else some .stdout) with
    | none => none
    | some d => if status.hasFile then openName fileOk own.file else some d
  match dest with
  | none => ([], exitOnError)
  | some d =>
    match encode text with
    | none => ([], exitOnError)
    | some b => ([(d, b)], false)

/-- io_helper.py:210-226. -/
def writeStatus (status : Channel) := writeChannel status status

/-- io_helper.py:228-244: the status options are tested. -/
def writeLog (status logger : Channel) := writeChannel status logger

/-- io_helper.py:246-262: the status options are tested. -/
def writeAttribute (status attr : Channel) := writeChannel status attr

/-! ### view_photo -/

/-- `s.replace('%x', v)`. -/
def replaceMark (x : Char) (v : Str) : Str → Str
  | '%' :: y :: t => if y = x then v ++ replaceMark x v t else '%' :: replaceMark x v (y :: t)
  | c :: t => c :: replaceMark x v t
  | [] => []

/-- `'%x' in s`. -/
def hasMark (x : Char) : Str → Bool
  | '%' :: y :: t => y = x || hasMark x (y :: t)
  | _ :: t => hasMark x t
  | [] => false

/-- The values for the marks `%k %K %f %t %T %v %V %U`. -/
structure PhotoInfo where
  keyId : Str
  longKeyId : Str
  fingerprint : Str
  extension : Str
  mimeType : Str
  validity : Str
  fullValidity : Str
  userId : Str

/-- The command after the first replacements (io_helper.py:166-175). -/
def photoCommand (viewer : Str) (i : PhotoInfo) : Str :=
  replaceMark '%' ['%'] (replaceMark 'U' i.userId (replaceMark 'V' i.fullValidity (replaceMark 'v' i.validity (replaceMark 'T' i.mimeType
    (replaceMark 't' i.extension (replaceMark 'f' i.fingerprint (replaceMark 'K' i.longKeyId (replaceMark 'k' i.keyId viewer))))))))

/-- `view_photo` (io_helper.py:156-208) up to the start of the viewer: the command and the standard input it gets. With `%i` or `%I` in the command the photo is to
be written to a file, but `fh.write` is given the stream, not its content, which is a TypeError. -/
def viewPhoto (viewer : Str) (i : PhotoInfo) : Py (Str × Option Bytes) :=
  let command := photoCommand viewer i
  if hasMark 'I' command || hasMark 'i' command then .error .typeError
  else .ok (command, none)

end Pgp
