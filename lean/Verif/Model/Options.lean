import Verif.Model.Commands
import Verif.Model.SignMsg
/-
Model of what the command line does with the options for digests, compression, the escaping of lines and output file names:
pgp/commands/gpg/algorithm_helper.py, sign.py, message_.py, formatter.py.
-/
namespace Pgp

/-- DEFAULT_DIGESTS (algorithm_helper.py:7-8), with the two texts joined by the missing comma. -/
def defaultDigests : List String := ["sha512", "sha256", "ripemd160", "sha386", "sha224sha1", "md5"]
/-- DEFAULT_COMPRESSION (algorithm_helper.py:9). -/
def defaultCompression : List String := ["zip", "zlib", "bz2"]

/-- `get_digest_algorithm_code` (algorithm_helper.py:98-112): None for any other name. -/
def digestCode (value : String) : Option Nat :=
  if value = "md5" then some 1 else if value = "sha1" then some 2 else if value = "ripemd160" then some 3 else if value = "sha256" then some 8
  else if value = "sha384" then some 9 else if value = "sha512" then some 10 else if value = "sha224" then some 11 else none

/-- `get_compression_algorithm_code` (algorithm_helper.py:114-121). -/
def compressCode (value : String) : Nat :=
  if value = "zip" then 1 else if value = "zlib" then 2 else if value = "bz2" then 3 else 0

/-- The options that decide digests and compression (algorithm_helper.py:14-21): `--compress-level`, `--bzip2-compress-level`, `-z`,
`--personal-digest-preferences`, `--personal-compress-preferences`, `--digest-algo`, `--compress-algo`. -/
structure AlgoOptions where
  zLevel : Option Nat
  bzLevel : Option Nat
  level : Option Nat
  personalDigests : Option (List String)
  personalCompression : Option (List String)
  digestAlgo : Option String
  compressAlgo : Option String

/-- `x or default` followed by `[0]` unless a name is given (algorithm_helper.py:30-33, 56-60). The lists are not empty then. -/
def firstName (given : Option String) (personal : Option (List String)) (defaults : List String) : String :=
  match given with
  | some n => n
  | none => match personal with
    | some (n :: _) => n
    | _ => defaults.headD ""

/-- `self.digest_algo` (algorithm_helper.py:30-31, 56-58). -/
def AlgoOptions.digestName (o : AlgoOptions) : String := firstName o.digestAlgo o.personalDigests defaultDigests
/-- `self.compress_algo` (algorithm_helper.py:32-33, 59-61). -/
def AlgoOptions.compressName (o : AlgoOptions) : String := firstName o.compressAlgo o.personalCompression defaultCompression

/-- `get_signature_digest_algorithm` (algorithm_helper.py:129-130). -/
def AlgoOptions.digest (o : AlgoOptions) : Option Nat := digestCode o.digestName
/-- `get_compression_algorithm` (algorithm_helper.py:132-133). -/
def AlgoOptions.compression (o : AlgoOptions) : Nat := compressCode o.compressName

/-- `get_compression_level` (algorithm_helper.py:135-143) with the levels set at 24-28. -/
def AlgoOptions.compressionLevel (o : AlgoOptions) : Option Nat :=
  let z := if o.level ≠ none then o.level else o.zLevel
  let bz := if o.level ≠ none then o.level else o.bzLevel
  if o.compression = 0 then some 0
  else if o.compression = 1 ∨ o.compression = 2 then z
  else if o.compression = 3 then bz
  else some 0

/-- `postprocess_message` of the sign command (sign.py:41-46). -/
def signPostprocess (Z : Zlib) (B : Bz2) (fl : Nat → Nat) (p : Nat → Py Bytes) (o : AlgoOptions) (m : Msg) : Py Msg :=
  if o.compression ≠ 0 then m.compress Z B fl p o.compression o.compressionLevel else .ok m

/-- `msg.sign(…)` as called by the sign command (sign.py:27-36). Simplified: the signed message is taken as the result, although
`sign_message` lacks the `return`. -/
def signMessage (fl : Nat → Nat) (H : Digest) (K : SignKey) (prefs : Py (Got (List Nat))) (o : AlgoOptions) (forceV3 : Bool) (now : Nat)
    (m : Msg) : Py Msg :=
  m.sign fl H K prefs (if forceV3 then 3 else 4) 0 o.digest true now

/-- `re.sub(r'^From ', u'- From ', data)` (message_.py:38-39): without the flag MULTILINE, `^` matches at the beginning only. -/
def escapeFrom (escape : Bool) (data : Str) : Str :=
  if escape then
    if data.take 5 = "From ".toList then "- From ".toList ++ data.drop 5 else data
  else data

/-- `make_output_filename` (formatter.py:38-45). -/
def outputName (armor : Bool) (filename : Option Str) : Option Str :=
  filename.map fun n => n ++ '.' :: (if armor then "asc".toList else "gpg".toList)

end Pgp
