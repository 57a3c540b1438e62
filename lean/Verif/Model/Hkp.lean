import Verif.Model.PyStr
import Verif.Model.Text
import Verif.Model.Keyring
import Verif.Model.Utils
/-
Model of the keyserver client's reader of machine-readable index listings (pgp/keyserver/hkp.py:29-155).  The network access itself is
not modelled.
-/
namespace Pgp

/-- `int(s)` for a decimal string: surrounding white space, an optional sign, digits with single underscores between them. Simplified:
decimal digits outside ASCII, which Python accepts too, are a ValueError here. -/
def pyIntBody (s : Str) : Py Nat :=
  if s ≠ [] ∧ s.all (fun c => isAsciiDigit c || c = '_') ∧ s.head? ≠ some '_' ∧ s.getLast? ≠ some '_' ∧
      (s.zip s.tail).all (fun p => !(p.1 = '_' && p.2 = '_')) then
    .ok (decValue (s.filter isAsciiDigit))
  else .error .valueError

def pyInt (s : Str) : Py Int :=
  match pyStrip s with
  | '-' :: t => do return -((← pyIntBody t) : Int)
  | '+' :: t => do return ((← pyIntBody t) : Int)
  | t => do return ((← pyIntBody t) : Int)

/-- `urllib.parse.unquote_to_bytes` on ASCII text: `%XX` is the octet, a `%` not followed by two hexadecimal digits stays. -/
def unquoteBytes : Str → Bytes
  | '%' :: a :: b :: s =>
    match hexVal a, hexVal b with
    | some x, some y => UInt8.ofNat (16 * x + y) :: unquoteBytes s
    | _, _ => 0x25 :: unquoteBytes (a :: b :: s)
  | c :: s => UInt8.ofNat c.toNat :: unquoteBytes s
  | [] => []

/-- `urllib.parse.unquote`: each run of ASCII characters is unquoted and decoded as UTF-8 with replacement, other characters are kept;
`acc` is the current run. -/
def unquoteAux (acc : Str) : Str → Str
  | [] => utf8DecodeReplace (unquoteBytes acc)
  | c :: s => if c.toNat < 128 then unquoteAux (acc ++ [c]) s else utf8DecodeReplace (unquoteBytes acc) ++ c :: unquoteAux [] s

def unquote (s : Str) : Str := unquoteAux [] s

/-- `_add_colons` (hkp.py:29-35). -/
def addColons (line : Str) (number : Nat) : Str := line ++ List.replicate (number - line.count ':') ':'

/-- `HKPUserIdResult` (hkp.py:38-63); `T` is the type of local times. -/
structure HkpUid (T : Type) where
  userId : Str
  created : T
  expires : Option T
  revoked : Bool
  disabled : Bool
  expired : Bool
  deriving DecidableEq

/-- `HKPResult` (hkp.py:66-99). -/
structure HkpResult (T : Type) where
  keyId : Str
  algorithm : Int
  bits : Int
  created : T
  expires : Option T
  revoked : Bool
  disabled : Bool
  expired : Bool
  userIds : List (HkpUid T)
  deriving DecidableEq

/-- The optional expiry field (hkp.py:57-60, 93-96). `ft` is `datetime.datetime.fromtimestamp`. -/
def parseExpires {T : Type} (ft : Int → Py T) (s : Str) : Py (Option T) :=
  if s = [] then .ok none else do
    let n ← pyInt s
    let t ← ft n
    return some t

/-- `_parse_uid_line` (hkp.py:52-63). A wrong number of fields is a ValueError of the unpacking. -/
def parseUidLine {T : Type} (ft : Int → Py T) (l : Str) : Py (HkpUid T) :=
  match pySplit ':' (addColons l 4) with
  | [_, uid, created, expires, flags] => do
    let n ← pyInt created
    let c ← ft n
    let e ← parseExpires ft expires
    return ⟨unquote uid, c, e, 'r' ∈ flags, 'd' ∈ flags, 'e' ∈ flags⟩
  | _ => .error .valueError

/-- `HKPResult.__init__` and `_parse_pub_line` (hkp.py:78-99). -/
def parseResult {T : Type} (ft : Int → Py T) (l : Str) (uids : List Str) : Py (HkpResult T) :=
  match pySplit ':' (addColons l 6) with
  | [_, keyId, algorithm, bits, created, expires, flags] => do
    let a ← pyInt algorithm
    let b ← pyInt bits
    let n ← pyInt created
    let c ← ft n
    let e ← parseExpires ft expires
    let us ← uids.mapM (parseUidLine ft)
    return ⟨keyId, a, b, c, e, 'r' ∈ flags, 'd' ∈ flags, 'e' ∈ flags, us⟩
  | _ => .error .valueError

/-- `if pub_key: results.append(HKPResult(self, pub_key, user_ids))` (hkp.py:145-146, 152-153); the line is never empty. -/
def closeGroup {T : Type} (ft : Int → Py T) (results : List (HkpResult T)) (pub : Option Str) (uids : List Str) :
    Py (List (HkpResult T)) :=
  match pub with
  | none => .ok results
  | some p => do
    let r ← parseResult ft p uids
    return results ++ [r]

/-- The loop of `_read_mr` (hkp.py:140-155): the results so far, the current pub line and its uid lines. -/
def readMrLoop {T : Type} (ft : Int → Py T) (results : List (HkpResult T)) (pub : Option Str) (uids : List Str) :
    List Str → Py (List (HkpResult T))
  | [] => closeGroup ft results pub uids
  | line :: lines =>
    if startsWith line "pub".toList then do
      let rs ← closeGroup ft results pub uids
      readMrLoop ft rs (some line) [] lines
    else if startsWith line "uid".toList then readMrLoop ft results pub (uids ++ [line]) lines
    else readMrLoop ft results pub uids lines

/-- `_read_mr` (hkp.py:128-155). -/
def readMr {T : Type} (ft : Int → Py T) (data : Str) : Py (List (HkpResult T)) :=
  match splitlines data with
  | [] => .error .indexError
  | info :: rest =>
    if startsWith info "info:".toList ∧ (pySplit ':' info).length ≠ 3 then .error .valueError
    else readMrLoop ft [] none [] (info :: rest)

end Pgp
