import Verif.Model.UserId
/-
Model of the parts of a user id object, /repo/pgp/transferrable_keys.py:713-744: `user_name`, `user_email` and `user_comment` and their setters.
`email.utils.formataddr` of the standard library is modelled; the encoded words it makes of names that are not ASCII are a parameter.
-/
namespace Pgp

/-- `s.encode('ascii')` succeeds. -/
def isAscii (s : Str) : Bool := s.all fun c => c.toNat < 128

/-- `email.utils.specialsre`: `[][\\()<>@,:;".]`. -/
def addrSpecials : List Char := "][\\()<>@,:;\".".toList

/-- `escapesre.sub(r'\\\g<0>', name)`: a backslash before every backslash and quotation mark. -/
def escapeName (s : Str) : Str := s.flatMap fun c => if c = '\\' ∨ c = '"' then ['\\', c] else [c]

/-- The quotation marks put around a name with special characters. -/
def nameQuotes (name : Str) : Str := if name.any (· ∈ addrSpecials) then ['"'] else []

/-- `email.utils.formataddr((name, address), 'utf8')`; `encodeWord` is `Charset('utf8').header_encode`. -/
def formatAddr (encodeWord : Str → Str) (name addr : Str) : Py Str :=
  if !isAscii addr then .error .unicodeError
  else if name = [] then .ok addr
  else if !isAscii name then .ok (encodeWord name ++ " <".toList ++ addr ++ ['>'])
  else .ok (nameQuotes name ++ escapeName name ++ nameQuotes name ++ " <".toList ++ addr ++ ['>'])

/-- transferrable_keys.py:713-717 `_make_user_id`. -/
def makeUserId (encodeWord : Str → Str) (name email comment : Str) : Py Str := do
  let r ← formatAddr encodeWord name email
  return if comment = [] then r else r ++ " (".toList ++ comment ++ [')']

/-- transferrable_keys.py:719-720. -/
def userName (s : Str) : Py Str := do
  let (n, _, _) ← parseUserId s
  return n
/-- transferrable_keys.py:728-729. -/
def userEmail (s : Str) : Py Str := do
  let (_, e, _) ← parseUserId s
  return e
/-- transferrable_keys.py:737-738. -/
def userComment (s : Str) : Py Str := do
  let (_, _, c) ← parseUserId s
  return c

/-- transferrable_keys.py:722-724: the new text of the user id. -/
def setUserName (encodeWord : Str → Str) (s name : Str) : Py Str := do
  let e ← userEmail s
  let c ← userComment s
  makeUserId encodeWord name e c
/-- transferrable_keys.py:731-733. -/
def setUserEmail (encodeWord : Str → Str) (s email : Str) : Py Str := do
  let n ← userName s
  let c ← userComment s
  makeUserId encodeWord n email c
/-- transferrable_keys.py:740-742. -/
def setUserComment (encodeWord : Str → Str) (s comment : Str) : Py Str := do
  let n ← userName s
  let e ← userEmail s
  makeUserId encodeWord n e comment

end Pgp
