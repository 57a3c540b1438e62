import Verif.Model.UserId
import Verif.Model.Hkp
import Verif.Model.DataPackets
/-
Model of the passphrase prompts (pgp/pinentry/getpass.py, pgp/pinentry/gpg_agent.py).  What the user types and what the agent sends are
parameters.
-/
namespace Pgp

/-! ### The console prompt (pgp/pinentry/getpass.py) -/

/-- End of the terminal's input: `getpass` raises EOFError. -/
def eofError : PyErr := .pgp "EOFError"

/-- getpass.py:58-61: the confirmations; all are read, also after one that differs. -/
def confirmLoop : (n : Nat) → (passphrase : Str) → (ok : Bool) → (typed : List Str) → Py (Bool × List Str)
  | 0, _, ok, typed => .ok (ok, typed)
  | _ + 1, _, _, [] => .error eofError
  | n + 1, p, ok, c :: typed => confirmLoop n p (ok && c = p) typed

/-- getpass.py:51-61: the passphrase, the messages printed, the rest of what is typed. `fuel` is above the number of lines typed. -/
def askLoop (repeats : Nat) : (fuel : Nat) → (errorMessage : Str) → (typed : List Str) → Py (Str × List Str × List Str)
  | 0, _, _ => .error .diverges
  | _ + 1, _, [] => .error eofError
  | fuel + 1, e, p :: typed => do
    let (ok, rest) ← confirmLoop repeats p true typed
    let shown := if e = [] then [] else [e]
    if ok then return (p, shown, rest)
    else do
      let (q, more, rest') ← askLoop repeats fuel "Passwords do not match.".toList rest
      return (q, shown ++ more, rest')

/-- The dictionary `_cache`. -/
abbrev PinCache := Str → Option Str

/-- The arguments of `get_passphrase` that matter (getpass.py:29-32). Simplified: `repeat` is not negative. -/
structure PinRequest where
  prompt : Option Str := none
  errorMessage : Option Str := none
  description : Option Str := none
  cacheId : Option Str := none
  useCache : Bool := true
  noAsk : Bool := false
  repeats : Nat := 0

/-- `if x in (None, 'X'): x = default` (getpass.py:33-39). -/
def orDefault (default : Str) : Option Str → Str
  | none => default
  | some s => if s = ['X'] then default else s

/-- getpass.py:40-41 with the test of `cache_id` at 43 and 63: the id under which a passphrase is kept, if any. -/
def cacheKey (r : PinRequest) : Option Str :=
  match r.cacheId with
  | none => none
  | some s => if s = ['X'] ∨ s = [] ∨ r.useCache = false then none else some s

/-- What a call leaves: its outcome with the messages printed and the lines typed but not read, and the cache. -/
structure PinAnswer where
  passphrase : Str
  printed : List Str
  rest : List Str
  deriving DecidableEq

/-- getpass.py:49-52: the lines printed before asking. -/
def pinIntro (r : PinRequest) : List Str :=
  (if orDefault "PIN?".toList r.prompt = [] then [] else [orDefault "PIN?".toList r.prompt]) ++
  (if orDefault [] r.description = [] then [] else [orDefault [] r.description])

/-- `_cache[cache_id]`, if a cache id is used. -/
def cached (c : PinCache) : Option Str → Option Str
  | none => none
  | some k => c k

/-- `self._cache[cache_id] = passphrase`. -/
def cacheSet (c : PinCache) (key : Option Str) (p : Str) : PinCache :=
  match key with
  | none => c
  | some k => fun j => if j = k then some p else c j

/-- `get_passphrase` (getpass.py:29-65). -/
def pinGet (c : PinCache) (r : PinRequest) (typed : List Str) : Py PinAnswer × PinCache :=
  match cached c (cacheKey r) with
  | some p => (.ok ⟨p, [], typed⟩, c)
  | none =>
    if r.noAsk then (.error .keyError, c)
    else match askLoop r.repeats (typed.length + 1) (orDefault "Error.".toList r.errorMessage) typed with
      | .error e => (.error e, c)
      | .ok (p, shown, rest) => (.ok ⟨p, pinIntro r ++ shown, rest⟩, cacheSet c (cacheKey r) p)

/-- `clear_passphrase` (getpass.py:67-69). -/
def pinClear (c : PinCache) (id : Str) : PinCache := fun j => if j = id then none else c j

/-! ### The GnuPG agent (pgp/pinentry/gpg_agent.py) -/

/-- gpg_agent.py:74-89: one argument of the command; missing or empty is `X`. -/
def agentArg : Option Str → Str
  | none => ['X']
  | some s => if s = [] then ['X'] else urlQuote s

/-- A decimal number, as `'{0}'.format(n)`. -/
def decStr (n : Nat) : Str := Nat.toDigits 10 n

/-- What a caller asks the agent. -/
structure AgentRequest where
  prompt : Option Str := none
  errorMessage : Option Str := none
  description : Option Str := none
  cacheId : Option Str := none
  noAsk : Bool := false
  qualitybar : Bool := false
  repeats : Nat := 0

/-- The command sent (gpg_agent.py:62-90). Simplified: `repeat` is not negative. -/
def agentCommand (r : AgentRequest) : Str :=
  "GET_PASSPHRASE --data".toList ++ (if r.noAsk then " --no-ask".toList else []) ++ (if r.qualitybar then " --qualitybar".toList else []) ++
  (if r.repeats = 1 then " --repeat".toList else if r.repeats > 1 then " --repeat=".toList ++ decStr r.repeats else []) ++
  (' ' :: agentArg r.cacheId) ++ (' ' :: agentArg r.errorMessage) ++ (' ' :: agentArg r.prompt) ++ (' ' :: agentArg r.description)

/-- `send` (gpg_agent.py:43-46): `line.encode('latin-1')`, which raises UnicodeEncodeError for characters beyond U+00FF, and a line feed. -/
def agentSend (line : Str) : Py Bytes :=
  if line.all (fun c => c.toNat < 256) then .ok (line.map (fun c => UInt8.ofNat c.toNat) ++ [0x0a]) else .error .unicodeError

/-- The command sent by `clear_passphrase` (gpg_agent.py:97-100); the answer is not read. -/
def agentClear (cacheId : Str) : Str := "CLEAR_PASSPHRASE ".toList ++ urlQuote cacheId

/-- `get_response` (gpg_agent.py:48-60): the lines up to the one that starts with `OK`, and what the agent sends after it. When the agent
closes the connection `recv` returns no octets for ever: the loop does not end. -/
def agentResponse : (lines : List Bytes) → (buf : Bytes) → (input : Bytes) → Py (List Bytes × Bytes)
  | _, _, [] => .error .diverges
  | lines, buf, b :: input =>
    if b = 0x0a then
      if buf.take 2 = [0x4f, 0x4b] then .ok (lines ++ [buf], input)
      else if buf.take 3 = [0x45, 0x52, 0x52] then .error .valueError
      else agentResponse (lines ++ [buf]) [] input
    else agentResponse lines (buf ++ [b]) input

/-- gpg_agent.py:93: the passphrase in the lines of a response. -/
def agentData : List Bytes → Py Str
  | [] => .error .indexError
  | l :: _ => .ok (unquote (latin1Decode (l.drop 2)))

/-- `get_passphrase` (gpg_agent.py:62-93) for everything the agent sends: the greeting (37) and the response. -/
def agentGet (input : Bytes) : Py Str := do
  let (_, rest) ← agentResponse [] [] input
  let (lines, _) ← agentResponse [] [] rest
  agentData lines

end Pgp
