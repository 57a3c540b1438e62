import Verif.Model.PyStr
/-
Model of the parts of the gpg-like command line that decide whom and how to encrypt to:
pgp/commands/gpg/algorithm_helper.py, recipient_helper.py, encrypt.py.
-/
namespace Pgp

/-! ### Algorithm choice (pgp/commands/gpg/algorithm_helper.py) -/

/-- DEFAULT_CIPHERS (algorithm_helper.py:4-6). -/
def defaultCiphers : List String :=
  ["aes256", "camellia256", "twofish", "blowfish", "aes192", "camellia192", "aes", "camellia128", "cast5", "3des", "idea"]

/-- What the cipher part of `AlgorithmHelper.__init__` (algorithm_helper.py:14-64) leaves behind: `self.cipher_algo`,
`self.personal_cipher_preferences`, and the module-level DEFAULT_CIPHERS list, which is changed in place. -/
structure CipherHelper where
  cipherAlgo : String
  personal : Option (List String)
  defaults : List String

/-- `while algo in l: l.remove(algo)` for each disabled algorithm (algorithm_helper.py:36-40). -/
def removeAll (disabled l : List String) : List String := l.filter (fun a => a ∉ disabled)

/-- The cipher part of `AlgorithmHelper.__init__` (algorithm_helper.py:29-40, 46, 53-55). `personal` is the argument
`personal_cipher_preferences` (possibly None), `defaults` the current contents of DEFAULT_CIPHERS. The preferred list is the same
object as the personal one if that is non-empty, and DEFAULT_CIPHERS itself otherwise. -/
def cipherInit (defaults : List String) (personal : Option (List String)) (disabled : List String) (cipherAlgo : Option String) :
    Py CipherHelper :=
  let finish (preferred : List String) (personal' : Option (List String)) (defaults' : List String) : Py CipherHelper :=
    match cipherAlgo with
    | some a => .ok ⟨a, personal', defaults'⟩
    | none => match preferred with
      | a :: _ => .ok ⟨a, personal', defaults'⟩
      | [] => .error .indexError
  match personal with
  | some (p :: ps) => finish (removeAll disabled (p :: ps)) (some (removeAll disabled (p :: ps))) defaults
  | some [] => finish (removeAll disabled defaults) (some []) (removeAll disabled defaults)
  | none => if disabled = [] then finish defaults none defaults else .error .typeError

/-- `get_cipher_algorithm_code` (algorithm_helper.py:73-96). -/
def cipherCode (value : String) : Nat :=
  if value = "idea" then 1 else if value = "3des" then 2 else if value = "cast5" then 3 else if value = "blowfish" then 4
  else if value = "aes" then 7 else if value = "aes192" then 8 else if value = "aes256" then 9 else if value = "twofish" then 10
  else if value = "camellia128" then 11 else if value = "camellia192" then 12 else if value = "camellia256" then 13 else 0

/-- `get_preferred_ciphers_for_encryption` (algorithm_helper.py:123-127); an empty `cipher_algo` is false in Python. -/
def preferredCiphers (h : CipherHelper) : Py (List Nat) :=
  if h.cipherAlgo ≠ "" then .ok [cipherCode h.cipherAlgo]
  else match h.personal with
    | some p => .ok (p.map cipherCode)
    | none => .error .typeError

/-! ### The encrypt command (pgp/commands/gpg/encrypt.py) -/

/-- What `pubkey_encrypt_message` asks of a recipient's key: `preferred_symmetric_algorithms` and
`supports_modification_detection`. -/
structure RecipientKey where
  ciphers : List Nat
  mdc : Bool
  deriving DecidableEq, Repr

/-- The inner loop of encrypt.py:43-47: does every key list the cipher?  A key that is None has no such attribute. -/
def cipherAcceptable (cipher : Nat) : List (Option RecipientKey) → Py Bool
  | [] => .ok true
  | none :: _ => .error .attributeError
  | some k :: ks => if cipher ∈ k.ciphers then cipherAcceptable cipher ks else .ok false

/-- encrypt.py:42-53 for a non-empty list: the first acceptable cipher. When nothing is acceptable the code raises `FatalException`, whose constructor (commands/gpg/exceptions.py:3-4) reads an attribute
that does not exist. -/
def chooseCipherLoop (keys : List (Option RecipientKey)) : List Nat → Py Nat
  | [] => .error .attributeError
  | c :: cs => do
    let ok ← cipherAcceptable c keys
    if ok then return c else chooseCipherLoop keys cs

/-- encrypt.py:42-53; with an empty list the name `acceptable` is unbound. -/
def chooseCipher (preferred : List Nat) (keys : List (Option RecipientKey)) : Py Nat :=
  if preferred = [] then .error .unboundLocal else chooseCipherLoop keys preferred

/-- The compatibility loop of encrypt.py:61-64. -/
def allSupportMdc : List (Option RecipientKey) → Py Bool
  | [] => .ok true
  | none :: _ => .error .attributeError
  | some k :: ks => if k.mdc then allSupportMdc ks else .ok false

/-- encrypt.py:55-64. -/
def chooseMdc (forced disabled : Bool) (keys : List (Option RecipientKey)) : Py Bool :=
  if forced then .ok true else if disabled then .ok false else allSupportMdc keys

/-- What `pubkey_encrypt_message` (encrypt.py:26-69) passes to `public_key_encrypt`: cipher, shown keys, hidden keys, integrity
protection. -/
structure EncryptCall where
  cipher : Nat
  shown : List (Option RecipientKey)
  hidden : List (Option RecipientKey)
  mdc : Bool

def EncryptCall.all (c : EncryptCall) : List (Option RecipientKey) := c.shown ++ c.hidden

/-- `pubkey_encrypt_message` (encrypt.py:26-69) up to the call of `public_key_encrypt`. -/
def pubkeyEncrypt (preferred : List Nat) (shown hidden : List (Option RecipientKey)) (throwKeys forced disabled : Bool) :
    Py EncryptCall := do
  let hidden' := if throwKeys then hidden ++ shown else hidden
  let shown' := if throwKeys then [] else shown
  let c ← chooseCipher preferred (shown' ++ hidden')
  let m ← chooseMdc forced disabled (shown' ++ hidden')
  return ⟨c, shown', hidden', m⟩

/-! ### Recipients (pgp/commands/gpg/recipient_helper.py) -/

/-- `self.groups.setdefault(name, []).extend(members)` (recipient_helper.py:23) on the dictionary as an association list. -/
def groupsExtend (groups : List (Str × List Str)) (name : Str) (members : List Str) : List (Str × List Str) :=
  match groups with
  | [] => [(name, members)]
  | (n, ms) :: gs => if n = name then (n, ms ++ members) :: gs else (n, ms) :: groupsExtend gs name members

/-- The group loop of `RecipientHelper.__init__` (recipient_helper.py:16-23). Note that line 22 assigns to the parameter
`recipients`. `ArgumentError(u'--group', …)` raises AttributeError itself: argparse asks the string for `option_strings`. -/
def parseGroups (groups : List (Str × List Str)) (recipients : List Str) : List Str → Py (List (Str × List Str) × List Str)
  | [] => .ok (groups, recipients)
  | val :: vals =>
    match pySplit '=' val with
    | [_] => .error .attributeError
    | [name, members] => parseGroups (groupsExtend groups name (pyWords members)) (pyWords members) vals
    | _ => .error .valueError

/-- A `RecipientHelper` after `__init__` (recipient_helper.py:7-36). -/
structure Recipients where
  groups : List (Str × List Str)
  recipients : List Str
  hidden : List Str
  encryptTo : List Str
  hiddenEncryptTo : List Str

/-- `RecipientHelper.__init__` (recipient_helper.py:7-36). -/
def recipientsInit (recipients hidden encryptTo hiddenEncryptTo : List Str) (noEncryptTo : Bool) (groups ungroups : List Str)
    (noGroups : Bool) : Py Recipients := do
  let (gs, rs) ← parseGroups [] recipients (if noGroups then [] else groups)
  return ⟨gs.filter (fun g => g.1 ∉ ungroups), rs, hidden, if noEncryptTo then [] else encryptTo,
    if noEncryptTo then [] else hiddenEncryptTo⟩

/-- The expansion loops of `get_recipients` and `get_hidden_recipients` (recipient_helper.py:40-44, 47-51, 56-60, 63-67): a list has no method
`expand`. -/
def expandRecipients (groups : List (Str × List Str)) (result : List Str) : List Str → Py (List Str)
  | [] => .ok result
  | r :: rs => if r ∈ groups.map (·.1) then .error .attributeError else expandRecipients groups (result ++ [r]) rs

/-- `for r in result: self.verify_trust(r)` with the trust check as a parameter. -/
def verifyAll (check : Str → Py Unit) : List Str → Py Unit
  | [] => .ok ()
  | r :: rs => do check r; verifyAll check rs

/-- `get_recipients` / `get_hidden_recipients` (recipient_helper.py:38-68). -/
def getRecipients (check : Str → Py Unit) (groups : List (Str × List Str)) (rs extra : List Str) : Py (List Str) := do
  let result ← expandRecipients groups [] rs
  verifyAll check result
  expandRecipients groups result extra

/-- A public key as `find_recipient_public_key` sees it. -/
structure PubKeyInfo (K : Type) where
  key : K
  revoked : Bool
  encrypts : Bool
  /-- key, revoked, may_encrypt_comms of each subkey -/
  subkeys : List (K × Bool × Bool)

/-- The subkey loop of recipient_helper.py:87-92. -/
def pickSubkey {K : Type} : List (K × Bool × Bool) → Option K
  | [] => none
  | (k, revoked, encrypts) :: ks => if revoked then pickSubkey ks else if encrypts then some k else pickSubkey ks

/-- `find_recipient_public_key` (recipient_helper.py:70-94) for a keyring lookup `find`. Both `FatalException`s become
AttributeError, see `chooseCipherLoop`. Falling off the end returns None. -/
def findRecipientKey {K : Type} (find : Str → Option (PubKeyInfo K)) (r : Str) : Py (Option K) :=
  match find r with
  | none => .error .attributeError
  | some pk =>
    if pk.revoked then .error .attributeError
    else match pickSubkey pk.subkeys with
      | some k => .ok (some k)
      | none => if pk.encrypts then .ok (some pk.key) else .ok none

/-- `get_recipient_public_key` for each recipient (recipient_helper.py:96-113). -/
def getKeys {K : Type} (find : Str → Option (PubKeyInfo K)) (checkKey : Option K → Py Unit) : List Str → Py (List (Option K))
  | [] => .ok []
  | r :: rs => do
    let k ← findRecipientKey find r
    checkKey k
    let ks ← getKeys find checkKey rs
    return k :: ks

/-- `get_recipient_public_keys` (recipient_helper.py:103-107). -/
def getRecipientKeys {K : Type} (find : Str → Option (PubKeyInfo K)) (check : Str → Py Unit) (checkKey : Option K → Py Unit)
    (h : Recipients) : Py (List (Option K)) := do
  let rs ← getRecipients check h.groups h.recipients h.encryptTo
  getKeys find checkKey rs

/-- The shipped `KeyringHelper.find_recipient` (pgp/commands/gpg/keyring_helper.py:21-23). -/
def shippedFind {K : Type} (_ : Str) : Option (PubKeyInfo K) := none

/-- The shipped `TrustDBHelper` has no method `check` (pgp/commands/gpg/trustdb_helper.py:4-39). -/
def shippedCheck {α : Type} (_ : α) : Py Unit := .error .attributeError

end Pgp
