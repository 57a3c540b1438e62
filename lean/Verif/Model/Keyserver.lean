import Verif.Model.Hkp
import Verif.Model.Files
/-
Model of the keyserver client (pgp/keyserver/__init__.py:22-25, pgp/keyserver/hkp.py:109-184): the URLs it makes of the given one, the requests it
sends, and what it makes of the answers. The parts of Python's urllib.parse that it uses are modelled with it. Simplified: URLs are taken to have no
white space, no control characters, no characters outside ASCII and no brackets, which urllib.parse strips, refuses or normalises. For URLs with an empty host and a path starting with two slashes, urllib.parse differs between
versions of Python; one of them is modelled.
-/
namespace Pgp

/-- The text before the first of the characters `p` holds for, and the text from there on. -/
def cutAt (p : Char → Bool) (s : Str) : Str × Str := (s.takeWhile (fun c => !p c), s.dropWhile (fun c => !p c))

/-- `c.lower()` of an ASCII letter. -/
def lowerChar (c : Char) : Char := if 'A'.toNat ≤ c.toNat ∧ c.toNat ≤ 'Z'.toNat then Char.ofNat (c.toNat + 32) else c

/-- A letter of ASCII (`urllib.parse` asks `url[0].isascii() and url[0].isalpha()`). -/
def isAsciiLetter (c : Char) : Bool := ('A'.toNat ≤ c.toNat && c.toNat ≤ 'Z'.toNat) || ('a'.toNat ≤ c.toNat && c.toNat ≤ 'z'.toNat)

/-- `urllib.parse.scheme_chars`. -/
def isSchemeChar (c : Char) : Bool := isAsciiLetter c || isAsciiDigit c || c = '+' || c = '-' || c = '.'

/-- `urllib.parse.ParseResult`. -/
structure Url where
  scheme : Str
  netloc : Str
  path : Str
  params : Str
  query : Str
  fragment : Str
  deriving DecidableEq

/-- `urllib.parse.urlsplit`: the scheme, lower-cased, if there is one, and what is behind it. -/
def splitScheme (url : Str) : Str × Str :=
  match cutAt (· = ':') url with
  | (c :: s, ':' :: rest) => if isAsciiLetter c ∧ (c :: s).all isSchemeChar then ((c :: s).map lowerChar, rest) else ([], url)
  | _ => ([], url)

/-- `urllib.parse._splitnetloc` where there is one. -/
def splitNetloc : Str → Str × Str
  | '/' :: '/' :: s => cutAt (fun c => c = '/' || c = '?' || c = '#') s
  | s => ([], s)

/-- `url.split(c, 1)` if `c` is in it. -/
def splitOnce (c : Char) (s : Str) : Str × Str := let p := cutAt (· = c) s; (p.1, p.2.drop 1)

/-- `urllib.parse._splitparams`: what is behind the first semicolon of the last part of the path. -/
def splitParams (path : Str) : Str × Str :=
  let last := (path.reverse.takeWhile (· ≠ '/')).reverse
  let dir := path.take (path.length - last.length)
  let p := splitOnce ';' last
  (dir ++ p.1, p.2)

/-- `urllib.parse.uses_params` has `http` and `https` and, of the schemes that occur, no other but the empty one. -/
def usesParams (scheme : Str) : Bool := scheme = "http".toList || scheme = "https".toList || scheme = []

/-- `urllib.parse.urlparse`. -/
def urlparse (url : Str) : Url :=
  let (scheme, rest) := splitScheme url
  let (netloc, rest) := splitNetloc rest
  let (rest, fragment) := splitOnce '#' rest
  let (path, query) := splitOnce '?' rest
  if usesParams scheme then
    let (path, params) := splitParams path
    ⟨scheme, netloc, path, params, query, fragment⟩
  else ⟨scheme, netloc, path, [], query, fragment⟩

/-- `urllib.parse.urlunparse` for the schemes `http` and `https`, which always have a network location. -/
def urlunparse (u : Url) : Str :=
  let url := if u.params ≠ [] then u.path ++ ';' :: u.params else u.path
  let url := if u.netloc ≠ [] ∨ url.take 2 ≠ ['/', '/'] then "//".toList ++ u.netloc ++ (if url ≠ [] ∧ url.take 1 ≠ ['/'] then '/' :: url else url) else url
  let url := u.scheme ++ ':' :: url
  let url := if u.query ≠ [] then url ++ '?' :: u.query else url
  if u.fragment ≠ [] then url ++ '#' :: u.fragment else url

/-- The loop of `urllib.parse.urljoin` over the segments. -/
def resolveSegments : List Str → List Str → List Str
  | acc, [] => acc
  | acc, seg :: segs =>
    if seg = "..".toList then resolveSegments acc.dropLast segs
    else if seg = ".".toList then resolveSegments acc segs
    else resolveSegments (acc ++ [seg]) segs

/-- The path that `urllib.parse.urljoin` makes of the path of the base and the relative path `a/b`, neither of which is a dot segment. -/
def joinPath (path a b : Str) : Str :=
  let parts := pySplit '/' path
  let parts := if parts.getLast? ≠ some [] then parts.dropLast else parts
  let segments := parts ++ [a, b]
  let segments := segments.take 1 ++ ((segments.drop 1).dropLast.filter (· ≠ [])) ++ [b]
  let joined := pyJoin ['/'] (resolveSegments [] segments)
  if joined = [] then ['/'] else joined

/-- `urllib.parse.urljoin(base, 'a/b')` for a base with the scheme `http` or `https`. -/
def urljoin (base a b : Str) : Str :=
  let u := urlparse base
  urlunparse ⟨u.scheme, u.netloc, joinPath u.path a b, [], [], []⟩

/-- hkp.py:111-115 `HKPKeyserverClient.__init__`: the base URL. -/
def clientBase (url : Str) : Str :=
  let u := urlparse url
  urlunparse { u with scheme := if u.scheme = "hkps".toList then "https".toList else "http".toList }

/-- keyserver/__init__.py:22-25 `get_keyserver`: the base URL of the client it returns, if it does not return None. -/
def getKeyserver (url : Str) : Option Str :=
  let scheme := (urlparse url).scheme
  if scheme = "hkp".toList ∨ scheme = "hkps".toList ∨ scheme = "http".toList ∨ scheme = "https".toList then some (clientBase url) else none

/-- hkp.py:118-119 `get_url`. -/
def lookupUrl (base : Str) : Str := urljoin base "pks".toList "lookup".toList
/-- hkp.py:122-123 `submit_url`. -/
def submitUrl (base : Str) : Str := urljoin base "pks".toList "add".toList

/-- `urllib.parse.quote_plus`. -/
def quotePlus (s : Str) : Str :=
  (utf8Encode s).flatMap fun b =>
    let n := b.toNat
    if n = 32 then ['+']
    else if (48 ≤ n && n ≤ 57) || (65 ≤ n && n ≤ 90) || (97 ≤ n && n ≤ 122) || n = 95 || n = 46 || n = 45 || n = 126 then [Char.ofNat n]
    else ['%', hexDigit (n / 16), hexDigit (n % 16)]

/-- `urllib.parse.urlencode`, with which `requests` encodes `params` and `data`. -/
def urlencode (ps : List (Str × Str)) : Str := pyJoin ['&'] (ps.map fun p => quotePlus p.1 ++ '=' :: quotePlus p.2)

/-- A request: the URL and, when something is posted, the body. -/
structure HttpRequest where
  url : Str
  body : Option Str
  deriving DecidableEq

/-- hkp.py:158-163, 168-173: the request that `requests.get(url, params=…)` sends. -/
def getRequest (url : Str) (ps : List (Str × Str)) : HttpRequest := ⟨url ++ '?' :: urlencode ps, none⟩

def yesNo (b : Bool) : Str := if b then "yes".toList else "no".toList

/-- hkp.py:157-163 `get`. -/
def getKeyRequest (base keyId : Str) (exact : Bool) : HttpRequest :=
  getRequest (lookupUrl base) [("op".toList, "get".toList), ("search".toList, "0x".toList ++ keyId), ("options".toList, "mr".toList), ("exact".toList, yesNo exact)]

/-- hkp.py:167-173 `search`. -/
def searchRequest (base terms : Str) (exact : Bool) : HttpRequest :=
  getRequest (lookupUrl base) [("op".toList, "index".toList), ("options".toList, "mr".toList), ("search".toList, terms), ("exact".toList, yesNo exact)]

/-- hkp.py:177-183 `submit`: the packets of the key have the header formats they were read with. -/
def submitRequest (fl : FloorLog2) (base : Str) (k : TKey) (noModify : Bool) : Py HttpRequest := do
  let data ← k.octets fl none
  let text ← ({ dataType := .publicKey, data := data } : Armor).toStr
  return ⟨submitUrl base, some (urlencode [("keytext".toList, text), ("options".toList, (if noModify then "mr,nm" else "mr").toList)])⟩

/-- hkp.py:157-165 `get` when the server answers `content`: the request and the key. -/
def keyserverGet (magic : Bytes → Str) (base keyId : Str) (exact : Bool) (content : Bytes) : HttpRequest × Py TKey :=
  (getKeyRequest base keyId exact, readKeyAny magic true (.octets content))

end Pgp
