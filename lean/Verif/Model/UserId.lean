import Verif.Model.PyStr
import Verif.Model.Text
import Verif.Model.Utils
/-
Model of the user id parser (pgp/user_id.py).  The parser's position is represented by the rest of the field from that position on
(`self.pos += 1` drops a character, a position at or beyond the end is the empty rest).  Reading the character at the position raises
IndexError when the rest is empty.  Loops are driven by fuel; running out of fuel is `diverges`, and the theorems show it does not happen.
Simplified: Python's recursion limit (which nested comments and groups can hit) is not modelled.
-/
namespace Pgp

/-- user_id.py:45: `self.FWS`. -/
def isFws (c : Char) : Bool := c = ' ' || c = '\t' || c = '\r' || c = '\n'

/-- user_id.py:41: `self.specials`. -/
def specials : List Char := ['(', ')', '<', '>', '@', ',', ':', ';', '.', '"', '[', ']']

/-- user_id.py:46: `self.atomends`. -/
def isAtomEnd (c : Char) : Bool := c ∈ specials || isFws c

/-- user_id.py:50: `self.phraseends`. -/
def isPhraseEnd (c : Char) : Bool := c ≠ '.' && isAtomEnd c

/-- The loop of `getdelimited` (user_id.py:241-258). -/
def delimLoop : (fuel : Nat) → (ends : List Char) → (comments quote : Bool) → (acc rest : Str) → Py (Str × Str)
  | 0, _, _, _, _, _ => .error .diverges
  | _ + 1, _, _, _, acc, [] => .ok (acc, [])
  | fuel + 1, ends, comments, quote, acc, c :: t =>
    if quote then delimLoop fuel ends comments false (acc ++ [c]) t
    else if c ∈ ends then .ok (acc, t)
    else if comments && c = '(' then do
      let (s, r) ← delimLoop fuel [')', '\r'] true false [] t
      delimLoop fuel ends comments false (acc ++ s) r
    else if c = '\\' then delimLoop fuel ends comments true acc t
    else delimLoop fuel ends comments false (acc ++ [c]) t

/-- `getdelimited` (user_id.py:225-260). -/
def getDelimited (begin : Char) (ends : List Char) (comments : Bool) (rest : Str) : Py (Str × Str) :=
  match rest with
  | [] => .error .indexError
  | c :: t => if c ≠ begin then .ok ([], c :: t) else delimLoop (t.length + 1) ends comments false [] t

/-- `getquote` (user_id.py:262-264). -/
def getQuote (rest : Str) : Py (Str × Str) := getDelimited '"' ['"', '\r'] false rest

/-- `getcomment` (user_id.py:266-268). -/
def getComment (rest : Str) : Py (Str × Str) := getDelimited '(' [')', '\r'] true rest

/-- `getdomainliteral` (user_id.py:270-272). -/
def getDomainLiteral (rest : Str) : Py (Str × Str) := do
  let (s, r) ← getDelimited '[' [']', '\r'] false rest
  return ('[' :: s ++ [']'], r)

/-- `getatom` (user_id.py:274-292). -/
def getAtom (isEnd : Char → Bool) (rest : Str) : Str × Str :=
  (rest.takeWhile (fun c => !isEnd c), rest.dropWhile (fun c => !isEnd c))

/-- `gotonext` (user_id.py:54-66): the white space skipped, the comment list and the rest. -/
def gotoNextLoop : (fuel : Nat) → (ws : Str) → (cl : List Str) → (rest : Str) → Py (Str × List Str × Str)
  | 0, _, _, _ => .error .diverges
  | _ + 1, ws, cl, [] => .ok (ws, cl, [])
  | fuel + 1, ws, cl, c :: t =>
    if isFws c then gotoNextLoop fuel (if c = '\n' ∨ c = '\r' then ws else ws ++ [c]) cl t
    else if c = '(' then do
      let (s, r) ← getComment (c :: t)
      gotoNextLoop fuel ws (cl ++ [s]) r
    else .ok (ws, cl, c :: t)

def gotoNext (cl : List Str) (rest : Str) : Py (Str × List Str × Str) := gotoNextLoop (rest.length + 1) [] cl rest

/-- `getphraselist` (user_id.py:294-315): the phrases, the comment list and the rest. -/
def phraseLoop : (fuel : Nat) → (plist cl : List Str) → (rest : Str) → Py (List Str × List Str × Str)
  | 0, _, _, _ => .error .diverges
  | _ + 1, plist, cl, [] => .ok (plist, cl, [])
  | fuel + 1, plist, cl, c :: t =>
    if isFws c then phraseLoop fuel plist cl t
    else if c = '"' then do
      let (s, r) ← getQuote (c :: t)
      phraseLoop fuel (plist ++ [s]) cl r
    else if c = '(' then do
      let (s, r) ← getComment (c :: t)
      phraseLoop fuel plist (cl ++ [s]) r
    else if isPhraseEnd c then .ok (plist, cl, c :: t)
    else phraseLoop fuel (plist ++ [(getAtom isPhraseEnd (c :: t)).1]) cl (getAtom isPhraseEnd (c :: t)).2

def getPhraseList (cl : List Str) (rest : Str) : Py (List Str × List Str × Str) := phraseLoop (rest.length + 1) [] cl rest

/-- `getdomain` (user_id.py:206-223): the domain, the comment list and the rest. -/
def domainLoop : (fuel : Nat) → (sd : Str) → (cl : List Str) → (rest : Str) → Py (Str × List Str × Str)
  | 0, _, _, _ => .error .diverges
  | _ + 1, sd, cl, [] => .ok (sd, cl, [])
  | fuel + 1, sd, cl, c :: t =>
    if c = ' ' ∨ c = '\t' then domainLoop fuel sd cl t
    else if c = '(' then do
      let (s, r) ← getComment (c :: t)
      domainLoop fuel sd (cl ++ [s]) r
    else if c = '[' then do
      let (s, r) ← getDomainLiteral (c :: t)
      domainLoop fuel (sd ++ s) cl r
    else if c = '.' then domainLoop fuel (sd ++ ['.']) cl t
    else if isAtomEnd c then .ok (sd, cl, c :: t)
    else domainLoop fuel (sd ++ (getAtom isAtomEnd (c :: t)).1) cl (getAtom isAtomEnd (c :: t)).2

def getDomain (cl : List Str) (rest : Str) : Py (Str × List Str × Str) := domainLoop (rest.length + 1) [] cl rest

/-- `urllib.parse.quote` (user_id.py:15-18) with its default safe set. -/
def urlQuote (s : Str) : Str :=
  (utf8Encode s).flatMap fun b =>
    let n := b.toNat
    if (48 ≤ n && n ≤ 57) || (65 ≤ n && n ≤ 90) || (97 ≤ n && n ≤ 122) || n = 95 || n = 46 || n = 45 || n = 126 || n = 47 then
      [Char.ofNat n]
    else ['%', hexDigit (n / 16), hexDigit (n % 16)]

/-- `if aslist and not aslist[-1].strip(): aslist.pop()` (user_id.py:181-182, 189-190). -/
def popBlank (aslist : List Str) : List Str :=
  match aslist.getLast? with
  | some s => if isBlank s then aslist.dropLast else aslist
  | none => aslist

/-- The end of a turn of the loop of `getaddrspec` (user_id.py:194-196). -/
def pushWs (aslist : List Str) (preserve : Bool) (ws : Str) : List Str := if preserve && ws ≠ [] then aslist ++ [ws] else aslist

/-- The loop of `getaddrspec` (user_id.py:178-196): the pieces, the comment list and the rest. -/
def addrSpecLoop : (fuel : Nat) → (aslist cl : List Str) → (rest : Str) → Py (List Str × List Str × Str)
  | 0, _, _, _ => .error .diverges
  | _ + 1, as, cl, [] => .ok (as, cl, [])
  | fuel + 1, as, cl, c :: t =>
    if c = '.' then do
      let (ws, cl', r) ← gotoNext cl t
      addrSpecLoop fuel (pushWs (popBlank as ++ [['.']]) false ws) cl' r
    else if c = '"' then do
      let (s, r0) ← getQuote (c :: t)
      let (ws, cl', r) ← gotoNext cl r0
      addrSpecLoop fuel (pushWs (as ++ ['"' :: urlQuote s ++ ['"']]) true ws) cl' r
    else if isAtomEnd c then .ok (popBlank as, cl, c :: t)
    else do
      let (ws, cl', r) ← gotoNext cl (getAtom isAtomEnd (c :: t)).2
      addrSpecLoop fuel (pushWs (as ++ [(getAtom isAtomEnd (c :: t)).1]) true ws) cl' r

/-- user_id.py:198-204. -/
def addrSpecEnd (as cl : List Str) (rest : Str) : Py (Str × List Str × Str) :=
  match rest with
  | '@' :: t => do
    let (_, cl', r) ← gotoNext cl t
    let (d, cl'', r') ← getDomain cl' r
    return (as.flatten ++ '@' :: d, cl'', r')
  | r => .ok (as.flatten, cl, r)

/-- `getaddrspec` (user_id.py:173-204). -/
def getAddrSpec (cl : List Str) (rest : Str) : Py (Str × List Str × Str) := do
  let (_, cl', r) ← gotoNext cl rest
  let (as, cl'', r') ← addrSpecLoop (r.length + 1) [] cl' r
  addrSpecEnd as cl'' r'

/-- The loop of `getrouteaddr` (user_id.py:153-169). -/
def routeLoop : (fuel : Nat) → (expectRoute : Bool) → (cl : List Str) → (rest : Str) → Py (Str × List Str × Str)
  | 0, _, _, _ => .error .diverges
  | _ + 1, _, cl, [] => .ok ([], cl, [])
  | fuel + 1, true, cl, c :: t => do
    let (_, cl', r) ← getDomain cl (c :: t)
    let (_, cl'', r') ← gotoNext cl' r
    routeLoop fuel false cl'' r'
  | fuel + 1, false, cl, c :: t =>
    if c = '>' then .ok ([], cl, t)
    else if c = '@' then do
      let (_, cl', r) ← gotoNext cl t
      routeLoop fuel true cl' r
    else if c = ':' then do
      let (_, cl', r) ← gotoNext cl t
      routeLoop fuel false cl' r
    else do
      let (a, cl', r) ← getAddrSpec cl (c :: t)
      return (a, cl', r.drop 1)

/-- `getrouteaddr` (user_id.py:141-171), called only at a `<`. -/
def getRouteAddr (cl : List Str) (rest : Str) : Py (Str × List Str × Str) :=
  match rest with
  | [] => .error .indexError
  | _ :: t => do
    let (_, cl', r) ← gotoNext cl t
    routeLoop (2 * r.length + 2) false cl' r

/-- What `getaddress` makes of the phrases when there is no route address (user_id.py:94-97, 131-132). -/
def plainAddress (cl plist : List Str) : List (Str × Str) :=
  match plist with
  | [] => []
  | p :: _ => [(pyJoin [' '] cl, p)]

/-- The name given to a route address (user_id.py:124-128). -/
def routeName (cl plist : List Str) : Str :=
  if cl = [] then pyJoin [' '] plist else pyJoin [' '] plist ++ " (".toList ++ pyJoin [' '] cl ++ [')']

/-- The end of `getaddress` (user_id.py:136-139). -/
def finishAddress (result : List (Str × Str)) (cl : List Str) (rest : Str) : Py (List (Str × Str) × List Str × Str) := do
  let (_, cl', r) ← gotoNext cl rest
  match r with
  | ',' :: t => .ok (result, cl', t)
  | r => .ok (result, cl', r)

mutual
/-- `getaddress` (user_id.py:82-139): the addresses, the comment list and the rest. Line 103 puts back the list object the comments were
appended to all along, so comments are kept. -/
def getAddress : (fuel : Nat) → (rest : Str) → Py (List (Str × Str) × List Str × Str)
  | 0, _ => .error .diverges
  | fuel + 1, rest => do
    let (_, cl0, r0) ← gotoNext [] rest
    let (plist, cl1, r1) ← getPhraseList cl0 r0
    let (_, cl2, r2) ← gotoNext cl1 r1
    match r2 with
    | [] => finishAddress (plainAddress cl2 plist) cl2 []
    | c :: t =>
      if c = '.' ∨ c = '@' then do
        let (a, cl3, r3) ← getAddrSpec cl2 r0
        finishAddress [(pyJoin [' '] cl3, a)] cl3 r3
      else if c = ':' then do
        let (result, cl3, r3) ← groupLoop fuel [] cl2 t
        finishAddress result cl3 r3
      else if c = '<' then do
        let (a, cl3, r3) ← getRouteAddr cl2 (c :: t)
        finishAddress [(routeName cl3 plist, a)] cl3 r3
      else if plist ≠ [] then finishAddress (plainAddress cl2 plist) cl2 (c :: t)
      else if c ∈ specials then finishAddress [] cl2 t
      else finishAddress [] cl2 (c :: t)

/-- The group loop (user_id.py:113-118). -/
def groupLoop : (fuel : Nat) → (result : List (Str × Str)) → (cl : List Str) → (rest : Str) → Py (List (Str × Str) × List Str × Str)
  | 0, _, _, _ => .error .diverges
  | _ + 1, result, cl, [] => .ok (result, cl, [])
  | fuel + 1, result, cl, c :: t => do
    let (_, cl', r) ← gotoNext cl (c :: t)
    match r with
    | ';' :: t' => .ok (result, cl', t')
    | r => do
      let (more, cl'', r') ← getAddress fuel r
      groupLoop fuel (result ++ more) cl'' r'
end

/-- `s.replace(pattern, '')` for a non-empty pattern: occurrences are removed from the left; `fuel` at least the length of `s`. -/
def removeLoop (pattern : Str) : (fuel : Nat) → Str → Str
  | 0, s => s
  | _ + 1, [] => []
  | fuel + 1, c :: s =>
    if pattern.isPrefixOf (c :: s) then removeLoop pattern fuel ((c :: s).drop pattern.length) else c :: removeLoop pattern fuel s

/-- `s.replace(pattern, '')`. -/
def removeAllOcc (pattern s : Str) : Str := if pattern = [] then s else removeLoop pattern s.length s

/-- `parse_user_id` (user_id.py:318-323): name, address, comment. -/
def parseUserId (s : Str) : Py (Str × Str × Str) := do
  let (result, cl, _) ← getAddress (2 * s.length + 2) s
  match result with
  | [] => .error .indexError
  | (name, email) :: _ => .ok (pyStrip (removeAllOcc (pyJoin [' '] cl) name), email, pyJoin [' '] cl)

end Pgp
