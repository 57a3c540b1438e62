import Verif.Model.PyStr
import Verif.Model.Utils
/-
Model of the regular expression validator (pgp/regex.py).  The object graph of Regex, Branch, Piece and Atom objects is a list of closed
branches and the pieces of the last branch, newest first; `current` is always the last branch, its last piece or that piece's atom
(objects are only ever appended), so it is represented by its class.  A plain atom is always complete; a group or range that is
`current` is never complete, because completing it moves `current` to its piece (regex.py:176-177, 201-202).
-/
namespace Pgp

/-- `re_tokenizer.findall` (regex.py:30): `.` matches anything but a newline, so a backslash before a newline or at the end is skipped. -/
def reTokens : Str → List Str
  | [] => []
  | '\\' :: c :: s => if c = '\n' then [c] :: reTokens s else ['\\', c] :: reTokens s
  | ['\\'] => []
  | c :: s => [c] :: reTokens s

/-- A `Piece` with its atom (regex.py:57-95): the atom's start and end texts, its content, whether it is complete, the terminator, and
whether the piece is complete. -/
structure RxPiece where
  start : Str
  stop : Str
  content : Str
  closed : Bool
  term : Str
  complete : Bool
  deriving Repr, DecidableEq

/-- `str(piece)` (regex.py:66-67, 80-82). -/
def RxPiece.str (p : RxPiece) : Str := p.start ++ p.content ++ (if p.closed then p.stop else []) ++ p.term

/-- The class of `current`. -/
inductive RxCur | branch | piece | atom | group | range
  deriving Repr, DecidableEq

/-- The state of one call: the earlier branches, the pieces of the last branch (newest first), `current`. -/
structure RxState where
  past : List (List RxPiece)
  pieces : List RxPiece
  cur : RxCur
  deriving Repr, DecidableEq

/-- regex.py:99-103. -/
def RxState.init : RxState := ⟨[], [], .branch⟩

/-- `str(branch)` (regex.py:53-54). -/
def branchStr (pieces : List RxPiece) : Str := (pieces.reverse.map RxPiece.str).flatten

/-- `str(root)` (regex.py:40-41). -/
def RxState.str (st : RxState) : Str := pyJoin ['|'] ((st.past ++ [st.pieces]).map branchStr)

/-- Change the last piece of the last branch. -/
def RxState.last (st : RxState) (f : RxPiece → RxPiece) : RxState :=
  { st with pieces := match st.pieces with
    | p :: ps => f p :: ps
    | [] => [] }

/-- `current.content += tok` (regex.py:109, 129, 149 ...). -/
def RxState.addContent (st : RxState) (tok : Str) : RxState := st.last fun p => { p with content := p.content ++ tok }

/-- `piece.complete = True`. -/
def RxState.finishPiece (st : RxState) : RxState := st.last fun p => { p with complete := true }

/-- `Piece(branch)` with a new atom (regex.py:158-161, 190-193, 212-215). -/
def RxState.newPiece (st : RxState) (start stop : Str) (closed : Bool) (cur : RxCur) : RxState :=
  { st with pieces := ⟨start, stop, [], closed, [], false⟩ :: st.pieces, cur := cur }

/-- The content of the current range. -/
def RxState.content (st : RxState) : Str := match st.pieces with
  | p :: _ => p.content
  | [] => []

/-- `tok == '|'` (regex.py:106-126). -/
def stepBar (st : RxState) : Option RxState :=
  match st.cur with
  | .range => some (st.addContent ['|'])
  | .group => none
  | .atom | .piece => some { past := st.past ++ [st.finishPiece.pieces], pieces := [], cur := .branch }
  | .branch => some { past := st.past ++ [st.pieces], pieces := [], cur := .branch }

/-- regex.py:144-146. -/
def setTerm (st : RxState) (tok : Str) : RxState := { st.last (fun p => { p with term := tok, complete := true }) with cur := .branch }

/-- `tok in '*+?'` (regex.py:127-146). The result of the first component is `valid`. -/
def stepRep (st : RxState) (tok : Str) : Bool × RxState :=
  match st.cur with
  | .range => (true, st.addContent tok)
  | .group => (false, st)
  | .atom => (true, setTerm st tok)
  | .piece => (match st.pieces with
    | p :: _ => !p.complete
    | [] => true, setTerm st tok)
  | .branch => (false, st)

/-- `tok == '('` up to the recursive call, when the current range does not take it (regex.py:151-161). -/
def openGroup (st : RxState) : Option RxState :=
  match st.cur with
  | .group => none
  | .atom => some (st.finishPiece.newPiece ['('] [')'] false .group)
  | .branch | .piece | .range => some (st.newPiece ['('] [')'] false .group)

/-- `tok == ')'` (regex.py:169-177). -/
def stepClose (st : RxState) : Option RxState :=
  match st.cur with
  | .range => some (st.addContent [')'])
  | .group => some { st.last (fun p => { p with closed := true }) with cur := .piece }
  | _ => none

/-- `tok == '['` (regex.py:178-193). -/
def stepOpenRange (st : RxState) : Option RxState :=
  match st.cur with
  | .range => some (st.addContent ['['])
  | .group => none
  | .atom => some (st.finishPiece.newPiece ['['] [']'] false .range)
  | .branch | .piece => some (st.newPiece ['['] [']'] false .range)

/-- `tok == ']'` (regex.py:194-207). -/
def stepCloseRange (st : RxState) : Option RxState :=
  match st.cur with
  | .range =>
    if st.content = [] ∨ st.content = ['^'] then some (st.addContent [']'])
    else some { st.last (fun p => { p with closed := true }) with cur := .piece }
  | _ => none

/-- Any other token (regex.py:208-233). -/
def stepOther (st : RxState) (tok : Str) : RxState :=
  match st.cur with
  | .branch => (st.newPiece [] [] true .atom).addContent tok
  | .piece => (st.finishPiece.newPiece [] [] true .atom).addContent tok
  | .atom => (st.finishPiece.newPiece [] [] true .atom).addContent tok
  | .group | .range => st.addContent tok

/-- What a call returns: `unterminated`, `valid`, the text of the tree, and the tokens left in the shared list. -/
abbrev RxResult := Bool × Bool × Str × List Str

/-- regex.py:235-242, when every token has been accepted. -/
def rxEnd (st : RxState) (unterminated : Bool) : RxResult := (decide (st.cur = .range ∨ st.cur = .group) || unterminated, true, st.str, [])

/-- regex.py:244-246, when `tok` was refused. -/
def rxBad (st : RxState) (unterminated : Bool) (tok : Str) (ts : List Str) : RxResult := (unterminated, false, st.str, tok :: ts)

/-- Every token but a `(` outside a range: `valid` and the new state. -/
def rxStep (st : RxState) (tok : Str) : Bool × RxState :=
  if tok = ['|'] then ((stepBar st).isSome, (stepBar st).getD st)
  else if tok = ['*'] ∨ tok = ['+'] ∨ tok = ['?'] then stepRep st tok
  else if tok = ['('] then (true, st.addContent tok)
  else if tok = [')'] then ((stepClose st).isSome, (stepClose st).getD st)
  else if tok = ['['] then ((stepOpenRange st).isSome, (stepOpenRange st).getD st)
  else if tok = [']'] then ((stepCloseRange st).isSome, (stepCloseRange st).getD st)
  else (true, stepOther st tok)

/-- The loop of `validate_partial_subpacket_regex` (regex.py:98-246) on the shared token list; `fuel` bounds the steps. -/
def rxLoop : (fuel : Nat) → (st : RxState) → (unterminated : Bool) → (tokens : List Str) → Py RxResult
  | 0, _, _, _ => .error .diverges
  | _ + 1, st, u, [] => .ok (rxEnd st u)
  | fuel + 1, st, u, tok :: ts =>
    if tok = ['('] ∧ st.cur ≠ .range then
      match openGroup st with
      | none => .ok (rxBad st u tok ts)
      | some st' => do
        let (u', _, sub, ts') ← rxLoop fuel RxState.init false ts
        rxLoop fuel (st'.last fun p => { p with content := sub }) u' ts'
    else if (rxStep st tok).1 then rxLoop fuel (rxStep st tok).2 u ts
    else .ok (rxBad (rxStep st tok).2 u tok ts)

/-- `validate_subpacket_regex` (regex.py:249-256): `none` when it returns, the position when it raises RegexValueError
(exceptions.py:100-104). -/
def validateRegex (s : Str) : Py (Option Int) := do
  let (u, valid, portion, _) ← rxLoop ((reTokens s).length + 1) RxState.init false (reTokens s)
  if u then return some ((portion.length : Int) - 1)
  else if valid then return none
  else return some (portion.length : Int)

end Pgp
