import Verif.Model.Text
import Verif.Model.Utils
/-
What a user expects of the passphrase prompts, without reference to their implementation.
-/
namespace Pgp.Spec

/-- A failed attempt at the console: a passphrase and the given number of confirmations, not all the same. -/
def FailedAttempt (repeats : Nat) (lines : List (List Char)) : Prop :=
  ∃ p cs, lines = p :: cs ∧ cs.length = repeats ∧ ∃ c ∈ cs, c ≠ p

/-- `typed` consists of failed attempts, then the passphrase `p` with all its confirmations, then lines not read. -/
def Confirmed (repeats : Nat) (typed : List (List Char)) (p : List Char) (rest : List (List Char)) : Prop :=
  ∃ failed : List (List (List Char)), (∀ a ∈ failed, FailedAttempt repeats a) ∧
    typed = failed.flatten ++ (p :: List.replicate repeats p ++ rest)

/-- What happened to a cache id: a passphrase was entered for it, or it was cleared. -/
inductive PinEvent where
  | entered (id p : List Char)
  | cleared (id : List Char)

/-- The passphrase remembered for an id after the events, latest first: that of the latest entry, unless a clearing came later. -/
def remembered (id : List Char) : List PinEvent → Option (List Char)
  | [] => none
  | .entered i p :: es => if i = id then some p else remembered id es
  | .cleared i :: es => if i = id then none else remembered id es

/-! ### The agent's side of the protocol (Assuan) -/

/-- Splitting a command at single spaces. -/
inductive Words : List Char → List (List Char) → Prop
  | one {w} : ' ' ∉ w → Words w [w]
  | cons {w s ws} : ' ' ∉ w → Words s ws → Words (w ++ ' ' :: s) (w :: ws)

/-- Unescaping of an argument as the agent does it: `+` is a space, `%XX` an octet, anything else stands for itself. -/
inductive AgentUnescape : List Char → Bytes → Prop
  | nil : AgentUnescape [] []
  | plus {s b} : AgentUnescape s b → AgentUnescape ('+' :: s) (0x20 :: b)
  | hex {x y : Char} {m n : Nat} {s b} : hexVal x = some m → hexVal y = some n → AgentUnescape s b →
      AgentUnescape ('%' :: x :: y :: s) (UInt8.ofNat (16 * m + n) :: b)
  | plain {c : Char} {s b} : c ≠ '+' → c ≠ '%' → c.toNat < 128 → AgentUnescape s b → AgentUnescape (c :: s) (UInt8.ofNat c.toNat :: b)

/-- `line` is a data line's text for the given octets: an octet may stand for itself unless it is `%`, CR or LF, or be written `%XX`. With
`raw` false, octets beyond ASCII are written `%XX`. -/
inductive AssuanText (raw : Bool) : Bytes → Bytes → Prop
  | nil : AssuanText raw [] []
  | plain {x : UInt8} {b l} : x ≠ 0x25 → x ≠ 0x0a → x ≠ 0x0d → (x.toNat < 128 ∨ raw = true) → AssuanText raw b l → AssuanText raw (x :: b) (x :: l)
  | hex {x : UInt8} {b l} : AssuanText raw b l →
      AssuanText raw (x :: b) (0x25 :: UInt8.ofNat (hexDigit (x.toNat / 16)).toNat :: UInt8.ofNat (hexDigit (x.toNat % 16)).toNat :: l)

/-- A line other than the final ones: no line feed, and not starting with OK or ERR. -/
def OtherReply (l : Bytes) : Prop := (0x0a : UInt8) ∉ l ∧ l.take 2 ≠ [0x4f, 0x4b] ∧ l.take 3 ≠ [0x45, 0x52, 0x52]

/-- A line that starts with OK. -/
def OkLine (l : Bytes) : Prop := (0x0a : UInt8) ∉ l ∧ l.take 2 = [0x4f, 0x4b]

/-- The octets of lines. -/
def linesBytes (ls : List Bytes) : Bytes := (ls.map (· ++ [0x0a])).flatten

end Pgp.Spec
