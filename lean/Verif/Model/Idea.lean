import Verif.Model.Py
import Mathlib.Data.Int.Bitwise
/-
Model of /repo/pgp/cipher/aidea.py. Python integers are unbounded and signed, hence `Int`; `a & 0xffff` of an integer of any sign
is `a % 65536` (non-negative remainder), `a >> 16` is `a / 65536` (floor) and `^` is two's complement exclusive or.
-/
namespace Pgp

/-- `a & 0xffff`. -/
def low16 (a : Int) : Int := a % 65536

/-- aidea.py:28-36 `mul`. The result is not masked: it may be negative or 65536. -/
def ideaMul (x y : Int) : Int :=
  let x := low16 (x - 1)
  let t16 := low16 (y - 1)
  let t32 := x * t16 + x + t16
  let x := low16 t32
  let t16 := t32 / 65536
  x - t16 + (if x < t16 then 1 else 0) + 1

/-- The loop of aidea.py:48-58. -/
def mulInvLoop : (fuel : Nat) → (x y t0 t1 : Int) → Py Int
  | 0, _, _, _, _ => .error .diverges
  | fuel + 1, x, y, t0, t1 =>
    if y = 1 then .ok (low16 (1 - t1))
    else if y = 0 then .error (.pgp "ZeroDivisionError")
    else
      let q := x / y
      let x := x % y
      let t0 := low16 (t0 + q * t1)
      if x = 1 then .ok t0
      else if x = 0 then .error (.pgp "ZeroDivisionError")
      else
        let q := y / x
        let y := y % x
        let t1 := low16 (t1 + q * t0)
        mulInvLoop fuel x y t0 t1

/-- aidea.py:39-58 `mul_inv`. Each turn makes `y` smaller, so 65537 turns are enough (proved). -/
def mulInv (x : Int) : Py Int :=
  let x := low16 x
  if x ≤ 1 then .ok x
  else mulInvLoop 65537 x (low16 (65537 % x)) 1 (65537 / x)

/-- aidea.py:100-107 `_bytes_to_shorts`: an odd octet raises IndexError. -/
def bytesToShorts : Bytes → Py (List Int)
  | [] => .ok []
  | [_] => .error .indexError
  | a :: b :: r => do
    let r ← bytesToShorts r
    return ((a.toNat : Int) * 256 + b.toNat) :: r

/-- aidea.py:109-114 `_shorts_to_bytes`, for numbers below 65536 (`bytearray.append` raises otherwise). -/
def shortsToBytes : List Int → Py Bytes
  | [] => .ok []
  | s :: r => do
    if 0 ≤ s ∧ s < 65536 then
      let r ← shortsToBytes r
      return UInt8.ofNat (s / 256).toNat :: UInt8.ofNat (s % 256).toNat :: r
    else .error .valueError

/-- aidea.py:67-70: the key word `i ≥ 8` from the words before it. `<< 9` and `>> 7` of words; the two parts have no common bit, so
`|` is `+`. -/
def nextKeyWord (k : List Int) (i : Nat) : Int :=
  let x := if (i + 1) % 8 > 0 then i - 7 else i - 15
  let y := if (i + 2) % 8 < 2 then i - 14 else i - 6
  low16 (Int.lor (k.getD x 0 * 512) (k.getD y 0 / 128))

/-- aidea.py:66-71: the words 8 to 51, appended in turn (`result[i] = ...`; only earlier words are read). -/
def expandKey : (n : Nat) → List Int → List Int
  | 0, k => k
  | n + 1, k => expandKey n (k ++ [nextKeyWord k k.length])

/-- aidea.py:63-71 `_generate_enc_keys` for a key of sixteen octets (eight words). -/
def encKeys (key : Bytes) : Py (List Int) := do
  let k ← bytesToShorts key
  return expandKey 44 k

/-- aidea.py:81-92, one turn: what is inserted in front of the table for the key words of one round. -/
def decRound (ek : List Int) (offset : Nat) (last : Bool) : Py (List Int) := do
  let a ← mulInv (ek.getD (offset + 2) 0)
  let d ← mulInv (ek.getD (offset + 5) 0)
  let b := low16 (-(ek.getD (offset + 3) 0))
  let c := low16 (-(ek.getD (offset + 4) 0))
  return [a] ++ (if last then [b, c] else [c, b]) ++ [d, low16 (ek.getD offset 0), low16 (ek.getD (offset + 1) 0)]

/-- aidea.py:80-93: the loop `for i in range(42, -1, -6)`; `n` turns are left, the last has `i == 0`. -/
def decLoop (ek : List Int) : (n : Nat) → (offset : Nat) → (result : List Int) → Py (List Int)
  | 0, _, result => .ok result
  | n + 1, offset, result => do
    let r ← decRound ek offset (n == 0)
    decLoop ek n (offset + 6) (r ++ result)

/-- aidea.py:73-94 `_generate_dec_keys`. -/
def decKeys (ek : List Int) : Py (List Int) := do
  let a ← mulInv (ek.getD 0 0)
  let d ← mulInv (ek.getD 3 0)
  decLoop ek 8 4 [a, low16 (-(ek.getD 1 0)), low16 (-(ek.getD 2 0)), d]

/-- aidea.py:119-138: the eight rounds. -/
def ideaRounds (kt : List Int) : (n : Nat) → (offset : Nat) → Int × Int × Int × Int → Int × Int × Int × Int
  | 0, _, s => s
  | n + 1, offset, (x1, x2, x3, x4) =>
    let x1 := ideaMul (low16 x1) (kt.getD offset 0)
    let x2 := x2 + kt.getD (offset + 1) 0
    let x3 := x3 + kt.getD (offset + 2) 0
    let x4 := ideaMul (low16 x4) (kt.getD (offset + 3) 0)
    let t2 := Int.xor x1 x3
    let t2 := ideaMul (low16 t2) (kt.getD (offset + 4) 0)
    let t1 := t2 + Int.xor x2 x4
    let t1 := ideaMul (low16 t1) (kt.getD (offset + 5) 0)
    let t2 := t2 + t1
    ideaRounds kt n (offset + 6) (Int.xor x1 t1, Int.xor x3 t1, Int.xor t2 x2, Int.xor x4 t2)

/-- aidea.py:116-144 `_cipher`; the unpacking of four words raises ValueError for another number of words. -/
def ideaCipher (kt : List Int) (block : Bytes) : Py Bytes := do
  let ws ← bytesToShorts block
  match ws with
  | [x1, x2, x3, x4] =>
    let (x1, x2, x3, x4) := ideaRounds kt 8 0 (x1, x2, x3, x4)
    shortsToBytes [low16 (ideaMul (low16 x1) (kt.getD 48 0)), low16 (x3 + kt.getD 49 0), low16 (x2 + kt.getD 50 0),
      low16 (ideaMul (low16 x4) (kt.getD 51 0))]
  | _ => .error .valueError

/-- aidea.py:96-98, 146-147: `AIDEA(key).encrypt(block)`. -/
def ideaEncrypt (key block : Bytes) : Py Bytes := do
  let ek ← encKeys key
  let _ ← decKeys ek
  ideaCipher ek block

/-- aidea.py:96-98, 149-150: `AIDEA(key).decrypt(block)`. -/
def ideaDecrypt (key block : Bytes) : Py Bytes := do
  let ek ← encKeys key
  let dk ← decKeys ek
  ideaCipher dk block

end Pgp
