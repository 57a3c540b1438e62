import Verif.Model.Py
/-
Model of /repo/pgp/cipher/base.py: the cipher modes of `_InternalObj` over an arbitrary block cipher. `E` / `D` are
`self._encrypt` / `self._decrypt` (base.py:50-54) on one block; `counter n` is what the n-th call of the CTR counter returns.
Simplification: the code fills a preallocated `result` by index; here the input list is consumed from the front, which is the
same as long as `E` and `D` return blocks of the block size.
-/
namespace Pgp

/-- base.py:340-352. -/
inductive Mode where
  | ecb | cbc | cfb | ofb | ctr
  deriving DecidableEq, Repr

/-- The attributes of an `_InternalObj` (base.py:38-46, 100-113). `segBytes` is `segment_size // 8`; `calls` counts the calls of
the counter so far. -/
structure CipherObj where
  mode : Mode
  bs : Nat
  segBytes : Nat
  iv : Bytes
  count : Nat
  oldCipher : Bytes
  calls : Nat
  deriving DecidableEq, Repr

/-- Octet-wise exclusive or, as long as the shorter. -/
def xorB (a b : Bytes) : Bytes := List.zipWith (· ^^^ ·) a b

/-- base.py:57-113 `new`: the parameters `segment_size` (bits), `IV` and whether a counter was given; `mode` is one of the five.
The key length test is left out (the block cipher is a parameter). -/
def newCipher (mode : Mode) (bs : Nat) (iv : Option Bytes) (hasCounter : Bool) (segBits : Nat) : Py CipherObj :=
  if mode = .ctr ∧ iv.getD [] ≠ [] then .error .valueError
  else if (iv = none ∨ (iv.getD []).length ≠ bs) ∧ mode ≠ .ecb ∧ mode ≠ .ctr then .error .valueError
  else
    let seg := if mode = .cfb ∧ segBits = 0 then 8 else segBits
    if mode = .cfb ∧ (seg < 1 ∨ seg > bs * 8 ∨ seg &&& 7 ≠ 0) then .error .valueError
    else if mode = .ctr ∧ ¬ hasCounter then .error .typeError
    else if mode ≠ .ctr ∧ hasCounter then .error .valueError
    else .ok { mode := mode, bs := bs, segBytes := seg / 8, iv := iv.getD [], count := bs, oldCipher := List.replicate bs 0, calls := 0 }

/-- base.py:130-135 (encrypt) and 275-281 (decrypt): ECB with the block function `f`. For `bs ≥ 1`,
`xs.drop (bs - 1)` is `(x :: xs).drop bs`. -/
def ecbLoop (f : Bytes → Bytes) (bs : Nat) : Bytes → Bytes
  | [] => []
  | x :: xs => f ((x :: xs).take bs) ++ ecbLoop f bs (xs.drop (bs - 1))
termination_by d => d.length
decreasing_by simp_wf; omega

/-- base.py:136-144: CBC encryption; the result and the new IV. -/
def cbcEnc (E : Bytes → Bytes) (bs : Nat) (iv : Bytes) : Bytes → Bytes × Bytes
  | [] => ([], iv)
  | x :: xs =>
    let c := E (xorB ((x :: xs).take bs) iv)
    let r := cbcEnc E bs c (xs.drop (bs - 1))
    (c ++ r.1, r.2)
termination_by d => d.length
decreasing_by simp_wf; omega

/-- base.py:282-291: CBC decryption; the result and the new IV. -/
def cbcDec (D : Bytes → Bytes) (bs : Nat) (iv : Bytes) : Bytes → Bytes × Bytes
  | [] => ([], iv)
  | x :: xs =>
    let c := (x :: xs).take bs
    let r := cbcDec D bs c (xs.drop (bs - 1))
    (xorB (D c) iv ++ r.1, r.2)
termination_by d => d.length
decreasing_by simp_wf; omega

/-- base.py:151-160, 300-309: the new IV from the segment of ciphertext `c`. -/
def cfbShift (bs seg : Nat) (iv c : Bytes) : Bytes := if seg = bs then c else iv.drop seg ++ c

/-- base.py:145-166: CFB encryption with segments of `seg` octets; the result and the new IV. -/
def cfbEnc (E : Bytes → Bytes) (bs seg : Nat) (iv : Bytes) : Bytes → Bytes × Bytes
  | [] => ([], iv)
  | x :: xs =>
    let c := xorB (E iv) ((x :: xs).take seg)
    let r := cfbEnc E bs seg (cfbShift bs seg iv c) (xs.drop (seg - 1))
    (c ++ r.1, r.2)
termination_by d => d.length
decreasing_by simp_wf; omega

/-- base.py:292-315: CFB decryption. -/
def cfbDec (E : Bytes → Bytes) (bs seg : Nat) (iv : Bytes) : Bytes → Bytes × Bytes
  | [] => ([], iv)
  | x :: xs =>
    let c := (x :: xs).take seg
    let r := cfbDec E bs seg (cfbShift bs seg iv c) (xs.drop (seg - 1))
    (xorB (E iv) c ++ r.1, r.2)
termination_by d => d.length
decreasing_by simp_wf; omega

/-- base.py:185-203: OFB; the result, the new IV and the new count. Fuel: every round but the first consumes a block, so
`d.length + 2` rounds are enough (`ofb_fuel`). -/
def ofbLoop (E : Bytes → Bytes) (bs : Nat) : (fuel : Nat) → (iv : Bytes) → (count : Nat) → Bytes → Py (Bytes × Bytes × Nat)
  | _, iv, count, [] => .ok ([], iv, count)
  | 0, _, _, _ :: _ => .error .diverges
  | fuel + 1, iv, count, d =>
    if d.length ≤ bs - count then .ok (xorB (iv.drop count) d, iv, count + d.length)
    else do
      let (r, iv', count') ← ofbLoop E bs fuel (E iv) 0 (d.drop (bs - count))
      return (xorB (iv.drop count) (d.take (bs - count)) ++ r, iv', count')

/-- base.py:220-248: CTR; as OFB, but the used part of the key stream block is overwritten by the output and a fresh block comes
from the counter, whose result must have the block size (TypeError). -/
def ctrLoop (E : Bytes → Bytes) (counter : Nat → Bytes) (bs : Nat) :
    (fuel : Nat) → (iv : Bytes) → (count calls : Nat) → Bytes → Py (Bytes × Bytes × Nat × Nat)
  | _, iv, count, calls, [] => .ok ([], iv, count, calls)
  | 0, _, _, _, _ :: _ => .error .diverges
  | fuel + 1, iv, count, calls, d =>
    if d.length ≤ bs - count then
      let out := xorB (iv.drop count) d
      .ok (out, iv.take count ++ out ++ iv.drop (count + d.length), count + d.length, calls)
    else if (counter calls).length ≠ bs then .error .typeError
    else do
      let (r, iv', count', calls') ← ctrLoop E counter bs fuel (E (counter calls)) 0 (calls + 1) (d.drop (bs - count))
      return (xorB (iv.drop count) (d.take (bs - count)) ++ r, iv', count', calls')

/-- `abs(a - b)`. -/
def absDiff (a b : Nat) : Nat := (a - b) + (b - a)

/-- base.py:115-251 `encrypt`. -/
def CipherObj.encrypt (E : Bytes → Bytes) (counter : Nat → Bytes) (o : CipherObj) (d : Bytes) : Py (Bytes × CipherObj) :=
  if d.length % o.bs ≠ 0 ∧ o.mode ≠ .cfb ∧ o.mode ≠ .ofb ∧ o.mode ≠ .ctr then .error .valueError
  else if o.mode = .cfb ∧ d.length % o.segBytes ≠ 0 then .error .valueError
  else match o.mode with
    | .ecb => .ok (ecbLoop E o.bs d, o)
    | .cbc => .ok ((cbcEnc E o.bs o.iv d).1, { o with iv := (cbcEnc E o.bs o.iv d).2 })
    | .cfb => .ok ((cfbEnc E o.bs o.segBytes o.iv d).1,
        { o with iv := (cfbEnc E o.bs o.segBytes o.iv d).2, count := absDiff o.count (d.length % o.bs) })
    | .ofb => do
      let (r, iv, count) ← ofbLoop E o.bs (d.length + 2) o.iv o.count d
      return (r, { o with iv := iv, count := count })
    | .ctr => do
      let (r, iv, count, calls) ← ctrLoop E counter o.bs (d.length + 2) o.iv o.count o.calls d
      return (r, { o with iv := iv, count := count, calls := calls })

/-- base.py:253-323 `decrypt`. -/
def CipherObj.decrypt (E D : Bytes → Bytes) (counter : Nat → Bytes) (o : CipherObj) (d : Bytes) : Py (Bytes × CipherObj) :=
  if o.mode = .ctr ∨ o.mode = .ofb then o.encrypt E counter d
  else if d.length % o.bs ≠ 0 ∧ o.mode ≠ .cfb then .error .valueError
  else if o.mode = .cfb ∧ d.length % o.segBytes ≠ 0 then .error .valueError
  else match o.mode with
    | .ecb => .ok (ecbLoop D o.bs d, o)
    | .cbc => .ok ((cbcDec D o.bs o.iv d).1, { o with iv := (cbcDec D o.bs o.iv d).2 })
    | _ => .ok ((cfbDec E o.bs o.segBytes o.iv d).1,
        { o with iv := (cfbDec E o.bs o.segBytes o.iv d).2, count := absDiff o.count (d.length % o.bs) })

/-- base.py:325-336 `sync`. -/
def CipherObj.sync (o : CipherObj) : CipherObj :=
  if o.mode = .cfb then
    if o.bs - o.count = 0 then o
    else { o with iv := o.oldCipher.drop (o.bs - (o.bs - o.count)) ++ o.iv.take (o.bs - (o.bs - o.count)) }
  else o

end Pgp
