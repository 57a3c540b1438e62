import Verif.Model.Utils
/-
Model of /repo/pgp/s2k.py and the algorithm tables of /repo/pgp/utils.py.
-/
namespace Pgp

/-- utils.py:52-60 `hash_lengths.get(alg)`. -/
def hashLengths : Nat → Option Nat
  | 1 => some 16 | 2 => some 20 | 3 => some 20 | 8 => some 32 | 9 => some 48 | 10 => some 64 | 11 => some 28
  | _ => none

/-- utils.py:63-76 `symmetric_cipher_block_lengths.get(alg)`. -/
def blockLengths : Nat → Option Nat
  | 0 => some 0 | 1 => some 8 | 2 => some 8 | 3 => some 8 | 4 => some 8 | 7 => some 16 | 8 => some 16 | 9 => some 16
  | 10 => some 16 | 11 => some 16 | 12 => some 16 | 13 => some 16 | _ => none

/-- utils.py:79-92 `symmetric_cipher_key_lengths.get(alg)`. -/
def keyLengths : Nat → Option Nat
  | 0 => some 0 | 1 => some 16 | 2 => some 24 | 3 => some 16 | 4 => some 16 | 7 => some 16 | 8 => some 24
  | 9 => some 32 | 10 => some 16 | 11 => some 16 | 12 => some 24 | 13 => some 32 | _ => none

/-- Hash functions as a parameter: `digest alg data`. Feeding a hash object piecewise is concatenation. -/
abbrev Digest := Nat → Bytes → Bytes

/-- utils.py:157-177 `get_hash_instance`: only the choice of codes is modelled. -/
def getHashInstance (alg : Nat) : Py Unit :=
  if alg = 1 ∨ alg = 2 ∨ alg = 3 ∨ alg = 8 ∨ alg = 9 ∨ alg = 10 ∨ alg = 11 then .ok ()
  else .error (.pgp "UnsupportedDigestAlgorithm")

/-- The four classes of s2k.py and their attributes (s2k.py:21-25, 95-98, 115-117, 174-179). -/
inductive S2K where
  | simple (hash sym : Nat)
  | salted (hash sym : Nat) (salt : Bytes)
  | iterated (hash sym : Nat) (salt : Bytes) (count : Nat)
  | gnupg (hash mode sym : Nat) (serial : Option (List Char)) (serialLen : Option Nat)
  deriving DecidableEq, Repr

def S2K.hash : S2K → Nat
  | simple h _ => h | salted h _ _ => h | iterated h _ _ _ => h | gnupg h _ _ _ _ => h

def S2K.sym : S2K → Nat
  | simple _ s => s | salted _ s _ => s | iterated _ s _ _ => s | gnupg _ _ s _ _ => s

/-- `self.salt` (s2k.py:24, 98). -/
def S2K.saltOf : S2K → Bytes
  | simple _ _ => [] | salted _ _ s => s | iterated _ _ s _ => s | gnupg _ _ _ _ _ => []

/-- `self.count` (s2k.py:25, 117). -/
def S2K.countOf : S2K → Option Nat
  | iterated _ _ _ c => some c | _ => none

/-- s2k.py:36-40 (modes 0, 1), 119-122 (mode 3), 193-203 (GnuPG: `[n] + b'GNU'` raises TypeError). -/
def S2K.toBytes (fl : FloorLog2) : S2K → Py Bytes
  | simple h _ => do
    let h ← byteOf h
    return [0, h]
  | salted h _ salt => do
    let h ← byteOf h
    return [1, h] ++ salt
  | iterated h _ salt count => do
    let h ← byteOf h
    let c ← intToS2kCount fl count
    return [3, h] ++ salt ++ c
  | gnupg _ _ _ _ _ => .error .typeError

/-- s2k.py:214-222 with the four `from_bytes` (16-19, 88-93, 106-113, 128-172). -/
def parseS2k (sym : Nat) (data : Bytes) (offset : Nat) : Py (S2K × Nat) := do
  let type ← idx data offset
  let offset := offset + 1
  if type = 0 then
    let h ← idx data offset
    return (.simple h.toNat sym, offset + 1)
  else if type = 1 then
    let h ← idx data offset
    let offset := offset + 1
    let salt := slice data offset (offset + 8)
    return (.salted h.toNat sym salt, offset + 8)
  else if type = 3 then
    let h ← idx data offset
    let offset := offset + 1
    let salt := slice data offset (offset + 8)
    let offset := offset + 8
    let c ← idx data offset
    return (.iterated h.toNat sym salt (s2kCountToInt c.toNat), offset + 1)
  else if type = 101 then
    let h ← idx data offset
    let offset := offset + 1
    let gnu := slice data offset (offset + 3)
    let offset := offset + 3
    if gnu ≠ [0x47, 0x4e, 0x55] then .error .valueError
    else
      let mode ← idx data offset
      let offset := offset + 1
      if mode = 1 then return (.gnupg h.toNat 1001 sym none none, offset)
      else if mode = 2 then
        let n ← idx data offset
        let offset := offset + 1
        let serial ← bytearrayToHex data offset (some n.toNat)
        return (.gnupg h.toNat 1002 sym (some serial) (some n.toNat), offset + n.toNat)
      else .error .valueError
  else .error .valueError

/-- s2k.py:69-71: what one hash object receives after the preload. `math.ceil(count / float(len2))` is taken as the
exact ceiling (exact for the counts a specifier can carry, all below 2^26). -/
def s2kFeed (salt pass : Bytes) (count len2 : Nat) : Bytes :=
  (List.range ((count + len2 - 1) / len2)).flatMap fun i => (salt ++ pass).take (min len2 (count - len2 * i))

/-- s2k.py:55-77, the `while` loop. -/
def toKeyLoop (H : Digest) (s : S2K) (pass : Bytes) (count len2 hashLength required : Nat) :
    (fuel n : Nat) → (result : Bytes) → Py Bytes
  | 0, _, _ => .error .diverges
  | fuel + 1, n, result =>
    if n * hashLength < required then do
      getHashInstance s.hash
      let d := H s.hash (List.replicate n 0 ++ s2kFeed s.saltOf pass count len2)
      toKeyLoop H s pass count len2 hashLength required fuel (n + 1) (result ++ d)
    else .ok result

/-- s2k.py:42-80 `to_key`; 189-191 for GnuPG (returns `None`). An unknown hash or cipher code makes
`pass_ * None` / `0 < None` raise TypeError. -/
def S2K.toKey (H : Digest) (s : S2K) (pass : Bytes) : Py (Option Bytes) :=
  match s with
  | .gnupg _ _ _ _ _ => .ok none
  | _ =>
    match hashLengths s.hash, keyLengths s.sym with
    | some hl, some req => do
      let len2 := pass.length + 8
      let count := s.countOf.getD len2
      let r ← toKeyLoop H s pass count len2 hl req (req + 1) 0 []
      return some (r.take req)
    | _, _ => .error .typeError

end Pgp
