import Verif.Model.Modes
import Verif.Model.S2k
/-
Model of `get_symmetric_cipher` of /repo/pgp/utils.py for the CFB mode, over arbitrary block ciphers.
-/
namespace Pgp

/-- The block ciphers as a parameter: `enc alg key` is the block encryption of OpenPGP cipher `alg`; `keyOk alg key` says whether
its constructor accepts the key (ValueError otherwise). -/
structure BlockCiphers where
  enc : Nat → Bytes → Bytes → Bytes
  keyOk : Nat → Bytes → Bool

/-- utils.py:243-297 `get_symmetric_cipher(type_, key, CFB, iv)` with the default segment size of a whole block. A PyCrypto CFB
object is taken to behave like the one of cipher/base.py. Code 0 is `NoopCipher`, which has no `block_size`; an unknown code gives
`None.block_size`: both AttributeError. -/
def getCfb (S : BlockCiphers) (alg : Nat) (key iv : Bytes) : Py CipherObj :=
  match blockLengths alg with
  | none => .error .attributeError
  | some 0 => .error .attributeError
  | some bs => if S.keyOk alg key then newCipher .cfb bs (some iv) false (bs * 8) else .error .valueError

/-- `cipher.encrypt(data)` / `cipher.decrypt(data)` on an object made by `getCfb S alg key`. -/
def cfbEncrypt (S : BlockCiphers) (alg : Nat) (key : Bytes) (o : CipherObj) (d : Bytes) : Py (Bytes × CipherObj) :=
  o.encrypt (S.enc alg key) (fun _ => []) d

def cfbDecrypt (S : BlockCiphers) (alg : Nat) (key : Bytes) (o : CipherObj) (d : Bytes) : Py (Bytes × CipherObj) :=
  o.decrypt (S.enc alg key) id (fun _ => []) d

/-- `d[:-n]`: for `n = 0` this is `d[:0]`, i.e. empty. -/
def dropLast {α : Type} (d : List α) (n : Nat) : List α := if n = 0 then [] else d.take (d.length - n)

/-- `d[-a:-b]` for positive `a ≥ b`. -/
def negSlice {α : Type} (d : List α) (a b : Nat) : List α := (d.take (d.length - b)).drop (d.length - a)

end Pgp
