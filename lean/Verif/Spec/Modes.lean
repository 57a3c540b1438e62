/-
Independent definitions of the block cipher modes (NIST SP 800-38A), on lists of blocks and key streams.
-/
namespace Pgp.Spec

/-- Octet-wise exclusive or of two blocks. -/
def xorBlock (a b : List UInt8) : List UInt8 := List.zipWith (· ^^^ ·) a b

/-- CBC: `C_i = E(P_i ⊕ C_{i-1})`. -/
def cbcBlocks (E : List UInt8 → List UInt8) (prev : List UInt8) : List (List UInt8) → List (List UInt8)
  | [] => []
  | p :: ps => E (xorBlock p prev) :: cbcBlocks E (E (xorBlock p prev)) ps

/-- CFB with segments of `s` octets: `C_i = P_i ⊕ MSB_s(E(R_i))`, where the register `R_{i+1}` is `R_i` shifted left by a segment
with `C_i` appended. -/
def cfbBlocks (E : List UInt8 → List UInt8) (s : Nat) (reg : List UInt8) : List (List UInt8) → List (List UInt8)
  | [] => []
  | p :: ps =>
    xorBlock p ((E reg).take s) :: cfbBlocks E s ((reg ++ xorBlock p ((E reg).take s)).drop s) ps

/-- `f` applied `n` times. -/
def iter {α : Type} (f : α → α) : Nat → α → α
  | 0, a => a
  | n + 1, a => iter f n (f a)

/-- Octet `k` of the OFB key stream: the blocks are `E(IV), E(E(IV)), ...`. -/
def ofbKey (E : List UInt8 → List UInt8) (bs : Nat) (iv : List UInt8) (k : Nat) : UInt8 :=
  (iter E (k / bs + 1) iv).getD (k % bs) 0

/-- Octet `k` of the CTR key stream: the blocks are `E(T_0), E(T_1), ...`. -/
def ctrKey (E : List UInt8 → List UInt8) (bs : Nat) (T : Nat → List UInt8) (k : Nat) : UInt8 :=
  (E (T (k / bs))).getD (k % bs) 0

/-- Data combined with a key stream. -/
def xorStream (key : Nat → UInt8) (d : List UInt8) : List UInt8 := d.mapIdx fun i x => key i ^^^ x

/-- `E` and `D` are the two directions of a block cipher with blocks of `bs` octets under some key. -/
structure IsBlockCipher (bs : Nat) (E D : List UInt8 → List UInt8) : Prop where
  pos : 0 < bs
  len : ∀ b, b.length = bs → (E b).length = bs
  inv : ∀ b, b.length = bs → D (E b) = b

end Pgp.Spec
