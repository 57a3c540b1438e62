/-
The IDEA cipher as published (Lai, Massey), on 16-bit words, independent of the code.
-/
namespace Pgp.Spec.Idea

/-- 16-bit words. -/
abbrev Word := BitVec 16

/-- The number a word stands for in multiplications: the zero word stands for 65536. -/
def num (x : Word) : Nat := if x = 0 then 65536 else x.toNat

/-- Multiplication modulo 65537 of the numbers the words stand for. -/
def mul (x y : Word) : Word := BitVec.ofNat 16 (num x * num y % 65537)

/-- A state of four words. -/
abbrev State := Word × Word × Word × Word

/-- The key words of a full round. -/
abbrev RoundKey := Word × Word × Word × Word × Word × Word

/-- The key addition/multiplication layer. -/
def keyLayer (a b c d : Word) : State → State
  | (x1, x2, x3, x4) => (mul x1 a, x2 + b, x3 + c, mul x4 d)

/-- The multiplication/addition structure with its key words `e`, `f`. -/
def maLayer (e f : Word) : State → State
  | (x1, x2, x3, x4) =>
    let p := mul (x1 ^^^ x3) e
    let q := mul (p + (x2 ^^^ x4)) f
    let r := p + q
    (x1 ^^^ q, x2 ^^^ r, x3 ^^^ q, x4 ^^^ r)

/-- Exchange of the two inner words. -/
def swap : State → State
  | (x1, x2, x3, x4) => (x1, x3, x2, x4)

/-- A full round. -/
def round (k : RoundKey) (s : State) : State :=
  match k with
  | (a, b, c, d, e, f) => swap (maLayer e f (keyLayer a b c d s))

/-- The cipher: eight rounds, then the last exchange is undone and a key layer follows. `k i` is key word `i` (0 to 51). -/
def encrypt (k : Nat → Word) (s : State) : State :=
  let r := (List.range 8).foldl (fun s i => round (k (6 * i), k (6 * i + 1), k (6 * i + 2), k (6 * i + 3), k (6 * i + 4), k (6 * i + 5)) s) s
  keyLayer (k 48) (k 49) (k 50) (k 51) (swap r)

/-- Bit `b` of the key (bit 0 is the most significant one of the first octet). -/
def keyBit (key : List UInt8) (b : Nat) : Bool := (key.getD (b / 8) 0).toNat.testBit (7 - b % 8)

/-- The key schedule: the key words are read off the key from left to right, eight at a time, and for every next eight the key is
rotated left by 25 bits. So bit `b` (from the left) of word `i` is bit `25 * (i / 8) + 16 * (i % 8) + b` of the key, cyclically. -/
def IsKeySchedule (key : List UInt8) (k : Nat → Word) : Prop :=
  ∀ i, i < 52 → ∀ b, b < 16 → (k i).getMsbD b = keyBit key ((25 * (i / 8) + 16 * (i % 8) + b) % 128)

/-- The four words of a block of eight octets, most significant octet first. -/
def wordsOf : List UInt8 → Option State
  | [a, b, c, d, e, f, g, h] =>
    some (BitVec.ofNat 16 (256 * a.toNat + b.toNat), BitVec.ofNat 16 (256 * c.toNat + d.toNat),
      BitVec.ofNat 16 (256 * e.toNat + f.toNat), BitVec.ofNat 16 (256 * g.toNat + h.toNat))
  | _ => none

end Pgp.Spec.Idea
