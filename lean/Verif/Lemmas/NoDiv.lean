import Verif.Lemmas.Framing
/-
A small calculus for showing that a computation never ends in `diverges` (i.e. its fuel or progress test suffices).
-/
namespace Pgp

/-- The computation does not run out of fuel. -/
def NoDiv {α : Type} (r : Py α) : Prop := r ≠ .error .diverges

theorem noDiv_ok {α : Type} (a : α) : NoDiv (.ok a : Py α) := by intro h; cases h
theorem noDiv_pure {α : Type} (a : α) : NoDiv (pure a : Py α) := noDiv_ok a
theorem noDiv_error {α : Type} {e : PyErr} (h : e ≠ .diverges) : NoDiv (.error e : Py α) := by
  intro h'; cases h'; exact h rfl

theorem noDiv_bind {α β : Type} {x : Py α} {f : α → Py β} (hx : NoDiv x) (hf : ∀ a, x = .ok a → NoDiv (f a)) :
    NoDiv (x >>= f) := by
  cases x with
  | error e => intro h; exact hx (by cases h; rfl)
  | ok a => exact hf a rfl

theorem noDiv_ite {α : Type} {c : Prop} [Decidable c] {a b : Py α} (ha : NoDiv a) (hb : NoDiv b) :
    NoDiv (if c then a else b) := by split <;> assumption

theorem noDiv_pyAssert (c : Bool) : NoDiv (pyAssert c) := by
  unfold pyAssert; split
  · exact noDiv_ok _
  · exact noDiv_error (by decide)

theorem noDiv_idx (d : Bytes) (o : Nat) : NoDiv (idx d o) := by
  intro h; have := idx_error h; cases this

theorem noDiv_bytesToInt (d : Bytes) (o n : Nat) : NoDiv (bytesToInt d o n) := by
  intro h; have := bytesToInt_error h; cases this

theorem noDiv_shortToInt (d : Bytes) (o : Nat) : NoDiv (shortToInt d o) := noDiv_bytesToInt d o 2
theorem noDiv_longToInt (d : Bytes) (o : Nat) : NoDiv (longToInt d o) := noDiv_bytesToInt d o 4

theorem noDiv_newPacketLength (d : Bytes) (o : Nat) : NoDiv (newPacketLength d o) := by
  intro h; have := newPacketLength_error h; cases this

theorem noDiv_hexLoop (d : Bytes) (n : Nat) : ∀ o, NoDiv (hexLoop d o n) := by
  induction n with
  | zero => intro o; exact noDiv_ok _
  | succ n ih =>
    intro o; unfold hexLoop
    exact noDiv_bind (noDiv_idx _ _) fun _ _ => noDiv_bind (ih _) fun _ _ => noDiv_pure _

theorem noDiv_bytearrayToHex (d : Bytes) (o : Nat) (e : Option Nat) : NoDiv (bytearrayToHex d o e) := by
  unfold bytearrayToHex
  split
  · split
    · exact noDiv_error (by decide)
    · exact noDiv_bind (noDiv_hexLoop _ _ _) fun _ _ => noDiv_pure _
  · exact noDiv_hexLoop _ _ _

theorem noDiv_mapM {α β : Type} (f : α → Py β) (hf : ∀ a, NoDiv (f a)) (l : List α) : NoDiv (l.mapM f) := by
  induction l with
  | nil => exact noDiv_pure _
  | cons x l ih =>
    rw [List.mapM_cons]
    exact noDiv_bind (hf x) fun _ _ => noDiv_bind ih fun _ _ => noDiv_pure _

theorem noDiv_byteOf (n : Nat) : NoDiv (byteOf n) := by
  unfold byteOf; split
  · exact noDiv_ok _
  · exact noDiv_error (by decide)

theorem noDiv_mpiToInt (d : Bytes) (o : Nat) : NoDiv (mpiToInt d o) := by
  unfold mpiToInt mpiLength
  exact noDiv_bind (noDiv_bind (noDiv_shortToInt _ _) fun _ _ => noDiv_pure _) fun _ _ =>
    noDiv_bind (noDiv_bytesToInt _ _ _) fun _ _ => noDiv_pure _

end Pgp
