import Verif.Lemmas.PublicKey
import Verif.Spec.Hex
/-
Lemmas about the hexadecimal conversions of utils.py.
-/
namespace Pgp
open Spec

theorem hex_table : ∀ n : Fin 16, hexVal (hexDigit n.val) = some n.val ∧ hexDigit n.val = hexAlphabet.getD n.val '?' ∧
    hexDigit n.val ∈ hexAlphabet := by decide +kernel

theorem hexVal_hexDigit {n : Nat} (h : n < 16) : hexVal (hexDigit n) = some n := (hex_table ⟨n, h⟩).1

theorem hexOf_cons (x : UInt8) (b : Bytes) : hexOf (x :: b) = hexDigit (x.toNat / 16) :: hexDigit (x.toNat % 16) :: hexOf b := rfl

theorem hexPairs_cons (x : UInt8) (s : List Char) :
    hexPairs (hexDigit (x.toNat / 16) :: hexDigit (x.toNat % 16) :: s) = (do let r ← hexPairs s; return x :: r) := by
  have hx := x.toNat_lt
  have e : lowByte (x.toNat / 16 * 16 + x.toNat % 16) = x := by
    apply UInt8.toNat_inj.mp; rw [lowByte_toNat]; omega
  conv_lhs => unfold hexPairs
  rw [hexVal_hexDigit (by omega), hexVal_hexDigit (by omega)]
  simp only [e]

/-- Printing octets in hex and reading them gives the octets. -/
theorem hexPairs_hexOf (b : Bytes) : hexPairs (hexOf b) = .ok b := by
  induction b with
  | nil => rfl
  | cons x b ih => rw [hexOf_cons, hexPairs_cons, ih]; rfl

theorem lastN_exact {α : Type} (a l : List α) : lastN (a ++ l) l.length = if l = [] then a else l := by
  unfold lastN
  cases l with
  | nil => simp
  | cons x l => simp

theorem lastN_self {α : Type} (l : List α) : lastN l l.length = l := by
  unfold lastN; split
  · rfl
  · simp

theorem hexToBytes_hexOf {b : Bytes} {n : Nat} (h : b.length = n) : hexToBytes (hexOf b) (some n) = .ok b := by
  unfold hexToBytes
  rw [hexPairs_hexOf]
  simp only [except_bind_ok, except_pure]
  subst h
  rw [lastN_exact]
  split
  · rename_i hb; subst hb; rfl
  · rfl

theorem hexLoop_of_drop {data b s : Bytes} {off : Nat} (h : data.drop off = b ++ s) :
    hexLoop data off b.length = .ok (hexOf b) := by
  induction b generalizing off with
  | nil => rfl
  | cons x b ih =>
    rw [List.length_cons, hexLoop, idx_of_drop h]
    simp only [except_bind_ok, ih (drop_succ_of_drop h), except_pure]
    rfl

/-- Reading `2 * n` hex digits at `off` gives the hex of the `n` octets there. -/
theorem bytearrayToHex_of_drop {data b s : Bytes} {off e : Nat} (h : data.drop off = b ++ s) (he : e = 2 * b.length) :
    bytearrayToHex data off (some e) = .ok (hexOf b) := by
  unfold bytearrayToHex
  subst he
  have h2 : 2 * b.length / 2 = b.length := by omega
  simp only [Nat.mul_mod_right, ne_eq, not_true_eq_false, if_false, h2, hexLoop_of_drop h, except_bind_ok, except_pure]
  rw [← hexOf_length, lastN_self]

/-- The spec's hex text is what the code prints. -/
theorem hexOf_eq_hexText (b : Bytes) : hexOf b = hexText b := by
  induction b with
  | nil => rfl
  | cons x b ih =>
    have hx := x.toNat_lt
    rw [hexOf_cons, ih, (hex_table ⟨x.toNat / 16, by omega⟩).2.1, (hex_table ⟨x.toNat % 16, by omega⟩).2.1]
    rfl

theorem hexOf_upper (b : Bytes) : UpperHex (hexOf b) := by
  induction b with
  | nil => intro c hc; cases hc
  | cons x b ih =>
    have hx := x.toNat_lt
    intro c hc
    rw [hexOf_cons, List.mem_cons, List.mem_cons] at hc
    rcases hc with rfl | rfl | hc
    · exact (hex_table ⟨x.toNat / 16, by omega⟩).2.2
    · exact (hex_table ⟨x.toNat % 16, by omega⟩).2.2
    · exact ih c hc

theorem hexAlphabet_digit {c : Char} (h : c ∈ hexAlphabet) : ∃ n, n < 16 ∧ c = hexDigit n := by
  have : ∀ c ∈ hexAlphabet, ∃ n : Fin 16, c = hexDigit n.val := by decide +kernel
  obtain ⟨n, hn⟩ := this c h
  exact ⟨n.val, n.isLt, hn⟩

/-- An even number of upper-case hex digits is the hex of some octets. -/
theorem upperHex_is_hexOf (k : Nat) : ∀ s : List Char, UpperHex s → s.length = 2 * k → ∃ b : Bytes, b.length = k ∧ s = hexOf b := by
  induction k with
  | zero => intro s _ h; exact ⟨[], rfl, by simpa [hexOf] using h⟩
  | succ k ih =>
    intro s hs hl
    match s, hs, hl with
    | [], _, hl => simp at hl
    | [_], _, hl => simp at hl; omega
    | a :: b :: s, hs, hl =>
      obtain ⟨x, hx, rfl⟩ := hexAlphabet_digit (hs a (by simp))
      obtain ⟨y, hy, rfl⟩ := hexAlphabet_digit (hs b (by simp))
      obtain ⟨t, ht, rfl⟩ := ih s (fun c hc => hs c (by simp [hc])) (by simp at hl; omega)
      refine ⟨UInt8.ofNat (x * 16 + y) :: t, by simp [ht], ?_⟩
      rw [hexOf_cons, toNat_ofNat_lt (by omega)]
      congr 2
      · congr 1; omega
      · congr 1
        congr 1; omega

end Pgp
