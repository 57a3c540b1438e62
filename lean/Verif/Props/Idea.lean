import Verif.Lemmas.Idea
import Verif.Spec.Modes
/-
Property theorems C32: the IDEA cipher.
-/
namespace Pgp.Props
open Spec Spec.Idea

/-- C32: for every key of sixteen octets and every block of eight octets, encryption is IDEA as published: its key words are the key
schedule of the key, and the output is the block of the words IDEA gives. -/
theorem C32_encrypts_as_published (key : Bytes) (hk : key.length = 16) :
    ∃ k, IsKeySchedule key k ∧ ∀ block : Bytes, block.length = 8 →
      ∃ s out, wordsOf block = some s ∧ ideaEncrypt key block = .ok out ∧ out.length = 8 ∧
        wordsOf out = some (Spec.Idea.encrypt k s) := by
  obtain ⟨ek, h1, _, h3, _⟩ := encKeys_schedule key hk
  obtain ⟨dk, d1, _⟩ := decKeys_ok ek
  refine ⟨_, h3, fun block hb => ?_⟩
  obtain ⟨out, s, o1, o2, o3, o4⟩ := ideaCipher_ok ek block hb
  refine ⟨s, out, o1, ?_, o3, o4⟩
  simp only [ideaEncrypt, h1, d1, except_bind_ok, o2]

example := C32_encrypts_as_published [0, 1, 0, 2, 0, 3, 0, 4, 0, 5, 0, 6, 0, 7, 0, 8] rfl

theorem mul_comm' (x y : Word) : mul x y = mul y x := by
  unfold mul; rw [Nat.mul_comm]

/-- Decryption keys of the decryption keys are the encryption keys. -/
theorem _root_.Pgp.DecKeys.symm {k k' : Nat → Word} (h : DecKeys k k') : DecKeys k' k := by
  constructor
  · obtain ⟨a, b, c, d⟩ := h.last
    exact ⟨by rw [mul_comm']; exact a, by rw [b, BitVec.neg_neg], by rw [c, BitVec.neg_neg], by rw [mul_comm']; exact d⟩
  · intro i hi
    obtain ⟨a, b⟩ := h.ma (7 - i) (by omega)
    rw [show 7 - (7 - i) = i by omega] at a b
    exact ⟨a.symm, b.symm⟩
  · intro i h1 hi
    obtain ⟨a, b, c, d⟩ := h.mid (8 - i) (by omega) (by omega)
    rw [show 8 - (8 - i) = i by omega] at a b c d
    exact ⟨by rw [mul_comm']; exact a, by rw [c, BitVec.neg_neg], by rw [b, BitVec.neg_neg], by rw [mul_comm']; exact d⟩
  · obtain ⟨a, b, c, d⟩ := h.first
    exact ⟨by rw [mul_comm']; exact a, by rw [b, BitVec.neg_neg], by rw [c, BitVec.neg_neg], by rw [mul_comm']; exact d⟩

/-- C32: decryption undoes encryption and encryption undoes decryption, for every key and block; no call raises. -/
theorem C32_inverse (key block : Bytes) (hk : key.length = 16) (hb : block.length = 8) :
    (∃ c, ideaEncrypt key block = .ok c ∧ c.length = 8 ∧ ideaDecrypt key c = .ok block) ∧
    (∃ p, ideaDecrypt key block = .ok p ∧ p.length = 8 ∧ ideaEncrypt key p = .ok block) := by
  obtain ⟨ek, h1, _, _, _⟩ := encKeys_schedule key hk
  obtain ⟨dk, d1, d2⟩ := decKeys_ok ek
  have he : ∀ b, ideaEncrypt key b = ideaCipher ek b := fun b => by simp only [ideaEncrypt, h1, d1, except_bind_ok]
  have hd : ∀ b, ideaDecrypt key b = ideaCipher dk b := fun b => by simp only [ideaDecrypt, h1, d1, except_bind_ok]
  constructor
  · obtain ⟨out, s, o1, o2, o3, o4⟩ := ideaCipher_ok ek block hb
    obtain ⟨out', s', p1, p2, _, p4⟩ := ideaCipher_ok dk out o3
    refine ⟨out, by rw [he, o2], o3, ?_⟩
    rw [o4] at p1; cases p1
    rw [dec_enc _ _ d2] at p4
    rw [hd, p2, wordsOf_inj p4 o1]
  · obtain ⟨out, s, o1, o2, o3, o4⟩ := ideaCipher_ok dk block hb
    obtain ⟨out', s', p1, p2, _, p4⟩ := ideaCipher_ok ek out o3
    refine ⟨out, by rw [hd, o2], o3, ?_⟩
    rw [o4] at p1; cases p1
    rw [dec_enc _ _ d2.symm] at p4
    rw [he, p2, wordsOf_inj p4 o1]

example := C32_inverse [0, 1, 0, 2, 0, 3, 0, 4, 0, 5, 0, 6, 0, 7, 0, 8] [0, 0, 0, 1, 0, 2, 0, 3] rfl rfl

/-- C32: so IDEA is a block cipher in the sense of C31, for every key. -/
theorem C32_is_block_cipher (key : Bytes) (hk : key.length = 16) :
    IsBlockCipher 8 (fun b => (ideaEncrypt key b).toOption.getD []) (fun b => (ideaDecrypt key b).toOption.getD []) := by
  refine ⟨by decide, fun b hb => ?_, fun b hb => ?_⟩
  · obtain ⟨⟨c, h1, h2, _⟩, _⟩ := C32_inverse key b hk hb
    simp only [h1, Except.toOption, Option.getD_some, h2]
  · obtain ⟨⟨c, h1, _, h3⟩, _⟩ := C32_inverse key b hk hb
    simp only [h1, h3, Except.toOption, Option.getD_some]

example := C32_is_block_cipher [0, 1, 0, 2, 0, 3, 0, 4, 0, 5, 0, 6, 0, 7, 0, 8] rfl

/-- The word arithmetic itself: the code's multiplication and inverse, for integers of any size and sign. -/
theorem C32_word_arithmetic (x y : Int) :
    BitVec.ofInt 16 (ideaMul x y) = Spec.Idea.mul (BitVec.ofInt 16 x) (BitVec.ofInt 16 y) ∧
      ∃ r, mulInv x = .ok r ∧ 0 ≤ r ∧ r < 65536 ∧ Spec.Idea.mul (BitVec.ofInt 16 x) (BitVec.ofInt 16 r) = 1 :=
  ⟨lo_mul x y, mulInv_ok x⟩

/-- The published test vector. -/
example : ideaEncrypt [0, 1, 0, 2, 0, 3, 0, 4, 0, 5, 0, 6, 0, 7, 0, 8] [0, 0, 0, 1, 0, 2, 0, 3] =
    .ok [0x11, 0xfb, 0xed, 0x2b, 0x01, 0x98, 0x6d, 0xe5] := by decide +kernel

end Pgp.Props
