import Verif.Lemmas.Crc24
/-
Property theorems C15, C16: the armor checksum.
-/
namespace Pgp.Props
open Spec

/-- C15: the table-driven checksum equals the RFC 4880 bit-by-bit CRC-24, for every octet string. -/
theorem C15_crc24_is_rfc (data : Bytes) : crc24 data = rfcCrc24 data := by
  have h := rfcFold_msg data 0xb704ce#24
  have h' : data.foldl crcOctet 0xB704CE = (crcFold 0xb704ce#24 (msgBits data)).toNat := h
  unfold rfcCrc24
  rw [h', crc24_fold, show (0xFFFFFF : Nat) = 2 ^ 24 - 1 from rfl, Nat.and_two_pow_sub_one_eq_mod,
    Nat.mod_eq_of_lt (BitVec.isLt _)]

/-- C15: the checksum always fits in three octets. -/
theorem C15_crc24_bound (data : Bytes) : crc24 data < 2 ^ 24 := by
  rw [crc24_fold]; exact BitVec.isLt _

/-- C15: the checksum of a concatenation is obtained by continuing from the checksum state of the first part, for any
split. -/
theorem C15_crc24_incremental (a b : Bytes) : crc24 (a ++ b) = b.foldl crcOctet (crc24 a) := by
  rw [crc24_fold a, rfcFold_msg, crc24_fold, msgBits, List.flatMap_append, crcFold_append]; rfl

example : crc24 [0x61, 0x62, 0x63] = 0xba1c7b := by decide +kernel

/-- C16: if two messages differ only inside one window of at most 24 consecutive bits (at any bit position), their
checksums differ. -/
theorem C16_burst_detected (a b : Bytes) (p u v s : List Bool) (ha : msgBits a = p ++ u ++ s)
    (hb : msgBits b = p ++ v ++ s) (hl : u.length = v.length) (h24 : u.length ≤ 24) (hne : u ≠ v) :
    crc24 a ≠ crc24 b := by
  intro h
  rw [crc24_fold, crc24_fold] at h
  have := BitVec.eq_of_toNat_eq h
  rw [ha, hb] at this
  exact hne (crcFold_burst hl h24 this)

example : crc24 [1, 2] ≠ crc24 [1, 6] :=
  C16_burst_detected [1, 2] [1, 6] ((msgBits [1, 2]).take 12) [false, false] [false, true] [true, false] (by decide) (by decide) rfl
    (by decide) (by decide)

/-- C16: in octets: corrupting at most three consecutive octets of any message always changes the checksum. -/
theorem C16_three_octets_detected (pre x y suf : Bytes) (hl : x.length = y.length) (h3 : x.length ≤ 3) (hne : x ≠ y) :
    crc24 (pre ++ x ++ suf) ≠ crc24 (pre ++ y ++ suf) := by
  have hlen : ∀ d : Bytes, (msgBits d).length = 8 * d.length := by
    intro d
    induction d with
    | nil => rfl
    | cons x d ih =>
      have : msgBits (x :: d) = octetBits x ++ msgBits d := rfl
      rw [this, List.length_append, octetBits_length, ih, List.length_cons]; omega
  have hinj : ∀ a b : Bytes, msgBits a = msgBits b → a = b := by
    intro a
    induction a with
    | nil =>
      intro b h
      have := congrArg List.length h
      rw [hlen, hlen] at this
      cases b <;> simp_all
    | cons x a ih =>
      intro b h
      cases b with
      | nil => have := congrArg List.length h; rw [hlen, hlen] at this; simp at this
      | cons y b =>
        have hx : msgBits (x :: a) = octetBits x ++ msgBits a := rfl
        have hy : msgBits (y :: b) = octetBits y ++ msgBits b := rfl
        rw [hx, hy] at h
        obtain ⟨h1, h2⟩ := List.append_inj h (by rw [octetBits_length, octetBits_length])
        have hb : ∀ m n : Fin 256, octetBits (UInt8.ofNat m.val) = octetBits (UInt8.ofNat n.val) → m = n := by
          have aux : ∀ n : Fin 256, (octetBits (UInt8.ofNat n.val)).foldl (fun a b => 2 * a + b.toNat) 0 = n.val := by
            decide +kernel
          intro m n h
          apply Fin.ext
          rw [← aux m, h, aux n]
        have := hb ⟨x.toNat, x.toNat_lt⟩ ⟨y.toNat, y.toNat_lt⟩ (by simpa using h1)
        have hxy : x = y := UInt8.toNat_inj.mp (congrArg Fin.val this)
        rw [hxy, ih b h2]
  apply C16_burst_detected _ _ (msgBits pre) (msgBits x) (msgBits y) (msgBits suf)
  · simp [msgBits, List.flatMap_append]
  · simp [msgBits, List.flatMap_append]
  · rw [hlen, hlen, hl]
  · rw [hlen]; omega
  · intro h; exact hne (hinj _ _ h)

example : ([1, 2, 3] : Bytes).length = ([1, 0, 9] : Bytes).length ∧ ([1, 2, 3] : Bytes) ≠ [1, 0, 9] ∧
    ∃ p u v s : List Bool, msgBits [1, 2] = p ++ u ++ s ∧ msgBits [1, 6] = p ++ v ++ s ∧ u ≠ v ∧
      u.length = v.length ∧ u.length ≤ 24 :=
  ⟨rfl, by decide, (msgBits [1, 2]).take 12, [false, false], [false, true], [true, false], by decide, by decide,
    by decide, rfl, by decide⟩

end Pgp.Props
