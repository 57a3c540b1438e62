import Verif.Lemmas.Hex
/-
Property theorems C44: hexadecimal conversion.
-/
namespace Pgp.Props
open Spec

/-- C44: printing `n` octets found at any offset gives their `2 * n` upper-case digits, which convert back to the octets. -/
theorem C44_hex_roundtrip (pre b post : Bytes) :
    bytearrayToHex (pre ++ b ++ post) pre.length (some (2 * b.length)) = .ok (hexText b) ∧
    (hexText b).length = 2 * b.length ∧ UpperHex (hexText b) ∧
    hexToBytes (hexText b) none = .ok b ∧ hexToBytes (hexText b) (some b.length) = .ok b := by
  rw [← hexOf_eq_hexText]
  refine ⟨bytearrayToHex_of_drop (s := post) (by simp) rfl, hexOf_length b, hexOf_upper b, ?_, hexToBytes_hexOf rfl⟩
  unfold hexToBytes; rw [hexPairs_hexOf]; rfl

/-- C44: without a width, everything from the offset on is printed. -/
theorem C44_hex_to_end (pre b : Bytes) : bytearrayToHex (pre ++ b) pre.length none = .ok (hexText b) := by
  rw [← hexOf_eq_hexText]
  unfold bytearrayToHex
  have : (pre ++ b).length - pre.length = b.length := by simp
  simp only [this]
  exact hexLoop_of_drop (s := []) (by simp)

/-- C44: every even-length upper-case hex string is recovered from the octets it stands for. -/
theorem C44_octets_roundtrip (s : List Char) (h : UpperHex s) (k : Nat) (hl : s.length = 2 * k) :
    ∃ b, hexToBytes s none = .ok b ∧ b.length = k ∧ hexText b = s ∧ bytearrayToHex b 0 (some s.length) = .ok s := by
  obtain ⟨b, hb, rfl⟩ := upperHex_is_hexOf k s h hl
  refine ⟨b, by unfold hexToBytes; rw [hexPairs_hexOf]; rfl, hb, (hexOf_eq_hexText b).symm, ?_⟩
  exact bytearrayToHex_of_drop (s := []) (by simp) (hexOf_length b)

example := C44_octets_roundtrip "00FFA9".toList (by unfold UpperHex; decide) 3 rfl

/-- C44: a shorter hex string is padded with zero octets on the left. -/
theorem C44_pads (b : Bytes) (n : Nat) (h : b.length ≤ n) (hn : 0 < n) :
    hexToBytes (hexText b) (some n) = .ok (List.replicate (n - b.length) 0 ++ b) := by
  rw [← hexOf_eq_hexText]
  unfold hexToBytes
  rw [hexPairs_hexOf]
  simp only [except_bind_ok, except_pure, lastN, Nat.ne_of_gt hn, if_false, List.length_append, List.length_replicate,
    Nat.add_sub_cancel_left]
  rw [List.drop_append_of_le_length (by simpa using h), List.drop_replicate]

example := C44_pads [1, 2] 8 (by decide) (by decide)

/-- C44: of a longer hex string the last `n` octets are kept. -/
theorem C44_truncates (a b : Bytes) (hn : 0 < b.length) :
    hexToBytes (hexText (a ++ b)) (some b.length) = .ok b := by
  rw [← hexOf_eq_hexText]
  unfold hexToBytes
  rw [hexPairs_hexOf]
  simp only [except_bind_ok, except_pure, lastN, Nat.ne_of_gt hn, if_false]
  rw [← List.append_assoc]
  congr 1
  rw [show (List.replicate b.length (0 : UInt8) ++ a ++ b).length - b.length = (List.replicate b.length (0 : UInt8) ++ a).length by
    simp only [List.length_append]; omega]
  rw [List.drop_left]

example := C44_truncates [1, 2] [3, 4] (by decide)

/-- C44: an odd number of digits cannot be asked for, and too few octets raise. -/
theorem C44_rejects (b : Bytes) (off k : Nat) :
    bytearrayToHex b off (some (2 * k + 1)) = .error .assertionError ∧
    (b.length < off + k → 0 < k → bytearrayToHex b off (some (2 * k)) = .error .indexError) := by
  constructor
  · unfold bytearrayToHex; dsimp only; rw [if_pos (by omega)]
  · intro h hk
    have key : ∀ k off, b.length < off + k → 0 < k → hexLoop b off k = .error .indexError := by
      intro k
      induction k with
      | zero => intro off _ h; omega
      | succ k ih =>
        intro off h _
        unfold hexLoop
        by_cases ho : off < b.length
        · rw [idx_lt ho]
          simp only [except_bind_ok]
          rw [ih (off + 1) (by omega) (by omega)]
          rfl
        · rw [idx_ge (by omega)]; rfl
    unfold bytearrayToHex
    dsimp only
    rw [if_neg (by omega), show 2 * k / 2 = k by omega, key k off h hk]
    rfl

theorem hexDigitsOf_spec (i : Nat) : UpperHex (hexDigitsOf i) ∧ hexNumber (hexDigitsOf i) = i ∧
    (hexDigitsOf i).length = (Nat.toDigits 16 i).length := by
  have tab : ∀ n : Fin 16, (Nat.digitChar n.val).toUpper ∈ hexAlphabet ∧
      hexAlphabet.idxOf (Nat.digitChar n.val).toUpper = n.val := by decide +kernel
  refine ⟨?_, ?_, by simp [hexDigitsOf]⟩ <;>
  · induction i using Nat.strongRecOn with
    | ind i ih =>
      unfold hexDigitsOf at *
      by_cases h : i < 16
      · rw [Nat.toDigits_of_lt_base h]
        first
          | (intro c hc
             simp only [List.map_cons, List.map_nil, List.mem_cons, List.not_mem_nil, or_false] at hc
             rw [hc]; exact (tab ⟨i, h⟩).1)
          | (simp only [List.map_cons, List.map_nil, hexNumber, List.foldl_cons, List.foldl_nil]
             rw [(tab ⟨i, h⟩).2]; dsimp only; omega)
      · rw [Nat.toDigits_of_base_le (by omega) (by omega), List.map_append]
        have hi := ih (i / 16) (by omega)
        first
          | (intro c hc
             rw [List.mem_append] at hc
             rcases hc with hc | hc
             · exact hi c hc
             · simp only [List.map_cons, List.map_nil, List.mem_cons, List.not_mem_nil, or_false] at hc
               rw [hc]; exact (tab ⟨i % 16, Nat.mod_lt _ (by omega)⟩).1)
          | (unfold hexNumber at *
             rw [List.foldl_append, hi]
             simp only [List.map_cons, List.map_nil, List.foldl_cons, List.foldl_nil]
             rw [(tab ⟨i % 16, Nat.mod_lt _ (by omega)⟩).2]; dsimp only; omega)

/-- C44: `int_to_hex(i)` writes `i`. -/
theorem C44_int_to_hex (i : Nat) : UpperHex (intToHex i none) ∧ hexNumber (intToHex i none) = i :=
  ⟨(hexDigitsOf_spec i).1, (hexDigitsOf_spec i).2.1⟩

/-- C44: `int_to_hex(i, n)` writes `i` in exactly `n` digits whenever `i` fits. -/
theorem C44_int_to_hex_width (i n : Nat) (hn : 0 < n) (hi : i < 16 ^ n) :
    UpperHex (intToHex i (some n)) ∧ (intToHex i (some n)).length = n ∧ hexNumber (intToHex i (some n)) = i := by
  have hl : (hexDigitsOf i).length ≤ n := by
    rw [(hexDigitsOf_spec i).2.2]; exact (Nat.length_toDigits_le_iff (by omega) hn).mpr hi
  have e : intToHex i (some n) = List.replicate (n - (hexDigitsOf i).length) '0' ++ hexDigitsOf i := by
    unfold intToHex lastN
    simp only [Nat.ne_of_gt hn, if_false]
    rw [show (List.replicate (n - (hexDigitsOf i).length) '0' ++ hexDigitsOf i).length - n = 0 by simp; omega]
    rfl
  rw [e]
  refine ⟨?_, by simp; omega, ?_⟩
  · intro c hc
    rw [List.mem_append] at hc
    rcases hc with hc | hc
    · rw [List.mem_replicate] at hc; rw [hc.2]; simp [hexAlphabet]
    · exact (hexDigitsOf_spec i).1 c hc
  · have z : ∀ k, List.foldl (fun a c => a * 16 + hexAlphabet.idxOf c) 0 (List.replicate k '0') = 0 := by
      intro k
      induction k with
      | zero => rfl
      | succ k ih => rw [List.replicate_succ, List.foldl_cons]; exact ih
    unfold hexNumber
    rw [List.foldl_append, z]
    exact (hexDigitsOf_spec i).2.1

example : hexText [0xde, 0xad, 0x01] = "DEAD01".toList ∧ hexToBytes "BEEF".toList (some 4) = .ok [0, 0, 0xbe, 0xef] ∧
    intToHex 0xbeef (some 8) = "0000BEEF".toList := by decide +kernel

theorem hexText_inj {a b : Bytes} (h : hexText a = hexText b) : a = b := by
  rw [← hexOf_eq_hexText, ← hexOf_eq_hexText] at h
  have h1 := hexPairs_hexOf a
  rw [h, hexPairs_hexOf b] at h1
  exact (Except.ok.inj h1).symm

end Pgp.Props
