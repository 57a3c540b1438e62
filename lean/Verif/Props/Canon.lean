import Verif.Lemmas.Canon
/-
Property theorems C46 (canonical text form).
-/
namespace Pgp.Props
open Spec

/-- C46, what holds: the substitution gives the canonical form of the standard exactly on the texts whose lines already all end in
CR LF. -/
theorem C46_canonical_iff_partial (b : Bytes) : canonSub b = canonicalForm b ↔ CanonicalLines b := by
  rw [← canonR_iff]
  constructor
  · intro h
    exact canonR_of_length b (by rw [← h, canonSub_length])
  · intro h
    rw [canonSub_of_canonR b h, canonicalForm_of_canonR b h]

example : CanonicalLines [0x61, 13, 10, 0x62, 13, 10] := by
  rw [← canonR_iff]; simp [canonR]

/-- C46, what holds: two messages whose text already has canonical line endings and whose signed data agree are the same text, for
every signature type. -/
theorem C46_injective_on_canonical_partial (s t : List Char) (ty : Nat) (hs : CanonicalLines (utf8Encode s))
    (ht : CanonicalLines (utf8Encode t)) (h : textSignable s ty = textSignable t ty) : s = t := by
  unfold textSignable at h
  split at h
  · rw [canonSub_of_canonR _ ((canonR_iff _).mpr hs), canonSub_of_canonR _ ((canonR_iff _).mpr ht)] at h
    exact utf8Encode_inj h
  · exact utf8Encode_inj h

example := C46_injective_on_canonical_partial "a\r\nb".toList "a\r\nb".toList 1
  (by rw [← canonR_iff]; simp [canonR, utf8Encode, utf8Char]) (by rw [← canonR_iff]; simp [canonR, utf8Encode, utf8Char]) rfl

/-- C46, what holds: a signature of any other type (in particular a binary document signature) covers the exact text. -/
theorem C46_binary_type_faithful_partial (s t : List Char) (ty : Nat) (hty : ty ≠ 1) :
    textSignable s ty = textSignable t ty ↔ s = t := by
  unfold textSignable
  rw [if_neg hty, if_neg hty]
  exact ⟨utf8Encode_inj, fun h => by rw [h]⟩

example : textSignable "a\nb".toList 0 ≠ textSignable "a\rb".toList 0 :=
  fun h => absurd ((C46_binary_type_faithful_partial _ _ 0 (by decide)).mp h) (by decide)

/-- C46, what holds: the signed data of a binary message is the data. -/
theorem C46_binary_message_faithful_partial (a b : Bytes) (ty : Nat) : binarySignable a ty = binarySignable b ty ↔ a = b := Iff.rfl

/-- C46 refuted: in any text with a line ended by a bare LF, the last character of that line (if it is an ASCII character other than
CR and LF) does not influence the data a canonical text signature covers: it can be replaced by any other. -/
theorem C46_last_character_refuted (pre post : List Char) (a b : Char) (ha : a.toNat < 128 ∧ a ≠ '\r' ∧ a ≠ '\n')
    (hb : b.toNat < 128 ∧ b ≠ '\r' ∧ b ≠ '\n') :
    textSignable (pre ++ a :: '\n' :: post) 1 = textSignable (pre ++ b :: '\n' :: post) 1 := by
  have key : ∀ c : Char, (c.toNat < 128 ∧ c ≠ '\r' ∧ c ≠ '\n') →
      utf8Encode (pre ++ c :: '\n' :: post) = utf8Encode pre ++ UInt8.ofNat c.toNat :: 10 :: utf8Encode post ∧
      UInt8.ofNat c.toNat ≠ 13 ∧ UInt8.ofNat c.toNat ≠ 10 := by
    intro c hc
    have ne : ∀ n : Nat, n < 128 → c ≠ Char.ofNat n → UInt8.ofNat c.toNat ≠ UInt8.ofNat n := by
      intro n hn hne e
      have := congrArg UInt8.toNat e
      simp only [UInt8.toNat_ofNat'] at this
      rw [Nat.mod_eq_of_lt (by omega), Nat.mod_eq_of_lt (by omega)] at this
      exact hne (by rw [← this]; simp)
    refine ⟨?_, ne 13 (by decide) hc.2.1, ne 10 (by decide) hc.2.2⟩
    rw [utf8Encode_append, utf8Encode_ascii_cons _ _ hc.1, utf8Encode_ascii_cons _ _ (by decide)]
    rfl
  obtain ⟨ea, ha'⟩ := key a ha
  obtain ⟨eb, hb'⟩ := key b hb
  unfold textSignable
  rw [if_pos rfl, if_pos rfl, ea, eb]
  exact canonSub_char_lost _ _ _ _ ha' hb'

example : ("pay 1".toList ++ '0' :: '\n' :: []) ≠ ("pay 1".toList ++ '9' :: '\n' :: []) := by decide

/-- C46 refuted: the octet after a bare CR is lost as well. -/
theorem C46_after_cr_refuted (pre post : Bytes) (a b : UInt8) (hp : ∀ x ∈ pre, x ≠ 13 ∧ x ≠ 10) (ha : a ≠ 10) (hb : b ≠ 10) :
    canonSub (pre ++ 13 :: a :: post) = canonSub (pre ++ 13 :: b :: post) :=
  canonSub_after_cr pre post a b hp ha hb

example : canonSub [0x61, 13, 0x31, 0x62] = canonSub [0x61, 13, 0x39, 0x62] :=
  C46_after_cr_refuted [0x61] [0x62] 0x31 0x39 (by decide) (by decide) (by decide)

/-- C46 refuted: the substitution never lengthens the text, so a text with a bare line ending is never given its canonical form. -/
theorem C46_length_refuted (b : Bytes) (h : ¬ CanonicalLines b) : (canonSub b).length = b.length ∧ b.length < (canonicalForm b).length := by
  refine ⟨canonSub_length b, ?_⟩
  have := canonicalForm_length_le b
  rcases Nat.lt_or_ge b.length (canonicalForm b).length with h1 | h1
  · exact h1
  · exact absurd ((canonR_iff b).mp (canonR_of_length b (by omega))) h

example : ¬ CanonicalLines [0x61, 10] := by
  rw [← canonR_iff]; simp [canonR]

end Pgp.Props
