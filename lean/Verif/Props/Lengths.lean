import Verif.Lemmas.Lengths
/-
Property theorems C05–C08: packet length octets.
-/
namespace Pgp.Props
open Spec

/-! ## C05 -/

/-- C05: every length up to 2^32-1 written for a new-format header, wherever it stands and whatever follows, reads
back exactly, as non-partial, leaving the offset right after the length octets. -/
theorem C05_new_length_roundtrip (n : Nat) (h : n ≤ 2 ^ 32 - 1) (allowPartial : Bool) :
    ∃ e, newPacketLengthToBytes n allowPartial = .ok (e, 0) ∧ ∀ pre suf : Bytes,
      newPacketLength (pre ++ e ++ suf) pre.length = .ok ((pre ++ e).length, n, false) := by
  obtain ⟨e, h1, h2, _⟩ := newPacketLengthToBytes_definite h allowPartial
  refine ⟨e, h1, fun pre suf => ?_⟩
  rw [newPacketLength_definite (e := e) (s := suf) (by simp) h2, List.length_append]

example : newPacketLengthToBytes 8383 false = .ok ([223, 255], 0) ∧
    newPacketLength [7, 223, 255, 1] 1 = .ok (3, 8383, false) := by decide

/-! ## C06 -/

/-- C06: the written length is a valid definite encoding and no valid definite encoding of the same length is
shorter. -/
theorem C06_new_length_shortest (n : Nat) (h : n ≤ 2 ^ 32 - 1) (allowPartial : Bool) :
    ∃ e, newPacketLengthToBytes n allowPartial = .ok (e, 0) ∧ NewDefinite e n ∧
      ∀ e', NewDefinite e' n → e.length ≤ e'.length := by
  obtain ⟨e, h1, h2, h3⟩ := newPacketLengthToBytes_definite h allowPartial
  refine ⟨e, h1, h2, fun e' h' => ?_⟩
  rw [h3]
  cases h' with
  | one a ha => simp [ha]
  | two a b ha hb =>
    have := uint8_lt b
    have h5 : (a.toNat - 192) * 256 + b.toNat + 192 < 8384 := by omega
    simp only [h5, if_true, List.length_cons, List.length_nil]
    split <;> omega
  | five a b c d => simp only [List.length_cons, List.length_nil]; split <;> (try split) <;> omega

example := C06_new_length_shortest 8384 (by decide) true

/-- C06: one octet below 192, two below 8384, five otherwise. -/
theorem C06_new_length_size (n : Nat) (h : n ≤ 2 ^ 32 - 1) (allowPartial : Bool) :
    ∃ e, newPacketLengthToBytes n allowPartial = .ok (e, 0) ∧
      e.length = (if n < 192 then 1 else if n < 8384 then 2 else 5) := by
  obtain ⟨e, h1, _, h3⟩ := newPacketLengthToBytes_definite h allowPartial
  exact ⟨e, h1, h3⟩

example := C06_new_length_size 8384 (by decide) true

/-- C06: beyond 2^32-1 the writer raises ValueError unless partial lengths are allowed; then it writes exactly the
octet announcing a 2^30-octet chunk and reports what remains. -/
theorem C06_new_length_too_long (n : Nat) (h : 2 ^ 32 - 1 < n) :
    newPacketLengthToBytes n false = .error .valueError ∧
    ∃ e, newPacketLengthToBytes n true = .ok (e, n - 2 ^ 30) ∧ NewPartial e (2 ^ 30) := by
  have h1 : ¬ n < 192 := by omega
  have h2 : ¬ n < 8384 := by omega
  have h3 : ¬ n ≤ MAX_PACKET_LENGTH := by unfold MAX_PACKET_LENGTH; omega
  refine ⟨by simp [newPacketLengthToBytes, h1, h2, h3], [0xfe], ?_, .mk 0xfe (by decide) (by decide)⟩
  simp only [newPacketLengthToBytes, h1, h2, h3, if_false, if_true]
  rfl

example : (2 ^ 32 - 1 : Nat) < 5000000000 := by decide

/-! ## C07 -/

/-- C07: below 2^24 the old-format length octets (all valid octets) with their length type in the low two bits of the
tag read back as the same length. -/
theorem C07_old_length_roundtrip (n : Nat) (h : n < 2 ^ 24) :
    ∃ t l e, oldPacketLengthToBytes n = (t, l) ∧ extendInts l = .ok e ∧ t < 3 ∧ e.length = l.length ∧
      ∀ (pre suf : Bytes) (tag : UInt8), tag.toNat % 4 = t →
        oldPacketLength (pre ++ tag :: e ++ suf) pre.length = .ok ((pre ++ tag :: e).length, n) := by
  have key : ∃ t l e, oldPacketLengthToBytes n = (t, l) ∧ extendInts l = .ok e ∧ t < 3 ∧ e.length = l.length ∧
      OldDefinite t e n := by
    unfold oldPacketLengthToBytes
    by_cases h1 : n < 256
    · refine ⟨0, [n], [UInt8.ofNat n], by simp [h1], by simp [extendInts, byteOf_lt h1], by omega, rfl, ?_⟩
      have := OldDefinite.one [UInt8.ofNat n] rfl
      rwa [beNat_singleton, toNat_ofNat_lt h1] at this
    · by_cases h2 : n < 65536
      · have ha : n >>> 8 < 256 := by rw [shr8]; omega
        have hb : n &&& 255 < 256 := by rw [and255]; omega
        refine ⟨1, [n >>> 8, n &&& 255], intTo2byte n, by simp [h1, h2], ?_, by omega, rfl, ?_⟩
        · simp only [extendInts, List.mapM_cons, List.mapM_nil, byteOf_lt ha, byteOf_lt hb, except_bind_ok,
            except_pure, intTo2byte, octet, lowByte]
          rw [Nat.mod_eq_of_lt ha, and255]; rfl
        · have h5 := OldDefinite.two (intTo2byte n) rfl
          have hv : beNat (intTo2byte n) = n := by
            rw [intTo2byte_eq, beNat_beBytes, Nat.mod_eq_of_lt (by omega)]
          rwa [hv] at h5
      · have ha : n >>> 24 < 256 := by rw [Nat.shiftRight_eq_div_pow]; omega
        have hb : (n >>> 16) &&& 255 < 256 := by rw [and255]; omega
        have hc : (n >>> 8) &&& 255 < 256 := by rw [and255]; omega
        have hd : n &&& 255 < 256 := by rw [and255]; omega
        have h3 : n < 16777216 := h
        refine ⟨2, [n >>> 24, (n >>> 16) &&& 255, (n >>> 8) &&& 255, n &&& 255], intTo4byte n, by simp only [h1, h2, h3, if_false, if_true], ?_, by omega, rfl, ?_⟩
        · simp only [extendInts, List.mapM_cons, List.mapM_nil, byteOf_lt ha, byteOf_lt hb, byteOf_lt hc,
            byteOf_lt hd, except_bind_ok, except_pure, intTo4byte, octet, lowByte]
          rw [Nat.mod_eq_of_lt ha, and255, and255, and255]; rfl
        · have h5 := OldDefinite.four (intTo4byte n) rfl
          have hv : beNat (intTo4byte n) = n := by
            rw [intTo4byte_eq, beNat_beBytes, Nat.mod_eq_of_lt (by omega)]
          rwa [hv] at h5
  obtain ⟨t, l, e, h1, h2, h3, h4, h5⟩ := key
  refine ⟨t, l, e, h1, h2, h3, h4, fun pre suf tag ht => ?_⟩
  rw [oldPacketLength_definite (e := e) (s := suf) (tag := tag) (by simp) (ht ▸ h5)]
  simp only [List.length_append, List.length_cons]
  congr 2; omega

example : oldPacketLengthToBytes 70000 = (2, [0, 1, 17, 112]) := by decide

/-- C07: from 2^24 on the writer emits no length octets and type 3, with which the reader takes everything up to the
end of the data, however much that is. -/
theorem C07_old_length_indeterminate (n : Nat) (h : 2 ^ 24 ≤ n) (pre suf : Bytes) (tag : UInt8)
    (ht : tag.toNat % 4 = 3) :
    oldPacketLengthToBytes n = (3, []) ∧
    oldPacketLength (pre ++ tag :: suf) pre.length = .ok (pre.length + 1, suf.length) := by
  constructor
  · have h1 : ¬ n < 256 := by omega
    have h2 : ¬ n < 65536 := by omega
    have h3 : ¬ n < 16777216 := by omega
    simp [oldPacketLengthToBytes, h1, h2, h3]
  · unfold oldPacketLength
    rw [idx_of_drop (x := tag) (s := suf) (by simp)]
    simp only [except_bind_ok, and3, ht]
    simp; omega

example : (2 ^ 24 : Nat) ≤ 20000000 ∧ (0x87 : UInt8).toNat % 4 = 3 := by decide

/-! ## C08 -/

/-- C08: a successful new-format length read advances by 1 to 5 octets and stays inside the data. -/
theorem C08_new_length_progress (data : Bytes) (off off' n : Nat) (p : Bool)
    (h : newPacketLength data off = .ok (off', n, p)) :
    off + 1 ≤ off' ∧ off' ≤ off + 5 ∧ off' ≤ data.length ∧ (p = true → 0 < n) := by
  obtain ⟨e, s, hd, ho, hk⟩ := newPacketLength_ok h
  have hlen := congrArg List.length hd
  simp only [List.length_drop, List.length_append] at hlen
  have hle : 1 ≤ e.length ∧ e.length ≤ 5 := by
    rcases hk with ⟨_, hk⟩ | ⟨_, hk⟩ <;> cases hk <;> simp
  refine ⟨by omega, by omega, by omega, ?_⟩
  rintro rfl
  rcases hk with ⟨hc, _⟩ | ⟨_, hk⟩
  · cases hc
  · cases hk; exact Nat.pow_pos (by decide)

example := C08_new_length_progress [7, 223, 255, 1] 1 3 8383 false (by decide)

/-- C08: the reader accepts exactly the octet sequences of the specification. -/
theorem C08_new_length_reader_exact (data : Bytes) (off off' n : Nat) (p : Bool) :
    newPacketLength data off = .ok (off', n, p) ↔
    ∃ e s, data.drop off = e ++ s ∧ off' = off + e.length ∧
      (p = false ∧ NewDefinite e n ∨ p = true ∧ NewPartial e n) := by
  constructor
  · exact newPacketLength_ok
  · rintro ⟨e, s, hd, rfl, ⟨rfl, hk⟩ | ⟨rfl, hk⟩⟩
    · exact newPacketLength_definite hd hk
    · exact newPacketLength_partial hd hk

/-- C08: a successful old-format length read (from the tag octet) advances by 1 to 5 octets inside the data. -/
theorem C08_old_length_progress (data : Bytes) (off off' n : Nat)
    (h : oldPacketLength data off = .ok (off', n)) :
    off + 1 ≤ off' ∧ off' ≤ off + 5 ∧ off' ≤ data.length := by
  unfold oldPacketLength at h
  cases hx : idx data off with
  | error e => rw [hx] at h; cases h
  | ok x =>
    obtain ⟨s, hs⟩ := idx_ok hx
    have hlen := length_of_drop hs (by simp)
    simp only [List.length_cons] at hlen
    rw [hx] at h
    simp only [except_bind_ok] at h
    split at h
    · simp only [except_bind_eq_ok] at h
      obtain ⟨y, hy, he⟩ := h
      obtain ⟨s', hs'⟩ := idx_ok hy
      have := length_of_drop hs' (by simp)
      simp only [List.length_cons] at this
      cases he; omega
    · split at h
      · simp only [except_bind_eq_ok] at h
        obtain ⟨y, hy, he⟩ := h
        have := (bytesToInt_ok hy).1
        cases he; omega
      · split at h
        · simp only [except_bind_eq_ok] at h
          obtain ⟨y, hy, he⟩ := h
          have := (bytesToInt_ok hy).1
          cases he; omega
        · cases h; omega

example := C08_old_length_progress [0x99, 1, 2, 9] 0 3 258 (by decide)

/-- C08: reading a new-format length from a file agrees with reading it from memory: same value, same partial flag,
same octets consumed; and one fails iff the other does. -/
theorem C08_new_length_stream_agrees (data : Bytes) (off n : Nat) (p : Bool) (rest : Bytes) :
    newPacketLengthFromStream (data.drop off) = .ok (n, p, rest) ↔
    ∃ off', newPacketLength data off = .ok (off', n, p) ∧ rest = data.drop off' :=
  C08_stream_aux data off n p rest

/-- C08: reading an old-format length from a file agrees with reading it from memory for the definite length types;
for the indeterminate type (low tag bits 3) the file reader raises ValueError while the memory reader accepts. -/
theorem C08_old_length_stream_agrees (data : Bytes) (off n : Nat) (rest s : Bytes) (tag : UInt8)
    (hd : data.drop off = tag :: s) :
    (tag.toNat % 4 ≠ 3 →
      (oldPacketLengthFromStream (data.drop off) = .ok (n, rest) ↔
        ∃ off', oldPacketLength data off = .ok (off', n) ∧ rest = data.drop off')) ∧
    (tag.toNat % 4 = 3 →
      oldPacketLengthFromStream (data.drop off) = .error .valueError ∧
      oldPacketLength data off = .ok (off + 1, s.length)) :=
  C08_old_stream_aux data off n rest s tag hd

example : oldPacketLengthFromStream [0x99, 1, 2, 9] = .ok (258, [9]) ∧
    oldPacketLength [0x99, 1, 2, 9] 0 = .ok (3, 258) := by decide

end Pgp.Props
