import Verif.Lemmas.Mpi
import Mathlib.Tactic.NormNum
/-
Property theorems C01–C04: integer and MPI codecs of utils.py.
-/
namespace Pgp.Props
open Spec

/-! ## C01 fixed-width integers -/

/-- C01: a 16-bit value written with the 2-octet writer, anywhere in a buffer, reads back unchanged. -/
theorem C01_write2_read (pre suf : Bytes) (i : Nat) (h : i < 2 ^ 16) :
    shortToInt (pre ++ intTo2byte i ++ suf) pre.length = .ok i := by
  rw [shortToInt_of_drop (i := i) (s := suf) (by simp), Nat.mod_eq_of_lt (by simpa using h)]

example := C01_write2_read [7] [8] 300 (by decide)

/-- C01: likewise for 32 bits. -/
theorem C01_write4_read (pre suf : Bytes) (i : Nat) (h : i < 2 ^ 32) :
    longToInt (pre ++ intTo4byte i ++ suf) pre.length = .ok i := by
  rw [longToInt_of_drop (i := i) (s := suf) (by simp), Nat.mod_eq_of_lt (by simpa using h)]

example := C01_write4_read [7] [8] 4000000000 (by decide)

/-- C01: likewise for 64 bits. -/
theorem C01_write8_read (pre suf : Bytes) (i : Nat) (h : i < 2 ^ 64) :
    bytesToInt (pre ++ intTo8byte i ++ suf) pre.length 8 = .ok i := by
  rw [bytesToInt_of_drop (n := 8) (b := intTo8byte i) (s := suf) (by simp) rfl, intTo8byte_eq, beNat_beBytes,
    Nat.mod_eq_of_lt (by simpa using h)]

example : (300 : Nat) < 2 ^ 16 ∧ (4000000000 : Nat) < 2 ^ 32 ∧ (2 ^ 63 + 5 : Nat) < 2 ^ 64 := by decide

/-- C01: the writers produce exactly the big-endian octets of `i` modulo the width, for every `i`; in particular
values that do not fit are silently reduced. -/
theorem C01_writers_are_big_endian (i : Nat) :
    intTo2byte i = beBytes 2 i ∧ intTo4byte i = beBytes 4 i ∧ intTo8byte i = beBytes 8 i ∧
      (intTo2byte i).length = 2 ∧ (intTo4byte i).length = 4 ∧ (intTo8byte i).length = 8 ∧
      beNat (intTo2byte i) = i % 2 ^ 16 ∧ beNat (intTo4byte i) = i % 2 ^ 32 ∧ beNat (intTo8byte i) = i % 2 ^ 64 := by
  refine ⟨intTo2byte_eq i, intTo4byte_eq i, intTo8byte_eq i, rfl, rfl, rfl, ?_, ?_, ?_⟩
  · rw [intTo2byte_eq, beNat_beBytes]; norm_num
  · rw [intTo4byte_eq, beNat_beBytes]; norm_num
  · rw [intTo8byte_eq, beNat_beBytes]; norm_num

/-- C01: one octet is read as its value, and reading behind the end raises `IndexError`. -/
theorem C01_byte_read (data : Bytes) (off : Nat) : byteToInt data off = match data[off]? with | some x => .ok x.toNat | none => .error .indexError := by
  unfold byteToInt bytesToInt
  simp only [bytesToIntLoop]
  rw [show idx data off = match data[off]? with | some x => .ok x | none => .error .indexError by
    unfold idx
    rw [show data[off]? = (data.drop off)[0]? by simp]
    cases data.drop off <;> rfl]
  cases data[off]? <;> simp

example := C01_byte_read [7, 200] 1

/-- C01: whatever two (four) octets are read, writing the value gives the same octets; reading fails exactly when the
window is not inside the data. -/
theorem C01_read_write (data : Bytes) (off : Nat) :
    (∀ v, shortToInt data off = .ok v → intTo2byte v = slice data off (off + 2)) ∧
    (∀ v, longToInt data off = .ok v → intTo4byte v = slice data off (off + 4)) ∧
    ((∃ v, shortToInt data off = .ok v) ↔ off + 2 ≤ data.length) ∧
    ((∃ v, longToInt data off = .ok v) ↔ off + 4 ≤ data.length) := by
  refine ⟨?_, ?_, ?_, ?_⟩
  · intro v hv
    obtain ⟨h1, h2⟩ := bytesToInt_ok hv
    have hl : ((data.drop off).take 2).length = 2 := by simp; omega
    rw [intTo2byte_eq, h2]; unfold slice
    have := beBytes_beNat ((data.drop off).take 2)
    rw [hl] at this
    rw [this]; simp
  · intro v hv
    obtain ⟨h1, h2⟩ := bytesToInt_ok hv
    have hl : ((data.drop off).take 4).length = 4 := by simp; omega
    rw [intTo4byte_eq, h2]; unfold slice
    have := beBytes_beNat ((data.drop off).take 4)
    rw [hl] at this
    rw [this]; simp
  · unfold shortToInt; rw [bytesToInt_eq]
    constructor
    · rintro ⟨v, hv⟩; split at hv
      · omega
      · cases hv
    · intro h; exact ⟨_, by rw [if_pos (Or.inl h)]⟩
  · unfold longToInt; rw [bytesToInt_eq]
    constructor
    · rintro ⟨v, hv⟩; split at hv
      · omega
      · cases hv
    · intro h; exact ⟨_, by rw [if_pos (Or.inl h)]⟩

example : shortToInt [9, 1, 2, 7] 1 = .ok 258 ∧ shortToInt [9, 1] 1 = .error .indexError := ⟨rfl, rfl⟩

/-! ## C02 variable-width integers -/

/-- C02: reading `n` octets gives their big-endian value, which is below `256^n`; it raises IndexError otherwise. -/
theorem C02_read_value (data : Bytes) (off n : Nat) (h : off + n ≤ data.length) :
    ∃ v, bytesToInt data off n = .ok v ∧ v = beNat (slice data off (off + n)) ∧ v < 256 ^ n := by
  refine ⟨_, ?_, rfl, ?_⟩
  · rw [bytesToInt_eq, if_pos (Or.inl h)]; simp [slice]
  · have := beNat_lt (slice data off (off + n))
    have hl : (slice data off (off + n)).length = n := by simp [slice]; omega
    rwa [hl] at this

example := C02_read_value [9, 1, 2, 3, 7] 1 3 (by decide)

theorem C02_read_past_end (data : Bytes) (off n : Nat) (h : data.length < off + n) (hn : 0 < n) :
    bytesToInt data off n = .error .indexError := by
  rw [bytesToInt_eq, if_neg (by omega)]

example := C02_read_past_end [9, 1] 1 3 (by decide) (by decide)

/-- C02: different windows of equal length denote different numbers. -/
theorem C02_read_injective (a b : Bytes) (h : a.length = b.length)
    (hv : bytesToInt a 0 a.length = bytesToInt b 0 b.length) : a = b := by
  rw [bytesToInt_eq, bytesToInt_eq, if_pos (by omega), if_pos (by omega)] at hv
  simp only [List.drop_zero, List.take_length, Except.ok.injEq] at hv
  exact beNat_inj h hv

example : bytesToInt [1, 2] 0 2 ≠ bytesToInt [1, 3] 0 2 := fun h => absurd (C02_read_injective [1, 2] [1, 3] rfl h) (by decide)

/-- C02: `int_to_bytes` followed by `bytes_to_int` is the identity on positive integers when the logarithm leaves room
for all octets (in particular when it is exact). Zero raises ValueError. -/
theorem C02_write_read (fl : Nat → Nat) (i : Nat) (h : 0 < i) (hr : i < 256 ^ octetsFor (fl i + 1)) :
    ∃ b, intToBytes fl i = .ok b ∧ bytesToInt b 0 b.length = .ok i := by
  refine ⟨octetsDown i (ceil8 (fl i + 1)), by simp [intToBytes]; omega, ?_⟩
  rw [bytesToInt_of_drop (b := octetsDown i (ceil8 (fl i + 1))) (s := []) (by simp) rfl, beNat_octetsDown]
  exact congrArg _ (Nat.mod_eq_of_lt hr)

example := C02_write_read Nat.log2 70000 (by decide) (by decide)

theorem C02_write_read_exact (fl : Nat → Nat) (i : Nat) (hfl : fl i = Nat.log2 i) (h : 0 < i) :
    ∃ b, intToBytes fl i = .ok b ∧ bytesToInt b 0 b.length = .ok i := by
  refine C02_write_read fl i h ?_
  rw [hfl]; exact lt_pow_ceil8 log2_lt_pow

example := C02_write_read_exact Nat.log2 70000 rfl (by decide)

theorem C02_write_zero (fl : Nat → Nat) : intToBytes fl 0 = .error .valueError := by simp [intToBytes]

example : intToBytes Nat.log2 70000 = .ok [1, 17, 112] := by decide

/-! ## C03 MPI round trip -/

/-- C03: any list of integers (for which the logarithm leaves room: below `2^65535` if it is exact), written as consecutive MPIs between arbitrary
data, reads back as the same list, with the offset left at the start of what follows. -/
theorem C03_mpis_roundtrip_partial (fl : Nat → Nat) (l : List Nat) (hl : ∀ i ∈ l, LogRoom fl i) :
    ∃ e, writeMpis fl l = .ok e ∧ ∀ pre suf : Bytes,
      readMpis (pre ++ e ++ suf) l.length pre.length = .ok (l, (pre ++ e).length) := by
  obtain ⟨e, h1, _, h3⟩ := mpis_roundtrip hl
  refine ⟨e, h1, fun pre suf => ?_⟩
  rw [h3 (s := suf) (by simp), List.length_append]

example := C03_mpis_roundtrip_partial Nat.log2 [(0 : Nat), 511, 2 ^ 255 - 19] (by
  have h : (2:Nat) ^ 255 ≤ 2 ^ 65535 := Nat.pow_le_pow_right (by decide) (by decide)
  intro i hi
  refine logRoom_of_exact rfl (lt_of_lt_of_le ?_ h)
  simp only [List.mem_cons, List.not_mem_nil, or_false] at hi
  rcases hi with rfl | rfl | rfl <;> decide)

/-- An inexact logarithm, too large for 255, leaves room. -/
example := C03_mpis_roundtrip_partial (fun i => if i = 255 then 8 else Nat.log2 i) [255, 3] (by
  intro i hi
  simp only [List.mem_cons, List.not_mem_nil, or_false] at hi
  rcases hi with rfl | rfl <;> exact .inr (by decide))

/-- C03 for an inexact logarithm: the round trip of one positive integer holds **exactly** when the logarithm leaves
room for its top octet; otherwise the value is silently truncated. -/
theorem C03_mpi_roundtrip_iff (fl : Nat → Nat) (i : Nat) (h : 0 < i) (hb : fl i + 1 < 65536) :
    ∃ e, intToMpi fl i = .ok e ∧ ∀ pre suf : Bytes, ∃ v,
      mpiToInt (pre ++ e ++ suf) pre.length = .ok (v, (pre ++ e).length) ∧
      v = i % 256 ^ octetsFor (fl i + 1) ∧ (v = i ↔ i < 256 ^ octetsFor (fl i + 1)) := by
  refine ⟨_, intToMpi_pos fl h, fun pre suf => ⟨_, ?_, rfl, ?_⟩⟩
  · rw [mpiToInt_write fl hb (s := suf) (by simp)]
    simp only [List.length_append, intTo2byte_length, octetsDown_length]
    rw [← Nat.add_assoc]; rfl
  · constructor
    · intro he
      have := Nat.mod_lt i (Nat.pow_pos (n := octetsFor (fl i + 1)) (Nat.zero_lt_succ 255))
      exact lt_of_eq_of_lt he.symm this
    · exact Nat.mod_eq_of_lt

/-- An inexact logarithm, too small for 256. -/
example := C03_mpi_roundtrip_iff (fun i => if i = 256 then 7 else Nat.log2 i) 256 (by decide) (by decide)

/-- C03 refuted for the real floating-point logarithm: CPython's `math.log(2**2960, 2)` is below 2960
(`floor` gives 2959), and then the MPI written for `2**2960` reads back as zero. -/
theorem C03_float_undershoot_loses_value (fl : Nat → Nat) (hfl : fl (2 ^ 2960) = 2959) :
    ∃ e, intToMpi fl ((2 ^ 2960 : Nat) : Int) = .ok e ∧ mpiToInt e 0 = .ok (0, e.length) := by
  obtain ⟨e, h1, h2⟩ := C03_mpi_roundtrip_iff fl (2 ^ 2960) (Nat.pow_pos (Nat.zero_lt_succ 1)) (by rw [hfl]; decide)
  obtain ⟨v, h3, h4, _⟩ := h2 [] []
  refine ⟨e, h1, ?_⟩
  simp only [List.nil_append, List.append_nil, List.length_nil] at h3
  rw [h3, h4, hfl]
  have : 256 ^ octetsFor (2959 + 1) = 2 ^ 2960 := by
    rw [show 256 = 2 ^ 8 from rfl, ← pow_mul]; rfl
  rw [this, Nat.mod_self]

example := C03_float_undershoot_loses_value (fun i => if i = 2 ^ 2960 then 2959 else Nat.log2 i) (by rw [if_pos rfl])

/-- C03: reading MPIs to the end of the data (as signature values are read) recovers any written list. -/
theorem C03_mpis_to_end (fl : Nat → Nat) (l : List Nat) (hl : ∀ i ∈ l, LogRoom fl i) :
    ∃ e, writeMpis fl l = .ok e ∧ ∀ pre : Bytes,
      mpiLoop (pre ++ e) (pre ++ e).length pre.length = .ok l := by
  obtain ⟨e, h1, h2, h3⟩ := mpiLoop_roundtrip hl
  exact ⟨e, h1, fun pre => h3 (by simp) (by simp; omega)⟩

example := C03_mpis_to_end Nat.log2 [0, 511, 70000] (fun i hi => by
  have h : (2:Nat) ^ 20 ≤ 2 ^ 65535 := Nat.pow_le_pow_right (by decide) (by decide)
  refine logRoom_of_exact rfl (lt_of_lt_of_le ?_ h)
  simp only [List.mem_cons, List.not_mem_nil, or_false] at hi
  rcases hi with rfl | rfl | rfl <;> decide)

/-- C03: that loop terminates on every input: its fuel never runs out. -/
theorem C03_mpi_loop_terminates (data : Bytes) (off : Nat) :
    mpiLoop data data.length off ≠ .error .diverges := mpiLoop_fuel data _ off (by omega)

/-- C03: negative integers are refused. -/
theorem C03_negative_refused (fl : Nat → Nat) (i : Int) (h : i < 0) : intToMpi fl i = .error .valueError := by
  simp [intToMpi, h]

example := C03_negative_refused Nat.log2 (-5) (by decide)

/-! ## C04 MPI canonical form -/

/-- C04 (exact logarithm): the header is the exact bit length, followed by exactly the big-endian octets. -/
theorem C04_mpi_canonical_partial (fl : Nat → Nat) (i : Nat) (hfl : i ≠ 0 → fl i = Nat.log2 i) :
    intToMpi fl i = .ok (beBytes 2 (bitLen i) ++ beBytes (octetsFor (bitLen i)) i) := by
  by_cases h : i = 0
  · subst h; rw [intToMpi_zero]; rfl
  · rw [intToMpi_pos fl (Nat.pos_of_ne_zero h), hfl h, intTo2byte_eq, octetsDown_eq_beBytes]
    simp only [bitLen, h, if_false]; rfl

example := C04_mpi_canonical_partial Nat.log2 511 (fun _ => rfl)

/-- C04 (logarithm right to the octet): no leading zero octet, so the encoding is the shortest one. -/
theorem C04_mpi_no_leading_zero (fl : Nat → Nat) (i : Nat) (hfl : OctetLog fl i) (h : 0 < i) :
    ∃ hdr x rest, hdr.length = 2 ∧ intToMpi fl i = .ok (hdr ++ x :: rest) ∧ x ≠ 0 := by
  have hne : i ≠ 0 := by omega
  set n := Nat.log2 i / 8 with hn
  have hc : ceil8 (Nat.log2 i + 1) = n + 1 := by unfold ceil8; omega
  refine ⟨intTo2byte (fl i + 1), octet i (n * 8), octetsDown i n, rfl, ?_, ?_⟩
  · rw [intToMpi_pos fl h, show ceil8 (fl i + 1) = n + 1 from hfl.2.trans hc]; rfl
  · intro hx
    have h1 := octet_toNat i (n * 8)
    rw [hx] at h1
    have hlow : 2 ^ (n * 8) ≤ i := (Nat.le_log2 hne).mp (by omega)
    have hhigh : i < 2 ^ (n * 8) * 256 := by
      have : i < 2 ^ (n * 8 + 8) := (Nat.log2_lt hne).mp (by omega)
      rwa [pow_add] at this
    have h2 : i / 2 ^ (n * 8) < 256 := Nat.div_lt_of_lt_mul hhigh
    have h3 : 1 ≤ i / 2 ^ (n * 8) := Nat.div_pos hlow (Nat.pow_pos (by decide))
    rw [Nat.mod_eq_of_lt h2] at h1
    simp at h1
    omega

example := C04_mpi_no_leading_zero Nat.log2 511 ⟨by decide, rfl⟩ (by decide)

/-- C04 refuted for the real floating-point logarithm: `math.log(2**48 - 1, 2)` rounds to 48, and the MPI of that
48-bit number then claims 49 bits and has a leading zero octet. -/
theorem C04_float_overshoot_not_canonical (fl : Nat → Nat) (hfl : fl (2 ^ 48 - 1) = 48) :
    intToMpi fl ((2 ^ 48 - 1 : Nat) : Int) = .ok [0, 49, 0, 255, 255, 255, 255, 255, 255] := by
  rw [intToMpi_pos fl (by decide), hfl]; rfl

example : intToMpi Nat.log2 511 = .ok [0, 9, 1, 255] := by decide

end Pgp.Props
