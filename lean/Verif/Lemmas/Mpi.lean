import Verif.Lemmas.Utils
namespace Pgp
open Spec

theorem log2_lt_pow {i : Nat} : i < 2 ^ (Nat.log2 i + 1) := by
  by_cases h : i = 0
  · subst h; simp
  · exact (Nat.log2_lt h).mp (Nat.lt_succ_self _)

theorem logRoom_of_exact {fl : Nat → Nat} {i : Nat} (hfl : fl i = Nat.log2 i) (hi : i < 2 ^ 65535) : LogRoom fl i := by
  by_cases h : i = 0
  · exact Or.inl h
  · refine Or.inr ?_
    rw [hfl]
    have : Nat.log2 i < 65535 := (Nat.log2_lt h).mpr hi
    exact ⟨by omega, lt_pow_ceil8 log2_lt_pow⟩

theorem logRoom_of_octets {fl : Nat → Nat} {i : Nat} (h : OctetLog fl i) : LogRoom fl i :=
  .inr ⟨h.1, by rw [h.2]; exact lt_pow_ceil8 log2_lt_pow⟩

theorem intToMpi_pos (fl : Nat → Nat) {i : Nat} (h : 0 < i) :
    intToMpi fl i = .ok (intTo2byte (fl i + 1) ++ octetsDown i (ceil8 (fl i + 1))) := by
  unfold intToMpi
  have h1 : ¬ ((i : Int) < 0) := by omega
  have h2 : ¬ ((i : Int) = 0) := by omega
  simp only [h1, h2, if_false, Int.toNat_natCast]

theorem intToMpi_zero (fl : Nat → Nat) : intToMpi fl ((0 : Nat) : Int) = .ok [0, 0] := by simp [intToMpi]

/-- What an MPI written with any logarithm reads back as. -/
theorem mpiToInt_write (fl : Nat → Nat) {i : Nat} (hb : fl i + 1 < 65536) {data s : Bytes} {off : Nat}
    (hd : data.drop off = intTo2byte (fl i + 1) ++ octetsDown i (ceil8 (fl i + 1)) ++ s) :
    mpiToInt data off = .ok (i % 256 ^ ceil8 (fl i + 1), off + 2 + ceil8 (fl i + 1)) := by
  rw [List.append_assoc] at hd
  unfold mpiToInt mpiLength
  rw [shortToInt_of_drop hd, Nat.mod_eq_of_lt hb]
  simp only [except_bind_ok, except_pure]
  rw [bytesToInt_of_drop (drop_add_of_drop' (n := 2) hd rfl) (octetsDown_length _ _).symm, beNat_octetsDown]
  rfl

theorem mpi_roundtrip {fl : Nat → Nat} {i : Nat} (hr : LogRoom fl i) :
    ∃ e, intToMpi fl i = .ok e ∧ 2 ≤ e.length ∧
      ∀ {data s : Bytes} {off : Nat}, data.drop off = e ++ s → mpiToInt data off = .ok (i, off + e.length) := by
  rcases hr with h | ⟨hb, hlt⟩
  · subst h
    refine ⟨[0, 0], intToMpi_zero fl, by simp, ?_⟩
    intro data s off hd
    have h2 : shortToInt data off = .ok 0 := by
      have : data.drop off = intTo2byte 0 ++ s := hd
      rw [shortToInt_of_drop this]
    unfold mpiToInt mpiLength
    rw [h2]; rfl
  · by_cases h : i = 0
    · subst h
      refine ⟨[0, 0], intToMpi_zero fl, by simp, ?_⟩
      intro data s off hd
      have h2 : shortToInt data off = .ok 0 := by
        have : data.drop off = intTo2byte 0 ++ s := hd
        rw [shortToInt_of_drop this]
      unfold mpiToInt mpiLength
      rw [h2]; rfl
    · refine ⟨_, intToMpi_pos fl (Nat.pos_of_ne_zero h), by simp [intTo2byte_length], ?_⟩
      intro data s off hd
      rw [mpiToInt_write fl hb hd]
      have : ceil8 (fl i + 1) = octetsFor (fl i + 1) := rfl
      rw [this, Nat.mod_eq_of_lt hlt, List.length_append, intTo2byte_length, octetsDown_length, Nat.add_assoc]

theorem mpis_roundtrip {fl : Nat → Nat} {l : List Nat} (hr : ∀ i ∈ l, LogRoom fl i) :
    ∃ e, writeMpis fl l = .ok e ∧ 2 * l.length ≤ e.length ∧
      ∀ {data s : Bytes} {off : Nat}, data.drop off = e ++ s →
        readMpis data l.length off = .ok (l, off + e.length) := by
  induction l with
  | nil => exact ⟨[], rfl, by simp, fun _ => rfl⟩
  | cons i l ih =>
    obtain ⟨e1, h1, hl1, hr1⟩ := mpi_roundtrip (hr i (by simp))
    obtain ⟨e2, h2, hl2, hr2⟩ := ih (fun j hj => hr j (by simp [hj]))
    refine ⟨e1 ++ e2, by simp [writeMpis, h1, h2], by simp; omega, ?_⟩
    intro data s off hd
    rw [List.append_assoc] at hd
    simp only [List.length_cons, readMpis]
    rw [hr1 hd]
    simp only [except_bind_ok]
    rw [hr2 (drop_add_of_drop hd)]
    simp [Nat.add_assoc]

theorem mpiToInt_advance {data : Bytes} {off v off' : Nat} (h : mpiToInt data off = .ok (v, off')) :
    off + 2 ≤ off' ∧ off' ≤ data.length := by
  unfold mpiToInt mpiLength at h
  simp only [except_bind_eq_ok, except_pure] at h
  obtain ⟨n, ⟨b, hb, hn⟩, r, hr, he⟩ := h
  cases he; cases hn
  have h1 := (bytesToInt_ok hb).1
  have h2 := (bytesToInt_ok hr).1
  omega

theorem mpiLoop_roundtrip {fl : Nat → Nat} {l : List Nat} (hr : ∀ i ∈ l, LogRoom fl i) :
    ∃ e, writeMpis fl l = .ok e ∧ 2 * l.length ≤ e.length ∧
      ∀ {data : Bytes} {off fuel : Nat}, data.drop off = e → l.length ≤ fuel →
        mpiLoop data fuel off = .ok l := by
  induction l with
  | nil =>
    refine ⟨[], rfl, by simp, ?_⟩
    intro data off fuel hd _
    have : ¬ off < data.length := by
      have := congrArg List.length hd; simp at this; omega
    cases fuel <;> simp [mpiLoop, this]
  | cons i l ih =>
    obtain ⟨e1, h1, hl1, hr1⟩ := mpi_roundtrip (hr i (by simp))
    obtain ⟨e2, h2, hl2, hr2⟩ := ih (fun j hj => hr j (by simp [hj]))
    refine ⟨e1 ++ e2, by simp [writeMpis, h1, h2], by simp; omega, ?_⟩
    intro data off fuel hd hf
    cases fuel with
    | zero => simp at hf
    | succ fuel =>
      have hlt : off < data.length := by
        have := length_of_drop hd (by intro hc; simp at hc; simp [hc.1] at hl1)
        simp at this; omega
      simp only [mpiLoop, hlt, if_true]
      rw [hr1 hd]
      simp only [except_bind_ok]
      rw [hr2 (drop_add_of_drop hd) (by simp at hf; omega)]
      rfl

theorem mpiLoop_fuel (data : Bytes) (fuel off : Nat) (h : data.length - off ≤ fuel) :
    mpiLoop data fuel off ≠ .error .diverges := by
  induction fuel generalizing off with
  | zero =>
    have : ¬ off < data.length := by omega
    simp [mpiLoop, this]
  | succ fuel ih =>
    unfold mpiLoop
    split
    · cases hm : mpiToInt data off with
      | error e =>
        simp only [except_bind_error]
        intro hc; cases hc
        -- mpiToInt never diverges
        unfold mpiToInt mpiLength shortToInt at hm
        rw [bytesToInt_eq] at hm
        split at hm
        · simp only [except_bind_ok, except_pure] at hm
          rw [bytesToInt_eq] at hm
          split at hm <;> simp at hm
        · simp at hm
      | ok p =>
        obtain ⟨v, off'⟩ := p
        have := mpiToInt_advance hm
        simp only [except_bind_ok]
        have hh := ih off' (by omega)
        cases hl : mpiLoop data fuel off' with
        | ok r => simp
        | error e => simp only [except_bind_error]; intro hc; cases hc; exact hh hl
    · simp

end Pgp
