import Verif.Lemmas.Mpi
import Verif.Lemmas.Hex
import Verif.Lemmas.Framing
import Verif.Lemmas.SigPackets
import Verif.Model.SessionKey
import Verif.Spec.SessionKey
/-
Lemmas about session key packets.
-/
namespace Pgp
open Spec

theorem sumOctets_eq (b : Bytes) : sumOctets b = octetSum b := by
  unfold sumOctets octetSum
  suffices h : ∀ s, b.foldl (fun s x => s + x.toNat) s = s + (b.map UInt8.toNat).sum by simpa using h 0
  induction b with
  | nil => intro s; simp
  | cons x b ih => intro s; rw [List.foldl_cons, ih, List.map_cons, List.sum_cons]; omega

theorem osToInt_eq (b : Bytes) : osToInt b = beNat b := rfl

theorem checksum_octets {c : Nat} (h : c < 65536) : [lowByte (c >>> 8), lowByte c] = beBytes 2 c := by
  have h1 := lowByte_toNat (c >>> 8)
  have e : lowByte (c >>> 8) = UInt8.ofNat (c / 256 % 256) := by
    simp [lowByte, Nat.shiftRight_eq_div_pow]
  simp [beBytes, lowByte, Nat.shiftRight_eq_div_pow]

theorem sessionBlock_ok {alg : Nat} (h : alg < 256) (key : Bytes) :
    sessionBlock alg key = .ok (UInt8.ofNat alg :: (key ++ beBytes 2 (octetSum key % 65536))) := by
  unfold sessionBlock
  simp only [byteOf_lt h, except_bind_ok, except_pure, sumOctets_eq]
  rw [checksum_octets (Nat.mod_lt _ (by decide))]
  rfl

/-- Two octets as a number. -/
theorem be2 (x y : UInt8) : (x.toNat <<< 8) + y.toNat = beNat [x, y] := by
  simp [beNat, Nat.shiftLeft_eq]

theorem readSessionBlock_iff (m : Bytes) (a : Nat) (key : Bytes) :
    readSessionBlock m = .ok (a, key) ↔
      (∃ al : UInt8, a = al.toNat ∧ SessionBlock al key m) ∨ (m = [0, 0] ∧ a = 0 ∧ key = []) := by
  rcases m with _ | ⟨al, m⟩
  · constructor
    · intro h; cases h
    · rintro (⟨al, _, h⟩ | ⟨h, _⟩)
      · simp [SessionBlock] at h
      · cases h
  by_cases h1 : m.length < 2
  · -- one or two octets
    rcases m with _ | ⟨y, m⟩
    · constructor
      · intro h; cases h
      · rintro (⟨al, _, h⟩ | ⟨h, _⟩)
        · have := congrArg List.length h; simp [beBytes_length] at this
        · cases h
    · rcases m with _ | ⟨z, m⟩
      · have e : readSessionBlock [al, y] = if (al.toNat <<< 8) + y.toNat ≠ 0 then .error .valueError else .ok (al.toNat, []) := by
          simp [readSessionBlock, idx, sumOctets]
        rw [e]
        constructor
        · intro h
          split at h
          · cases h
          · rename_i hz
            have hz : (al.toNat <<< 8) + y.toNat = 0 := by simpa using hz
            rw [Nat.shiftLeft_eq] at hz
            have ha : al = 0 := UInt8.toNat_inj.mp (by simp; omega)
            have hy : y = 0 := UInt8.toNat_inj.mp (by simp; omega)
            subst ha hy
            cases h
            exact .inr ⟨rfl, rfl, rfl⟩
        · rintro (⟨al, _, h⟩ | ⟨h, rfl, rfl⟩)
          · have := congrArg List.length h; simp [beBytes_length] at this
          · cases h; rfl
      · simp only [List.length_cons] at h1; omega
  · -- three or more
    obtain ⟨k, t, rfl, ht⟩ : ∃ k t, m = k ++ t ∧ t.length = 2 :=
      ⟨m.take (m.length - 2), m.drop (m.length - 2), (List.take_append_drop ..).symm, by rw [List.length_drop]; omega⟩
    obtain ⟨x, y, rfl⟩ : ∃ x y, t = [x, y] := by
      rcases t with _ | ⟨x, _ | ⟨y, _ | ⟨z, t⟩⟩⟩ <;> simp_all
    have hlen : (al :: (k ++ [x, y])).length = k.length + 3 := by simp
    have hx : idx (al :: (k ++ [x, y])) (k.length + 1) = .ok x := by
      apply idx_of_drop (s := [y])
      rw [show al :: (k ++ [x, y]) = (al :: k) ++ [x, y] from rfl]
      exact List.drop_left' (by simp)
    have hy : idx (al :: (k ++ [x, y])) (k.length + 2) = .ok y := by
      apply idx_of_drop (s := [])
      rw [show al :: (k ++ [x, y]) = (al :: k ++ [x]) ++ [y] by simp]
      exact List.drop_left' (by simp)
    have ht : ((al :: (k ++ [x, y])).take (k.length + 1)).drop 1 = k := by
      rw [show al :: (k ++ [x, y]) = (al :: k) ++ [x, y] from rfl, List.take_left' (by simp)]; rfl
    have e : readSessionBlock (al :: (k ++ [x, y])) =
        if beNat [x, y] ≠ octetSum k % 65536 then .error .valueError else .ok (al.toNat, k) := by
      unfold readSessionBlock
      rw [hlen, show k.length + 3 - 2 = k.length + 1 by omega, show k.length + 3 - 1 = k.length + 2 by omega, hx, hy, ht,
        idx_of_drop (s := k ++ [x, y]) (by rfl)]
      simp only [show ¬ k.length + 3 < 2 by omega, if_false, except_bind_ok, be2, sumOctets_eq, except_pure]
    rw [e]
    constructor
    · intro h
      split at h
      · cases h
      · rename_i hs
        have hs : beNat [x, y] = octetSum k % 65536 := by simpa using hs
        cases h
        refine .inl ⟨al, rfl, ?_⟩
        unfold SessionBlock
        rw [← hs, show (2 : Nat) = [x, y].length from rfl, beBytes_beNat]
    · rintro (⟨al', rfl, h⟩ | ⟨h, _⟩)
      · unfold SessionBlock at h
        injection h with ha hm
        have := List.append_inj' hm (by simp [beBytes_length])
        obtain ⟨rfl, h2⟩ := this
        rw [if_neg]
        · rw [ha]
        · rw [h2, beNat_beBytes]; simp
      · have := congrArg List.length h; simp at this

/-! ### PKCS#1 padding -/

theorem findZero_nonzero (ps m : Bytes) (h : ∀ x ∈ ps, x ≠ 0) : (ps ++ 0 :: m).findIdx? (· = 0) = some ps.length := by
  induction ps with
  | nil => rw [List.nil_append, List.findIdx?_cons]; rfl
  | cons x ps ih =>
    have hx := h x (by simp)
    rw [List.cons_append, List.findIdx?_cons]
    simp only [hx, decide_false, ih (fun y hy => h y (by simp [hy]))]
    simp

theorem pkcsDecode_iff (k : Nat) (m x : Bytes) :
    pkcsDecode k m = some x ↔ PkcsBlock x (List.replicate (k - m.length) 0 ++ m) := by
  unfold pkcsDecode
  dsimp only
  generalize List.replicate (k - m.length) 0 ++ m = em
  constructor
  · intro h
    cases hf : findZeroFrom2 em with
    | none => rw [hf] at h; cases h
    | some sep =>
      rw [hf] at h
      dsimp only at h
      split at h
      · cases h
      · rename_i hc
        simp only [not_or, not_not, Nat.not_lt] at hc
        obtain ⟨hp, hs⟩ := hc
        obtain ⟨r, rfl⟩ := List.isPrefixOf_iff_prefix.mp hp
        cases h
        unfold findZeroFrom2 at hf
        rw [show ([0, 2] ++ r : Bytes).drop 2 = r from rfl] at hf
        obtain ⟨i, hi, rfl⟩ := Option.map_eq_some_iff.mp hf
        obtain ⟨hlt, h0, hmin⟩ := List.findIdx?_eq_some_iff_getElem.mp hi
        refine ⟨r.take i, ?_, ?_, ?_⟩
        · intro y hy
          obtain ⟨j, hj, rfl⟩ := List.mem_iff_getElem.mp hy
          rw [List.length_take] at hj
          have := hmin j (by omega)
          simpa using this
        · rw [List.length_take]; omega
        · have h0 : r[i] = 0 := by simpa using h0
          have : r = r.take i ++ 0 :: r.drop (i + 1) := by
            rw [← h0, List.getElem_cons_drop, List.take_append_drop]
          rw [show (([0, 2] : Bytes) ++ r).drop (i + 2 + 1) = r.drop (i + 1) from rfl, ← this]
          rfl
  · rintro ⟨ps, hps, hl, rfl⟩
    have hf : findZeroFrom2 (0 :: 2 :: (ps ++ 0 :: x)) = some (ps.length + 2) := by
      unfold findZeroFrom2
      rw [show (0 :: 2 :: (ps ++ 0 :: x)).drop 2 = ps ++ 0 :: x from rfl, findZero_nonzero ps x hps]; rfl
    rw [hf]
    dsimp only
    rw [if_neg]
    · congr 1
      rw [show (0 : UInt8) :: 2 :: (ps ++ 0 :: x) = (0 :: 2 :: (ps ++ [0])) ++ x by simp]
      exact List.drop_left' (by simp)
    · simp only [not_or, not_not, Nat.not_lt]
      exact ⟨by simp [List.isPrefixOf], by omega⟩

/-! ### Integers of the encrypted key -/

theorem mpiSlices_step {fl : Nat → Nat} {i : Nat} (hr : LogRoom fl i) (hi : 0 < i) :
    ∃ c : Bytes, ∃ e, intToMpi fl i = .ok e ∧ beNat c = i ∧ c.length = octetsFor (fl i + 1) ∧ 2 < e.length ∧
      e.length = 2 + c.length ∧
      ∀ {data s : Bytes} {off fuel : Nat}, data.drop off = e ++ s →
        mpiSlices data (fuel + 1) off = (do
          let r ← mpiSlices data fuel (off + e.length)
          return c :: r) := by
  rcases hr with h | ⟨hb, hlt⟩
  · omega
  have hcl : 0 < ceil8 (fl i + 1) := by unfold ceil8; omega
  refine ⟨octetsDown i (ceil8 (fl i + 1)), _, intToMpi_pos fl hi, ?_, octetsDown_length _ _, ?_, ?_, ?_⟩
  · rw [beNat_octetsDown]; exact Nat.mod_eq_of_lt hlt
  · rw [List.length_append, intTo2byte_length, octetsDown_length]; omega
  · rw [List.length_append, intTo2byte_length]
  · intro data s off fuel hd
    rw [List.append_assoc] at hd
    have d2 := drop_add_of_drop' (n := 2) hd rfl
    have hlen : off + 2 < data.length := by
      have := congrArg List.length d2
      rw [List.length_drop, List.length_append, octetsDown_length] at this
      omega
    rw [mpiSlices, if_pos hlen]
    unfold mpiLength
    rw [shortToInt_of_drop hd, Nat.mod_eq_of_lt hb]
    simp only [except_bind_ok, except_pure]
    rw [slice_of_drop d2 (by rw [octetsDown_length]), List.length_append, intTo2byte_length, octetsDown_length, Nat.add_assoc]

theorem mpiSlices_end {data : Bytes} {fuel off : Nat} (h : data.length ≤ off + 2) : mpiSlices data fuel off = .ok [] := by
  cases fuel <;> simp [mpiSlices, Nat.not_lt.mpr h]

theorem byteLen_bounds {p : Nat} (hp : 0 < p) : 256 ^ (byteLen p - 1) ≤ p ∧ p < 256 ^ byteLen p ∧ 0 < byteLen p := by
  unfold byteLen
  rw [if_neg (by omega)]
  have h1 : p < 2 ^ (Nat.log2 p + 1) := log2_lt_pow
  have h2 : 2 ^ Nat.log2 p ≤ p := Nat.log2_self_le (by omega)
  refine ⟨?_, ?_, by omega⟩
  · refine Nat.le_trans ?_ h2
    rw [show (256 : Nat) = 2 ^ 8 from rfl, ← Nat.pow_mul]
    exact Nat.pow_le_pow_right (by omega) (by omega)
  · refine Nat.lt_of_lt_of_le h1 ?_
    rw [show (256 : Nat) = 2 ^ 8 from rfl, ← Nat.pow_mul]
    exact Nat.pow_le_pow_right (by omega) (by omega)

/-- `long_to_bytes` undoes the reading of octets that do not start with a zero. -/
theorem longToBytes_beNat {x : UInt8} {b : Bytes} (hx : x ≠ 0) : longToBytes (beNat (x :: b)) = x :: b := by
  have hx0 : 0 < x.toNat := by
    rcases Nat.eq_zero_or_pos x.toNat with h | h
    · exact absurd (UInt8.toNat_inj.mp (by simpa using h)) hx
    · exact h
  have hlo : 256 ^ b.length ≤ beNat (x :: b) := by
    rw [beNat_cons]; exact Nat.le_trans (Nat.le_mul_of_pos_left _ hx0) (Nat.le_add_right ..)
  have hhi := beNat_lt (x :: b)
  generalize hn : beNat (x :: b) = n at *
  have hn0 : n ≠ 0 := by have := Nat.pow_pos (n := b.length) (show 0 < 256 by omega); omega
  unfold longToBytes
  rw [if_neg hn0]
  have hlog : Nat.log2 n / 8 = b.length := by
    have a1 : 8 * b.length ≤ Nat.log2 n := (Nat.le_log2 hn0).mpr (by
      rw [Nat.pow_mul]; exact hlo)
    have a2 : Nat.log2 n < 8 * (b.length + 1) := (Nat.log2_lt hn0).mpr (by
      rw [Nat.pow_mul]; simpa using hhi)
    omega
  rw [hlog, octetsDown_eq_beBytes, ← hn]
  exact beBytes_beNat (x :: b)

end Pgp
