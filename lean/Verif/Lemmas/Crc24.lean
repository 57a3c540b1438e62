import Verif.Model.Crc24
import Verif.Spec.Crc24
import Verif.Lemmas.Lengths
import Mathlib.Tactic.Linarith
namespace Pgp
open Spec

/-- One bit step on 24-bit states. -/
def crcF (x : BitVec 24) : BitVec 24 := (x <<< 1) ^^^ (if x.msb then 0x864CFB#24 else 0#24)

def crcFn : Nat → BitVec 24 → BitVec 24
  | 0, x => x
  | n + 1, x => crcFn n (crcF x)

theorem crcF_xor (x y : BitVec 24) : crcF (x ^^^ y) = crcF x ^^^ crcF y := by
  unfold crcF
  rw [BitVec.shiftLeft_xor_distrib, BitVec.msb_xor]
  generalize x <<< 1 = a
  generalize y <<< 1 = b
  generalize (0x864CFB#24 : BitVec 24) = P
  apply BitVec.eq_of_getLsbD_eq
  intro i hi
  cases x.msb <;> cases y.msb <;> simp <;>
    cases a.getLsbD i <;> cases b.getLsbD i <;> cases P.getLsbD i <;> rfl

theorem crcFn_xor (n : Nat) (x y : BitVec 24) : crcFn n (x ^^^ y) = crcFn n x ^^^ crcFn n y := by
  induction n generalizing x y with
  | zero => rfl
  | succ n ih => simp only [crcFn, crcF_xor, ih]

theorem crcFn_succ (n : Nat) (x : BitVec 24) : crcFn (n + 1) x = crcF (crcFn n x) := by
  induction n generalizing x with
  | zero => rfl
  | succ n ih => rw [crcFn, ih]; rfl

theorem crcF_zero {x : BitVec 24} (h : crcF x = 0#24) : x = 0#24 := by
  unfold crcF at h
  by_cases hm : x.msb
  · exfalso
    rw [if_pos hm] at h
    have := congrArg (fun y => BitVec.getLsbD y 0) h
    simp at this
  · rw [if_neg hm] at h
    apply BitVec.eq_of_getLsbD_eq
    intro i hi
    simp only [BitVec.getLsbD_zero]
    by_cases h23 : i = 23
    · subst h23
      have : x.msb = x.getLsbD 23 := by rw [BitVec.msb_eq_getLsbD_last]
      rw [← this]; simpa using hm
    · have := congrArg (fun y => BitVec.getLsbD y (i + 1)) h
      simp only [BitVec.getLsbD_xor, BitVec.getLsbD_shiftLeft, BitVec.getLsbD_zero, Bool.xor_false] at this
      have h1 : decide (i + 1 < 24) = true := by simp; omega
      have h2 : (!decide (i + 1 < 1)) = true := by simp
      rw [h1, h2] at this
      simpa using this

theorem crcF_inj {x y : BitVec 24} (h : crcF x = crcF y) : x = y := by
  have h1 : crcF (x ^^^ y) = 0#24 := by rw [crcF_xor, h, BitVec.xor_self]
  have h2 := crcF_zero h1
  have : x ^^^ y ^^^ y = 0#24 ^^^ y := by rw [h2]
  rw [BitVec.xor_assoc, BitVec.xor_self] at this
  simpa using this

theorem crcFn_inj (n : Nat) {x y : BitVec 24} (h : crcFn n x = crcFn n y) : x = y := by
  induction n generalizing x y with
  | zero => exact h
  | succ n ih => exact crcF_inj (ih h)

/-! ### bit-serial form -/

def topBit (b : Bool) : BitVec 24 := if b then 0x800000#24 else 0#24

def crcFold (r : BitVec 24) (bits : List Bool) : BitVec 24 := bits.foldl (fun r b => crcF (r ^^^ topBit b)) r

/-- The bits as the top of a 24-bit word. -/
def topWord : List Bool → BitVec 24
  | [] => 0#24
  | b :: u => topBit b ^^^ (topWord u >>> 1)

theorem topBit_getLsbD (b : Bool) (i : Nat) : (topBit b).getLsbD i = (b && decide (i = 23)) := by
  cases b
  · simp [topBit]
  · by_cases h : i < 24
    · have : ∀ i : Fin 24, (topBit true).getLsbD i.val = (true && decide (i.val = 23)) := by decide
      exact this ⟨i, h⟩
    · have h2 : ¬ i = 23 := by omega
      simp [h2, BitVec.getLsbD_of_ge _ _ (by omega : 24 ≤ i)]

theorem topWord_low (u : List Bool) (i : Nat) (h : i + u.length < 24) : (topWord u).getLsbD i = false := by
  induction u generalizing i with
  | nil => simp [topWord]
  | cons b u ih =>
    simp only [List.length_cons] at h
    simp only [topWord, BitVec.getLsbD_xor, BitVec.getLsbD_ushiftRight, topBit_getLsbD]
    have h1 : ¬ i = 23 := by omega
    rw [show 1 + i = i + 1 by omega, ih (i + 1) (by omega)]
    simp [h1]

theorem topWord_shift (u : List Bool) (h : u.length < 24) : (topWord u >>> 1) <<< 1 = topWord u := by
  apply BitVec.eq_of_getLsbD_eq
  intro i hi
  simp only [BitVec.getLsbD_shiftLeft, BitVec.getLsbD_ushiftRight]
  cases i with
  | zero => rw [topWord_low u 0 (by omega)]; simp
  | succ i => rw [show 1 + (i + 1 - 1) = i + 1 by omega]; simp [hi]

theorem topWord_half_msb (u : List Bool) : (topWord u >>> 1).msb = false := by
  rw [BitVec.msb_eq_getLsbD_last]; simp

theorem crcF_half (u : List Bool) (h : u.length < 24) : crcF (topWord u >>> 1) = topWord u := by
  unfold crcF
  rw [topWord_half_msb, topWord_shift u h]; simp

/-- Feeding up to 24 bits is xoring them in at the top and shifting. -/
theorem crcFold_eq (r : BitVec 24) (u : List Bool) (h : u.length ≤ 24) :
    crcFold r u = crcFn u.length (r ^^^ topWord u) := by
  induction u generalizing r with
  | nil => simp [crcFold, topWord, crcFn]
  | cons b u ih =>
    simp only [List.length_cons] at h
    have : crcFold r (b :: u) = crcFold (crcF (r ^^^ topBit b)) u := rfl
    rw [this, ih _ (by omega), List.length_cons, crcFn, topWord]
    congr 1
    rw [← BitVec.xor_assoc, crcF_xor (r ^^^ topBit b), crcF_half u (by omega)]

theorem topWord_inj {u v : List Bool} (hl : u.length = v.length) (h24 : u.length ≤ 24) (h : topWord u = topWord v) :
    u = v := by
  induction u generalizing v with
  | nil => cases v <;> simp_all
  | cons b u ih =>
    cases v with
    | nil => simp at hl
    | cons c v =>
      simp only [List.length_cons, Nat.add_right_cancel_iff] at hl h24
      simp only [topWord] at h
      have hm := congrArg BitVec.msb h
      rw [BitVec.msb_xor, BitVec.msb_xor, topWord_half_msb, topWord_half_msb] at hm
      have hb : b = c := by
        have hmb : ∀ b, (topBit b).msb = b := by decide
        rw [hmb, hmb] at hm; simpa using hm
      subst hb
      have h2 : topWord u >>> 1 = topWord v >>> 1 := by
        have := congrArg (fun y => topBit b ^^^ y) h
        simp only [← BitVec.xor_assoc, BitVec.xor_self, BitVec.zero_xor] at this
        exact this
      have h3 : topWord u = topWord v := by
        rw [← topWord_shift u (by omega), h2, topWord_shift v (by omega)]
      rw [ih hl (by omega) h3]

theorem crcFold_append (r : BitVec 24) (u v : List Bool) : crcFold r (u ++ v) = crcFold (crcFold r u) v :=
  List.foldl_append ..

theorem crcFold_inj_state {r r' : BitVec 24} (u : List Bool) (h : crcFold r u = crcFold r' u) : r = r' := by
  induction u generalizing r r' with
  | nil => exact h
  | cons b u ih =>
    have := crcF_inj (ih h)
    have h2 := congrArg (fun y => y ^^^ topBit b) this
    simp only [BitVec.xor_assoc, BitVec.xor_self, BitVec.xor_zero] at h2
    exact h2

theorem crcFold_burst {r : BitVec 24} {p u v s : List Bool} (hl : u.length = v.length) (h24 : u.length ≤ 24)
    (h : crcFold r (p ++ u ++ s) = crcFold r (p ++ v ++ s)) : u = v := by
  rw [crcFold_append, crcFold_append, crcFold_append, crcFold_append] at h
  have h1 := crcFold_inj_state s h
  rw [crcFold_eq _ u h24, crcFold_eq _ v (by omega), ← hl] at h1
  have h2 := crcFn_inj _ h1
  have h3 := congrArg (fun y => crcFold r p ^^^ y) h2
  simp only [← BitVec.xor_assoc, BitVec.xor_self, BitVec.zero_xor] at h3
  exact topWord_inj hl h24 h3

/-! ### octet steps -/

def octetWord (x : UInt8) : BitVec 24 := BitVec.ofNat 24 (x.toNat <<< 16)

theorem octetWord_eq (x : UInt8) : octetWord x = topWord (octetBits x) := by
  have : ∀ n : Fin 256, octetWord (UInt8.ofNat n.val) = topWord (octetBits (UInt8.ofNat n.val)) := by decide +kernel
  have h := this ⟨x.toNat, x.toNat_lt⟩
  simpa using h

theorem octetBits_length (x : UInt8) : (octetBits x).length = 8 := by simp [octetBits]

theorem crcFold_octet (r : BitVec 24) (x : UInt8) : crcFold r (octetBits x) = crcFn 8 (r ^^^ octetWord x) := by
  rw [crcFold_eq _ _ (by rw [octetBits_length]; omega), octetBits_length, octetWord_eq]

/-- RFC bit step on 24-bit states. -/
theorem crcBit_toNat (x : BitVec 24) : crcBit x.toNat = (crcF x).toNat := by
  have hx := x.isLt
  have hsh : x.toNat <<< 1 = x.toNat * 2 := Nat.shiftLeft_eq _ 1
  have hand : x.toNat <<< 1 &&& 0x1000000 = if x.msb then 0x1000000 else 0 := by
    apply Nat.eq_of_testBit_eq
    intro i
    rw [Nat.testBit_and, show (0x1000000 : Nat) = 2 ^ 24 from rfl, Nat.testBit_two_pow]
    by_cases hi : i = 24
    · subst hi
      have hm : x.msb = x.toNat.testBit 23 := by rw [BitVec.msb_eq_getLsbD_last]; simp [BitVec.getLsbD]
      rw [hm]
      simp only [Nat.testBit_shiftLeft]
      cases h23 : x.toNat.testBit 23
      · simp
      · decide
    · have : ¬ 24 = i := fun h => hi h.symm
      have h2 : Nat.testBit (2 ^ 24) i = false := by rw [Nat.testBit_two_pow]; simp [this]
      cases x.msb
      · simp [this]
      · simp only [this, if_true, h2]; simp
  unfold crcBit
  simp only [hand]
  unfold crcF
  by_cases hm : x.msb
  · simp only [hm, if_true]
    have hge : 2 ^ 23 ≤ x.toNat := by
      rw [BitVec.msb_eq_decide] at hm; simpa using hm
    simp only [ne_eq, OfNat.ofNat_ne_zero, not_false_eq_true, if_true, BitVec.toNat_xor, BitVec.toNat_shiftLeft]
    apply Nat.eq_of_testBit_eq
    intro i
    rw [Nat.testBit_xor, Nat.testBit_xor, show (0x1864CFB : Nat) = 2 ^ 24 ^^^ 0x864CFB by decide, Nat.testBit_xor,
      Nat.testBit_mod_two_pow, Nat.testBit_two_pow]
    rw [show (0x864CFB#24).toNat = 0x864CFB from rfl]
    by_cases hi : i < 24
    · have : ¬ 24 = i := by omega
      simp [hi, this]
    · have hc : Nat.testBit 0x864CFB i = false :=
        Nat.testBit_lt_two_pow (lt_of_lt_of_le (by decide : 0x864CFB < 2 ^ 24) (Nat.pow_le_pow_right (by decide) (by omega)))
      by_cases hi2 : i = 24
      · subst hi2
        have : x.toNat.testBit 23 = true := by
          have hm' : x.msb = x.toNat.testBit 23 := by rw [BitVec.msb_eq_getLsbD_last]; simp [BitVec.getLsbD]
          rw [← hm']; exact hm
        simp [Nat.testBit_shiftLeft, this]
      · have h3 : ¬ 24 = i := fun h => hi2 h.symm
        have h4 : (x.toNat <<< 1).testBit i = false :=
          Nat.testBit_lt_two_pow (lt_of_lt_of_le (show x.toNat <<< 1 < 2 ^ 25 by omega)
            (Nat.pow_le_pow_right (by decide) (by omega)))
        simp [hi, h3, h4, hc]
  · simp only [hm]
    have hlt : x.toNat < 2 ^ 23 := by
      rw [BitVec.msb_eq_decide] at hm; simpa using hm
    simp only [Bool.false_eq_true, if_false, ne_eq, not_true_eq_false, BitVec.xor_zero, BitVec.toNat_shiftLeft]
    exact (Nat.mod_eq_of_lt (by omega)).symm

theorem crcBits_toNat (n : Nat) (x : BitVec 24) : crcBits n x.toNat = (crcFn n x).toNat := by
  induction n generalizing x with
  | zero => rfl
  | succ n ih => rw [crcBits, crcBit_toNat, ih]; rfl

theorem crcOctet_toNat (r : BitVec 24) (x : UInt8) :
    crcOctet r.toNat x = (crcFold r (octetBits x)).toNat := by
  have hx := uint8_lt x
  have hw : (r ^^^ octetWord x).toNat = r.toNat ^^^ (x.toNat <<< 16) := by
    rw [BitVec.toNat_xor]
    unfold octetWord
    rw [BitVec.toNat_ofNat, Nat.mod_eq_of_lt (by rw [Nat.shiftLeft_eq]; omega)]
  rw [crcFold_octet, ← crcBits_toNat, hw, crcOctet]

theorem crcTable_length : CRC_24_TABLE.length = 256 := by decide +kernel

theorem crcTable_spec (i : Nat) (h : i < 256) :
    CRC_24_TABLE.getD i 0 = (crcFn 8 (BitVec.ofNat 24 (i <<< 16))).toNat := by
  have : ∀ n : Fin 256, CRC_24_TABLE.getD n.val 0 = (crcFn 8 (BitVec.ofNat 24 (n.val <<< 16))).toNat := by
    decide +kernel
  exact this ⟨i, h⟩

/-- Low words are just shifted. -/
theorem crcFn_low (k : Nat) (x : BitVec 24) (h : x.toNat * 2 ^ k < 2 ^ 24) : crcFn k x = x <<< k := by
  induction k generalizing x with
  | zero => simp [crcFn]
  | succ k ih =>
    have hp : 1 ≤ 2 ^ k := Nat.one_le_two_pow
    rw [pow_succ] at h
    have hx : x.toNat * 2 < 2 ^ 24 := by nlinarith
    have hm : x.msb = false := by
      rw [BitVec.msb_eq_decide]; simp; omega
    have hf : crcF x = x <<< 1 := by unfold crcF; rw [hm]; simp
    rw [crcFn, hf, ih]
    · rw [← BitVec.shiftLeft_add, Nat.add_comm]
    · rw [BitVec.toNat_shiftLeft, Nat.shiftLeft_eq, Nat.mod_eq_of_lt (by omega)]
      nlinarith

theorem crcStep_toNat (r : BitVec 24) (x : UInt8) :
    crcStep r.toNat x = (crcFold r (octetBits x)).toNat := by
  have hr := r.isLt
  have hx := uint8_lt x
  rw [crcFold_octet]
  unfold crcStep
  have hidx : (r.toNat >>> 16 ^^^ x.toNat) < 256 := by
    apply Nat.xor_lt_two_pow (n := 8)
    · rw [Nat.shiftRight_eq_div_pow]; omega
    · exact hx
  set i := r.toNat >>> 16 ^^^ x.toNat with hi
  simp only [and255, Nat.mod_eq_of_lt hidx, crcTable_spec i hidx]
  -- split the state
  have hsplit : r ^^^ octetWord x = BitVec.ofNat 24 (i <<< 16) ^^^ BitVec.ofNat 24 (r.toNat % 65536) := by
    apply BitVec.eq_of_getLsbD_eq
    intro j hj
    simp only [BitVec.getLsbD_xor, octetWord, BitVec.getLsbD_ofNat, hj, decide_true, Bool.true_and,
      Nat.testBit_shiftLeft, hi, Nat.testBit_xor, Nat.testBit_shiftRight]
    rw [show 65536 = 2 ^ 16 from rfl, Nat.testBit_mod_two_pow]
    by_cases hj16 : j < 16
    · have : ¬ 16 ≤ j := by omega
      simp [hj16, this, BitVec.getLsbD]
    · have h16 : 16 ≤ j := by omega
      have : 16 + (j - 16) = j := by omega
      simp [hj16, h16, this, BitVec.getLsbD]
  rw [hsplit, crcFn_xor, crcFn_low 8 (BitVec.ofNat 24 (r.toNat % 65536))]
  · rw [BitVec.toNat_xor]
    have hT : (crcFn 8 (BitVec.ofNat 24 (i <<< 16))).toNat < 2 ^ 24 := (crcFn 8 _).isLt
    rw [show (0x00ffffff : Nat) = 2 ^ 24 - 1 from rfl, Nat.and_two_pow_sub_one_eq_mod, Nat.xor_mod_two_pow,
      Nat.mod_eq_of_lt hT]
    congr 1
    rw [BitVec.toNat_shiftLeft, BitVec.toNat_ofNat, Nat.shiftLeft_eq, Nat.shiftLeft_eq]
    omega
  · rw [BitVec.toNat_ofNat]; omega

theorem crcFold_msg (data : Bytes) (r : BitVec 24) :
    data.foldl crcStep r.toNat = (crcFold r (msgBits data)).toNat := by
  induction data generalizing r with
  | nil => rfl
  | cons x data ih =>
    rw [List.foldl_cons, crcStep_toNat, ih, ← crcFold_append]; rfl

theorem rfcFold_msg (data : Bytes) (r : BitVec 24) :
    data.foldl crcOctet r.toNat = (crcFold r (msgBits data)).toNat := by
  induction data generalizing r with
  | nil => rfl
  | cons x data ih =>
    rw [List.foldl_cons, crcOctet_toNat, ih, ← crcFold_append]; rfl

theorem crc24_fold (data : Bytes) : crc24 data = (crcFold 0xb704ce#24 (msgBits data)).toNat :=
  crcFold_msg data 0xb704ce#24

end Pgp
