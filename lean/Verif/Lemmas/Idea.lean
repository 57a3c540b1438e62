import Verif.Model.Idea
import Verif.Spec.Idea
import Verif.Lemmas.Utils
import Mathlib.Tactic.NormNum.Prime
import Mathlib.Tactic.Ring
import Mathlib.Tactic.Linarith
import Mathlib.Tactic.LinearCombination
/-
IDEA: the arithmetic of 16-bit words, the inverse, and the two directions of the cipher.
-/
namespace Pgp
open Spec.Idea

/-- The low sixteen bits of an integer as a word. -/
def lo (x : Int) : Word := BitVec.ofInt 16 x

theorem prime65537 : Nat.Prime 65537 := by norm_num

theorem lo_eq_iff {x y : Int} : lo x = lo y ↔ x % 65536 = y % 65536 := by
  unfold lo
  rw [← BitVec.toNat_inj, BitVec.toNat_ofInt, BitVec.toNat_ofInt]
  have h1 := Int.emod_nonneg x (show (65536 : Int) ≠ 0 by decide)
  have h2 := Int.emod_nonneg y (show (65536 : Int) ≠ 0 by decide)
  norm_num
  omega

theorem lo_low16 (x : Int) : lo (low16 x) = lo x := by
  rw [lo_eq_iff]; unfold low16; omega

theorem lo_add (x y : Int) : lo (x + y) = lo x + lo y := BitVec.ofInt_add x y
theorem lo_neg (x : Int) : lo (-x) = -lo x := BitVec.ofInt_neg

theorem lo_natCast (n : Nat) : lo (n : Int) = BitVec.ofNat 16 n := BitVec.ofInt_natCast 16 n

theorem lo_xor (x y : Int) : lo (Int.xor x y) = lo x ^^^ lo y := by
  have hnn : ∀ m : Nat, lo (Int.negSucc m) = ~~~ (BitVec.ofNat 16 m) := fun m => BitVec.ofInt_negSucc_eq_not_ofNat
  have hn : ∀ m : Nat, lo (Int.ofNat m) = BitVec.ofNat 16 m := fun m => lo_natCast m
  cases x with
  | ofNat a =>
    cases y with
    | ofNat b => exact (hn (a ^^^ b)).trans (by rw [hn, hn, BitVec.ofNat_xor])
    | negSucc b =>
      refine (hnn (a ^^^ b)).trans ?_
      rw [hn, hnn, BitVec.ofNat_xor]
      ext i hi; simp
  | negSucc a =>
    cases y with
    | ofNat b =>
      refine (hnn (a ^^^ b)).trans ?_
      rw [hn, hnn, BitVec.ofNat_xor]
      ext i hi; simp
    | negSucc b =>
      refine (hn (a ^^^ b)).trans ?_
      rw [hnn, hnn, BitVec.ofNat_xor]
      ext i hi; simp

theorem lo_toNat (x : Int) : ((lo x).toNat : Int) = x % 65536 := by
  unfold lo
  rw [BitVec.toNat_ofInt]
  have h1 := Int.emod_nonneg x (show (65536 : Int) ≠ 0 by decide)
  norm_num
  omega

/-! ### Multiplication -/

theorem num_pos (x : Word) : 1 ≤ num x ∧ num x ≤ 65536 := by
  unfold num
  split
  · omega
  · rename_i h
    have : x.toNat ≠ 0 := fun h0 => h (BitVec.eq_of_toNat_eq (by simpa using h0))
    have := x.isLt
    omega

theorem num_ofNat {n : Nat} (h1 : 1 ≤ n) (h2 : n ≤ 65536) : num (BitVec.ofNat 16 n) = n := by
  unfold num
  by_cases h : n = 65536
  · subst h; rfl
  · have : BitVec.ofNat 16 n ≠ 0 := by
      intro h0
      have := congrArg BitVec.toNat h0
      simp at this; omega
    rw [if_neg this]
    simp; omega

theorem num_mod_pos {a b : Nat} (ha : 1 ≤ a ∧ a ≤ 65536) (hb : 1 ≤ b ∧ b ≤ 65536) :
    1 ≤ a * b % 65537 ∧ a * b % 65537 ≤ 65536 := by
  have : a * b % 65537 ≠ 0 := by
    intro h
    rcases (Nat.Prime.dvd_mul prime65537).mp (Nat.dvd_of_mod_eq_zero h) with h | h
    · have := Nat.le_of_dvd (by omega) h; omega
    · have := Nat.le_of_dvd (by omega) h; omega
  omega

theorem num_mul (x y : Word) : num (mul x y) = num x * num y % 65537 := by
  have := num_mod_pos (num_pos x) (num_pos y)
  exact num_ofNat this.1 this.2

theorem num_inj {x y : Word} (h : num x = num y) : x = y := by
  have hx : x = BitVec.ofNat 16 (num x) := by
    unfold num; split
    · rename_i h; rw [h]; rfl
    · simp
  have hy : y = BitVec.ofNat 16 (num y) := by
    unfold num; split
    · rename_i h; rw [h]; rfl
    · simp
  rw [hx, hy, h]

theorem mul_assoc' (x y z : Word) : mul (mul x y) z = mul x (mul y z) := by
  apply num_inj
  rw [num_mul, num_mul, num_mul, num_mul, Nat.mod_mul_mod, Nat.mul_mod_mod, Nat.mul_assoc]

theorem mul_one' (x : Word) : mul x 1 = x := by
  apply num_inj
  have := num_pos x
  rw [num_mul, show num 1 = 1 from rfl, Nat.mul_one, Nat.mod_eq_of_lt (by omega)]

theorem num_lo (x : Int) : (num (lo x) : Int) = (x - 1) % 65536 + 1 := by
  unfold num
  have h := lo_toNat x
  split
  · rename_i h0
    rw [h0] at h
    simp at h
    omega
  · rename_i h0
    have : (lo x).toNat ≠ 0 := fun h1 => h0 (BitVec.eq_of_toNat_eq (by simpa using h1))
    rw [h]; omega

/-- `mul` of the code is the multiplication of IDEA, for integers of any size and sign. -/
theorem lo_mul (x y : Int) : lo (ideaMul x y) = mul (lo x) (lo y) := by
  have hp := num_mod_pos (num_pos (lo x)) (num_pos (lo y))
  have hx := num_lo x
  have hy := num_lo y
  have hbx := num_pos (lo x)
  have hby := num_pos (lo y)
  unfold ideaMul mul low16
  dsimp only
  rw [← lo_natCast, lo_eq_iff]
  generalize num (lo x) = a at *
  generalize num (lo y) = b at *
  have ht : (x - 1) % 65536 * ((y - 1) % 65536) + (x - 1) % 65536 + (y - 1) % 65536 = ((a * b : Nat) : Int) - 1 := by
    have e1 : (x - 1) % 65536 = (a : Int) - 1 := by omega
    have e2 : (y - 1) % 65536 = (b : Int) - 1 := by omega
    rw [e1, e2]; push_cast; ring
  rw [ht]
  have hab : 1 ≤ a * b := Nat.mul_pos (by omega) (by omega)
  have hab2 : a * b ≤ 65536 * 65536 := Nat.mul_le_mul hbx.2 hby.2
  generalize a * b = P at *
  push_cast
  have hd : ((P : Int) - 1) % 65536 + 65536 * (((P : Int) - 1) / 65536) = (P : Int) - 1 := Int.emod_add_mul_ediv _ _
  have hl1 := Int.emod_nonneg ((P : Int) - 1) (show (65536 : Int) ≠ 0 by decide)
  have hl2 := Int.emod_lt_of_pos ((P : Int) - 1) (show (0 : Int) < 65536 by decide)
  have hh : ((P : Int) - 1) / 65536 ≤ 65535 ∧ 0 ≤ ((P : Int) - 1) / 65536 := by omega
  generalize ((P : Int) - 1) % 65536 = l at *
  generalize ((P : Int) - 1) / 65536 = h at *
  have uniq : ∀ r k : Int, 0 ≤ r → r < 65537 → (P : Int) = r + 65537 * k → (P : Int) % 65537 = r := by
    intro r k h1 h2 h3
    rw [h3, Int.add_mul_emod_self_left, Int.emod_eq_of_lt h1 h2]
  have hpi : (1 : Int) ≤ (P : Int) % 65537 := by omega
  split
  · by_cases he : l - h + 1 = 0
    · have := uniq 0 h (by omega) (by omega) (by omega)
      omega
    · rw [uniq (l - h + 65538) (h - 1) (by omega) (by omega) (by omega)]
      omega
  · rw [uniq (l - h + 1) h (by omega) (by omega) (by omega)]
    omega

/-! ### The inverse -/

theorem mulInvLoop_ok (x0 : Int) (fuel : Nat) : ∀ (x y t0 t1 : Int), 2 ≤ x → 1 ≤ y → y < x → 1 ≤ t0 → 1 ≤ t1 →
    x * t1 + y * t0 = 65537 → (∃ k, x = t0 * x0 + k * 65537) → (∃ k, y = -t1 * x0 + k * 65537) → y < fuel →
    ∃ r, mulInvLoop fuel x y t0 t1 = .ok r ∧ 0 ≤ r ∧ r < 65536 ∧ ((r - 1) % 65536 + 1) * x0 % 65537 = 1 := by
  induction fuel with
  | zero => intro x y t0 t1 _ hy _ _ _ _ _ _ hf; simp at hf; omega
  | succ fuel ih =>
    intro x y t0 t1 hx hy hyx ht0 ht1 hid ⟨kx, hkx⟩ ⟨ky, hky⟩ hf
    rw [mulInvLoop]
    have hpr : ∀ d e : Int, 2 ≤ d → d < 65537 → d * e ≠ 65537 := by
      intro d e h2 h3 he
      have hd : d.toNat ∣ 65537 := by
        have : (d.toNat : Int) ∣ (65537 : Int) := ⟨e, by rw [Int.toNat_of_nonneg (by omega)]; exact he.symm⟩
        exact_mod_cast this
      rcases (Nat.dvd_prime prime65537).mp hd with h | h <;> omega
    -- `x * t1 < 65537` and so on
    have hxt := Int.mul_le_mul_of_nonneg_right hx (show 0 ≤ t1 by omega)
    have hxt' := Int.mul_le_mul_of_nonneg_left ht1 (show 0 ≤ x by omega)
    have hyt : 0 ≤ y * t0 := Int.mul_nonneg (by omega) (by omega)
    have hyb : y < 65537 := by omega
    have ht1b : t1 ≤ 32768 := by omega
    by_cases h1 : y = 1
    · subst h1
      refine ⟨low16 (1 - t1), by simp, ?_, ?_, ?_⟩
      · unfold low16; omega
      · unfold low16; omega
      · have e : (low16 (1 - t1) - 1) % 65536 + 1 = 65537 - t1 := by unfold low16; omega
        rw [e]
        have : (65537 - t1) * x0 = 1 + 65537 * (x0 - ky) := by linear_combination (-1 : Int) * hky
        rw [this]; omega
    · rw [if_neg h1, if_neg (by omega)]
      dsimp only
      have hy2 : 2 ≤ y := by omega
      have hdm := Int.emod_add_mul_ediv x y
      have hr0 := Int.emod_nonneg x (show y ≠ 0 by omega)
      have hrl := Int.emod_lt_of_pos x (show 0 < y by omega)
      have hq1 : 1 ≤ x / y := by
        have := Int.ediv_le_ediv (show 0 < y by omega) (show y ≤ x by omega)
        rwa [Int.ediv_self (by omega)] at this
      generalize x / y = q at *
      generalize hx' : x % y = x' at *
      have hid' : x' * t1 + y * (t0 + q * t1) = 65537 := by linear_combination hid + t1 * hdm
      have hx'0 : x' ≠ 0 := by
        intro h0
        rw [h0, Int.zero_mul, Int.zero_add] at hid'
        exact hpr y _ hy2 hyb hid'
      have hqt : 0 ≤ q * t1 := Int.mul_nonneg (by omega) (by omega)
      have hx't : 0 ≤ x' * t1 := Int.mul_nonneg (by omega) (by omega)
      have ht0b : t0 + q * t1 ≤ 32768 := by
        have := Int.mul_le_mul_of_nonneg_right hy2 (show 0 ≤ t0 + q * t1 by omega)
        omega
      have hlow : low16 (t0 + q * t1) = t0 + q * t1 := by unfold low16; omega
      rw [hlow]
      have hkx' : x' = (t0 + q * t1) * x0 + (kx - q * ky) * 65537 := by linear_combination hdm + hkx - q * hky
      by_cases h2 : x' = 1
      · rw [if_pos h2]
        refine ⟨t0 + q * t1, rfl, by omega, by omega, ?_⟩
        have e : (t0 + q * t1 - 1) % 65536 + 1 = t0 + q * t1 := by omega
        rw [e]
        have : (t0 + q * t1) * x0 = 1 + 65537 * -(kx - q * ky) := by rw [← h2]; linear_combination (-1 : Int) * hkx'
        rw [this]; omega
      · rw [if_neg h2, if_neg hx'0]
        have hx'2 : 2 ≤ x' := by omega
        have hdm2 := Int.emod_add_mul_ediv y x'
        have hr20 := Int.emod_nonneg y (show x' ≠ 0 by omega)
        have hr2l := Int.emod_lt_of_pos y (show 0 < x' by omega)
        have hq21 : 1 ≤ y / x' := by
          have := Int.ediv_le_ediv (show 0 < x' by omega) (show x' ≤ y by omega)
          rwa [Int.ediv_self (by omega)] at this
        generalize y / x' = q2 at *
        generalize hy' : y % x' = y' at *
        generalize hT : t0 + q * t1 = T at *
        have hT1 : 1 ≤ T := by omega
        have hid2 : x' * (t1 + q2 * T) + y' * T = 65537 := by linear_combination hid' + T * hdm2
        have hy'0 : y' ≠ 0 := by
          intro h0
          rw [h0, Int.zero_mul, Int.add_zero] at hid2
          exact hpr x' _ hx'2 (by omega) hid2
        have hq2t : 0 ≤ q2 * T := Int.mul_nonneg (by omega) (by omega)
        have hyT : 0 ≤ y' * T := Int.mul_nonneg (by omega) (by omega)
        have ht1b' : t1 + q2 * T ≤ 32768 := by
          have := Int.mul_le_mul_of_nonneg_right hx'2 (show 0 ≤ t1 + q2 * T by omega)
          omega
        have hlow2 : low16 (t1 + q2 * T) = t1 + q2 * T := by unfold low16; omega
        rw [hlow2]
        exact ih x' y' T (t1 + q2 * T) hx'2 (by omega) hr2l hT1 (by omega) hid2
          ⟨kx - q * ky, hkx'⟩ ⟨ky - q2 * (kx - q * ky), by linear_combination hdm2 + hky - q2 * hkx'⟩ (by push_cast at hf; omega)

/-- `mul_inv` of the code never fails and gives the inverse word. -/
theorem mulInv_ok (x : Int) : ∃ r, mulInv x = .ok r ∧ 0 ≤ r ∧ r < 65536 ∧ mul (lo x) (lo r) = 1 := by
  have hl : 0 ≤ low16 x ∧ low16 x < 65536 := by unfold low16; omega
  rw [← lo_low16 x]
  unfold mulInv
  dsimp only
  generalize low16 x = w at *
  by_cases h : w ≤ 1
  · rw [if_pos h]
    refine ⟨w, rfl, by omega, by omega, ?_⟩
    have : w = 0 ∨ w = 1 := by omega
    rcases this with rfl | rfl
    · apply num_inj; rw [num_mul]; decide
    · apply num_inj; rw [num_mul]; decide
  · rw [if_neg h]
    have h1 := Int.emod_nonneg 65537 (show w ≠ 0 by omega)
    have h2 := Int.emod_lt_of_pos 65537 (show 0 < w by omega)
    have hdm := Int.emod_add_mul_ediv 65537 w
    have hlow : low16 (65537 % w) = 65537 % w := by unfold low16; omega
    rw [hlow]
    have hq1 : 1 ≤ 65537 / w := by
      have := Int.ediv_le_ediv (show 0 < w by omega) (show w ≤ 65537 by omega)
      rwa [Int.ediv_self (by omega)] at this
    have hne : 65537 % w ≠ 0 := by
      intro h0
      have hd : w.toNat ∣ 65537 := by
        have : (w.toNat : Int) ∣ (65537 : Int) := by rw [Int.toNat_of_nonneg (by omega)]; exact Int.dvd_of_emod_eq_zero h0
        exact_mod_cast this
      rcases (Nat.dvd_prime prime65537).mp hd with h | h <;> omega
    obtain ⟨r, e1, e2, e3, e4⟩ := mulInvLoop_ok w 65537 w (65537 % w) 1 (65537 / w) (by omega) (by omega) h2 (by omega) hq1
      (by linear_combination hdm) ⟨0, by ring⟩ ⟨1, by linear_combination hdm⟩ (by push_cast; omega)
    refine ⟨r, e1, e2, e3, ?_⟩
    apply num_inj
    rw [num_mul]
    have a1 := num_lo r
    have a2 : (num (lo w) : Int) = w := by rw [num_lo]; omega
    have : ((num (lo w) * num (lo r) % 65537 : Nat) : Int) = 1 := by
      push_cast
      rw [a1, a2, Int.mul_comm]; exact e4
    have h3 : num 1 = 1 := rfl
    rw [h3]
    exact_mod_cast this

/-! ### The two directions, on words -/

theorem xor_self_cancel (a b : Word) : a ^^^ b ^^^ b = a := by
  rw [BitVec.xor_assoc, BitVec.xor_self, BitVec.xor_zero]

theorem xor_common (a b c : Word) : (a ^^^ c) ^^^ (b ^^^ c) = a ^^^ b := by
  rw [BitVec.xor_comm b c, ← BitVec.xor_assoc, xor_self_cancel]

theorem swap_swap (s : State) : swap (swap s) = s := rfl

/-- The multiplication/addition structure is its own inverse. -/
theorem ma_ma (e f : Word) (s : State) : maLayer e f (maLayer e f s) = s := by
  obtain ⟨x1, x2, x3, x4⟩ := s
  simp only [maLayer, xor_common, xor_self_cancel]

theorem add_neg_self (a : Word) : a + -a = 0 := by
  rw [← BitVec.sub_eq_add_neg, BitVec.sub_self]
  rfl

theorem keyLayer_inv (a b c d a' d' : Word) (ha : mul a a' = 1) (hd : mul d d' = 1) (s : State) :
    keyLayer a' (-b) (-c) d' (keyLayer a b c d s) = s := by
  obtain ⟨x1, x2, x3, x4⟩ := s
  simp only [keyLayer, mul_assoc', ha, hd, mul_one', BitVec.add_assoc, add_neg_self]
  simp

/-- With the inner key words exchanged, the key layer undoes the layer before the exchange. -/
theorem keyLayer_swap_inv (a b c d a' d' : Word) (ha : mul a a' = 1) (hd : mul d d' = 1) (s : State) :
    keyLayer a' (-c) (-b) d' (swap (keyLayer a b c d s)) = swap s := by
  obtain ⟨x1, x2, x3, x4⟩ := s
  simp only [keyLayer, swap, mul_assoc', ha, hd, mul_one', BitVec.add_assoc, add_neg_self]
  simp

/-- The relation between encryption and decryption key words. -/
structure DecKeys (k k' : Nat → Word) : Prop where
  first : mul (k 48) (k' 0) = 1 ∧ k' 1 = -k 49 ∧ k' 2 = -k 50 ∧ mul (k 51) (k' 3) = 1
  ma : ∀ i, i < 8 → k' (6 * i + 4) = k (6 * (7 - i) + 4) ∧ k' (6 * i + 5) = k (6 * (7 - i) + 5)
  mid : ∀ i, 1 ≤ i → i < 8 → mul (k (6 * (8 - i))) (k' (6 * i)) = 1 ∧ k' (6 * i + 1) = -k (6 * (8 - i) + 2) ∧
    k' (6 * i + 2) = -k (6 * (8 - i) + 1) ∧ mul (k (6 * (8 - i) + 3)) (k' (6 * i + 3)) = 1
  last : mul (k 0) (k' 48) = 1 ∧ k' 49 = -k 1 ∧ k' 50 = -k 2 ∧ mul (k 3) (k' 51) = 1

/-- The `i`-th round with key words `k`. -/
def roundAt (k : Nat → Word) (i : Nat) (s : State) : State :=
  round (k (6 * i), k (6 * i + 1), k (6 * i + 2), k (6 * i + 3), k (6 * i + 4), k (6 * i + 5)) s

def rounds (k : Nat → Word) : Nat → State → State
  | 0, s => s
  | n + 1, s => roundAt k n (rounds k n s)

theorem encrypt_eq (k : Nat → Word) (s : State) :
    Spec.Idea.encrypt k s = keyLayer (k 48) (k 49) (k 50) (k 51) (swap (rounds k 8 s)) := rfl

/-- After `j` rounds of decryption (`1 ≤ j`), the state is the one before the `8 - j`-th round's exchange. -/
theorem dec_rounds (k k' : Nat → Word) (h : DecKeys k k') (s : State) (j : Nat) (hj : j < 8) :
    rounds k' (j + 1) (Spec.Idea.encrypt k s) =
      swap (keyLayer (k (6 * (7 - j))) (k (6 * (7 - j) + 1)) (k (6 * (7 - j) + 2)) (k (6 * (7 - j) + 3)) (rounds k (7 - j) s)) := by
  induction j with
  | zero =>
    obtain ⟨f1, f2, f3, f4⟩ := h.first
    obtain ⟨m1, m2⟩ := h.ma 0 (by omega)
    simp only [Nat.mul_zero, Nat.zero_add, Nat.sub_zero] at m1 m2
    have hr : rounds k 8 s = roundAt k 7 (rounds k 7 s) := rfl
    rw [encrypt_eq, hr]
    simp only [rounds, roundAt, round, Nat.mul_zero, Nat.zero_add, Nat.sub_zero, f2, f3, m1, m2, swap_swap,
      keyLayer_inv _ _ _ _ _ _ f1 f4, ma_ma]
  | succ j ih =>
    have ih := ih (by omega)
    obtain ⟨f1, f2, f3, f4⟩ := h.mid (j + 1) (by omega) (by omega)
    obtain ⟨m1, m2⟩ := h.ma (j + 1) (by omega)
    have hr : rounds k (7 - j) s = roundAt k (7 - (j + 1)) (rounds k (7 - (j + 1)) s) := by
      rw [show 7 - j = (7 - (j + 1)) + 1 by omega]; rfl
    have e : 8 - (j + 1) = 7 - j := by omega
    rw [e] at f1 f2 f3 f4
    rw [show rounds k' (j + 1 + 1) (Spec.Idea.encrypt k s) = roundAt k' (j + 1) (rounds k' (j + 1) (Spec.Idea.encrypt k s)) from rfl, ih]
    simp only [roundAt, round, f2, f3, m1, m2, keyLayer_swap_inv _ _ _ _ _ _ f1 f4, hr, swap_swap, ma_ma]

theorem dec_enc (k k' : Nat → Word) (h : DecKeys k k') (s : State) : Spec.Idea.encrypt k' (Spec.Idea.encrypt k s) = s := by
  obtain ⟨f1, f2, f3, f4⟩ := h.last
  rw [encrypt_eq k', dec_rounds k k' h s 7 (by omega), swap_swap, f2, f3]
  exact keyLayer_inv _ _ _ _ _ _ f1 f4 s

/-! ### The code's rounds -/

def lo4 : Int × Int × Int × Int → State
  | (a, b, c, d) => (lo a, lo b, lo c, lo d)

/-- Key words as a function. -/
def wordsOfTable (kt : List Int) (i : Nat) : Word := lo (kt.getD i 0)

theorem ideaRounds_lo (kt : List Int) (s : Int × Int × Int × Int) (n : Nat) : ∀ i s,
    lo4 (ideaRounds kt n (6 * i) s) = (List.range' i n).foldl (fun s i => roundAt (wordsOfTable kt) i s) (lo4 s) := by
  induction n with
  | zero => intro i s; rfl
  | succ n ih =>
    intro i s
    obtain ⟨x1, x2, x3, x4⟩ := s
    rw [List.range'_succ, List.foldl_cons, ideaRounds]
    rw [show 6 * i + 6 = 6 * (i + 1) by ring, ih (i + 1)]
    congr 1
    simp only [lo4, lo_xor, lo_add, lo_mul, lo_low16, roundAt, round, swap, maLayer, keyLayer, wordsOfTable]
    refine Prod.ext rfl (Prod.ext rfl (Prod.ext ?_ rfl))
    exact BitVec.xor_comm _ _

theorem ideaRounds_eq (kt : List Int) (s : Int × Int × Int × Int) :
    lo4 (ideaRounds kt 8 0 s) = rounds (wordsOfTable kt) 8 (lo4 s) := by
  have := ideaRounds_lo kt s 8 0 s
  rw [Nat.mul_zero] at this
  rw [this]
  simp only [List.range', List.foldl_cons, List.foldl_nil, rounds]

/-! ### Octets -/

theorem bytesToShorts_block (block : Bytes) (h : block.length = 8) :
    ∃ a b c d : Int, bytesToShorts block = .ok [a, b, c, d] ∧ wordsOf block = some (lo4 (a, b, c, d)) := by
  match block, h with
  | [a, b, c, d, e, f, g, i], _ =>
    refine ⟨_, _, _, _, rfl, ?_⟩
    simp only [wordsOf, lo4, Option.some.injEq, Prod.mk.injEq]
    have w : ∀ x y : UInt8, BitVec.ofNat 16 (256 * x.toNat + y.toNat) = lo ((x.toNat : Int) * 256 + y.toNat) := by
      intro x y
      rw [← lo_natCast]; push_cast; rw [Int.mul_comm]
    exact ⟨w _ _, w _ _, w _ _, w _ _⟩

theorem word_octets (s : Int) (h0 : 0 ≤ s) (h1 : s < 65536) :
    BitVec.ofNat 16 (256 * (UInt8.ofNat (s / 256).toNat).toNat + (UInt8.ofNat (s % 256).toNat).toNat) = lo s := by
  obtain ⟨n, rfl⟩ : ∃ n : Nat, s = n := ⟨s.toNat, by omega⟩
  rw [lo_natCast]
  have e1 : ((n : Int) / 256).toNat = n / 256 := by omega
  have e2 : ((n : Int) % 256).toNat = n % 256 := by omega
  have h3 : n / 256 < 256 := by omega
  have h4 : n % 256 < 256 := by omega
  rw [e1, e2, toNat_ofNat_lt h3, toNat_ofNat_lt h4]
  congr 1; omega

theorem shortsToBytes_words (a b c d : Int) (ha : 0 ≤ a ∧ a < 65536) (hb : 0 ≤ b ∧ b < 65536) (hc : 0 ≤ c ∧ c < 65536)
    (hd : 0 ≤ d ∧ d < 65536) :
    ∃ r, shortsToBytes [a, b, c, d] = .ok r ∧ r.length = 8 ∧ wordsOf r = some (lo4 (a, b, c, d)) := by
  refine ⟨[UInt8.ofNat (a / 256).toNat, UInt8.ofNat (a % 256).toNat, UInt8.ofNat (b / 256).toNat, UInt8.ofNat (b % 256).toNat,
    UInt8.ofNat (c / 256).toNat, UInt8.ofNat (c % 256).toNat, UInt8.ofNat (d / 256).toNat, UInt8.ofNat (d % 256).toNat], ?_, rfl, ?_⟩
  · simp only [shortsToBytes, if_pos ha, if_pos hb, if_pos hc, if_pos hd, except_bind_ok, except_pure]
  · simp only [wordsOf, lo4, word_octets a ha.1 ha.2, word_octets b hb.1 hb.2, word_octets c hc.1 hc.2, word_octets d hd.1 hd.2]

theorem wordsOf_inj {x y : Bytes} {s : State} (hx : wordsOf x = some s) (hy : wordsOf y = some s) : x = y := by
  have oct : ∀ a b c d : UInt8, BitVec.ofNat 16 (256 * a.toNat + b.toNat) = BitVec.ofNat 16 (256 * c.toNat + d.toNat) →
      a = c ∧ b = d := by
    intro a b c d h
    have := congrArg BitVec.toNat h
    simp only [BitVec.toNat_ofNat, Nat.reducePow] at this
    have := a.toNat_lt; have := b.toNat_lt; have := c.toNat_lt; have := d.toNat_lt
    constructor <;> apply UInt8.toNat_inj.mp <;> omega
  unfold wordsOf at hx hy
  split at hx
  · split at hy
    · simp only [Option.some.injEq] at hx hy
      rw [← hy] at hx
      simp only [Prod.mk.injEq] at hx
      obtain ⟨h1, h2, h3, h4⟩ := hx
      obtain ⟨rfl, rfl⟩ := oct _ _ _ _ h1
      obtain ⟨rfl, rfl⟩ := oct _ _ _ _ h2
      obtain ⟨rfl, rfl⟩ := oct _ _ _ _ h3
      obtain ⟨rfl, rfl⟩ := oct _ _ _ _ h4
      rfl
    · cases hy
  · cases hx

/-- The code's cipher with a key table is IDEA with its words. -/
theorem ideaCipher_ok (kt : List Int) (block : Bytes) (h : block.length = 8) :
    ∃ out s, wordsOf block = some s ∧ ideaCipher kt block = .ok out ∧ out.length = 8 ∧
      wordsOf out = some (Spec.Idea.encrypt (wordsOfTable kt) s) := by
  obtain ⟨a, b, c, d, h1, h2⟩ := bytesToShorts_block block h
  have hr := ideaRounds_eq kt (a, b, c, d)
  unfold ideaCipher
  rw [h1]
  simp only [except_bind_ok]
  generalize ideaRounds kt 8 0 (a, b, c, d) = r at hr ⊢
  obtain ⟨y1, y2, y3, y4⟩ := r
  have l : ∀ x, 0 ≤ low16 x ∧ low16 x < 65536 := by intro x; unfold low16; omega
  obtain ⟨out, o1, o2, o3⟩ := shortsToBytes_words (low16 (ideaMul (low16 y1) (kt.getD 48 0))) (low16 (y3 + kt.getD 49 0))
    (low16 (y2 + kt.getD 50 0)) (low16 (ideaMul (low16 y4) (kt.getD 51 0))) (l _) (l _) (l _) (l _)
  refine ⟨out, _, h2, o1, o2, ?_⟩
  rw [o3, encrypt_eq, ← hr]
  simp only [lo4, lo_low16, lo_mul, lo_add, swap, keyLayer, wordsOfTable]

/-! ### Key schedule -/

theorem bytesToShorts_key (key : Bytes) (h : key.length = 16) : ∃ k, bytesToShorts key = .ok k ∧ k.length = 8 ∧
    ∀ i, i < 8 → k.getD i 0 = ((256 * (key.getD (2 * i) 0).toNat + (key.getD (2 * i + 1) 0).toNat : Nat) : Int) := by
  match key, h with
  | [a0, a1, a2, a3, a4, a5, a6, a7, a8, a9, a10, a11, a12, a13, a14, a15], _ =>
    refine ⟨_, rfl, rfl, ?_⟩
    intro i hi
    push_cast
    match i, hi with
    | 0, _ | 1, _ | 2, _ | 3, _ | 4, _ | 5, _ | 6, _ | 7, _ => simp [Int.mul_comm]

theorem expandKey_length (n : Nat) : ∀ k, (expandKey n k).length = k.length + n := by
  induction n with
  | zero => intro k; rfl
  | succ n ih => intro k; rw [expandKey, ih, List.length_append]; simp; omega

theorem expandKey_prefix (n : Nat) : ∀ k i, i < k.length → (expandKey n k).getD i 0 = k.getD i 0 := by
  induction n with
  | zero => intro k i _; rfl
  | succ n ih =>
    intro k i hi
    rw [expandKey, ih _ i (by simp; omega)]
    rw [List.getD_append _ _ _ _ hi]

/-- Every later word is made from earlier ones as `nextKeyWord` says. -/
theorem expandKey_word (n : Nat) : ∀ k i, 15 ≤ i + 7 → k.length ≤ i → i < k.length + n →
    (expandKey n k).getD i 0 = nextKeyWord (expandKey n k) i := by
  induction n with
  | zero => intro k i _ h1 h2; omega
  | succ n ih =>
    intro k i h8 h1 h2
    by_cases he : i = k.length
    · have hx : ∀ j, j < i → (expandKey (n + 1) k).getD j 0 = k.getD j 0 := fun j hj => expandKey_prefix _ _ _ (by omega)
      have h3 : (expandKey (n + 1) k).getD i 0 = nextKeyWord k k.length := by
        rw [expandKey, expandKey_prefix _ _ _ (by simp; omega), he]
        simp
      rw [h3, ← he]
      unfold nextKeyWord
      dsimp only
      rw [hx, hx]
      · split <;> omega
      · split <;> omega
    · rw [expandKey]
      exact ih _ _ h8 (by simp; omega) (by simp; omega)

theorem lor_natCast (m n : Nat) : Int.lor (m : Int) (n : Int) = ((m ||| n : Nat) : Int) := rfl

theorem nextKeyWord_bits (k : List Int) (i x y : Nat) (wx wy : Nat)
    (hx : (if (i + 1) % 8 > 0 then i - 7 else i - 15) = x) (hy : (if (i + 2) % 8 < 2 then i - 14 else i - 6) = y)
    (h1 : k.getD x 0 = wx) (h2 : k.getD y 0 = wy) (hwy : wy < 65536) :
    ∃ w : Nat, nextKeyWord k i = w ∧ w < 65536 ∧ ∀ b, b < 16 →
      w.testBit (15 - b) = if b < 7 then wx.testBit (15 - (b + 9)) else wy.testBit (15 - (b - 7)) := by
  refine ⟨(wx * 512 ||| wy / 128) % 65536, ?_, by omega, ?_⟩
  · unfold nextKeyWord low16
    dsimp only
    rw [hx, hy, h1, h2]
    have : Int.lor ((wx : Int) * 512) ((wy : Int) / 128) = ((wx * 512 ||| wy / 128 : Nat) : Int) := by
      rw [← lor_natCast]; push_cast; rfl
    rw [this]; push_cast; rfl
  · intro b hb
    rw [show (65536 : Nat) = 2 ^ 16 from rfl, Nat.testBit_mod_two_pow, Nat.testBit_or, show wx * 512 = wx * 2 ^ 9 from rfl,
      Nat.testBit_mul_two_pow, show wy / 128 = wy / 2 ^ 7 from rfl, Nat.testBit_div_two_pow]
    have hlt : decide (15 - b < 16) = true := by simp; omega
    rw [hlt, Bool.true_and]
    by_cases h7 : b < 7
    · rw [if_pos h7]
      have hz : wy.testBit (15 - b + 7) = false :=
        Nat.testBit_lt_two_pow (Nat.lt_of_lt_of_le hwy (by rw [show (65536 : Nat) = 2 ^ 16 from rfl]; exact Nat.pow_le_pow_right (by omega) (by omega)))
      rw [hz, Bool.or_false]
      have : decide (9 ≤ 15 - b) = true := decide_eq_true (by omega)
      rw [this, Bool.true_and]
      congr 1
    · rw [if_neg h7]
      have : decide (9 ≤ 15 - b) = false := by simpa using (show 15 - b < 9 by omega)
      rw [this, Bool.false_and, Bool.false_or]
      congr 1; omega

theorem keyBit_word (key : Bytes) (i b : Nat) (hb : b < 16) :
    (256 * (key.getD (2 * i) 0).toNat + (key.getD (2 * i + 1) 0).toNat).testBit (15 - b) = keyBit key (16 * i + b) := by
  unfold keyBit
  have h1 : (key.getD (2 * i + 1) 0).toNat < 2 ^ 8 := (key.getD (2 * i + 1) 0).toNat_lt
  rw [show (256 : Nat) = 2 ^ 8 from rfl, Nat.testBit_two_pow_mul_add _ h1]
  by_cases h : b < 8
  · rw [if_neg (by omega), show (16 * i + b) / 8 = 2 * i by omega]
    congr 1; omega
  · rw [if_pos (by omega), show (16 * i + b) / 8 = 2 * i + 1 by omega]
    congr 1; omega

theorem pos_x (i x b : Nat) (h8 : 8 ≤ i) (hx : (if (i + 1) % 8 > 0 then i - 7 else i - 15) = x) :
    (25 * (x / 8) + 16 * (x % 8) + (b + 9)) % 128 = (25 * (i / 8) + 16 * (i % 8) + b) % 128 := by
  obtain ⟨q, r, hr, rfl⟩ : ∃ q r, r < 8 ∧ i = 8 * (q + 1) + r :=
    ⟨i / 8 - 1, i % 8, by omega, by omega⟩
  rw [show (8 * (q + 1) + r) / 8 = q + 1 by omega, show (8 * (q + 1) + r) % 8 = r by omega]
  by_cases h : r = 7
  · rw [if_neg (by omega)] at hx
    rw [show x / 8 = q by omega, show x % 8 = 0 by omega]; omega
  · rw [if_pos (by omega)] at hx
    rw [show x / 8 = q by omega, show x % 8 = r + 1 by omega]; omega

theorem pos_y (i y b : Nat) (h8 : 8 ≤ i) (hb : 7 ≤ b) (hy : (if (i + 2) % 8 < 2 then i - 14 else i - 6) = y) :
    (25 * (y / 8) + 16 * (y % 8) + (b - 7)) % 128 = (25 * (i / 8) + 16 * (i % 8) + b) % 128 := by
  obtain ⟨q, r, hr, rfl⟩ : ∃ q r, r < 8 ∧ i = 8 * (q + 1) + r :=
    ⟨i / 8 - 1, i % 8, by omega, by omega⟩
  rw [show (8 * (q + 1) + r) / 8 = q + 1 by omega, show (8 * (q + 1) + r) % 8 = r by omega]
  by_cases h : 6 ≤ r
  · rw [if_pos (by omega)] at hy
    rw [show y / 8 = q by omega, show y % 8 = r - 6 by omega]; omega
  · rw [if_neg (by omega)] at hy
    rw [show y / 8 = q by omega, show y % 8 = r + 2 by omega]; omega

/-- The table of encryption keys is the key schedule of IDEA. -/
theorem encKeys_schedule (key : Bytes) (h : key.length = 16) :
    ∃ ek, encKeys key = .ok ek ∧ ek.length = 52 ∧ IsKeySchedule key (wordsOfTable ek) ∧
      ∀ i, i < 52 → 0 ≤ ek.getD i 0 ∧ ek.getD i 0 < 65536 := by
  obtain ⟨k, h1, h2, h3⟩ := bytesToShorts_key key h
  have main : ∀ i, i < 52 → ∃ w : Nat, (expandKey 44 k).getD i 0 = w ∧ w < 65536 ∧ ∀ b, b < 16 →
      w.testBit (15 - b) = keyBit key ((25 * (i / 8) + 16 * (i % 8) + b) % 128) := by
    intro i
    induction i using Nat.strongRecOn with
    | ind i ih =>
      intro hi
      by_cases h8 : i < 8
      · rw [expandKey_prefix _ _ _ (by omega), h3 i h8]
        have a1 := (key.getD (2 * i) 0).toNat_lt
        have a2 := (key.getD (2 * i + 1) 0).toNat_lt
        refine ⟨_, rfl, by omega, fun b hb => ?_⟩
        rw [keyBit_word key i b hb, Nat.div_eq_of_lt h8, Nat.mod_eq_of_lt h8]
        congr 1; omega
      · rw [expandKey_word 44 k i (by omega) (by omega) (by omega)]
        obtain ⟨x, hx⟩ : ∃ x, (if (i + 1) % 8 > 0 then i - 7 else i - 15) = x := ⟨_, rfl⟩
        obtain ⟨y, hy⟩ : ∃ y, (if (i + 2) % 8 < 2 then i - 14 else i - 6) = y := ⟨_, rfl⟩
        have hxi : x < i := by rw [← hx]; split <;> omega
        have hyi : y < i := by rw [← hy]; split <;> omega
        obtain ⟨wx, x1, x2, x3⟩ := ih x hxi (by omega)
        obtain ⟨wy, y1, y2, y3⟩ := ih y hyi (by omega)
        obtain ⟨w, w1, w2, w3⟩ := nextKeyWord_bits (expandKey 44 k) i x y wx wy hx hy x1 y1 y2
        refine ⟨w, w1, w2, fun b hb => ?_⟩
        rw [w3 b hb]
        split
        · rw [x3 (b + 9) (by omega), pos_x i x b (by omega) hx]
        · rw [y3 (b - 7) (by omega), pos_y i y b (by omega) (by omega) hy]
  refine ⟨expandKey 44 k, ?_, by rw [expandKey_length]; omega, ?_, ?_⟩
  · simp only [encKeys, h1, except_bind_ok, except_pure]
  · intro i hi b hb
    obtain ⟨w, w1, w2, w3⟩ := main i hi
    unfold wordsOfTable
    rw [w1, lo_natCast, BitVec.getMsbD, ← w3 b hb]
    have : decide (b < 16) = true := by simpa using hb
    rw [this, Bool.true_and, BitVec.getLsbD_ofNat]
    have : decide (16 - 1 - b < 16) = true := by simp; omega
    rw [this, Bool.true_and]
  · intro i hi
    obtain ⟨w, w1, w2, _⟩ := main i hi
    rw [w1]; omega

/-- The table of decryption keys is made, and belongs to the encryption keys. -/
theorem decKeys_ok (ek : List Int) : ∃ dk, decKeys ek = .ok dk ∧ DecKeys (wordsOfTable ek) (wordsOfTable dk) := by
  choose inv i1 i2 i3 i4 using mulInv_ok
  have h : decKeys ek = decKeys ek := rfl
  conv at h => rhs; simp only [decKeys, decLoop, decRound, i1, except_bind_ok, except_pure]
  refine ⟨_, h, ?_⟩
  · constructor
    · refine ⟨i4 _, ?_, ?_, i4 _⟩
      · exact (lo_low16 _).trans (lo_neg _)
      · exact (lo_low16 _).trans (lo_neg _)
    · intro i hi
      match i, hi with
      | 0, _ | 1, _ | 2, _ | 3, _ | 4, _ | 5, _ | 6, _ | 7, _ => exact ⟨lo_low16 _, lo_low16 _⟩
    · intro i h1 hi
      match i, h1, hi with
      | 1, _, _ | 2, _, _ | 3, _, _ | 4, _, _ | 5, _, _ | 6, _, _ | 7, _, _ =>
        exact ⟨i4 _, (lo_low16 _).trans (lo_neg _), (lo_low16 _).trans (lo_neg _), i4 _⟩
    · exact ⟨i4 _, (lo_low16 _).trans (lo_neg _), (lo_low16 _).trans (lo_neg _), i4 _⟩

end Pgp
