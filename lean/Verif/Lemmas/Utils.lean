import Verif.Model.Utils
import Verif.Spec.Bytes
import Mathlib.Tactic.Ring
/-
Helper lemmas about the integer codecs.
-/
namespace Pgp
open Spec

theorem drop_add_of_drop {α} {data a s : List α} {off : Nat} (h : data.drop off = a ++ s) :
    data.drop (off + a.length) = s := by
  rw [← List.drop_drop, h, List.drop_left]

theorem drop_add_of_drop' {α} {data a s : List α} {off n : Nat} (h : data.drop off = a ++ s) (hn : n = a.length) :
    data.drop (off + n) = s := by subst hn; exact drop_add_of_drop h

theorem drop_succ_of_drop {α} {data s : List α} {x : α} {off : Nat} (h : data.drop off = x :: s) :
    data.drop (off + 1) = s := by
  rw [← List.drop_drop, h]; rfl

theorem length_of_drop {α} {data s : List α} {off : Nat} (h : data.drop off = s) (hs : s ≠ []) :
    data.length = off + s.length := by
  have := congrArg List.length h
  rw [List.length_drop] at this
  have : 0 < s.length := List.length_pos_iff.mpr hs
  omega

theorem idx_of_drop {data s : Bytes} {x : UInt8} {off : Nat} (h : data.drop off = x :: s) :
    idx data off = .ok x := by
  unfold idx; rw [h]

theorem idx_lt {data : Bytes} {off : Nat} (h : off < data.length) : idx data off = .ok data[off] := by
  unfold idx; rw [List.drop_eq_getElem_cons h]

theorem idx_ge {data : Bytes} {off : Nat} (h : data.length ≤ off) : idx data off = .error .indexError := by
  unfold idx; rw [List.drop_eq_nil_of_le h]

theorem idx_ok {data : Bytes} {off : Nat} {x : UInt8} (h : idx data off = .ok x) :
    ∃ s, data.drop off = x :: s := by
  unfold idx at h
  split at h
  · rename_i y s hs; cases h; exact ⟨_, hs⟩
  · cases h

theorem slice_of_drop {α} {data a s : List α} {off j : Nat} (h : data.drop off = a ++ s) (hj : j = off + a.length) :
    slice data off j = a := by
  unfold slice; rw [h, hj]; simp

theorem beNat_append (a b : Bytes) : beNat (a ++ b) = beNat a * 256 ^ b.length + beNat b := by
  have gen : ∀ (b : Bytes) (acc : Nat), b.foldl (fun a x => a * 256 + x.toNat) acc
      = acc * 256 ^ b.length + beNat b := by
    intro b
    induction b with
    | nil => intro acc; simp [beNat]
    | cons x xs ih =>
      intro acc
      simp only [List.foldl_cons, List.length_cons, beNat]
      rw [ih, ih]; simp only [Nat.zero_mul, Nat.zero_add]; ring
  rw [beNat, List.foldl_append, gen b]; rfl

theorem beNat_nil : beNat [] = 0 := rfl
theorem beNat_singleton (x : UInt8) : beNat [x] = x.toNat := by simp [beNat]

theorem beNat_cons (x : UInt8) (b : Bytes) : beNat (x :: b) = x.toNat * 256 ^ b.length + beNat b := by
  have := beNat_append [x] b
  rw [beNat_singleton] at this; exact this

theorem beNat_lt (b : Bytes) : beNat b < 256 ^ b.length := by
  induction b with
  | nil => simp [beNat]
  | cons x b ih =>
    rw [beNat_cons, List.length_cons, pow_succ]
    have hx := x.toNat_lt
    have h2 : x.toNat + 1 ≤ 256 := hx
    calc x.toNat * 256 ^ b.length + beNat b < x.toNat * 256 ^ b.length + 256 ^ b.length := by omega
      _ = (x.toNat + 1) * 256 ^ b.length := by ring
      _ ≤ 256 * 256 ^ b.length := Nat.mul_le_mul_right _ h2
      _ = 256 ^ b.length * 256 := by ring

theorem beNat_inj {a b : Bytes} (hl : a.length = b.length) (h : beNat a = beNat b) : a = b := by
  induction a generalizing b with
  | nil => cases b <;> simp_all
  | cons x a ih =>
    cases b with
    | nil => simp at hl
    | cons y b =>
      simp only [List.length_cons, Nat.add_right_cancel_iff] at hl
      rw [beNat_cons, beNat_cons, hl] at h
      have ha := beNat_lt a
      have hb := beNat_lt b
      rw [hl] at ha
      have hxy : x.toNat = y.toNat := by
        have h1 := congrArg (· / 256 ^ b.length) h
        have hp : 0 < 256 ^ b.length := Nat.pow_pos (by decide)
        rw [Nat.mul_comm, Nat.mul_add_div hp, Nat.div_eq_of_lt ha, Nat.mul_comm y.toNat, Nat.mul_add_div hp,
          Nat.div_eq_of_lt hb] at h1
        simpa using h1
      have hx : x = y := UInt8.toNat_inj.mp hxy
      subst hx
      have : beNat a = beNat b := by omega
      rw [ih hl this]

theorem bytesToIntLoop_of_drop {data b s : Bytes} {off r : Nat} (h : data.drop off = b ++ s) :
    bytesToIntLoop data off r b.length = .ok (r + beNat b) := by
  induction b generalizing off r with
  | nil => simp [bytesToIntLoop, beNat]
  | cons x b ih =>
    simp only [List.length_cons, bytesToIntLoop]
    rw [idx_of_drop h]
    simp only
    rw [ih (drop_succ_of_drop h), beNat_cons, Nat.shiftLeft_eq, Nat.add_assoc]
    congr 4
    rw [show 256 = 2 ^ 8 from rfl, ← pow_mul]

theorem bytesToInt_of_drop {data b s : Bytes} {off n : Nat} (h : data.drop off = b ++ s) (hn : n = b.length) :
    bytesToInt data off n = .ok (beNat b) := by
  subst hn; unfold bytesToInt; rw [bytesToIntLoop_of_drop h]; simp

theorem bytesToIntLoop_short {data : Bytes} {off r n : Nat} (h : data.length < off + n) (hn : 0 < n) :
    bytesToIntLoop data off r n = .error .indexError := by
  induction n generalizing off r with
  | zero => omega
  | succ n ih =>
    unfold bytesToIntLoop
    by_cases ho : off < data.length
    · rw [idx_lt ho]; exact ih (by omega) (by omega)
    · rw [idx_ge (by omega)]

/-- Complete characterisation of `bytes_to_int`. -/
theorem bytesToInt_eq (data : Bytes) (off n : Nat) :
    bytesToInt data off n =
      if off + n ≤ data.length ∨ n = 0 then .ok (beNat ((data.drop off).take n)) else .error .indexError := by
  split
  · rename_i h
    rcases h with h | h
    · apply bytesToInt_of_drop (s := (data.drop off).drop n)
      · rw [List.take_append_drop]
      · simp; omega
    · subst h; simp [bytesToInt, bytesToIntLoop, beNat]
  · rename_i h
    unfold bytesToInt
    exact bytesToIntLoop_short (by omega) (by omega)

theorem bytesToInt_ok {data : Bytes} {off n v : Nat} (h : bytesToInt data off n = .ok v) :
    (off + n ≤ data.length ∨ n = 0) ∧ v = beNat ((data.drop off).take n) := by
  rw [bytesToInt_eq] at h; split at h
  · rename_i hh; cases h; exact ⟨hh, rfl⟩
  · cases h

theorem lowByte_toNat (n : Nat) : (lowByte n).toNat = n % 256 := by
  unfold lowByte; rw [UInt8.toNat_ofNat']; exact Nat.mod_mod _ _

theorem octet_toNat (i s : Nat) : (octet i s).toNat = i / 2 ^ s % 256 := by
  unfold octet; rw [lowByte_toNat, Nat.shiftRight_eq_div_pow]

theorem beBytes_length (n i : Nat) : (beBytes n i).length = n := by
  induction n generalizing i with
  | zero => rfl
  | succ n ih => simp [beBytes, ih]

theorem beNat_beBytes (n i : Nat) : beNat (beBytes n i) = i % 256 ^ n := by
  induction n generalizing i with
  | zero => simp [beBytes, beNat, Nat.mod_one]
  | succ n ih =>
    rw [beBytes, beNat_append, ih, beNat_singleton]
    simp only [List.length_singleton, pow_one]
    have : (UInt8.ofNat (i % 256)).toNat = i % 256 := by
      rw [UInt8.toNat_ofNat']; exact Nat.mod_mod _ _
    rw [this, pow_succ, Nat.mul_comm (256 ^ n) 256, Nat.mod_mul]
    ring

theorem octetsDown_length (i n : Nat) : (octetsDown i n).length = n := by
  induction n with
  | zero => rfl
  | succ n ih => simp [octetsDown, ih]

theorem beNat_octetsDown (i n : Nat) : beNat (octetsDown i n) = i % 256 ^ n := by
  induction n with
  | zero => simp [octetsDown, beNat, Nat.mod_one]
  | succ n ih =>
    rw [octetsDown, beNat_cons, ih, octet_toNat, octetsDown_length, Nat.mul_comm n 8, pow_mul,
      show (2:Nat) ^ 8 = 256 from rfl, pow_succ, Nat.mod_mul]
    ring

theorem octetsDown_eq_beBytes (i n : Nat) : octetsDown i n = beBytes n i :=
  beNat_inj (by rw [octetsDown_length, beBytes_length]) (by rw [beNat_octetsDown, beNat_beBytes])

theorem beBytes_beNat (b : Bytes) : beBytes b.length (beNat b) = b :=
  beNat_inj (beBytes_length _ _) (by rw [beNat_beBytes, Nat.mod_eq_of_lt (beNat_lt b)])

theorem intTo2byte_eq (i : Nat) : intTo2byte i = beBytes 2 i := by
  rw [← octetsDown_eq_beBytes]; rfl
theorem intTo4byte_eq (i : Nat) : intTo4byte i = beBytes 4 i := by
  rw [← octetsDown_eq_beBytes]; rfl
theorem intTo8byte_eq (i : Nat) : intTo8byte i = beBytes 8 i := by
  rw [← octetsDown_eq_beBytes]; rfl

theorem intTo2byte_length (i : Nat) : (intTo2byte i).length = 2 := rfl
theorem intTo4byte_length (i : Nat) : (intTo4byte i).length = 4 := rfl
theorem intTo8byte_length (i : Nat) : (intTo8byte i).length = 8 := rfl

theorem shortToInt_of_drop {data s : Bytes} {off i : Nat} (h : data.drop off = intTo2byte i ++ s) :
    shortToInt data off = .ok (i % 65536) := by
  unfold shortToInt; rw [bytesToInt_of_drop (n := 2) h rfl, intTo2byte_eq, beNat_beBytes]; rfl

theorem longToInt_of_drop {data s : Bytes} {off i : Nat} (h : data.drop off = intTo4byte i ++ s) :
    longToInt data off = .ok (i % 4294967296) := by
  unfold longToInt; rw [bytesToInt_of_drop (n := 4) h rfl, intTo4byte_eq, beNat_beBytes]; rfl

theorem byteOf_lt {n : Nat} (h : n < 256) : byteOf n = .ok (UInt8.ofNat n) := by simp [byteOf, h]
theorem byteOf_ge {n : Nat} (h : 256 ≤ n) : byteOf n = .error .valueError := by simp [byteOf]; omega
theorem byteOf_toNat (x : UInt8) : byteOf x.toNat = .ok x := by
  rw [byteOf_lt x.toNat_lt]; simp

theorem toNat_ofNat_lt {n : Nat} (h : n < 256) : (UInt8.ofNat n).toNat = n := by
  rw [UInt8.toNat_ofNat']; exact Nat.mod_eq_of_lt h

theorem ceil8_mono {a b : Nat} (h : a ≤ b) : ceil8 a ≤ ceil8 b := by unfold ceil8; omega

/-- `i` fits in the octets counted from its true bit length. -/
theorem lt_pow_ceil8 {i k : Nat} (h : i < 2 ^ k) : i < 256 ^ ceil8 k := by
  rw [show 256 = 2 ^ 8 from rfl, ← pow_mul]
  exact lt_of_lt_of_le h (Nat.pow_le_pow_right (by decide) (by unfold ceil8; omega))

@[simp] theorem except_bind_ok {ε α β : Type} (a : α) (f : α → Except ε β) : (Except.ok a >>= f) = f a := rfl
@[simp] theorem except_bind_error {ε α β : Type} (e : ε) (f : α → Except ε β) :
    ((Except.error e : Except ε α) >>= f) = Except.error e := rfl
@[simp] theorem except_pure {ε α : Type} (a : α) : (pure a : Except ε α) = Except.ok a := rfl

theorem except_bind_eq_ok {ε α β : Type} {x : Except ε α} {f : α → Except ε β} {b : β} :
    (x >>= f) = .ok b ↔ ∃ a, x = .ok a ∧ f a = .ok b := by
  cases x <;> simp

end Pgp
