import Verif.Model.Text
import Verif.Lemmas.Utils
/-
UTF-8 decoding inverts encoding.
-/
namespace Pgp

theorem char_valid (c : Char) : c.toNat < 0xd800 ∨ (0xdfff < c.toNat ∧ c.toNat < 0x110000) := by
  have h := c.valid
  have e : c.toNat = c.val.toNat := rfl
  rw [e]
  simpa [UInt32.isValidChar, Nat.isValidChar] using h

theorem ofNat_toNat_char (c : Char) : Char.ofNat c.toNat = c := by simp

theorem contOctet_toNat (n : Nat) : (contOctet n).toNat = 0x80 + n % 64 := by
  unfold contOctet; rw [toNat_ofNat_lt (by omega)]

theorem contOctet_range (n : Nat) : inRange 0x80 0xbf (contOctet n) = true := by
  simp only [inRange, contOctet_toNat, Bool.and_eq_true, decide_eq_true_eq]; omega

theorem contOctet_mod (n : Nat) : (contOctet n).toNat % 64 = n % 64 := by
  rw [contOctet_toNat]; omega

theorem utf8Units_char (c : Char) (rest : Bytes) : utf8Units (utf8Char c ++ rest) = some c :: utf8Units rest := by
  have hv := char_valid c
  unfold utf8Char
  generalize hn : c.toNat = n at *
  have hc : Char.ofNat n = c := by rw [← hn]; simp
  dsimp only
  by_cases h1 : n < 0x80
  · rw [if_pos h1, List.singleton_append, utf8Units, if_pos (by rw [toNat_ofNat_lt (by omega)]; exact h1),
      toNat_ofNat_lt (by omega), hc]
  rw [if_neg h1]
  by_cases h2 : n < 0x800
  · rw [if_pos h2]
    have e : (UInt8.ofNat (0xc0 + n / 64)).toNat = 0xc0 + n / 64 := toNat_ofNat_lt (by omega)
    have hl : utf8Lead (UInt8.ofNat (0xc0 + n / 64)) = some (1, 0x80, 0xbf) := by
      unfold utf8Lead; rw [e]; dsimp only; rw [if_pos (by omega)]
    rw [List.cons_append, List.singleton_append, utf8Units, if_neg (by rw [e]; omega), hl]
    simp only [utf8Cont, contOctet_range, if_true, contOctet_mod, leadBits, e, Option.map_some, List.drop_succ_cons,
      List.drop_zero]
    rw [show (0xc0 + n / 64) % 2 ^ (6 - 1) * 64 + n % 64 = n by norm_num; omega, hc]
  rw [if_neg h2]
  by_cases h3 : n < 0x10000
  · rw [if_pos h3]
    have e : (UInt8.ofNat (0xe0 + n / 4096)).toNat = 0xe0 + n / 4096 := toNat_ofNat_lt (by omega)
    obtain ⟨lo, hi, hl, hr⟩ : ∃ lo hi, utf8Lead (UInt8.ofNat (0xe0 + n / 4096)) = some (2, lo, hi) ∧
        inRange lo hi (contOctet (n / 64)) = true := by
      unfold utf8Lead; rw [e]; dsimp only
      rw [if_neg (by omega)]
      by_cases a : n / 4096 = 0
      · rw [if_pos (by omega)]
        refine ⟨_, _, rfl, ?_⟩
        simp only [inRange, contOctet_toNat, Bool.and_eq_true, decide_eq_true_eq]; omega
      · rw [if_neg (by omega)]
        by_cases b : n / 4096 = 13
        · rw [if_pos (by omega)]
          refine ⟨_, _, rfl, ?_⟩
          simp only [inRange, contOctet_toNat, Bool.and_eq_true, decide_eq_true_eq]; omega
        · rw [if_neg (by omega), if_pos (by omega)]
          exact ⟨_, _, rfl, contOctet_range _⟩
    rw [List.cons_append, List.cons_append, List.singleton_append, utf8Units, if_neg (by rw [e]; omega), hl]
    simp only [utf8Cont, hr, contOctet_range, if_true, contOctet_mod, leadBits, e, Option.map_some, List.drop_succ_cons,
      List.drop_zero]
    rw [show ((0xe0 + n / 4096) % 2 ^ (6 - 2) * 64 + n / 64 % 64) * 64 + n % 64 = n by norm_num; omega, hc]
  · rw [if_neg h3]
    have e : (UInt8.ofNat (0xf0 + n / 262144)).toNat = 0xf0 + n / 262144 := toNat_ofNat_lt (by omega)
    obtain ⟨lo, hi, hl, hr⟩ : ∃ lo hi, utf8Lead (UInt8.ofNat (0xf0 + n / 262144)) = some (3, lo, hi) ∧
        inRange lo hi (contOctet (n / 4096)) = true := by
      unfold utf8Lead; rw [e]; dsimp only
      rw [if_neg (by omega), if_neg (by omega), if_neg (by omega), if_neg (by omega)]
      by_cases a : n / 262144 = 0
      · rw [if_pos (by omega)]
        refine ⟨_, _, rfl, ?_⟩
        simp only [inRange, contOctet_toNat, Bool.and_eq_true, decide_eq_true_eq]; omega
      · rw [if_neg (by omega)]
        by_cases b : n / 262144 = 4
        · rw [if_neg (by omega), if_pos (by omega)]
          refine ⟨_, _, rfl, ?_⟩
          simp only [inRange, contOctet_toNat, Bool.and_eq_true, decide_eq_true_eq]; omega
        · rw [if_pos (by omega)]
          exact ⟨_, _, rfl, contOctet_range _⟩
    rw [List.cons_append, List.cons_append, List.cons_append, List.singleton_append, utf8Units,
      if_neg (by rw [e]; omega), hl]
    simp only [utf8Cont, hr, contOctet_range, if_true, contOctet_mod, leadBits, e, Option.map_some, List.drop_succ_cons,
      List.drop_zero]
    rw [show (((0xf0 + n / 262144) % 2 ^ (6 - 3) * 64 + n / 4096 % 64) * 64 + n / 64 % 64) * 64 + n % 64 = n by
      norm_num; omega, hc]

theorem utf8Units_encode (s : List Char) : utf8Units (utf8Encode s) = s.map some := by
  induction s with
  | nil => simp [utf8Encode, utf8Units]
  | cons c s ih =>
    rw [show utf8Encode (c :: s) = utf8Char c ++ utf8Encode s from rfl, utf8Units_char, ih, List.map_cons]

theorem utf8DecodeReplace_encode (s : List Char) : utf8DecodeReplace (utf8Encode s) = s := by
  unfold utf8DecodeReplace; rw [utf8Units_encode]; simp

theorem mapM_ok_map {α β : Type} (s : List α) (f : α → β) (g : β → Py α) (h : ∀ x, g (f x) = .ok x) :
    (s.map f).mapM g = .ok s := by
  induction s with
  | nil => rfl
  | cons x s ih => rw [List.map_cons, List.mapM_cons, h, ih]; rfl

theorem utf8DecodeStrict_encode (s : List Char) : utf8DecodeStrict (utf8Encode s) = .ok s := by
  unfold utf8DecodeStrict; rw [utf8Units_encode]
  exact mapM_ok_map s some _ (fun _ => rfl)

theorem utf8Encode_inj {a b : List Char} (h : utf8Encode a = utf8Encode b) : a = b := by
  rw [← utf8DecodeReplace_encode a, h, utf8DecodeReplace_encode]

theorem utf8Char_length (c : Char) : 1 ≤ (utf8Char c).length ∧ (utf8Char c).length ≤ 4 := by
  unfold utf8Char; dsimp only; split
  · simp
  · split
    · simp
    · split <;> simp

theorem utf8Encode_eq_nil {s : List Char} : utf8Encode s = [] ↔ s = [] := by
  constructor
  · intro h; exact utf8Encode_inj (b := []) h
  · rintro rfl; rfl

theorem ascii_roundtrip (s : List Char) (h : ∀ c ∈ s, c.toNat < 128) :
    asciiDecodeReplace (asciiEncodeReplace s) = s := by
  unfold asciiDecodeReplace asciiEncodeReplace
  rw [List.map_map]
  conv_rhs => rw [← List.map_id s]
  apply List.map_congr_left
  intro c hc
  have := h c hc
  simp only [Function.comp, if_pos this, id]
  rw [toNat_ofNat_lt (by omega), if_pos this]; simp

theorem toNat_char {n : Nat} (h : n < 0xd800 ∨ 0xdfff < n ∧ n < 0x110000) : (Char.ofNat n).toNat = n := by
  have hv : n.isValidChar := by simpa [Nat.isValidChar] using h
  simp [Char.ofNat, hv, Char.toNat, Char.ofNatAux, UInt32.toNat]

theorem u8_eq {x : UInt8} {n : Nat} (h : x.toNat = n) : UInt8.ofNat n = x := by
  subst h; simp

theorem contOctet_of {x : UInt8} {n : Nat} (h1 : 0x80 ≤ x.toNat) (h2 : x.toNat ≤ 0xbf) (h : n % 64 = x.toNat % 64) : contOctet n = x := by
  unfold contOctet
  exact u8_eq (by omega)

theorem inRange_iff {lo hi : Nat} {x : UInt8} : inRange lo hi x = true ↔ lo ≤ x.toNat ∧ x.toNat ≤ hi := by
  simp [inRange]

/-- A lead octet with its continuation octets decodes to the character they encode. -/
theorem utf8Char_of_lead {x : UInt8} {t : Bytes} {need lo hi k n : Nat} (hx : ¬x.toNat < 0x80) (hl : utf8Lead x = some (need, lo, hi))
    (hc : utf8Cont need lo hi (leadBits need x) t = (k, some n)) : utf8Char (Char.ofNat n) ++ t.drop k = x :: t := by
  unfold utf8Lead at hl
  dsimp only at hl
  have hx' := x.toNat_lt
  split at hl
  · cases hl
    match t, hc with
    | y :: t, hc =>
      simp only [utf8Cont, leadBits] at hc
      split at hc
      · rename_i hr
        rw [inRange_iff] at hr
        cases hc
        have e : (Char.ofNat (x.toNat % 2 ^ (6 - 1) * 64 + y.toNat % 64)).toNat = x.toNat % 2 ^ (6 - 1) * 64 + y.toNat % 64 := toNat_char (by norm_num; omega)
        norm_num at e ⊢
        unfold utf8Char
        dsimp only
        rw [e, if_neg (by omega), if_pos (by omega), u8_eq (x := x) (by omega), contOctet_of (x := y) (by omega) (by omega) (by omega)]
        rfl
      · cases hc
  have three : ∀ lo hi, (lo, hi) = (0xa0, 0xbf) ∧ x.toNat = 0xe0 ∨ (lo, hi) = (0x80, 0x9f) ∧ x.toNat = 0xed ∨ (lo, hi) = (0x80, 0xbf) ∧ 0xe1 ≤ x.toNat ∧ x.toNat ≤ 0xef ∧ x.toNat ≠ 0xed →
      utf8Cont 2 lo hi (leadBits 2 x) t = (k, some n) → utf8Char (Char.ofNat n) ++ t.drop k = x :: t := by
    intro lo hi hlo hc
    match t, hc with
    | [y], hc => simp only [utf8Cont] at hc; split at hc <;> cases hc
    | y :: z :: t, hc =>
      simp only [utf8Cont, leadBits] at hc
      split at hc
      · rename_i hr
        rw [inRange_iff] at hr
        split at hc
        · rename_i hr2
          rw [inRange_iff] at hr2
          cases hc
          simp only [Prod.mk.injEq] at hlo
          have e : (Char.ofNat ((x.toNat % 2 ^ (6 - 2) * 64 + y.toNat % 64) * 64 + z.toNat % 64)).toNat = (x.toNat % 2 ^ (6 - 2) * 64 + y.toNat % 64) * 64 + z.toNat % 64 := toNat_char (by norm_num; omega)
          norm_num at e ⊢
          unfold utf8Char
          dsimp only
          rw [e, if_neg (by omega), if_neg (by omega), if_pos (by omega), u8_eq (x := x) (by omega), contOctet_of (x := y) (by omega) (by omega) (by omega), contOctet_of (x := z) (by omega) (by omega) (by omega)]
          rfl
        · cases hc
      · cases hc
  have four : ∀ lo hi, (lo, hi) = (0x90, 0xbf) ∧ x.toNat = 0xf0 ∨ (lo, hi) = (0x80, 0x8f) ∧ x.toNat = 0xf4 ∨ (lo, hi) = (0x80, 0xbf) ∧ 0xf1 ≤ x.toNat ∧ x.toNat ≤ 0xf3 →
      utf8Cont 3 lo hi (leadBits 3 x) t = (k, some n) → utf8Char (Char.ofNat n) ++ t.drop k = x :: t := by
    intro lo hi hlo hc
    match t, hc with
    | [y], hc => simp only [utf8Cont] at hc; split at hc <;> cases hc
    | [y, z], hc => simp only [utf8Cont] at hc; (repeat' split at hc) <;> cases hc
    | y :: z :: w :: t, hc =>
      simp only [utf8Cont, leadBits] at hc
      split at hc
      · rename_i hr
        rw [inRange_iff] at hr
        split at hc
        · rename_i hr2
          rw [inRange_iff] at hr2
          split at hc
          · rename_i hr3
            rw [inRange_iff] at hr3
            cases hc
            simp only [Prod.mk.injEq] at hlo
            have e : (Char.ofNat (((x.toNat % 2 ^ (6 - 3) * 64 + y.toNat % 64) * 64 + z.toNat % 64) * 64 + w.toNat % 64)).toNat = ((x.toNat % 2 ^ (6 - 3) * 64 + y.toNat % 64) * 64 + z.toNat % 64) * 64 + w.toNat % 64 := toNat_char (by norm_num; omega)
            norm_num at e ⊢
            unfold utf8Char
            dsimp only
            rw [e, if_neg (by omega), if_neg (by omega), if_neg (by omega), u8_eq (x := x) (by omega), contOctet_of (x := y) (by omega) (by omega) (by omega), contOctet_of (x := z) (by omega) (by omega) (by omega), contOctet_of (x := w) (by omega) (by omega) (by omega)]
            rfl
          · cases hc
        · cases hc
      · cases hc
  split at hl
  · cases hl; exact three _ _ (by simp; try omega) hc
  split at hl
  · cases hl; exact three _ _ (by simp; try omega) hc
  split at hl
  · cases hl; exact three _ _ (by simp; omega) hc
  split at hl
  · cases hl; exact four _ _ (by simp; try omega) hc
  split at hl
  · cases hl; exact four _ _ (by simp; omega) hc
  split at hl
  · cases hl; exact four _ _ (by simp; try omega) hc
  · cases hl

theorem utf8Encode_units (b : Bytes) : ∀ s : List Char, utf8Units b = s.map some → utf8Encode s = b := by
  induction hn : b.length using Nat.strongRecOn generalizing b with
  | ind m ih =>
    intro s h
    match b, hn with
    | [], _ =>
      rw [utf8Units] at h
      rw [List.map_eq_nil_iff.mp h.symm]; rfl
    | x :: t, hn =>
      rw [utf8Units] at h
      split at h
      · rename_i hx
        match s, h with
        | c :: s, h =>
          simp only [List.map_cons, List.cons.injEq, Option.some.injEq] at h
          obtain ⟨rfl, h⟩ := h
          rw [show utf8Encode (Char.ofNat x.toNat :: s) = utf8Char (Char.ofNat x.toNat) ++ utf8Encode s from rfl, ih t.length (by simp at hn; omega) t rfl s h]
          unfold utf8Char
          dsimp only
          rw [toNat_char (by omega), if_pos hx, u8_eq (x := x) rfl]
          rfl
      · rename_i hx
        cases hl : utf8Lead x with
        | none =>
          rw [hl] at h
          cases s <;> simp at h
        | some l =>
          obtain ⟨need, lo, hi⟩ := l
          rw [hl] at h
          dsimp only at h
          cases hc : utf8Cont need lo hi (leadBits need x) t with
          | mk k r =>
          rw [hc] at h
          dsimp only at h
          match s, h with
          | c :: s, h =>
            simp only [List.map_cons, List.cons.injEq] at h
            obtain ⟨h1, h2⟩ := h
            cases r with
            | none => cases h1
            | some n =>
              simp only [Option.map_some, Option.some.injEq] at h1
              subst h1
              rw [show utf8Encode (Char.ofNat n :: s) = utf8Char (Char.ofNat n) ++ utf8Encode s from rfl,
                ih (t.drop k).length (by simp at hn ⊢; omega) (t.drop k) rfl s h2]
              exact utf8Char_of_lead hx hl hc

theorem utf8Encode_strict {b : Bytes} {s : List Char} (h : utf8DecodeStrict b = .ok s) : utf8Encode s = b := by
  apply utf8Encode_units
  unfold utf8DecodeStrict at h
  generalize utf8Units b = l at h
  induction l generalizing s with
  | nil => cases h; rfl
  | cons a l ih =>
    rw [List.mapM_cons] at h
    obtain ⟨c, hc, h⟩ := except_bind_eq_ok.mp h
    obtain ⟨s', hs, h⟩ := except_bind_eq_ok.mp h
    cases h
    cases a with
    | none => cases hc
    | some a => cases hc; rw [ih hs]; rfl
end Pgp
