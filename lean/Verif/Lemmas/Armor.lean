import Verif.Model.Armor
import Verif.Spec.Armor
import Verif.Lemmas.Utils
/-
Helper lemmas for ASCII armor.
-/
namespace Pgp
open Spec

theorem isLineBreak_iff (c : Char) : isLineBreak c = true ↔ c ∈ lineTerminators := by
  simp [isLineBreak, lineTerminators, or_assoc]

theorem oneLine_cons {c : Char} {s : Str} : OneLine (c :: s) ↔ c ∉ lineTerminators ∧ OneLine s := by
  simp [OneLine]

theorem oneLine_append {a b : Str} : OneLine (a ++ b) ↔ OneLine a ∧ OneLine b := by
  simp only [OneLine, List.mem_append]
  constructor
  · intro h; exact ⟨fun c hc => h c (.inl hc), fun c hc => h c (.inr hc)⟩
  · rintro ⟨h1, h2⟩ c (hc | hc); exacts [h1 c hc, h2 c hc]

theorem splitlinesAux_step {acc t : Str} {c : Char} (h : c ∉ lineTerminators) :
    splitlinesAux acc (c :: t) = splitlinesAux (c :: acc) t := by
  have h1 : isLineBreak c = false := by
    rw [← Bool.not_eq_true, isLineBreak_iff]; exact h
  have h2 : c ≠ '\r' := by rintro rfl; exact h (by decide)
  rw [splitlinesAux]
  · simp [h1]
  · intro t' hc; exact absurd hc h2

theorem splitlinesAux_line (l : Str) (h : OneLine l) (acc t : Str) :
    splitlinesAux acc (l ++ t) = splitlinesAux (l.reverse ++ acc) t := by
  induction l generalizing acc with
  | nil => rfl
  | cons c l ih =>
    rw [oneLine_cons] at h
    rw [List.cons_append, splitlinesAux_step h.1, ih h.2]; simp

/-- End-of-line sequences the writer or a mail system may use. -/
def EolOk (eol : Str) : Prop := eol = ['\n'] ∨ eol = ['\r', '\n']

theorem splitlines_textOf {eol : Str} (he : EolOk eol) (ls : List Str) (h : ∀ l ∈ ls, OneLine l) (t : Str) :
    splitlines (textOf eol ls ++ t) = ls ++ splitlines t := by
  unfold splitlines
  induction ls with
  | nil => rfl
  | cons l ls ih =>
    have h1 := h l (by simp)
    have ih := ih (fun x hx => h x (by simp [hx]))
    have : textOf eol (l :: ls) ++ t = l ++ (eol ++ (textOf eol ls ++ t)) := by simp [textOf]
    rw [this, splitlinesAux_line l h1]
    rcases he with rfl | rfl
    · rw [List.singleton_append, splitlinesAux]
      · simp [isLineBreak, ih]
      · intro t' hc; exact absurd hc (by decide)
    · rw [List.cons_append, List.singleton_append, splitlinesAux]
      simp [ih]

theorem splitlines_textOf_nil {eol : Str} (he : EolOk eol) (ls : List Str) (h : ∀ l ∈ ls, OneLine l) :
    splitlines (textOf eol ls) = ls := by
  have := splitlines_textOf he ls h []
  simpa [splitlines, splitlinesAux] using this

/-! ### base64 -/

theorem b64_table : ∀ n : Fin 64, b64Val (b64Char n.val) = some n.val ∧ b64Char n.val ≠ '=' ∧
    (b64Char n.val).toNat < 128 ∧ b64Char n.val ∉ lineTerminators := by decide +kernel

theorem b64Val_b64Char {n : Nat} (h : n < 64) : b64Val (b64Char n) = some n := (b64_table ⟨n, h⟩).1
theorem b64Char_ne {n : Nat} (h : n < 64) : b64Char n ≠ '=' := (b64_table ⟨n, h⟩).2.1

theorem b64encode_chars (d : Bytes) : ∀ c ∈ b64encode d, c.toNat < 128 ∧ c ∉ lineTerminators := by
  fun_induction b64encode d with
  | case1 => simp
  | case2 a =>
    have := a.toNat_lt
    have h1 := (b64_table ⟨a.toNat / 4, by omega⟩).2.2
    have h2 := (b64_table ⟨a.toNat % 4 * 16, by omega⟩).2.2
    intro c hc; simp at hc
    rcases hc with rfl | rfl | rfl
    · exact h1
    · exact h2
    · decide
  | case3 a b =>
    have := a.toNat_lt
    have := b.toNat_lt
    have h1 := (b64_table ⟨a.toNat / 4, by omega⟩).2.2
    have h2 := (b64_table ⟨a.toNat % 4 * 16 + b.toNat / 16, by omega⟩).2.2
    have h3 := (b64_table ⟨b.toNat % 16 * 4, by omega⟩).2.2
    intro c hc; simp at hc
    rcases hc with rfl | rfl | rfl | rfl
    · exact h1
    · exact h2
    · exact h3
    · decide
  | case4 a b c t ih =>
    have := a.toNat_lt
    have := b.toNat_lt
    have := c.toNat_lt
    have h1 := (b64_table ⟨a.toNat / 4, by omega⟩).2.2
    have h2 := (b64_table ⟨a.toNat % 4 * 16 + b.toNat / 16, by omega⟩).2.2
    have h3 := (b64_table ⟨b.toNat % 16 * 4 + c.toNat / 64, by omega⟩).2.2
    have h4 := (b64_table ⟨c.toNat % 64, by omega⟩).2.2
    intro c hc; simp at hc
    rcases hc with rfl | rfl | rfl | rfl | hc
    · exact h1
    · exact h2
    · exact h3
    · exact h4
    · exact ih c hc

theorem lowByte_eq {n : Nat} {x : UInt8} (h : n % 256 = x.toNat) : lowByte n = x := by
  unfold lowByte; rw [h]; simp

theorem a2b_0 {n : Nat} (h : n < 64) (t : Str) (l p : Nat) : a2bLoop (b64Char n :: t) 0 l p = a2bLoop t 1 n 0 := by
  rw [a2bLoop, if_neg (b64Char_ne h), b64Val_b64Char h]; rfl
theorem a2b_1 {n : Nat} (h : n < 64) (t : Str) (l p : Nat) :
    a2bLoop (b64Char n :: t) 1 l p = (a2bLoop t 2 (n % 16) 0).map (lowByte (l * 4 + n / 16) :: ·) := by
  rw [a2bLoop, if_neg (b64Char_ne h), b64Val_b64Char h]; dsimp only; cases a2bLoop t 2 (n % 16) 0 <;> rfl
theorem a2b_2 {n : Nat} (h : n < 64) (t : Str) (l p : Nat) :
    a2bLoop (b64Char n :: t) 2 l p = (a2bLoop t 3 (n % 4) 0).map (lowByte (l * 16 + n / 4) :: ·) := by
  rw [a2bLoop, if_neg (b64Char_ne h), b64Val_b64Char h]; dsimp only; cases a2bLoop t 3 (n % 4) 0 <;> rfl
theorem a2b_3 {n : Nat} (h : n < 64) (t : Str) (l p : Nat) :
    a2bLoop (b64Char n :: t) 3 l p = (a2bLoop t 0 0 0).map (lowByte (l * 64 + n) :: ·) := by
  rw [a2bLoop, if_neg (b64Char_ne h), b64Val_b64Char h]; dsimp only; cases a2bLoop t 0 0 0 <;> rfl

theorem a2b_encode (d : Bytes) : a2bLoop (b64encode d) 0 0 0 = .ok d := by
  fun_induction b64encode d with
  | case1 => rfl
  | case2 a =>
    have := a.toNat_lt
    rw [a2b_0 (by omega), a2b_1 (by omega)]
    have : lowByte (a.toNat / 4 * 4 + a.toNat % 4 * 16 / 16) = a := lowByte_eq (by omega)
    rw [this]
    simp [a2bLoop, Except.map]
  | case3 a b =>
    have := a.toNat_lt
    have := b.toNat_lt
    rw [a2b_0 (by omega), a2b_1 (by omega), a2b_2 (by omega)]
    rw [show lowByte (a.toNat / 4 * 4 + (a.toNat % 4 * 16 + b.toNat / 16) / 16) = a from lowByte_eq (by omega),
      show lowByte ((a.toNat % 4 * 16 + b.toNat / 16) % 16 * 16 + b.toNat % 16 * 4 / 4) = b from lowByte_eq (by omega)]
    simp [a2bLoop, Except.map]
  | case4 a b c t ih =>
    have := a.toNat_lt
    have := b.toNat_lt
    have := c.toNat_lt
    rw [a2b_0 (by omega), a2b_1 (by omega), a2b_2 (by omega), a2b_3 (by omega), ih]
    rw [show lowByte (a.toNat / 4 * 4 + (a.toNat % 4 * 16 + b.toNat / 16) / 16) = a from lowByte_eq (by omega),
      show lowByte ((a.toNat % 4 * 16 + b.toNat / 16) % 16 * 16 + (b.toNat % 16 * 4 + c.toNat / 64) / 4) = b
        from lowByte_eq (by omega),
      show lowByte ((b.toNat % 16 * 4 + c.toNat / 64) % 4 * 64 + c.toNat % 64) = c from lowByte_eq (by omega)]
    rfl

theorem b64_roundtrip (d : Bytes) : b64decode (b64encode d) = .ok d := by
  unfold b64decode
  rw [if_pos, a2b_encode]
  rw [List.all_eq_true]
  intro c hc; simpa using (b64encode_chars d c hc).1

theorem b64encode_drop (d : Bytes) (k : Nat) : (b64encode d).drop (4 * k) = b64encode (d.drop (3 * k)) := by
  induction k generalizing d with
  | zero => rfl
  | succ k ih =>
    have e1 : 4 * (k + 1) = 4 * k + 4 := by ring
    have e2 : 3 * (k + 1) = 3 * k + 3 := by ring
    rw [e1, e2]
    match d with
    | [] => simp [b64encode]
    | [a] => simp [b64encode]
    | [a, b] => simp [b64encode]
    | a :: b :: c :: t => simp only [b64encode, List.drop_succ_cons]; exact ih t

theorem b64encode_head (d : Bytes) : (b64encode d).take 1 ≠ ['='] := by
  match d with
  | [] => simp [b64encode]
  | [a] => have := a.toNat_lt; simpa [b64encode] using b64Char_ne (n := a.toNat / 4) (by omega)
  | [a, b] => have := a.toNat_lt; simpa [b64encode] using b64Char_ne (n := a.toNat / 4) (by omega)
  | a :: b :: c :: t => have := a.toNat_lt; simpa [b64encode] using b64Char_ne (n := a.toNat / 4) (by omega)

/-! ### line wrapping -/

theorem wrap_flatten_aux (s : Str) (n k : Nat) (h : s.length ≤ 72 * (n + k)) :
    ((List.range' k n).map fun l => slice s (l * 72) (l * 72 + 72)).flatten = s.drop (72 * k) := by
  induction n generalizing k with
  | zero => simp only [Nat.zero_add] at h; simp [List.drop_eq_nil_of_le h]
  | succ n ih =>
    rw [List.range'_succ, List.map_cons, List.flatten_cons, ih (k + 1) (by omega)]
    have e : 72 * (k + 1) = 72 * k + 72 := by ring
    have e2 : k * 72 = 72 * k := by ring
    unfold slice
    rw [e, e2, ← List.drop_drop, Nat.add_sub_cancel_left, List.take_append_drop]

theorem wrap72_flatten (s : Str) : (wrap72 s).flatten = s := by
  unfold wrap72
  rw [List.range_eq_range', wrap_flatten_aux _ _ _ (by omega)]; rfl

theorem wrap72_length (s : Str) : ∀ l ∈ wrap72 s, l.length ≤ 72 := by
  intro l hl
  simp only [wrap72, List.mem_map] at hl
  obtain ⟨i, -, rfl⟩ := hl
  simp [slice]

theorem wrap72_head (d : Bytes) : ∀ l ∈ wrap72 (b64encode d), l.take 1 ≠ ['='] := by
  intro l hl
  simp only [wrap72, List.mem_map] at hl
  obtain ⟨i, -, rfl⟩ := hl
  unfold slice
  rw [show i * 72 = 4 * (18 * i) by ring, b64encode_drop, List.take_take,
    show min 1 (4 * (18 * i) + 72 - 4 * (18 * i)) = 1 by omega]
  exact b64encode_head _

theorem wrap72_mem (s : Str) : ∀ l ∈ wrap72 s, ∀ c ∈ l, c ∈ s := by
  intro l hl c hc
  have : c ∈ (wrap72 s).flatten := List.mem_flatten.mpr ⟨l, hl, hc⟩
  rwa [wrap72_flatten] at this

theorem dataLoop_ok (ds : List Str) (c : Str) (rest : List Str) (h : ∀ l ∈ ds, l.take 1 ≠ ['='])
    (hc : c.take 1 = ['=']) : dataLoop (ds ++ c :: rest) = .ok (ds, c, rest) := by
  induction ds with
  | nil => rw [List.nil_append, dataLoop, if_pos hc]
  | cons l ds ih =>
    rw [List.cons_append, dataLoop, if_neg (h l (by simp)), ih (fun x hx => h x (by simp [hx]))]; rfl

/-! ### decimal numbers -/

theorem digit_table : ∀ n : Fin 10, (Char.ofNat (48 + n.val)).toNat - 48 = n.val ∧
    isAsciiDigit (Char.ofNat (48 + n.val)) = true ∧ Char.ofNat (48 + n.val) ∉ lineTerminators ∧
    (n.val ≠ 0 → '1' ≤ Char.ofNat (48 + n.val) ∧ Char.ofNat (48 + n.val) ≤ '9') := by decide +kernel

theorem decValue_append (s : Str) (c : Char) : decValue (s ++ [c]) = decValue s * 10 + (c.toNat - 48) := by
  simp [decValue]

theorem decimal_step (n : Nat) (h : ¬ n < 10) : decimal n = decimal (n / 10) ++ [Char.ofNat (48 + n % 10)] := by
  unfold decimal; rw [decRev]; simp [h]

theorem decimal_small (n : Nat) (h : n < 10) : decimal n = [Char.ofNat (48 + n)] := by
  unfold decimal; rw [decRev]; simp [h]

theorem decimal_facts (n : Nat) : decValue (decimal n) = n ∧ (∀ c ∈ decimal n, isAsciiDigit c = true) ∧
    OneLine (decimal n) ∧ (0 < n → ∃ c s, decimal n = c :: s ∧ '1' ≤ c ∧ c ≤ '9') := by
  induction n using Nat.strong_induction_on with
  | _ n ih =>
    by_cases h : n < 10
    · have t := digit_table ⟨n, h⟩
      rw [decimal_small n h]
      refine ⟨by simpa [decValue] using t.1, by simpa using t.2.1, ?_, ?_⟩
      · intro c hc; simp at hc; subst hc; exact t.2.2.1
      · intro hn; exact ⟨_, _, rfl, t.2.2.2 (by simp only; omega)⟩
    · obtain ⟨i1, i2, i3, i4⟩ := ih (n / 10) (by omega)
      have t := digit_table ⟨n % 10, by omega⟩
      rw [decimal_step n h, decValue_append, i1]
      refine ⟨?_, ?_, ?_, ?_⟩
      · have := t.1; simp only at this; rw [this]; omega
      · intro c hc; rw [List.mem_append, List.mem_singleton] at hc
        rcases hc with hc | rfl
        · exact i2 c hc
        · exact t.2.1
      · rw [oneLine_append]; refine ⟨i3, ?_⟩
        intro c hc; simp at hc; subst hc; exact t.2.2.1
      · intro _
        obtain ⟨c, s, he, h1, h2⟩ := i4 (by omega)
        exact ⟨c, _, by rw [he]; rfl, h1, h2⟩

theorem matchNumber_decimal (n : Nat) (hn : 0 < n) (c : Char) (s : Str) (hc : isAsciiDigit c = false) :
    matchNumber (decimal n ++ c :: s) = some (n, c :: s) := by
  obtain ⟨h1, h2, -, h4⟩ := decimal_facts n
  obtain ⟨x, xs, he, g1, g2⟩ := h4 hn
  have e : decimal n ++ c :: s = x :: (xs ++ c :: s) := by rw [he]; rfl
  rw [e, matchNumber]
  rw [if_pos ⟨g1, g2⟩, ← e]
  rw [List.takeWhile_append_of_pos h2, List.dropWhile_append_of_pos h2]
  simp [hc, h1]

theorem dropPrefix_append (p s : Str) : dropPrefix p (p ++ s) = some s := by
  unfold dropPrefix; rw [if_pos (by simp)]; simp

end Pgp
