import Verif.Model.Canon
import Verif.Spec.Canon
import Verif.Lemmas.Text
/-
Lemmas about the line-ending substitution.
-/
namespace Pgp
open Spec

theorem canonSub_length (b : Bytes) : (canonSub b).length = b.length := by
  induction b using canonSub.induct with
  | case1 => rfl
  | case2 => rfl
  | case3 x y rest h ih => rw [canonSub, if_pos h]; simp [ih]
  | case4 x y rest h ih => rw [canonSub, if_neg h]; simp only [List.length_cons, ih]

/-- The substitution splits after any prefix that contains no line ending octet and is followed by none. -/
theorem canonSub_plain_cons (x y : UInt8) (rest : Bytes) (hx : x ≠ 13) (hy : y ≠ 10) :
    canonSub (x :: y :: rest) = x :: canonSub (y :: rest) := by
  rw [canonSub, if_neg (by simp [hx, hy])]

theorem canonSub_crlf (rest : Bytes) : canonSub (13 :: 10 :: rest) = 13 :: canonSub (10 :: rest) := by
  rw [canonSub, if_neg (by decide)]

theorem canonSub_plain (pre : Bytes) (y : UInt8) (rest : Bytes) (hp : ∀ x ∈ pre, x ≠ 13 ∧ x ≠ 10) (hy : y ≠ 10) :
    canonSub (pre ++ y :: rest) = pre ++ canonSub (y :: rest) := by
  induction pre with
  | nil => rfl
  | cons x pre ih =>
    have hx := hp x (by simp)
    have ih := ih (fun z hz => hp z (by simp [hz]))
    cases pre with
    | nil => exact canonSub_plain_cons _ _ _ hx.1 hy
    | cons z pre =>
      have hz := hp z (by simp)
      rw [List.cons_append, List.cons_append, canonSub_plain_cons _ _ _ hx.1 hz.2, List.cons_append]
      rw [List.cons_append, List.cons_append] at ih
      rw [ih]; rfl

/-- Two continuations that agree after substitution on their own and after any one octet agree in every context. -/
theorem canonSub_context (pre p q : Bytes) (h0 : canonSub p = canonSub q)
    (hb : ∀ x : UInt8, canonSub (x :: p) = canonSub (x :: q)) : canonSub (pre ++ p) = canonSub (pre ++ q) := by
  match pre with
  | [] => exact h0
  | [x] => exact hb x
  | x :: y :: pre =>
    simp only [List.cons_append]
    rw [canonSub, canonSub]
    split
    · rw [canonSub_context pre p q h0 hb]
    · have := canonSub_context (y :: pre) p q h0 hb
      simp only [List.cons_append] at this
      rw [this]
termination_by pre.length

theorem canonSub_char_lost (pre post : Bytes) (a b : UInt8) (ha : a ≠ 13 ∧ a ≠ 10) (hb : b ≠ 13 ∧ b ≠ 10) :
    canonSub (pre ++ a :: 10 :: post) = canonSub (pre ++ b :: 10 :: post) := by
  have h0 : ∀ c : UInt8, c ≠ 13 → canonSub (c :: 10 :: post) = 13 :: 10 :: canonSub post := by
    intro c hc
    rw [canonSub, if_pos (by simp [hc])]
  refine canonSub_context _ _ _ (by rw [h0 a ha.1, h0 b hb.1]) fun x => ?_
  by_cases hx : x = 13
  · rw [canonSub, if_pos (by simp [hx, ha.2]), canonSub, if_pos (by simp [hx, hb.2])]
  · rw [canonSub_plain_cons x a _ hx ha.2, canonSub_plain_cons x b _ hx hb.2, h0 a ha.1, h0 b hb.1]

/-- The octet after a bare CR is lost too, when that CR is not itself swallowed. -/
theorem canonSub_after_cr (pre post : Bytes) (a b : UInt8) (hp : ∀ x ∈ pre, x ≠ 13 ∧ x ≠ 10) (ha : a ≠ 10) (hb : b ≠ 10) :
    canonSub (pre ++ 13 :: a :: post) = canonSub (pre ++ 13 :: b :: post) := by
  rw [canonSub_plain pre _ _ hp (by decide), canonSub_plain pre _ _ hp (by decide), canonSub, if_pos (by simp [ha]),
    canonSub, if_pos (by simp [hb])]

/-- Structural form of canonical lines. -/
def canonR : Bytes → Prop
  | [] => True
  | 13 :: 10 :: rest => canonR rest
  | x :: rest => (x ≠ 13 ∧ x ≠ 10) ∧ canonR rest

theorem canonR_cons_crlf (rest : Bytes) : canonR (13 :: 10 :: rest) ↔ canonR rest := by rw [canonR]

theorem canonR_cons (x : UInt8) (rest : Bytes) (h : ∀ t, ¬ (x = 13 ∧ rest = 10 :: t)) :
    canonR (x :: rest) ↔ (x ≠ 13 ∧ x ≠ 10) ∧ canonR rest := by
  rw [canonR]
  intro t h1 h2; exact h t ⟨h1, h2⟩

theorem canonSub_of_canonR (b : Bytes) (h : canonR b) : canonSub b = b := by
  induction b using canonR.induct with
  | case1 => rfl
  | case2 rest ih =>
    rw [canonSub_crlf]
    rw [canonR_cons_crlf] at h
    have ih := ih h
    cases rest with
    | nil => rfl
    | cons y rest =>
      have hy : y ≠ 10 := by
        rintro rfl
        rw [canonR_cons _ _ (by rintro t ⟨h1, -⟩; exact absurd h1 (by decide))] at h
        exact h.1.2 rfl
      rw [canonSub_plain_cons _ _ _ (by decide) hy, ih]
  | case3 x rest hne ih =>
    rw [canonR_cons _ _ (by rintro t ⟨h1, h2⟩; exact hne t h1 h2)] at h
    have ih := ih h.2
    cases rest with
    | nil => rfl
    | cons y rest =>
      have hy : y ≠ 10 := by
        rintro rfl
        have := h.2
        rw [canonR_cons _ _ (by rintro t ⟨h1, -⟩; exact absurd h1 (by decide))] at this
        exact this.1.2 rfl
      rw [canonSub_plain_cons _ _ _ h.1.1 hy, ih]

theorem canonicalForm_cons (x : UInt8) (rest : Bytes) (h : ∀ t, ¬ (x = 13 ∧ rest = 10 :: t)) :
    canonicalForm (x :: rest) = if x = 13 ∨ x = 10 then 13 :: 10 :: canonicalForm rest else x :: canonicalForm rest := by
  rw [canonicalForm]
  intro t h1 h2; exact h t ⟨h1, h2⟩

theorem canonicalForm_crlf (rest : Bytes) : canonicalForm (13 :: 10 :: rest) = 13 :: 10 :: canonicalForm rest := by
  rw [canonicalForm]

theorem canonicalForm_length_le (b : Bytes) : b.length ≤ (canonicalForm b).length := by
  induction b using canonR.induct with
  | case1 => simp
  | case2 rest ih => rw [canonicalForm_crlf]; simpa using ih
  | case3 x rest hne ih =>
    rw [canonicalForm_cons _ _ (by rintro t ⟨h1, h2⟩; exact hne t h1 h2)]
    split <;> simp <;> omega

theorem canonR_of_length (b : Bytes) (h : (canonicalForm b).length = b.length) : canonR b := by
  induction b using canonR.induct with
  | case1 => trivial
  | case2 rest ih => rw [canonicalForm_crlf] at h; rw [canonR_cons_crlf]; exact ih (by simpa using h)
  | case3 x rest hne ih =>
    have hne' : ∀ t, ¬ (x = 13 ∧ rest = 10 :: t) := by rintro t ⟨h1, h2⟩; exact hne t h1 h2
    rw [canonicalForm_cons _ _ hne'] at h
    rw [canonR_cons _ _ hne']
    have := canonicalForm_length_le rest
    split at h
    · simp at h; omega
    · rename_i hx
      exact ⟨by simpa using hx, ih (by simpa using h)⟩

theorem canonicalForm_of_canonR (b : Bytes) (h : canonR b) : canonicalForm b = b := by
  induction b using canonR.induct with
  | case1 => rfl
  | case2 rest ih => rw [canonicalForm_crlf, ih ((canonR_cons_crlf _).mp h)]
  | case3 x rest hne ih =>
    have hne' : ∀ t, ¬ (x = 13 ∧ rest = 10 :: t) := by rintro t ⟨h1, h2⟩; exact hne t h1 h2
    rw [canonR_cons _ _ hne'] at h
    rw [canonicalForm_cons _ _ hne', if_neg (by simpa using h.1), ih h.2]

/-- Canonical lines, where the first octet is allowed to be an LF. -/
theorem canonR_of_lines (b : Bytes) (h : CanonicalLines b) : canonR b := by
  induction b using canonR.induct with
  | case1 => trivial
  | case2 rest ih =>
    rw [canonR_cons_crlf]
    refine ih ⟨fun pre post e => h.1 (13 :: 10 :: pre) post (by rw [e]; rfl), fun pre post e => ?_⟩
    obtain ⟨t, ht⟩ := h.2 (13 :: 10 :: pre) post (by rw [e]; rfl)
    match t, ht with
    | [], ht => simp at ht
    | [_], ht => simp at ht
    | _ :: _ :: t, ht => exact ⟨t, by simp at ht; exact ht.2.2⟩
  | case3 x rest hne ih =>
    have hne' : ∀ t, ¬ (x = 13 ∧ rest = 10 :: t) := by rintro t ⟨h1, h2⟩; exact hne t h1 h2
    rw [canonR_cons _ _ hne']
    have hx : x ≠ 13 ∧ x ≠ 10 := by
      refine ⟨?_, ?_⟩
      · rintro rfl
        obtain ⟨t, ht⟩ := h.1 [] rest rfl
        exact hne t rfl ht
      · rintro rfl
        obtain ⟨t, ht⟩ := h.2 [] rest rfl
        simp at ht
    refine ⟨hx, ih ⟨fun pre post e => h.1 (x :: pre) post (by rw [e]; rfl), fun pre post e => ?_⟩⟩
    obtain ⟨t, ht⟩ := h.2 (x :: pre) post (by rw [e]; rfl)
    match t, ht with
    | [], ht => simp at ht; exact absurd ht.1 hx.1
    | _ :: t, ht => exact ⟨t, by simp at ht; exact ht.2⟩

theorem lines_of_canonR (b : Bytes) (h : canonR b) : CanonicalLines b := by
  induction b using canonR.induct with
  | case1 => exact ⟨fun pre post e => by simp at e, fun pre post e => by simp at e⟩
  | case2 rest ih =>
    have ih := ih ((canonR_cons_crlf _).mp h)
    refine ⟨fun pre post e => ?_, fun pre post e => ?_⟩
    · match pre, e with
      | [], e => simp at e; exact ⟨rest, e.symm⟩
      | [_], e => simp at e
      | _ :: _ :: pre, e => simp at e; exact ih.1 pre post e.2.2
    · match pre, e with
      | [], e => simp at e
      | [_], e => simp at e; exact ⟨[], by simp [e.1]⟩
      | a :: b :: pre, e =>
        simp at e
        obtain ⟨t, ht⟩ := ih.2 pre post e.2.2
        exact ⟨a :: b :: t, by simp [ht]⟩
  | case3 x rest hne ih =>
    have hne' : ∀ t, ¬ (x = 13 ∧ rest = 10 :: t) := by rintro t ⟨h1, h2⟩; exact hne t h1 h2
    rw [canonR_cons _ _ hne'] at h
    have ih := ih h.2
    refine ⟨fun pre post e => ?_, fun pre post e => ?_⟩
    · match pre, e with
      | [], e => simp at e; exact absurd e.1 h.1.1
      | _ :: pre, e => simp at e; exact ih.1 pre post e.2
    · match pre, e with
      | [], e => simp at e; exact absurd e.1 h.1.2
      | a :: pre, e =>
        simp at e
        obtain ⟨t, ht⟩ := ih.2 pre post e.2
        exact ⟨a :: t, by simp [ht]⟩

theorem canonR_iff (b : Bytes) : canonR b ↔ CanonicalLines b := ⟨lines_of_canonR b, canonR_of_lines b⟩

theorem utf8Encode_append (a b : List Char) : utf8Encode (a ++ b) = utf8Encode a ++ utf8Encode b := by
  simp [utf8Encode]

theorem utf8Encode_ascii_cons (c : Char) (s : List Char) (h : c.toNat < 128) :
    utf8Encode (c :: s) = UInt8.ofNat c.toNat :: utf8Encode s := by
  simp only [utf8Encode, List.flatMap_cons]
  rw [utf8Char]
  simp [h]

end Pgp
