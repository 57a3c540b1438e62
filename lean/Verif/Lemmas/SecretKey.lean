import Verif.Model.SecretKey
import Verif.Spec.SecretKey
import Verif.Lemmas.EncData
import Verif.Lemmas.PublicKey
/-
Helper lemmas for secret keys.
-/
namespace Pgp
open Spec

theorem cfbTextIv_iff {E : Bytes → Bytes} {bs : Nat} (hbs : 0 < bs) (hE : BlockLen bs E) {iv : Bytes} (hiv : iv.length = bs) (plain data : Bytes) :
    CfbTextIv E bs iv plain data ↔ ∃ pad : Bytes, (plain ++ pad).length % bs = 0 ∧
      data = (cfbEnc E bs bs iv (plain ++ pad)).1.take plain.length := by
  constructor
  · rintro ⟨ps, pad, h1, h2, h3⟩
    refine ⟨pad, by rw [← h2]; exact flatten_mod ps h1, ?_⟩
    rw [← h2, cfb_spec hbs hE hbs (Nat.le_refl _) ps h1 _ hiv]
    exact h3
  · rintro ⟨pad, h1, h2⟩
    obtain ⟨ps, h3, h4⟩ := exists_blocks hbs _ h1
    refine ⟨ps, pad, h3, h4, ?_⟩
    rw [h2, ← h4, cfb_spec hbs hE hbs (Nat.le_refl _) ps h3 _ hiv]

/-- Decrypting a CFB text filled up to whole blocks with anything gives the plain text back. -/
theorem cfbTextIv_dec {E : Bytes → Bytes} {bs : Nat} (hbs : 0 < bs) (hE : BlockLen bs E) {iv : Bytes} (hiv : iv.length = bs) {plain data : Bytes}
    (h : CfbTextIv E bs iv plain data) (fill : Bytes) (hf : (data ++ fill).length % bs = 0) :
    data.length = plain.length ∧
      (cfbDec E bs bs iv (data ++ fill)).1.take plain.length = plain := by
  obtain ⟨pad, h1, h2⟩ := (cfbTextIv_iff hbs hE hiv _ _).mp h
  have hl := (cfb_length hbs hE hbs (Nat.le_refl _) (plain ++ pad) h1 iv hiv).1
  have hdl : data.length = plain.length := by rw [h2, List.length_take, hl, List.length_append]; omega
  refine ⟨hdl, ?_⟩
  set C := (cfbEnc E bs bs iv (plain ++ pad)).1 with hC
  have hCl : C.length = plain.length + pad.length := by rw [hl, List.length_append]
  have hinv := cfb_inv hbs hE hbs (Nat.le_refl _) (plain ++ pad) h1 iv hiv
  rw [← hC] at hinv
  have hCm : C.length % bs = 0 := by rw [hl]; exact h1
  have hz1 : ((data ++ fill) ++ List.replicate C.length (0 : UInt8)).length % bs = 0 := by
    rw [List.length_append, List.length_replicate, Nat.add_mod, hf, hCm]; simp
  have e1 : (cfbDec E bs bs iv ((data ++ fill) ++ List.replicate C.length 0)).1.take plain.length =
      (cfbDec E bs bs iv (data ++ fill)).1.take plain.length := by
    rw [cfbDec_append hbs hE hbs (Nat.le_refl _) _ _ hf]
    rw [List.take_append_of_le_length]
    rw [(cfbDec_length hbs hE hbs (Nat.le_refl _) _ hf _ hiv).1, List.length_append]; omega
  have e2 : (cfbDec E bs bs iv (C ++ List.replicate (data ++ fill).length 0)).1.take plain.length = plain := by
    rw [cfbDec_append hbs hE hbs (Nat.le_refl _) _ _ hCm, hinv]
    rw [List.append_assoc, List.take_left' rfl]
  rw [← e1]
  refine Eq.trans ?_ e2
  refine cfbDec_take hbs hE _ hz1 _ _ _ hiv ?_ ?_
  · simp only [List.length_append, List.length_replicate]; omega
  · rw [List.append_assoc, List.take_left' hdl, List.take_append_of_le_length (by omega)]
    exact h2

/-- Whatever is decrypted, the data is the CFB text of it. -/
theorem cfbTextIv_of_dec {E : Bytes → Bytes} {bs : Nat} (hbs : 0 < bs) (hE : BlockLen bs E) {iv : Bytes} (hiv : iv.length = bs) (data fill : Bytes)
    (hf : (data ++ fill).length % bs = 0) :
    CfbTextIv E bs iv ((cfbDec E bs bs iv (data ++ fill)).1.take data.length) data := by
  set W := (cfbDec E bs bs iv (data ++ fill)).1 with hW
  have hl : W.length = (data ++ fill).length := (cfbDec_length hbs hE hbs (Nat.le_refl _) _ hf _ hiv).1
  refine (cfbTextIv_iff hbs hE hiv _ _).mpr ⟨W.drop data.length, ?_, ?_⟩
  · rw [List.take_append_drop, hl]; exact hf
  · rw [List.take_append_drop, hW, cfb_inv' hbs hE _ hf _ hiv, ← hW, List.length_take, hl, List.length_append,
      Nat.min_eq_left (by omega)]
    exact (List.take_left' rfl).symm

/-- The standard form of an integer is what the code writes with an exact logarithm. -/
theorem intToMpi_spec (i : Nat) : intToMpi Nat.log2 i = .ok (mpi i) := by
  by_cases h : i = 0
  · subst h; decide
  · rw [intToMpi_pos _ (Nat.pos_of_ne_zero h)]
    unfold mpi bitLen
    rw [if_neg h, intTo2byte_eq, octetsDown_eq_beBytes]
    rfl

theorem mpiLoopTo_mpis {l : List Nat} (hr : ∀ i ∈ l, i < 2 ^ 65535) :
    ∀ {data rest : Bytes} {off fuel : Nat}, data.drop off = (l.map mpi).flatten ++ rest → l.length ≤ fuel →
      mpiLoopTo data (off + (l.map mpi).flatten.length) fuel off = .ok l := by
  induction l with
  | nil =>
    intro data rest off fuel hd _
    cases fuel <;> simp [mpiLoopTo]
  | cons i l ih =>
    intro data rest off fuel hd hf
    obtain ⟨e, h1, hl1, hr1⟩ := mpi_roundtrip (fl := Nat.log2) (logRoom_of_exact rfl (hr i (by simp)))
    rw [intToMpi_spec] at h1
    cases h1
    cases fuel with
    | zero => simp at hf
    | succ fuel =>
      simp only [List.map_cons, List.flatten_cons, List.length_append]
      simp only [List.map_cons, List.flatten_cons, List.append_assoc] at hd
      simp only [mpiLoopTo]
      rw [if_pos (by omega), hr1 hd]
      simp only [except_bind_ok]
      have := ih (fun j hj => hr j (by simp [hj])) (drop_add_of_drop hd) (fuel := fuel) (by simp at hf; omega)
      rw [← Nat.add_assoc, this]
      rfl

theorem mpis_length (l : List Nat) : 2 * l.length ≤ (l.map mpi).flatten.length := by
  induction l with
  | nil => simp
  | cons i l ih =>
    obtain ⟨e, h1, hl1, _⟩ := mpi_roundtrip (fl := Nat.log2) (i := 0) (.inl rfl)
    have : 2 ≤ (mpi i).length := by unfold mpi; rw [List.length_append]; simp [beBytes]
    simp only [List.map_cons, List.flatten_cons, List.length_append, List.length_cons]
    omega

end Pgp
