import Verif.Lemmas.Modes
import Verif.Lemmas.Framing
import Verif.Lemmas.Hex
import Verif.Model.EncData
import Verif.Spec.EncData
/-
Lemmas about CFB-encrypted data of any length and the integrity-protected data format.
-/
namespace Pgp
open Spec

theorem take_append_len {α} (a b : List α) (n : Nat) (h : a.length ≤ n) : (a ++ b).take n = a ++ b.take (n - a.length) := by
  rw [List.take_append, List.take_of_length_le h]

/-- What is decrypted from the first `n` octets depends only on them. -/
theorem cfbDec_take {E : Bytes → Bytes} {bs : Nat} (hbs : 0 < bs) (hE : BlockLen bs E) (c : Bytes) (hc : c.length % bs = 0) :
    ∀ (c' iv : Bytes) (n : Nat), iv.length = bs → c'.length = c.length → c.take n = c'.take n →
      (cfbDec E bs bs iv c).1.take n = (cfbDec E bs bs iv c').1.take n := by
  refine blocks_induction (P := fun c => ∀ (c' iv : Bytes) (n : Nat), iv.length = bs → c'.length = c.length → c.take n = c'.take n →
      (cfbDec E bs bs iv c).1.take n = (cfbDec E bs bs iv c').1.take n) hbs ?_ ?_ c hc
  · intro c' iv n _ hl _
    rw [List.length_nil, List.length_eq_zero_iff] at hl
    rw [hl]
  · intro b r hb hr ih c' iv n hiv hl ht
    obtain ⟨b', r', rfl, hb'⟩ : ∃ b' r', c' = b' ++ r' ∧ b'.length = bs :=
      ⟨c'.take bs, c'.drop bs, (List.take_append_drop ..).symm, by rw [List.length_take]; simp at hl; omega⟩
    have hl' : r'.length = r.length := by simp only [List.length_append] at hl; omega
    rw [cfbDec_block E bs hbs hb, cfbDec_block E bs hbs hb']
    have hEl := hE iv hiv
    have x1 : (xorB (E iv) b).length = bs := by rw [xorB_length]; omega
    have x2 : (xorB (E iv) b').length = bs := by rw [xorB_length]; omega
    by_cases hn : n ≤ bs
    · have : b.take n = b'.take n := by
        rw [List.take_append_of_le_length (by omega), List.take_append_of_le_length (by omega)] at ht
        exact ht
      dsimp only
      rw [List.take_append_of_le_length (by omega), List.take_append_of_le_length (by omega)]
      unfold xorB
      rw [List.take_zipWith, List.take_zipWith, this]
    · rw [take_append_len _ _ _ (by omega), take_append_len _ _ _ (by omega)] at ht
      obtain ⟨rfl, ht⟩ := List.append_inj ht (by omega)
      dsimp only
      rw [take_append_len _ _ _ (by omega), take_append_len _ _ _ (by omega), x1]
      congr 1
      refine ih _ _ _ ?_ hl' (by rw [hb] at ht; exact ht)
      exact cfbShift_length hiv hb (Nat.le_refl _)

/-- Decryption is inverted by encryption too. -/
theorem cfb_inv' {E : Bytes → Bytes} {bs : Nat} (hbs : 0 < bs) (hE : BlockLen bs E) (c : Bytes) (hc : c.length % bs = 0) :
    ∀ iv : Bytes, iv.length = bs → (cfbEnc E bs bs iv (cfbDec E bs bs iv c).1).1 = c := by
  refine blocks_induction (P := fun c => ∀ iv : Bytes, iv.length = bs →
    (cfbEnc E bs bs iv (cfbDec E bs bs iv c).1).1 = c) hbs (by intro iv _; simp [cfbEnc, cfbDec]) ?_ c hc
  intro b r hb hr ih iv hiv
  have hEl := hE iv hiv
  have x1 : (xorB (E iv) b).length = bs := by rw [xorB_length]; omega
  rw [cfbDec_block E bs hbs hb, cfbEnc_block E bs hbs x1, xorB_cancel _ _ (by omega), ih _ (cfbShift_length hiv hb (Nat.le_refl _))]

theorem getCfb_ok (S : BlockCiphers) {alg bl : Nat} (hb : blockLengths alg = some bl) (hpos : 0 < bl) {key iv : Bytes}
    (hk : S.keyOk alg key = true) (hiv : iv.length = bl) :
    getCfb S alg key iv = .ok ⟨.cfb, bl, bl, iv, bl, List.replicate bl 0, 0⟩ := by
  obtain ⟨n, rfl⟩ : ∃ n, bl = n + 1 := ⟨bl - 1, by omega⟩
  have ha := Nat.and_two_pow_sub_one_eq_mod ((n + 1) * 8) 3
  simp only [Nat.reducePow, Nat.reduceSub] at ha
  have ha' : ((n + 1) * 8) &&& 7 = 0 := by rw [ha]; omega
  simp only [getCfb, hb, hk, if_true, newCipher]
  simp [hiv, ha']

theorem getCfb_ok_inv (S : BlockCiphers) {alg bl : Nat} (hb : blockLengths alg = some bl) {key iv : Bytes} {o : CipherObj}
    (h : getCfb S alg key iv = .ok o) : 0 < bl ∧ S.keyOk alg key = true := by
  unfold getCfb at h
  rw [hb] at h
  split at h
  · cases h
  · cases h
  · rename_i n hn heq
    cases heq
    split at h
    · exact ⟨Nat.pos_of_ne_zero fun h0 => by subst h0; simp_all, by assumption⟩
    · cases h

section
variable (S : BlockCiphers) {alg bl : Nat} {key : Bytes}

theorem cfbEncrypt_ok {o : CipherObj} (hm : o.mode = .cfb) (hs : o.segBytes = o.bs) {d : Bytes} (hd : d.length % o.bs = 0) :
    cfbEncrypt S alg key o d = .ok ((cfbEnc (S.enc alg key) o.bs o.bs o.iv d).1,
      { o with iv := (cfbEnc (S.enc alg key) o.bs o.bs o.iv d).2, count := absDiff o.count (d.length % o.bs) }) := by
  unfold cfbEncrypt
  rw [encrypt_cfb hm (by rw [hs]; exact hd), hs]

theorem cfbDecrypt_ok {o : CipherObj} (hm : o.mode = .cfb) (hs : o.segBytes = o.bs) {d : Bytes} (hd : d.length % o.bs = 0) :
    cfbDecrypt S alg key o d = .ok ((cfbDec (S.enc alg key) o.bs o.bs o.iv d).1,
      { o with iv := (cfbDec (S.enc alg key) o.bs o.bs o.iv d).2, count := absDiff o.count (d.length % o.bs) }) := by
  unfold cfbDecrypt
  rw [decrypt_cfb hm (by rw [hs]; exact hd), hs]

theorem cfbDecrypt_inv {o o' : CipherObj} (hm : o.mode = .cfb) (hs : o.segBytes = o.bs) {d c : Bytes}
    (h : cfbDecrypt S alg key o d = .ok (c, o')) : d.length % o.bs = 0 := by
  by_contra hd
  unfold cfbDecrypt at h
  rw [decrypt_bad_segment hm (by rw [hs]; exact hd)] at h
  cases h
end

/-- The octets decrypted from data of at least two blocks: CFB decryption of the data filled up with zeros. -/
theorem decryptOctets_eq (S : BlockCiphers) {alg bl : Nat} (hb : blockLengths alg = some bl) (hbl : 2 ≤ bl) {key : Bytes}
    (hk : S.keyOk alg key = true) (hE : BlockLen bl (S.enc alg key)) (data W : Bytes) (hl : 2 * bl ≤ data.length)
    (hW : W = (cfbDec (S.enc alg key) bl bl (List.replicate bl 0) (data ++ List.replicate (bl - data.length % bl) 0)).1) :
    decryptOctets S alg key data = if (W.drop bl).take 2 ≠ (W.take bl).drop (bl - 2) then .error .valueError
      else .ok (W.take bl, (W.take data.length).drop (bl + 2)) := by
  have hpos : 0 < bl := by omega
  have hmod : data.length % bl < bl := Nat.mod_lt _ hpos
  set pad := bl - data.length % bl with hpad
  obtain ⟨x, y, z, hxyz, hx, hy⟩ : ∃ x y z, data = x ++ (y ++ z) ∧ x.length = bl ∧ y.length = bl := by
    refine ⟨data.take bl, (data.drop bl).take bl, (data.drop bl).drop bl, ?_, ?_, ?_⟩
    · rw [List.take_append_drop, List.take_append_drop]
    · rw [List.length_take]; omega
    · rw [List.length_take, List.length_drop]; omega
  have htot : (data.length + pad) % bl = 0 := by
    have := Nat.div_add_mod data.length bl
    rw [show data.length + pad = bl * (data.length / bl) + bl by omega, Nat.mul_add_mod, Nat.mod_self]
  have hzm : (z ++ List.replicate pad (0 : UInt8)).length % bl = 0 := by
    rw [List.length_append, List.length_replicate]
    have h1 : data.length = bl + (bl + z.length) := by rw [hxyz]; simp [hx, hy]
    rw [h1, show bl + (bl + z.length) + pad = (z.length + pad) + bl + bl by omega, Nat.add_mod_right, Nat.add_mod_right] at htot
    exact htot
  have s1 : slice data 0 bl = x := by rw [hxyz, ← hx]; simp [slice]
  have s2 : slice data bl (bl + bl) = y := by
    unfold slice
    rw [hxyz, List.drop_left' hx, Nat.add_sub_cancel]; exact List.take_left' hy
  have s3 : (data ++ List.replicate pad 0).drop (bl + bl) = z ++ List.replicate pad 0 := by
    rw [hxyz, List.append_assoc, List.append_assoc, ← List.append_assoc x y]
    exact List.drop_left' (by simp [hx, hy])
  unfold decryptOctets blockLengthOf
  rw [hb]
  simp only [except_bind_ok]
  rw [getCfb_ok S hb hpos hk (by simp)]
  simp only [except_bind_ok, s1, s2, ← hpad, s3]
  rw [cfbDecrypt_ok S rfl rfl (by simp [hx])]
  simp only [except_bind_ok]
  rw [cfbDecrypt_ok S rfl rfl (by simp [hy])]
  simp only [except_bind_ok]
  rw [cfbDecrypt_ok S rfl rfl hzm]
  simp only [except_bind_ok, except_pure]
  -- lengths
  have l1 := cfbDec_length hpos hE hpos (Nat.le_refl bl) x (by rw [hx, Nat.mod_self]) (List.replicate bl 0) (by simp)
  generalize hiv1 : (cfbDec (S.enc alg key) bl bl (List.replicate bl 0) x) = X at l1 ⊢
  have l2 := cfbDec_length hpos hE hpos (Nat.le_refl bl) y (by rw [hy, Nat.mod_self]) X.2 l1.2
  generalize hiv2 : (cfbDec (S.enc alg key) bl bl X.2 y) = Y at l2 ⊢
  have l3 := cfbDec_length hpos hE hpos (Nat.le_refl bl) (z ++ List.replicate pad 0) hzm Y.2 l2.2
  generalize hiv3 : (cfbDec (S.enc alg key) bl bl Y.2 (z ++ List.replicate pad 0)) = Z at l3 ⊢
  have hWX : W = X.1 ++ (Y.1 ++ Z.1) := by
    rw [hW, hxyz, List.append_assoc, List.append_assoc,
      cfbDec_append hpos hE hpos (Nat.le_refl bl) x _ (by rw [hx, Nat.mod_self]), hiv1]
    dsimp only
    rw [cfbDec_append hpos hE hpos (Nat.le_refl bl) y _ (by rw [hy, Nat.mod_self]), hiv2]
    dsimp only
    rw [hiv3]
  have lX : X.1.length = bl := by rw [l1.1, hx]
  have lY : Y.1.length = bl := by rw [l2.1, hy]
  have lZ : Z.1.length = z.length + pad := by rw [l3.1]; simp
  have e1 : (W.drop bl).take 2 = slice Y.1 0 2 := by
    rw [hWX, List.drop_left' lX, List.take_append_of_le_length (by omega)]; rfl
  have e2 : W.take bl = X.1 := by rw [hWX]; exact List.take_left' lX
  have e3 : lastN X.1 2 = X.1.drop (bl - 2) := by unfold lastN; rw [if_neg (by omega), lX]
  have hdl : data.length = bl + (bl + z.length) := by rw [hxyz]; simp [hx, hy]
  have e4 : dropLast (Y.1.drop 2 ++ Z.1) pad = (W.take data.length).drop (bl + 2) := by
    unfold dropLast
    rw [if_neg (by omega), List.drop_take, hWX, hdl]
    rw [show bl + 2 = X.1.length + 2 by omega, List.drop_append, List.drop_of_length_le (show X.1.length ≤ X.1.length + 2 by omega),
      List.nil_append, show X.1.length + 2 - X.1.length = 2 by omega, List.drop_append_of_le_length (by omega)]
    congr 1
    rw [List.length_append, List.length_drop, lY, lZ, lX]; omega
  rw [e1, e2, e3, e4]


theorem blockLengths_cases {alg bl : Nat} (h : blockLengths alg = some bl) : bl = 0 ∨ bl = 8 ∨ bl = 16 := by
  unfold blockLengths at h
  split at h <;> first | (cases h; done) | (cases h; simp)

theorem exists_blocks {n : Nat} (hn : 0 < n) (d : Bytes) (hd : d.length % n = 0) :
    ∃ ps : List Bytes, (∀ p ∈ ps, p.length = n) ∧ ps.flatten = d := by
  refine blocks_induction (P := fun d => ∃ ps : List Bytes, (∀ p ∈ ps, p.length = n) ∧ ps.flatten = d) hn ⟨[], by simp, rfl⟩ ?_ d hd
  rintro b r hb _ ⟨ps, h1, rfl⟩
  exact ⟨b :: ps, by simpa [hb] using h1, rfl⟩

theorem flatten_mod {n : Nat} (ps : List Bytes) (h : ∀ p ∈ ps, p.length = n) : ps.flatten.length % n = 0 := by
  induction ps with
  | nil => simp
  | cons p ps ih =>
    rw [List.flatten_cons, List.length_append, h p (by simp), Nat.add_mod_left]
    exact ih fun q hq => h q (by simp [hq])

/-- The specification of CFB text in terms of the modelled loop. -/
theorem cfbText_iff {E : Bytes → Bytes} {bs : Nat} (hbs : 0 < bs) (hE : BlockLen bs E) (plain data : Bytes) :
    CfbText E bs plain data ↔ ∃ pad : Bytes, (plain ++ pad).length % bs = 0 ∧
      data = (cfbEnc E bs bs (List.replicate bs 0) (plain ++ pad)).1.take plain.length := by
  constructor
  · rintro ⟨ps, pad, h1, h2, h3⟩
    refine ⟨pad, by rw [← h2]; exact flatten_mod ps h1, ?_⟩
    rw [← h2, cfb_spec hbs hE hbs (Nat.le_refl _) ps h1 _ (by simp)]
    exact h3
  · rintro ⟨pad, h1, h2⟩
    obtain ⟨ps, h3, h4⟩ := exists_blocks hbs _ h1
    refine ⟨ps, pad, h3, h4, ?_⟩
    rw [h2, ← h4, cfb_spec hbs hE hbs (Nat.le_refl _) ps h3 _ (by simp)]

/-- Decrypting a CFB text filled up to whole blocks with anything gives the plain text back. -/
theorem cfbText_dec {E : Bytes → Bytes} {bs : Nat} (hbs : 0 < bs) (hE : BlockLen bs E) {plain data : Bytes}
    (h : CfbText E bs plain data) (fill : Bytes) (hf : (data ++ fill).length % bs = 0) :
    data.length = plain.length ∧
      (cfbDec E bs bs (List.replicate bs 0) (data ++ fill)).1.take plain.length = plain := by
  obtain ⟨pad, h1, h2⟩ := (cfbText_iff hbs hE _ _).mp h
  have hl := (cfb_length hbs hE hbs (Nat.le_refl _) (plain ++ pad) h1 (List.replicate bs 0) (by simp)).1
  have hdl : data.length = plain.length := by rw [h2, List.length_take, hl, List.length_append]; omega
  refine ⟨hdl, ?_⟩
  -- fill both to a common length by appending whole blocks
  set C := (cfbEnc E bs bs (List.replicate bs 0) (plain ++ pad)).1 with hC
  have hCl : C.length = plain.length + pad.length := by rw [hl, List.length_append]
  have hinv := cfb_inv hbs hE hbs (Nat.le_refl _) (plain ++ pad) h1 (List.replicate bs 0) (by simp)
  rw [← hC] at hinv
  have hCm : C.length % bs = 0 := by rw [hl]; exact h1
  have hz1 : ((data ++ fill) ++ List.replicate C.length (0 : UInt8)).length % bs = 0 := by
    rw [List.length_append, List.length_replicate, Nat.add_mod, hf, hCm]; simp
  have e1 : (cfbDec E bs bs (List.replicate bs 0) ((data ++ fill) ++ List.replicate C.length 0)).1.take plain.length =
      (cfbDec E bs bs (List.replicate bs 0) (data ++ fill)).1.take plain.length := by
    rw [cfbDec_append hbs hE hbs (Nat.le_refl _) _ _ hf]
    rw [List.take_append_of_le_length]
    rw [(cfbDec_length hbs hE hbs (Nat.le_refl _) _ hf _ (by simp)).1, List.length_append]; omega
  have e2 : (cfbDec E bs bs (List.replicate bs 0) (C ++ List.replicate (data ++ fill).length 0)).1.take plain.length = plain := by
    rw [cfbDec_append hbs hE hbs (Nat.le_refl _) _ _ hCm, hinv]
    rw [List.append_assoc, List.take_left' rfl]
  rw [← e1]
  refine Eq.trans ?_ e2
  refine cfbDec_take hbs hE _ hz1 _ _ _ (by simp) ?_ ?_
  · simp only [List.length_append, List.length_replicate]; omega
  · rw [List.append_assoc, List.take_left' hdl, List.take_append_of_le_length (by omega)]
    exact h2

/-- Whatever is decrypted, the data is the CFB text of it. -/
theorem cfbText_of_dec {E : Bytes → Bytes} {bs : Nat} (hbs : 0 < bs) (hE : BlockLen bs E) (data fill : Bytes)
    (hf : (data ++ fill).length % bs = 0) :
    CfbText E bs ((cfbDec E bs bs (List.replicate bs 0) (data ++ fill)).1.take data.length) data := by
  set W := (cfbDec E bs bs (List.replicate bs 0) (data ++ fill)).1 with hW
  have hl : W.length = (data ++ fill).length := (cfbDec_length hbs hE hbs (Nat.le_refl _) _ hf _ (by simp)).1
  refine (cfbText_iff hbs hE _ _).mpr ⟨W.drop data.length, ?_, ?_⟩
  · rw [List.take_append_drop, hl]; exact hf
  · rw [List.take_append_drop, hW, cfb_inv' hbs hE _ hf _ (by simp), ← hW, List.length_take, hl, List.length_append,
      Nat.min_eq_left (by omega)]
    exact (List.take_left' rfl).symm

end Pgp
