import Verif.Lemmas.NoDiv
import Verif.Model.Modes
import Verif.Spec.Modes
/-
Lemmas about the cipher modes.
-/
namespace Pgp
open Spec

theorem xorB_length (a b : Bytes) : (xorB a b).length = min a.length b.length := by simp [xorB]

theorem xorB_comm (a b : Bytes) : xorB a b = xorB b a := by
  unfold xorB; rw [List.zipWith_comm]; congr 1; funext x y; exact UInt8.xor_comm ..

/-- Xoring twice with something at least as long gives the data back. -/
theorem xorB_cancel (k d : Bytes) (h : d.length ≤ k.length) : xorB k (xorB k d) = d := by
  induction d generalizing k with
  | nil => simp [xorB]
  | cons x d ih =>
    cases k with
    | nil => simp at h
    | cons y k =>
      have := ih k (by simpa using h)
      simp only [xorB, List.zipWith_cons_cons] at this ⊢
      rw [this, ← UInt8.xor_assoc, UInt8.xor_self, UInt8.zero_xor]

theorem xorB_cancel_left (d k : Bytes) (h : d.length ≤ k.length) : xorB (xorB d k) k = d := by
  rw [xorB_comm, xorB_comm d k, xorB_cancel k d h]

theorem xorB_take (k d : Bytes) (s : Nat) (h : d.length ≤ s) : xorB k d = xorB (k.take s) d := by
  induction d generalizing k s with
  | nil => simp [xorB]
  | cons x d ih =>
    cases k with
    | nil => simp [xorB]
    | cons y k =>
      cases s with
      | zero => simp at h
      | succ s =>
        have := ih k s (by simpa using h)
        simp only [xorB, List.take_succ_cons, List.zipWith_cons_cons] at this ⊢
        rw [this]

/-- Induction over data whose length is a multiple of `n`. -/
theorem blocks_induction {P : Bytes → Prop} {n : Nat} (hn : 0 < n) (h0 : P [])
    (hs : ∀ b r : Bytes, b.length = n → r.length % n = 0 → P r → P (b ++ r)) (d : Bytes) (hd : d.length % n = 0) : P d := by
  suffices h : ∀ k, ∀ d : Bytes, d.length = n * k → P d from
    h (d.length / n) d (by rw [Nat.mul_comm]; exact (Nat.div_mul_cancel (Nat.dvd_of_mod_eq_zero hd)).symm)
  intro k
  induction k with
  | zero => intro d h; rw [Nat.mul_zero, List.length_eq_zero_iff] at h; rw [h]; exact h0
  | succ k ih =>
    intro d h
    rw [Nat.mul_succ] at h
    have hr : (d.drop n).length = n * k := by rw [List.length_drop]; omega
    have := hs (d.take n) (d.drop n) (by rw [List.length_take]; omega) (by rw [hr]; exact Nat.mul_mod_right n k) (ih _ hr)
    rwa [List.take_append_drop] at this

theorem cons_of_block {n : Nat} (hn : 0 < n) {b : Bytes} (hb : b.length = n) (r : Bytes) :
    ∃ x xs, b ++ r = x :: xs ∧ (x :: xs).take n = b ∧ xs.drop (n - 1) = r := by
  cases b with
  | nil => simp at hb; omega
  | cons x b =>
    refine ⟨x, b ++ r, rfl, ?_, ?_⟩
    · rw [← List.cons_append, ← hb, List.take_left]
    · rw [show n - 1 = b.length by simp at hb; omega, List.drop_left]

theorem ecbLoop_block (f : Bytes → Bytes) {n : Nat} (hn : 0 < n) {b : Bytes} (hb : b.length = n) (r : Bytes) :
    ecbLoop f n (b ++ r) = f b ++ ecbLoop f n r := by
  obtain ⟨x, xs, h1, h2, h3⟩ := cons_of_block hn hb r
  rw [h1, ecbLoop, h2, h3]

theorem cbcEnc_block (E : Bytes → Bytes) {n : Nat} (hn : 0 < n) {b : Bytes} (hb : b.length = n) (r iv : Bytes) :
    cbcEnc E n iv (b ++ r) = (E (xorB b iv) ++ (cbcEnc E n (E (xorB b iv)) r).1, (cbcEnc E n (E (xorB b iv)) r).2) := by
  obtain ⟨x, xs, h1, h2, h3⟩ := cons_of_block hn hb r
  rw [h1, cbcEnc, h2, h3]

theorem cbcDec_block (D : Bytes → Bytes) {n : Nat} (hn : 0 < n) {b : Bytes} (hb : b.length = n) (r iv : Bytes) :
    cbcDec D n iv (b ++ r) = (xorB (D b) iv ++ (cbcDec D n b r).1, (cbcDec D n b r).2) := by
  obtain ⟨x, xs, h1, h2, h3⟩ := cons_of_block hn hb r
  rw [h1, cbcDec, h2, h3]

theorem cfbEnc_block (E : Bytes → Bytes) (bs : Nat) {n : Nat} (hn : 0 < n) {b : Bytes} (hb : b.length = n) (r iv : Bytes) :
    cfbEnc E bs n iv (b ++ r) = (xorB (E iv) b ++ (cfbEnc E bs n (cfbShift bs n iv (xorB (E iv) b)) r).1,
      (cfbEnc E bs n (cfbShift bs n iv (xorB (E iv) b)) r).2) := by
  obtain ⟨x, xs, h1, h2, h3⟩ := cons_of_block hn hb r
  rw [h1, cfbEnc, h2, h3]

theorem cfbDec_block (E : Bytes → Bytes) (bs : Nat) {n : Nat} (hn : 0 < n) {b : Bytes} (hb : b.length = n) (r iv : Bytes) :
    cfbDec E bs n iv (b ++ r) = (xorB (E iv) b ++ (cfbDec E bs n (cfbShift bs n iv b) r).1,
      (cfbDec E bs n (cfbShift bs n iv b) r).2) := by
  obtain ⟨x, xs, h1, h2, h3⟩ := cons_of_block hn hb r
  rw [h1, cfbDec, h2, h3]

/-- The block function keeps the block length. -/
def BlockLen (bs : Nat) (f : Bytes → Bytes) : Prop := ∀ b, b.length = bs → (f b).length = bs

theorem cfbShift_length {bs seg : Nat} {iv c : Bytes} (h1 : iv.length = bs) (h2 : c.length = seg) (h3 : seg ≤ bs) :
    (cfbShift bs seg iv c).length = bs := by
  unfold cfbShift; split
  · omega
  · simp; omega

section
variable {E D : Bytes → Bytes} {bs : Nat} (hbs : 0 < bs) (hE : BlockLen bs E)
include hbs hE

theorem ecb_length (d : Bytes) (hd : d.length % bs = 0) : (ecbLoop E bs d).length = d.length := by
  refine blocks_induction (P := fun d => (ecbLoop E bs d).length = d.length) hbs (by simp [ecbLoop]) ?_ d hd
  intro b r hb _ ih
  rw [ecbLoop_block E hbs hb, List.length_append, ih, hE b hb, List.length_append, hb]

theorem ecb_append (a b : Bytes) (ha : a.length % bs = 0) : ecbLoop E bs (a ++ b) = ecbLoop E bs a ++ ecbLoop E bs b := by
  refine blocks_induction (P := fun a => ecbLoop E bs (a ++ b) = ecbLoop E bs a ++ ecbLoop E bs b) hbs
    (by simp [ecbLoop]) ?_ a ha
  intro c r hc _ ih
  rw [List.append_assoc, ecbLoop_block E hbs hc, ecbLoop_block E hbs hc, ih, List.append_assoc]

theorem ecb_inv (hDE : ∀ b, b.length = bs → D (E b) = b) (d : Bytes) (hd : d.length % bs = 0) :
    ecbLoop D bs (ecbLoop E bs d) = d := by
  refine blocks_induction (P := fun d => ecbLoop D bs (ecbLoop E bs d) = d) hbs (by simp [ecbLoop]) ?_ d hd
  intro b r hb _ ih
  rw [ecbLoop_block E hbs hb, ecbLoop_block D hbs (hE b hb), hDE b hb, ih]

theorem cbc_length (d : Bytes) (hd : d.length % bs = 0) :
    ∀ iv : Bytes, iv.length = bs → (cbcEnc E bs iv d).1.length = d.length ∧ (cbcEnc E bs iv d).2.length = bs := by
  refine blocks_induction (P := fun d => ∀ iv : Bytes, iv.length = bs →
    (cbcEnc E bs iv d).1.length = d.length ∧ (cbcEnc E bs iv d).2.length = bs) hbs (by intro iv h; simp [cbcEnc, h]) ?_ d hd
  intro b r hb _ ih iv hiv
  have hx : (E (xorB b iv)).length = bs := hE _ (by rw [xorB_length]; omega)
  rw [cbcEnc_block E hbs hb]
  have := ih _ hx
  simp only [List.length_append, this.1, this.2, hx, hb, and_self]

theorem cbc_append (a b : Bytes) (ha : a.length % bs = 0) : ∀ iv,
    cbcEnc E bs iv (a ++ b) = ((cbcEnc E bs iv a).1 ++ (cbcEnc E bs (cbcEnc E bs iv a).2 b).1,
      (cbcEnc E bs (cbcEnc E bs iv a).2 b).2) := by
  refine blocks_induction (P := fun a => ∀ iv, cbcEnc E bs iv (a ++ b) = ((cbcEnc E bs iv a).1 ++
    (cbcEnc E bs (cbcEnc E bs iv a).2 b).1, (cbcEnc E bs (cbcEnc E bs iv a).2 b).2)) hbs (by intro iv; simp [cbcEnc]) ?_ a ha
  intro c r hc _ ih iv
  rw [List.append_assoc, cbcEnc_block E hbs hc, cbcEnc_block E hbs hc, ih]
  simp only [List.append_assoc]

theorem cbc_inv (hDE : ∀ b, b.length = bs → D (E b) = b) (d : Bytes) (hd : d.length % bs = 0) :
    ∀ iv : Bytes, iv.length = bs → cbcDec D bs iv (cbcEnc E bs iv d).1 = (d, (cbcEnc E bs iv d).2) := by
  refine blocks_induction (P := fun d => ∀ iv : Bytes, iv.length = bs → cbcDec D bs iv (cbcEnc E bs iv d).1 = (d,
    (cbcEnc E bs iv d).2)) hbs (by intro iv _; simp [cbcEnc, cbcDec]) ?_ d hd
  intro b r hb _ ih iv hiv
  have hxl : (xorB b iv).length = bs := by rw [xorB_length]; omega
  have hx : (E (xorB b iv)).length = bs := hE _ hxl
  rw [cbcEnc_block E hbs hb, cbcDec_block D hbs hx, ih _ hx, hDE _ hxl, xorB_cancel_left _ _ (by omega)]

theorem cbc_spec : ∀ (ps : List Bytes), (∀ p ∈ ps, p.length = bs) → ∀ iv, 
    (cbcEnc E bs iv ps.flatten).1 = (cbcBlocks E iv ps).flatten := by
  intro ps
  induction ps with
  | nil => intro _ iv; simp [cbcEnc, cbcBlocks]
  | cons p ps ih =>
    intro h iv
    rw [List.flatten_cons, cbcEnc_block E hbs (h p (by simp)), ih (fun q hq => h q (by simp [hq]))]
    rfl

theorem ecb_spec : ∀ (ps : List Bytes), (∀ p ∈ ps, p.length = bs) → ecbLoop E bs ps.flatten = (ps.map E).flatten := by
  intro ps
  induction ps with
  | nil => intro _; simp [ecbLoop]
  | cons p ps ih =>
    intro h
    rw [List.flatten_cons, ecbLoop_block E hbs (h p (by simp)), ih (fun q hq => h q (by simp [hq]))]
    rfl

variable {seg : Nat} (hseg : 0 < seg) (hsb : seg ≤ bs)
include hseg hsb

theorem cfb_length (d : Bytes) (hd : d.length % seg = 0) : ∀ iv : Bytes, iv.length = bs →
    (cfbEnc E bs seg iv d).1.length = d.length ∧ (cfbEnc E bs seg iv d).2.length = bs := by
  refine blocks_induction (P := fun d => ∀ iv : Bytes, iv.length = bs →
    (cfbEnc E bs seg iv d).1.length = d.length ∧ (cfbEnc E bs seg iv d).2.length = bs) hseg (by intro iv h; simp [cfbEnc, h]) ?_ d hd
  intro b r hb _ ih iv hiv
  have hx : (xorB (E iv) b).length = seg := by rw [xorB_length, hE iv hiv]; omega
  rw [cfbEnc_block E bs hseg hb]
  have := ih _ (cfbShift_length hiv hx hsb)
  simp only [List.length_append, this.1, this.2, hx, hb, and_self]

theorem cfb_append (a b : Bytes) (ha : a.length % seg = 0) : ∀ iv,
    cfbEnc E bs seg iv (a ++ b) = ((cfbEnc E bs seg iv a).1 ++ (cfbEnc E bs seg (cfbEnc E bs seg iv a).2 b).1,
      (cfbEnc E bs seg (cfbEnc E bs seg iv a).2 b).2) := by
  refine blocks_induction (P := fun a => ∀ iv, cfbEnc E bs seg iv (a ++ b) = ((cfbEnc E bs seg iv a).1 ++
    (cfbEnc E bs seg (cfbEnc E bs seg iv a).2 b).1, (cfbEnc E bs seg (cfbEnc E bs seg iv a).2 b).2)) hseg
    (by intro iv; simp [cfbEnc]) ?_ a ha
  intro c r hc _ ih iv
  rw [List.append_assoc, cfbEnc_block E bs hseg hc, cfbEnc_block E bs hseg hc, ih]
  simp only [List.append_assoc]

theorem cfbDec_append (a b : Bytes) (ha : a.length % seg = 0) : ∀ iv,
    cfbDec E bs seg iv (a ++ b) = ((cfbDec E bs seg iv a).1 ++ (cfbDec E bs seg (cfbDec E bs seg iv a).2 b).1,
      (cfbDec E bs seg (cfbDec E bs seg iv a).2 b).2) := by
  refine blocks_induction (P := fun a => ∀ iv, cfbDec E bs seg iv (a ++ b) = ((cfbDec E bs seg iv a).1 ++
    (cfbDec E bs seg (cfbDec E bs seg iv a).2 b).1, (cfbDec E bs seg (cfbDec E bs seg iv a).2 b).2)) hseg
    (by intro iv; simp [cfbDec]) ?_ a ha
  intro c r hc _ ih iv
  rw [List.append_assoc, cfbDec_block E bs hseg hc, cfbDec_block E bs hseg hc, ih]
  simp only [List.append_assoc]

theorem cfb_inv (d : Bytes) (hd : d.length % seg = 0) : ∀ iv : Bytes, iv.length = bs →
    cfbDec E bs seg iv (cfbEnc E bs seg iv d).1 = (d, (cfbEnc E bs seg iv d).2) := by
  refine blocks_induction (P := fun d => ∀ iv : Bytes, iv.length = bs → cfbDec E bs seg iv (cfbEnc E bs seg iv d).1 = (d,
    (cfbEnc E bs seg iv d).2)) hseg (by intro iv _; simp [cfbEnc, cfbDec]) ?_ d hd
  intro b r hb _ ih iv hiv
  have hx : (xorB (E iv) b).length = seg := by rw [xorB_length, hE iv hiv]; omega
  rw [cfbEnc_block E bs hseg hb, cfbDec_block E bs hseg hx, ih _ (cfbShift_length hiv hx hsb),
    xorB_cancel _ _ (by rw [hE iv hiv]; omega)]

theorem cfbDec_length (d : Bytes) (hd : d.length % seg = 0) : ∀ iv : Bytes, iv.length = bs →
    (cfbDec E bs seg iv d).1.length = d.length ∧ (cfbDec E bs seg iv d).2.length = bs := by
  refine blocks_induction (P := fun d => ∀ iv : Bytes, iv.length = bs →
    (cfbDec E bs seg iv d).1.length = d.length ∧ (cfbDec E bs seg iv d).2.length = bs) hseg (by intro iv h; simp [cfbDec, h]) ?_ d hd
  intro b r hb _ ih iv hiv
  have hx : (xorB (E iv) b).length = seg := by rw [xorB_length, hE iv hiv]; omega
  rw [cfbDec_block E bs hseg hb]
  have := ih _ (cfbShift_length hiv hb hsb)
  simp only [List.length_append, this.1, this.2, hx, hb, and_self]

theorem cfb_spec : ∀ (ps : List Bytes), (∀ p ∈ ps, p.length = seg) → ∀ iv : Bytes, iv.length = bs →
    (cfbEnc E bs seg iv ps.flatten).1 = (cfbBlocks E seg iv ps).flatten := by
  intro ps
  induction ps with
  | nil => intro _ iv _; simp [cfbEnc, cfbBlocks]
  | cons p ps ih =>
    intro h iv hiv
    have hp := h p (by simp)
    have hx : (xorB (E iv) p).length = seg := by rw [xorB_length, hE iv hiv]; omega
    have e : xorBlock p ((E iv).take seg) = xorB (E iv) p := by
      rw [xorB_take (E iv) p seg (by omega), xorB_comm]; rfl
    have sh : (iv ++ xorB (E iv) p).drop seg = cfbShift bs seg iv (xorB (E iv) p) := by
      unfold cfbShift
      split
      · rename_i h; rw [List.drop_append_of_le_length (by omega), List.drop_eq_nil_of_le (by omega), List.nil_append]
      · rw [List.drop_append_of_le_length (by omega)]
    rw [List.flatten_cons, cfbEnc_block E bs hseg hp, cfbBlocks, e, sh, List.flatten_cons]
    simp only []
    rw [ih (fun q hq => h q (by simp [hq])) _ (cfbShift_length hiv hx hsb)]
end

/-! ### Stream modes -/

theorem xorStream_append (k : Nat → UInt8) (a b : Bytes) :
    xorStream k (a ++ b) = xorStream k a ++ xorStream (fun i => k (a.length + i)) b := by
  unfold xorStream; rw [List.mapIdx_append]; congr 2; funext i x; rw [Nat.add_comm]

theorem xorStream_length (k : Nat → UInt8) (d : Bytes) : (xorStream k d).length = d.length := by simp [xorStream]

theorem xorStream_invol (k : Nat → UInt8) (d : Bytes) : xorStream k (xorStream k d) = d := by
  unfold xorStream
  rw [List.mapIdx_mapIdx]
  apply List.ext_getElem
  · simp
  · intro i h1 h2
    simp only [List.getElem_mapIdx, Function.comp]
    rw [← UInt8.xor_assoc, UInt8.xor_self, UInt8.zero_xor]

theorem xorB_eq_xorStream (k d : Bytes) (h : d.length ≤ k.length) (f : Nat → UInt8)
    (hf : ∀ i, i < d.length → f i = k.getD i 0) : xorB k d = xorStream f d := by
  apply List.ext_getElem
  · simp [xorB, xorStream, h]
  · intro i h1 h2
    simp only [xorStream_length] at h2
    simp only [xorB, List.getElem_zipWith, xorStream, List.getElem_mapIdx]
    rw [hf i h2, List.getD_eq_getElem?_getD, List.getElem?_eq_getElem (by omega), Option.getD_some]

theorem iter_succ {α : Type} (f : α → α) (n : Nat) (a : α) : iter f (n + 1) a = iter f n (f a) := rfl

/-- What remains of the OFB key stream in state (iv, count). -/
def ofbRem (E : Bytes → Bytes) (bs : Nat) (iv : Bytes) (count k : Nat) : UInt8 :=
  (iter E ((count + k) / bs) iv).getD ((count + k) % bs) 0

theorem ofbRem_next {E : Bytes → Bytes} {bs : Nat} (hbs : 0 < bs) {iv : Bytes} {count k : Nat} (hc : count ≤ bs) :
    ofbRem E bs iv count (bs - count + k) = ofbRem E bs (E iv) 0 k := by
  unfold ofbRem
  rw [show count + (bs - count + k) = k + bs by omega, Nat.add_div_right _ hbs, Nat.add_mod_right, Nat.zero_add]
  rfl

theorem ofb_state {E : Bytes → Bytes} {bs : Nat} (hbs : 0 < bs) (hE : BlockLen bs E) (fuel : Nat) :
    ∀ (iv : Bytes) (count : Nat) (d : Bytes), iv.length = bs → count ≤ bs →
      d.length + (if count = bs then 2 else 1) ≤ fuel →
      ∃ iv' count', ofbLoop E bs fuel iv count d = .ok (xorStream (ofbRem E bs iv count) d, iv', count') ∧
        iv'.length = bs ∧ count' ≤ bs ∧ ∀ k, ofbRem E bs iv' count' k = ofbRem E bs iv count (d.length + k) := by
  induction fuel with
  | zero => intro iv count d _ _ h; split at h <;> omega
  | succ fuel ih =>
    intro iv count d hiv hc hf
    cases hd : d with
    | nil => exact ⟨iv, count, by simp [ofbLoop, xorStream], hiv, hc, by simp⟩
    | cons x xs =>
      rw [← hd]
      have hd0 : 0 < d.length := by rw [hd]; simp
      have hunf : ofbLoop E bs (fuel + 1) iv count d =
          if d.length ≤ bs - count then .ok (xorB (iv.drop count) d, iv, count + d.length)
          else do
            let (r, iv', count') ← ofbLoop E bs fuel (E iv) 0 (d.drop (bs - count))
            return (xorB (iv.drop count) (d.take (bs - count)) ++ r, iv', count') := by
        rw [hd, ofbLoop]
        simp
      have hhead : ∀ i, i < bs - count → ofbRem E bs iv count i = (iv.drop count).getD i 0 := by
        intro i hi
        unfold ofbRem
        rw [Nat.div_eq_of_lt (by omega), Nat.mod_eq_of_lt (by omega)]
        simp [iter, List.getD_eq_getElem?_getD, List.getElem?_drop]
      rw [hunf]
      by_cases hle : d.length ≤ bs - count
      · rw [if_pos hle]
        refine ⟨iv, count + d.length, ?_, hiv, by omega, ?_⟩
        · rw [xorB_eq_xorStream (iv.drop count) d (by simp; omega) (ofbRem E bs iv count)]
          intro i hi; exact hhead i (by omega)
        · intro k; unfold ofbRem; rw [Nat.add_assoc]
      · rw [if_neg hle]
        have hf' : (d.drop (bs - count)).length + (if 0 = bs then 2 else 1) ≤ fuel := by
          rw [if_neg (by omega), List.length_drop]
          split at hf <;> omega
        obtain ⟨iv', count', h1, h2, h3, h4⟩ := ih (E iv) 0 (d.drop (bs - count)) (hE iv hiv) (by omega) hf'
        refine ⟨iv', count', ?_, h2, h3, ?_⟩
        · rw [h1]
          simp only [except_bind_ok, except_pure]
          have ht : (d.take (bs - count)).length = bs - count := by rw [List.length_take]; omega
          rw [xorB_eq_xorStream (iv.drop count) (d.take (bs - count)) (by rw [ht, List.length_drop, hiv]) (ofbRem E bs iv count)
            (by intro i hi; exact hhead i (by omega))]
          conv_rhs => rw [← List.take_append_drop (bs - count) d]
          rw [xorStream_append, ht]
          congr 5
          funext i
          exact (ofbRem_next hbs hc).symm
        · intro k
          rw [h4, ← ofbRem_next hbs hc]
          congr 1
          rw [List.length_drop]; omega

/-- What remains of the CTR key stream in state (iv, count, calls). -/
def ctrRem (E : Bytes → Bytes) (T : Nat → Bytes) (bs : Nat) (iv : Bytes) (count calls k : Nat) : UInt8 :=
  (if (count + k) / bs = 0 then iv else E (T (calls + (count + k) / bs - 1))).getD ((count + k) % bs) 0

theorem ctrRem_next {E : Bytes → Bytes} {T : Nat → Bytes} {bs : Nat} (hbs : 0 < bs) {iv : Bytes} {count calls k : Nat}
    (hc : count ≤ bs) :
    ctrRem E T bs iv count calls (bs - count + k) = ctrRem E T bs (E (T calls)) 0 (calls + 1) k := by
  unfold ctrRem
  rw [show count + (bs - count + k) = k + bs by omega, Nat.add_div_right _ hbs, Nat.add_mod_right, Nat.zero_add,
    if_neg (Nat.succ_ne_zero _)]
  congr 1
  split
  · rename_i h; rw [h]; rfl
  · congr 2; omega

theorem ctr_state {E : Bytes → Bytes} {T : Nat → Bytes} {bs : Nat} (hbs : 0 < bs) (hE : BlockLen bs E)
    (hT : ∀ n, (T n).length = bs) (fuel : Nat) :
    ∀ (iv : Bytes) (count calls : Nat) (d : Bytes), (count = bs ∨ iv.length = bs) → count ≤ bs →
      d.length + (if count = bs then 2 else 1) ≤ fuel →
      ∃ iv' count' calls', ctrLoop E T bs fuel iv count calls d =
          .ok (xorStream (ctrRem E T bs iv count calls) d, iv', count', calls') ∧
        (count' = bs ∨ iv'.length = bs) ∧ count' ≤ bs ∧
        ∀ k, ctrRem E T bs iv' count' calls' k = ctrRem E T bs iv count calls (d.length + k) := by
  induction fuel with
  | zero => intro iv count calls d _ _ h; split at h <;> omega
  | succ fuel ih =>
    intro iv count calls d hiv hc hf
    cases hd : d with
    | nil => exact ⟨iv, count, calls, by simp [ctrLoop, xorStream], hiv, hc, by simp⟩
    | cons x xs =>
      rw [← hd]
      have hd0 : 0 < d.length := by rw [hd]; simp
      have hunf : ctrLoop E T bs (fuel + 1) iv count calls d =
          if d.length ≤ bs - count then
            .ok (xorB (iv.drop count) d, iv.take count ++ xorB (iv.drop count) d ++ iv.drop (count + d.length), count + d.length, calls)
          else if (T calls).length ≠ bs then .error .typeError
          else do
            let (r, iv', count', calls') ← ctrLoop E T bs fuel (E (T calls)) 0 (calls + 1) (d.drop (bs - count))
            return (xorB (iv.drop count) (d.take (bs - count)) ++ r, iv', count', calls') := by
        rw [hd, ctrLoop]
        simp
      have hhead : ∀ i, i < bs - count → ctrRem E T bs iv count calls i = (iv.drop count).getD i 0 := by
        intro i hi
        unfold ctrRem
        rw [Nat.div_eq_of_lt (by omega), Nat.mod_eq_of_lt (by omega), if_pos rfl]
        simp [List.getD_eq_getElem?_getD, List.getElem?_drop]
      rw [hunf]
      by_cases hle : d.length ≤ bs - count
      · rw [if_pos hle]
        have hl : iv.length = bs := by rcases hiv with h | h <;> omega
        have hx : (xorB (iv.drop count) d).length = d.length := by rw [xorB_length, List.length_drop]; omega
        have hxs : xorB (iv.drop count) d = xorStream (ctrRem E T bs iv count calls) d :=
          xorB_eq_xorStream (iv.drop count) d (by simp; omega) (ctrRem E T bs iv count calls)
            (by intro i hi; exact hhead i (by omega))
        refine ⟨iv.take count ++ xorB (iv.drop count) d ++ iv.drop (count + d.length), count + d.length, calls, ?_, .inr ?_,
          by omega, ?_⟩
        · rw [← hxs]
        · simp only [List.length_append, List.length_take, List.length_drop, hx]; omega
        · intro k
          unfold ctrRem
          rw [Nat.add_assoc]
          split
          · rename_i h0
            rw [Nat.div_eq_zero_iff_lt hbs] at h0
            rw [Nat.mod_eq_of_lt h0]
            have e1 : (List.take count iv ++ xorB (iv.drop count) d).length = count + d.length := by
              rw [List.length_append, hx, List.length_take]; omega
            rw [List.getD_eq_getElem?_getD, List.getElem?_append_right (by rw [e1]; omega), e1]
            simp only [List.getD_eq_getElem?_getD, List.getElem?_drop]
            congr 2
            omega
          · rfl
      · rw [if_neg hle, if_neg (by simp [hT])]
        have hf' : (d.drop (bs - count)).length + (if 0 = bs then 2 else 1) ≤ fuel := by
          rw [if_neg (by omega), List.length_drop]
          split at hf <;> omega
        obtain ⟨iv', count', calls', h1, h2, h3, h4⟩ := ih (E (T calls)) 0 (calls + 1) (d.drop (bs - count))
          (.inr (hE _ (hT _))) (by omega) hf'
        refine ⟨iv', count', calls', ?_, h2, h3, ?_⟩
        · rw [h1]
          simp only [except_bind_ok, except_pure]
          have ht : (d.take (bs - count)).length = bs - count := by rw [List.length_take]; omega
          have hk : (d.take (bs - count)).length ≤ (iv.drop count).length := by
            rw [ht, List.length_drop]
            rcases hiv with h | h <;> omega
          rw [xorB_eq_xorStream (iv.drop count) (d.take (bs - count)) hk (ctrRem E T bs iv count calls)
            (by intro i hi; exact hhead i (by omega))]
          conv_rhs => rw [← List.take_append_drop (bs - count) d]
          rw [xorStream_append, ht]
          congr 5
          funext i
          exact (ctrRem_next hbs hc).symm
        · intro k
          rw [h4, ← ctrRem_next hbs hc]
          congr 1
          rw [List.length_drop]; omega

/-! ### The methods, one mode at a time -/

section
variable {E D : Bytes → Bytes} {T : Nat → Bytes} {o : CipherObj} {d : Bytes}

theorem encrypt_ecb (hm : o.mode = .ecb) (hd : d.length % o.bs = 0) : o.encrypt E T d = .ok (ecbLoop E o.bs d, o) := by
  unfold CipherObj.encrypt; simp [hm, hd]

theorem encrypt_cbc (hm : o.mode = .cbc) (hd : d.length % o.bs = 0) :
    o.encrypt E T d = .ok ((cbcEnc E o.bs o.iv d).1, { o with iv := (cbcEnc E o.bs o.iv d).2 }) := by
  unfold CipherObj.encrypt; simp [hm, hd]

theorem encrypt_cfb (hm : o.mode = .cfb) (hd : d.length % o.segBytes = 0) :
    o.encrypt E T d = .ok ((cfbEnc E o.bs o.segBytes o.iv d).1,
      { o with iv := (cfbEnc E o.bs o.segBytes o.iv d).2, count := absDiff o.count (d.length % o.bs) }) := by
  unfold CipherObj.encrypt; simp [hm, hd]

theorem encrypt_ofb (hm : o.mode = .ofb) : o.encrypt E T d = (do
      let (r, iv, count) ← ofbLoop E o.bs (d.length + 2) o.iv o.count d
      return (r, { o with iv := iv, count := count })) := by
  unfold CipherObj.encrypt; simp [hm]

theorem encrypt_ctr (hm : o.mode = .ctr) : o.encrypt E T d = (do
      let (r, iv, count, calls) ← ctrLoop E T o.bs (d.length + 2) o.iv o.count o.calls d
      return (r, { o with iv := iv, count := count, calls := calls })) := by
  unfold CipherObj.encrypt; simp [hm]

theorem encrypt_bad_block (hm : o.mode = .ecb ∨ o.mode = .cbc) (hd : d.length % o.bs ≠ 0) :
    o.encrypt E T d = .error .valueError := by
  unfold CipherObj.encrypt; rcases hm with hm | hm <;> simp [hm, hd]

theorem encrypt_bad_segment (hm : o.mode = .cfb) (hd : d.length % o.segBytes ≠ 0) :
    o.encrypt E T d = .error .valueError := by
  unfold CipherObj.encrypt; simp [hm, hd]

theorem decrypt_ecb (hm : o.mode = .ecb) (hd : d.length % o.bs = 0) : o.decrypt E D T d = .ok (ecbLoop D o.bs d, o) := by
  unfold CipherObj.decrypt; simp [hm, hd]

theorem decrypt_cbc (hm : o.mode = .cbc) (hd : d.length % o.bs = 0) :
    o.decrypt E D T d = .ok ((cbcDec D o.bs o.iv d).1, { o with iv := (cbcDec D o.bs o.iv d).2 }) := by
  unfold CipherObj.decrypt; simp [hm, hd]

theorem decrypt_cfb (hm : o.mode = .cfb) (hd : d.length % o.segBytes = 0) :
    o.decrypt E D T d = .ok ((cfbDec E o.bs o.segBytes o.iv d).1,
      { o with iv := (cfbDec E o.bs o.segBytes o.iv d).2, count := absDiff o.count (d.length % o.bs) }) := by
  unfold CipherObj.decrypt; simp [hm, hd]

theorem decrypt_stream (hm : o.mode = .ofb ∨ o.mode = .ctr) : o.decrypt E D T d = o.encrypt E T d := by
  unfold CipherObj.decrypt; rcases hm with hm | hm <;> simp [hm]

theorem decrypt_bad_block (hm : o.mode = .ecb ∨ o.mode = .cbc) (hd : d.length % o.bs ≠ 0) :
    o.decrypt E D T d = .error .valueError := by
  unfold CipherObj.decrypt; rcases hm with hm | hm <;> simp [hm, hd]

theorem decrypt_bad_segment (hm : o.mode = .cfb) (hd : d.length % o.segBytes ≠ 0) :
    o.decrypt E D T d = .error .valueError := by
  unfold CipherObj.decrypt; simp [hm, hd]

end

section
variable {D : Bytes → Bytes} {bs : Nat} (hbs : 0 < bs)
include hbs

theorem cbcDec_append (a b : Bytes) (ha : a.length % bs = 0) : ∀ iv,
    cbcDec D bs iv (a ++ b) = ((cbcDec D bs iv a).1 ++ (cbcDec D bs (cbcDec D bs iv a).2 b).1,
      (cbcDec D bs (cbcDec D bs iv a).2 b).2) := by
  refine blocks_induction (P := fun a => ∀ iv, cbcDec D bs iv (a ++ b) = ((cbcDec D bs iv a).1 ++
    (cbcDec D bs (cbcDec D bs iv a).2 b).1, (cbcDec D bs (cbcDec D bs iv a).2 b).2)) hbs (by intro iv; simp [cbcDec]) ?_ a ha
  intro c r hc _ ih iv
  rw [List.append_assoc, cbcDec_block D hbs hc, cbcDec_block D hbs hc, ih]
  simp only [List.append_assoc]

end

end Pgp
