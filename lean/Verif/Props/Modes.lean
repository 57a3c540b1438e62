import Verif.Lemmas.Modes
/-
Property theorems C31: the cipher modes of the pure-python cipher wrapper, for an arbitrary block cipher.
-/
namespace Pgp.Props
open Spec

/-- Feed chunks to one object, one call each; the concatenated output. -/
def feed (step : CipherObj → Bytes → Py (Bytes × CipherObj)) : CipherObj → List Bytes → Py Bytes
  | _, [] => .ok []
  | o, d :: ds => do
    let (c, o') ← step o d
    let cs ← feed step o' ds
    return c ++ cs

/-- The length of which every input has to be a multiple: a block for ECB and CBC, a segment for CFB. -/
def unit (m : Mode) (bs segBits : Nat) : Nat :=
  match m with
  | .ecb => bs
  | .cbc => bs
  | .cfb => if segBits = 0 then 1 else segBits / 8
  | .ofb => 1
  | .ctr => 1

theorem flatten_mod {u : Nat} : ∀ ps : List Bytes, (∀ p ∈ ps, p.length % u = 0) → ps.flatten.length % u = 0 := by
  intro ps
  induction ps with
  | nil => intro _; simp
  | cons p ps ih =>
    intro h
    rw [List.flatten_cons, List.length_append]
    exact Nat.mod_eq_zero_of_dvd (Nat.dvd_add (Nat.dvd_of_mod_eq_zero (h p (by simp)))
      (Nat.dvd_of_mod_eq_zero (ih fun q hq => h q (by simp [hq]))))

theorem fresh_facts {m : Mode} {bs segBits : Nat} {iv : Option Bytes} {hc : Bool} {o : CipherObj}
    (h : newCipher m bs iv hc segBits = .ok o) :
    o.mode = m ∧ o.bs = bs ∧ o.count = bs ∧ o.calls = 0 ∧ o.iv = iv.getD [] ∧
      (m ≠ .ecb → m ≠ .ctr → iv = some o.iv ∧ o.iv.length = bs) ∧
      (m = .cfb → o.segBytes = unit m bs segBits ∧ 0 < o.segBytes ∧ o.segBytes ≤ bs) := by
  unfold newCipher at h
  split at h; · cases h
  rename_i h1
  split at h; · cases h
  rename_i h2
  dsimp only at h
  generalize hseg : (if m = .cfb ∧ segBits = 0 then 8 else segBits) = seg at h
  split at h; · cases h
  rename_i h3
  split at h; · cases h
  split at h; · cases h
  cases h
  refine ⟨rfl, rfl, rfl, rfl, rfl, ?_, ?_⟩
  · intro e1 e2
    have : iv ≠ none ∧ (iv.getD []).length = bs := by
      constructor
      · intro hn; exact h2 ⟨.inl hn, e1, e2⟩
      · by_contra hn; exact h2 ⟨.inr hn, e1, e2⟩
    cases hiv : iv with
    | none => exact absurd hiv this.1
    | some v => rw [hiv] at this; exact ⟨rfl, this.2⟩
  · intro e; subst e
    simp only [true_and, not_or, Nat.not_lt, ne_eq, not_not] at h3
    obtain ⟨a, b, c⟩ := h3
    have c' := Nat.and_two_pow_sub_one_eq_mod seg 3
    simp only [Nat.reducePow, Nat.reduceSub] at c'
    rw [c'] at c
    simp only [true_and] at hseg
    dsimp only [unit]
    split at hseg <;> rename_i hs <;> simp only [hs, if_true, if_false] <;> omega

/-! Non-vacuity: a two-octet block cipher (swap the octets, flip one), all modes. -/
section
def E0 (b : Bytes) : Bytes := b.reverse.map (· ^^^ 0x5a)
theorem E0_block : IsBlockCipher 2 E0 E0 := ⟨by decide, fun b h => by simpa [E0] using h, fun b _ => by
  simp only [E0, ← List.map_reverse, List.reverse_reverse, List.map_map]
  have : ((fun x : UInt8 => x ^^^ 0x5a) ∘ fun x => x ^^^ 0x5a) = id := by
    funext x; simp [Function.comp, UInt8.xor_assoc]
  rw [this, List.map_id]⟩
def T0 (n : Nat) : Bytes := [0, UInt8.ofNat n]
def cipher0 (m : Mode) (iv : Option Bytes) (hc : Bool) (seg : Nat) (ds : List Bytes) : Py Bytes := do
  let o ← newCipher m 2 iv hc seg
  feed (CipherObj.encrypt E0 T0) o ds
example : cipher0 .cbc (some [7, 9]) false 0 [[1, 2], [3, 4, 5, 6]] = .ok [81, 92, 2, 8, 84, 93] := by decide +kernel
example : cipher0 .cfb (some [7, 9]) false 8 [[1, 2], [3]] = .ok [82, 10, 83] := by
  simp [cipher0, feed, newCipher, CipherObj.encrypt, cfbEnc, cfbShift, xorB, E0]; decide
example : cipher0 .ofb (some [7, 9]) false 0 [[1], [2, 3]] = .ok [82, 95, 4] := by decide +kernel
example : cipher0 .ctr none true 0 [[1], [2, 3]] = .ok [91, 88, 88] := by decide +kernel
example : (newCipher .cfb 2 (some [7]) false 8).toOption = none := by decide
end

variable {bs segBits : Nat} {E D : Bytes → Bytes} {iv : Option Bytes} {hc : Bool} {T : Nat → Bytes} {o : CipherObj} {m : Mode}

/-- C31: a fresh object encrypts exactly the data whose length is a multiple of the block (ECB, CBC), of the segment (CFB), or
any data (OFB, CTR); the ciphertext is as long as the data, and a fresh object with the same key and IV (and the same counter)
decrypts it to the data. -/
theorem C31_inverse (hB : IsBlockCipher bs E D) (hT : ∀ n, (T n).length = bs) (hn : newCipher m bs iv hc segBits = .ok o) (d : Bytes) :
    (d.length % unit m bs segBits = 0 →
      ∃ c o1 o2, o.encrypt E T d = .ok (c, o1) ∧ c.length = d.length ∧ o.decrypt E D T c = .ok (d, o2)) ∧
    (d.length % unit m bs segBits ≠ 0 → o.encrypt E T d = .error .valueError) := by
  obtain ⟨f1, f2, f3, f4, f5, f6, f7⟩ := fresh_facts hn
  have hE : BlockLen bs E := hB.len
  subst f2
  cases m with
  | ecb =>
    refine ⟨fun hd => ?_, encrypt_bad_block (.inl f1)⟩
    have hl := ecb_length hB.pos hE d hd
    refine ⟨_, _, ?w0, encrypt_ecb f1 hd, hl, ?e0⟩
    case' e0 => rw [decrypt_ecb f1 (by rw [hl]; exact hd), ecb_inv hB.pos hE hB.inv d hd]
  | cbc =>
    refine ⟨fun hd => ?_, encrypt_bad_block (.inr f1)⟩
    have hiv := (f6 (by decide) (by decide)).2
    have hl := (cbc_length hB.pos hE d hd o.iv hiv).1
    refine ⟨_, _, ?w1, encrypt_cbc f1 hd, hl, ?e1⟩
    case' e1 => rw [decrypt_cbc f1 (by rw [hl]; exact hd), cbc_inv hB.pos hE hB.inv d hd o.iv hiv]
  | cfb =>
    obtain ⟨g1, g2, g3⟩ := f7 rfl
    rw [← g1]
    refine ⟨fun hd => ?_, encrypt_bad_segment f1⟩
    have hiv := (f6 (by decide) (by decide)).2
    have hl := (cfb_length hB.pos hE g2 g3 d hd o.iv hiv).1
    refine ⟨_, _, ?w2, encrypt_cfb f1 hd, hl, ?e2⟩
    case' e2 => rw [decrypt_cfb f1 (by rw [hl]; exact hd), cfb_inv hB.pos hE g2 g3 d hd o.iv hiv]
  | ofb =>
    refine ⟨fun _ => ?_, fun hd => absurd (Nat.mod_one _) hd⟩
    have hiv := (f6 (by decide) (by decide)).2
    have key := fun d => ofb_state hB.pos hE (d.length + 2) o.iv o.count d hiv (by omega) (by split <;> omega)
    obtain ⟨iv1, c1, h1, _⟩ := key d
    obtain ⟨iv2, c2, h2, _⟩ := key (xorStream (ofbRem E o.bs o.iv o.count) d)
    refine ⟨xorStream (ofbRem E o.bs o.iv o.count) d, _, { o with iv := iv2, count := c2 }, by rw [encrypt_ofb f1, h1]; rfl, xorStream_length _ _, ?_⟩
    rw [decrypt_stream (.inl f1), encrypt_ofb f1, h2, xorStream_invol]; rfl
  | ctr =>
    refine ⟨fun _ => ?_, fun hd => absurd (Nat.mod_one _) hd⟩
    have key := fun d => ctr_state hB.pos hE hT (d.length + 2) o.iv o.count o.calls d (.inl f3) (by omega) (by split <;> omega)
    obtain ⟨iv1, c1, l1, h1, _⟩ := key d
    obtain ⟨iv2, c2, l2, h2, _⟩ := key (xorStream (ctrRem E T o.bs o.iv o.count o.calls) d)
    refine ⟨xorStream (ctrRem E T o.bs o.iv o.count o.calls) d, _, { o with iv := iv2, count := c2, calls := l2 }, by rw [encrypt_ctr f1, h1]; rfl, xorStream_length _ _, ?_⟩
    rw [decrypt_stream (.inr f1), encrypt_ctr f1, h2, xorStream_invol]; rfl

example := C31_inverse E0_block (T := T0) (fun _ => rfl) (m := .cbc) (iv := some [7, 9]) (hc := false) (segBits := 0) rfl [1, 2, 3, 4]
example := C31_inverse E0_block (T := T0) (fun _ => rfl) (m := .cfb) (iv := some [7, 9]) (hc := false) (segBits := 8) rfl [1, 2, 3]

/-- C31: the ciphertext is the one NIST SP 800-38A defines: ECB, CBC and CFB on blocks/segments, OFB and CTR with the key
streams `E(IV), E(E(IV)), ...` and `E(T 0), E(T 1), ...`. -/
theorem C31_standard_modes (hB : IsBlockCipher bs E D) (hT : ∀ n, (T n).length = bs)
    (hn : newCipher m bs iv hc segBits = .ok o) (ps : List Bytes) (hp : ∀ p ∈ ps, p.length = unit m bs segBits) :
    ∃ c o', o.encrypt E T ps.flatten = .ok (c, o') ∧
      c = match m with
        | .ecb => (ps.map E).flatten
        | .cbc => (cbcBlocks E (iv.getD []) ps).flatten
        | .cfb => (cfbBlocks E (unit .cfb bs segBits) (iv.getD []) ps).flatten
        | .ofb => xorStream (ofbKey E bs (iv.getD [])) ps.flatten
        | .ctr => xorStream (ctrKey E bs T) ps.flatten := by
  obtain ⟨f1, f2, f3, f4, f5, f6, f7⟩ := fresh_facts hn
  have hE : BlockLen bs E := hB.len
  subst f2
  have hmul : ps.flatten.length % unit m o.bs segBits = 0 := by
    exact flatten_mod ps (fun p h => by rw [hp p h]; exact Nat.mod_self _)
  rw [← f5]
  cases m with
  | ecb => exact ⟨_, _, encrypt_ecb f1 hmul, ecb_spec hB.pos hE ps hp⟩
  | cbc => exact ⟨_, _, encrypt_cbc f1 hmul, cbc_spec hB.pos hE ps hp o.iv⟩
  | cfb =>
    obtain ⟨g1, g2, g3⟩ := f7 rfl
    dsimp only
    rw [← g1] at hmul hp ⊢
    exact ⟨_, _, encrypt_cfb f1 hmul, cfb_spec hB.pos hE g2 g3 ps hp o.iv (f6 (by decide) (by decide)).2⟩
  | ofb =>
    obtain ⟨iv1, c1, h1, _⟩ := ofb_state hB.pos hE (ps.flatten.length + 2) o.iv o.count ps.flatten
      (f6 (by decide) (by decide)).2 (by omega) (by split <;> omega)
    refine ⟨_, _, by rw [encrypt_ofb f1, h1]; rfl, ?_⟩
    congr 1
    funext k
    unfold ofbRem ofbKey
    rw [f3, Nat.add_comm o.bs k, Nat.add_div_right _ hB.pos, Nat.add_mod_right]
  | ctr =>
    obtain ⟨iv1, c1, l1, h1, _⟩ := ctr_state hB.pos hE hT (ps.flatten.length + 2) o.iv o.count o.calls ps.flatten
      (.inl f3) (by omega) (by split <;> omega)
    refine ⟨_, _, by rw [encrypt_ctr f1, h1]; rfl, ?_⟩
    congr 1
    funext k
    unfold ctrRem ctrKey
    rw [f3, f4, Nat.add_comm o.bs k, Nat.add_div_right _ hB.pos, Nat.add_mod_right, if_neg (Nat.succ_ne_zero _)]
    congr 3
    rw [Nat.zero_add]; rfl

example := C31_standard_modes E0_block (T := T0) (fun _ => rfl) (m := .cbc) (iv := some [7, 9]) (hc := false) (segBits := 0) rfl [[1, 2], [3, 4]] (by decide)
example := C31_standard_modes E0_block (T := T0) (fun _ => rfl) (m := .ctr) (iv := none) (hc := true) (segBits := 0) rfl [[1], [3]] (by decide)

theorem absDiff_zero (n : Nat) : absDiff n 0 = n := by simp [absDiff]

/-- The parts of an object that later output depends on are in order. -/
def Good (o : CipherObj) : Prop :=
  0 < o.bs ∧ (o.mode = .cbc ∨ o.mode = .cfb ∨ o.mode = .ofb → o.iv.length = o.bs) ∧
  (o.mode = .ofb ∨ o.mode = .ctr → o.count ≤ o.bs) ∧ (o.mode = .ctr → o.count = o.bs ∨ o.iv.length = o.bs) ∧
  (o.mode = .cfb → 0 < o.segBytes ∧ o.segBytes ≤ o.bs)

theorem feed_enc (hE : BlockLen bs E) (hT : ∀ n, (T n).length = bs) (u : Nat) :
    ∀ (ds : List Bytes) (o : CipherObj), o.bs = bs → Good o →
      (o.mode = .ecb ∨ o.mode = .cbc → u = bs) → (o.mode = .cfb → u = o.segBytes) →
      (∀ d ∈ ds, d.length % u = 0) →
      ∃ c o', o.encrypt E T ds.flatten = .ok (c, o') ∧ feed (CipherObj.encrypt E T) o ds = .ok c := by
  intro ds
  induction ds with
  | nil =>
    intro o hb hg hu1 hu2 _
    subst hb
    obtain ⟨g1, g2, g3, g4, g5⟩ := hg
    cases hm : o.mode with
    | ecb => exact ⟨_, _, encrypt_ecb hm (by simp), by simp [feed, ecbLoop]⟩
    | cbc => exact ⟨_, _, encrypt_cbc hm (by simp), by simp [feed, cbcEnc]⟩
    | cfb => exact ⟨_, _, encrypt_cfb hm (by simp), by simp [feed, cfbEnc]⟩
    | ofb => exact ⟨_, _, by rw [encrypt_ofb hm]; simp only [List.flatten_nil, ofbLoop]; rfl, by simp [feed]⟩
    | ctr => exact ⟨_, _, by rw [encrypt_ctr hm]; simp only [List.flatten_nil, ctrLoop]; rfl, by simp [feed]⟩
  | cons d ds ih =>
    intro o hb hg hu1 hu2 hds
    subst hb
    have hg' := hg
    obtain ⟨g1, g2, g3, g4, g5⟩ := hg
    have hd := hds d (by simp)
    have hds' : ∀ e ∈ ds, e.length % u = 0 := fun e he => hds e (by simp [he])
    have hfl : ds.flatten.length % u = 0 := flatten_mod ds hds'
    have htot : (d ++ ds.flatten).length % u = 0 := by
      rw [List.length_append]; exact Nat.mod_eq_zero_of_dvd ((Nat.dvd_add (Nat.dvd_of_mod_eq_zero hd) (Nat.dvd_of_mod_eq_zero hfl)))
    rw [List.flatten_cons]
    cases hm : o.mode with
    | ecb =>
      have := hu1 (.inl hm); subst this
      obtain ⟨c, o', e1, e2⟩ := ih o rfl hg' hu1 hu2 hds'
      rw [encrypt_ecb hm hfl] at e1
      cases e1
      refine ⟨_, _, encrypt_ecb hm htot, ?_⟩
      simp only [feed, encrypt_ecb hm hd, except_bind_ok, e2, except_pure, ecb_append g1 hE d ds.flatten hd]
    | cbc =>
      have := hu1 (.inr hm); subst this
      have hl := cbc_length g1 hE d hd o.iv (g2 (.inl hm))
      obtain ⟨c, o', e1, e2⟩ := ih { o with iv := (cbcEnc E o.bs o.iv d).2 } rfl
        ⟨g1, fun _ => hl.2, g3, fun h => by simp [hm] at h, g5⟩ hu1 hu2 hds'
      rw [encrypt_cbc (o := { o with iv := (cbcEnc E o.bs o.iv d).2 }) hm hfl] at e1
      cases e1
      refine ⟨_, _, encrypt_cbc hm htot, ?_⟩
      simp only [feed, encrypt_cbc hm hd, except_bind_ok, e2, except_pure, cbc_append g1 hE d ds.flatten hd]
    | cfb =>
      have := hu2 hm; subst this
      obtain ⟨s1, s2⟩ := g5 hm
      have hl := cfb_length g1 hE s1 s2 d hd o.iv (g2 (.inr (.inl hm)))
      obtain ⟨c, o', e1, e2⟩ := ih { o with iv := (cfbEnc E o.bs o.segBytes o.iv d).2, count := absDiff o.count (d.length % o.bs) } rfl
        ⟨g1, fun _ => hl.2, fun h => by simp [hm] at h, fun h => by simp [hm] at h, g5⟩ hu1 hu2 hds'
      rw [encrypt_cfb (o := { o with iv := (cfbEnc E o.bs o.segBytes o.iv d).2, count := absDiff o.count (d.length % o.bs) }) hm hfl] at e1
      cases e1
      refine ⟨_, _, encrypt_cfb hm htot, ?_⟩
      simp only [feed, encrypt_cfb hm hd, except_bind_ok, e2, except_pure, cfb_append g1 hE s1 s2 d ds.flatten hd]
    | ofb =>
      have hiv := g2 (.inr (.inr hm))
      have hcnt := g3 (.inl hm)
      obtain ⟨iv1, c1, h1, k1, k2, k3⟩ := ofb_state g1 hE (d.length + 2) o.iv o.count d hiv hcnt (by split <;> omega)
      obtain ⟨c, o', e1, e2⟩ := ih { o with iv := iv1, count := c1 } rfl
        ⟨g1, fun _ => k1, fun _ => k2, fun h => by simp [hm] at h, g5⟩ hu1 hu2 hds'
      obtain ⟨iv2, c2, h2, _⟩ := ofb_state g1 hE (ds.flatten.length + 2) iv1 c1 ds.flatten k1 k2 (by split <;> omega)
      obtain ⟨iv3, c3, h3, _⟩ := ofb_state g1 hE ((d ++ ds.flatten).length + 2) o.iv o.count (d ++ ds.flatten) hiv hcnt (by split <;> omega)
      rw [encrypt_ofb (o := { o with iv := iv1, count := c1 }) hm] at e1
      dsimp only at e1
      rw [h2] at e1
      cases e1
      refine ⟨_, _, by rw [encrypt_ofb hm, h3]; rfl, ?_⟩
      simp only [feed, encrypt_ofb hm, h1, except_bind_ok, e2, except_pure, xorStream_append]
      congr 3
      funext k; exact k3 k
    | ctr =>
      have hiv := g4 hm
      have hcnt := g3 (.inr hm)
      obtain ⟨iv1, c1, l1, h1, k1, k2, k3⟩ := ctr_state g1 hE hT (d.length + 2) o.iv o.count o.calls d hiv hcnt (by split <;> omega)
      obtain ⟨c, o', e1, e2⟩ := ih { o with iv := iv1, count := c1, calls := l1 } rfl
        ⟨g1, fun h => by simp [hm] at h, fun _ => k2, fun _ => k1, g5⟩ hu1 hu2 hds'
      obtain ⟨iv2, c2, l2, h2, _⟩ := ctr_state g1 hE hT (ds.flatten.length + 2) iv1 c1 l1 ds.flatten k1 k2 (by split <;> omega)
      obtain ⟨iv3, c3, l3, h3, _⟩ := ctr_state g1 hE hT ((d ++ ds.flatten).length + 2) o.iv o.count o.calls (d ++ ds.flatten) hiv hcnt (by split <;> omega)
      rw [encrypt_ctr (o := { o with iv := iv1, count := c1, calls := l1 }) hm] at e1
      dsimp only at e1
      rw [h2] at e1
      cases e1
      refine ⟨_, _, by rw [encrypt_ctr hm, h3]; rfl, ?_⟩
      simp only [feed, encrypt_ctr hm, h1, except_bind_ok, e2, except_pure, xorStream_append]
      congr 3
      funext k; exact k3 k

theorem good_fresh (hbs : 0 < bs) (hn : newCipher m bs iv hc segBits = .ok o) : Good o := by
  obtain ⟨f1, f2, f3, f4, f5, f6, f7⟩ := fresh_facts hn
  subst f2
  refine ⟨hbs, ?_, fun _ => by omega, fun _ => .inl f3, fun h => (f7 (by rw [← f1, h])).2⟩
  intro h
  rw [f1] at h
  refine (f6 ?_ ?_).2 <;> rintro rfl <;> simp at h

/-- C31: splitting the data over any number of calls on the same object, each on a block (ECB, CBC), segment (CFB) or octet (OFB,
CTR) boundary, gives the ciphertext of a single call. -/
theorem C31_chunked_encrypt (hB : IsBlockCipher bs E D) (hT : ∀ n, (T n).length = bs)
    (hn : newCipher m bs iv hc segBits = .ok o) (ds : List Bytes) (hds : ∀ d ∈ ds, d.length % unit m bs segBits = 0) :
    ∃ c o', o.encrypt E T ds.flatten = .ok (c, o') ∧ feed (CipherObj.encrypt E T) o ds = .ok c := by
  obtain ⟨f1, f2, f3, f4, f5, f6, f7⟩ := fresh_facts hn
  refine feed_enc (bs := bs) hB.len hT (unit m bs segBits) ds o f2 (good_fresh hB.pos hn) ?_ ?_ hds
  · rw [f1]; rintro (rfl | rfl) <;> rfl
  · rw [f1]; rintro rfl; exact (f7 rfl).1.symm

example := C31_chunked_encrypt E0_block (T := T0) (fun _ => rfl) (m := .ofb) (iv := some [7, 9]) (hc := false) (segBits := 0) rfl [[1], [3, 4]] (by decide)

theorem stream_mode_kept {o o' : CipherObj} {d c : Bytes} (h : o.encrypt E T d = .ok (c, o')) : o'.mode = o.mode := by
  unfold CipherObj.encrypt at h
  split at h; · cases h
  split at h; · cases h
  split at h
  · cases h; rfl
  · cases h; rfl
  · cases h; rfl
  · obtain ⟨⟨r, i, c⟩, _, h⟩ := except_bind_eq_ok.mp h; cases h; rfl
  · obtain ⟨⟨r, i, c, l⟩, _, h⟩ := except_bind_eq_ok.mp h; cases h; rfl

theorem feed_stream : ∀ (ds : List Bytes) (o : CipherObj), (o.mode = .ofb ∨ o.mode = .ctr) →
    feed (CipherObj.decrypt E D T) o ds = feed (CipherObj.encrypt E T) o ds := by
  intro ds
  induction ds with
  | nil => intro o _; rfl
  | cons d ds ih =>
    intro o hm
    simp only [feed]
    rw [decrypt_stream hm]
    cases h : o.encrypt E T d with
    | error e => rfl
    | ok r =>
      obtain ⟨c, o'⟩ := r
      simp only [except_bind_ok]
      rw [ih o' (by rw [stream_mode_kept h]; exact hm)]

theorem feed_dec (hE : BlockLen bs E) (u : Nat) :
    ∀ (ds : List Bytes) (o : CipherObj), o.bs = bs → Good o → (o.mode = .ecb ∨ o.mode = .cbc ∨ o.mode = .cfb) →
      (o.mode = .ecb ∨ o.mode = .cbc → u = bs) → (o.mode = .cfb → u = o.segBytes) →
      (∀ d ∈ ds, d.length % u = 0) →
      ∃ c o', o.decrypt E D T ds.flatten = .ok (c, o') ∧ feed (CipherObj.decrypt E D T) o ds = .ok c := by
  intro ds
  induction ds with
  | nil =>
    intro o hb hg hmm hu1 hu2 _
    subst hb
    rcases hmm with hm | hm | hm
    · exact ⟨_, _, decrypt_ecb hm (by simp), by simp [feed, ecbLoop]⟩
    · exact ⟨_, _, decrypt_cbc hm (by simp), by simp [feed, cbcDec]⟩
    · exact ⟨_, _, decrypt_cfb hm (by simp), by simp [feed, cfbDec]⟩
  | cons d ds ih =>
    intro o hb hg hmm hu1 hu2 hds
    subst hb
    have hg' := hg
    obtain ⟨g1, g2, g3, g4, g5⟩ := hg
    have hd := hds d (by simp)
    have hds' : ∀ e ∈ ds, e.length % u = 0 := fun e he => hds e (by simp [he])
    have hfl : ds.flatten.length % u = 0 := flatten_mod ds hds'
    have htot : (d ++ ds.flatten).length % u = 0 := by
      rw [List.length_append]; exact Nat.mod_eq_zero_of_dvd ((Nat.dvd_add (Nat.dvd_of_mod_eq_zero hd) (Nat.dvd_of_mod_eq_zero hfl)))
    rw [List.flatten_cons]
    rcases hmm with hm | hm | hm
    · have := hu1 (.inl hm); subst this
      obtain ⟨c, o', e1, e2⟩ := ih o rfl hg' (.inl hm) hu1 hu2 hds'
      rw [decrypt_ecb hm hfl] at e1
      cases e1
      refine ⟨_, _, decrypt_ecb hm htot, ?_⟩
      have happ : ecbLoop D o.bs (d ++ ds.flatten) = ecbLoop D o.bs d ++ ecbLoop D o.bs ds.flatten := by
        refine blocks_induction (P := fun a => ecbLoop D o.bs (a ++ ds.flatten) = ecbLoop D o.bs a ++ ecbLoop D o.bs ds.flatten) g1
          (by simp [ecbLoop]) ?_ d hd
        intro c r hc _ ih
        rw [List.append_assoc, ecbLoop_block D g1 hc, ecbLoop_block D g1 hc, ih, List.append_assoc]
      simp only [feed, decrypt_ecb hm hd, except_bind_ok, e2, except_pure, happ]
    · have := hu1 (.inr hm); subst this
      have hl : (cbcDec D o.bs o.iv d).2.length = o.bs := by
        refine blocks_induction (P := fun d => ∀ iv : Bytes, iv.length = o.bs → (cbcDec D o.bs iv d).2.length = o.bs) g1
          (by intro iv h; simpa [cbcDec] using h) ?_ d hd o.iv (g2 (.inl hm))
        intro b r hb _ ih iv hiv
        rw [cbcDec_block D g1 hb]; exact ih b hb
      obtain ⟨c, o', e1, e2⟩ := ih { o with iv := (cbcDec D o.bs o.iv d).2 } rfl
        ⟨g1, fun _ => hl, g3, fun h => by simp [hm] at h, g5⟩ (.inr (.inl hm)) hu1 hu2 hds'
      rw [decrypt_cbc (o := { o with iv := (cbcDec D o.bs o.iv d).2 }) hm hfl] at e1
      cases e1
      refine ⟨_, _, decrypt_cbc hm htot, ?_⟩
      simp only [feed, decrypt_cbc hm hd, except_bind_ok, e2, except_pure, cbcDec_append g1 d ds.flatten hd]
    · have := hu2 hm; subst this
      obtain ⟨s1, s2⟩ := g5 hm
      have hl := cfbDec_length g1 hE s1 s2 d hd o.iv (g2 (.inr (.inl hm)))
      obtain ⟨c, o', e1, e2⟩ := ih { o with iv := (cfbDec E o.bs o.segBytes o.iv d).2, count := absDiff o.count (d.length % o.bs) } rfl
        ⟨g1, fun _ => hl.2, fun h => by simp [hm] at h, fun h => by simp [hm] at h, g5⟩ (.inr (.inr hm)) hu1 hu2 hds'
      rw [decrypt_cfb (o := { o with iv := (cfbDec E o.bs o.segBytes o.iv d).2, count := absDiff o.count (d.length % o.bs) }) hm hfl] at e1
      cases e1
      refine ⟨_, _, decrypt_cfb hm htot, ?_⟩
      simp only [feed, decrypt_cfb hm hd, except_bind_ok, e2, except_pure, cfbDec_append g1 hE s1 s2 d ds.flatten hd]

/-- C31: the same for decryption. -/
theorem C31_chunked_decrypt (hB : IsBlockCipher bs E D) (hT : ∀ n, (T n).length = bs)
    (hn : newCipher m bs iv hc segBits = .ok o) (ds : List Bytes) (hds : ∀ d ∈ ds, d.length % unit m bs segBits = 0) :
    ∃ c o', o.decrypt E D T ds.flatten = .ok (c, o') ∧ feed (CipherObj.decrypt E D T) o ds = .ok c := by
  obtain ⟨f1, f2, f3, f4, f5, f6, f7⟩ := fresh_facts hn
  by_cases hm : o.mode = .ofb ∨ o.mode = .ctr
  · rw [decrypt_stream hm, feed_stream ds o hm]
    exact C31_chunked_encrypt hB hT hn ds hds
  · refine feed_dec (bs := bs) hB.len (unit m bs segBits) ds o f2 (good_fresh hB.pos hn) ?_ ?_ ?_ hds
    · revert hm; cases o.mode <;> simp
    · rw [f1]; rintro (rfl | rfl) <;> rfl
    · rw [f1]; rintro rfl; exact (f7 rfl).1.symm

example := C31_chunked_decrypt E0_block (T := T0) (fun _ => rfl) (m := .cbc) (iv := some [7, 9]) (hc := false) (segBits := 0) rfl [[1, 2], [3, 4, 5, 6]] (by decide)

/-- C31: so what one object encrypted chunk by chunk, another object with the same key and IV decrypts, in whatever (possibly
different) chunks it is given the ciphertext. -/
theorem C31_chunked_inverse (hB : IsBlockCipher bs E D) (hT : ∀ n, (T n).length = bs)
    (hn : newCipher m bs iv hc segBits = .ok o) (ds cs : List Bytes) (hds : ∀ d ∈ ds, d.length % unit m bs segBits = 0)
    (hcs : ∀ d ∈ cs, d.length % unit m bs segBits = 0) (h : feed (CipherObj.encrypt E T) o ds = .ok cs.flatten) :
    feed (CipherObj.decrypt E D T) o cs = .ok ds.flatten := by
  obtain ⟨c, o1, e1, e2⟩ := C31_chunked_encrypt hB hT hn ds hds
  rw [e2] at h; cases h
  obtain ⟨c', o1', o2, h1, h2, h3⟩ := (C31_inverse hB hT hn ds.flatten).1 (flatten_mod ds hds)
  rw [e1] at h1; cases h1
  obtain ⟨p, o3, e3, e4⟩ := C31_chunked_decrypt hB hT hn cs hcs
  rw [h3] at e3; cases e3
  exact e4

example := C31_chunked_inverse E0_block (T := T0) (fun _ => rfl) (m := .cbc) (iv := some [7, 9]) (hc := false) (segBits := 0) rfl
  [[1, 2], [3, 4, 5, 6]] [[81, 92, 2, 8], [84, 93]] (by decide) (by decide) (by decide +kernel)

/-- C31: `sync` changes nothing on a fresh object, in any mode, and nothing after whole blocks of CFB. -/
theorem C31_sync_whole_blocks (hn : newCipher m bs iv hc segBits = .ok o) :
    o.sync = o ∧ (m = .cfb → ∀ d c o', d.length % bs = 0 → o.encrypt E T d = .ok (c, o') → o'.sync = o') := by
  obtain ⟨f1, f2, f3, f4, f5, f6, f7⟩ := fresh_facts hn
  subst f2
  constructor
  · unfold CipherObj.sync
    rw [f3, Nat.sub_self, if_pos rfl, ite_self]
  · rintro rfl d c o' hd h
    by_cases hs : d.length % o.segBytes = 0
    · rw [encrypt_cfb f1 hs] at h
      cases h
      unfold CipherObj.sync
      dsimp only
      rw [hd, absDiff_zero, f3, Nat.sub_self, if_pos rfl, ite_self]
    · rw [encrypt_bad_segment f1 hs] at h; cases h

example := C31_sync_whole_blocks (E := E0) (T := T0) (m := .cfb) (bs := 2) (iv := some [7, 9]) (hc := false) (segBits := 16) rfl

/-- C31 (refuted for `sync` within a block): after `r` octets of a block the register, which holds the last ciphertext octets as it should, is shifted right, and zeros
take the place of its first `r` octets. -/
theorem C31_sync_within_block_refuted (hn : newCipher .cfb bs iv hc segBits = .ok o) (d c : Bytes) (o' : CipherObj) (hd : d.length % bs ≠ 0)
    (h : o.encrypt E T d = .ok (c, o')) : o'.sync.iv = List.replicate (d.length % bs) 0 ++ o'.iv.take (bs - d.length % bs) := by
  obtain ⟨f1, f2, f3, f4, f5, f6, f7⟩ := fresh_facts hn
  have hold : o.oldCipher = List.replicate bs 0 := by
    unfold newCipher at hn
    split at hn
    · cases hn
    split at hn
    · cases hn
    dsimp only at hn
    generalize (if Mode.cfb = .cfb ∧ segBits = 0 then 8 else segBits) = seg at hn
    split at hn
    · cases hn
    split at hn
    · cases hn
    split at hn
    · cases hn
    cases hn
    rfl
  subst f2
  by_cases hs : d.length % o.segBytes = 0
  · have hbs : 0 < o.bs := by
      obtain ⟨h1, h2⟩ := f7 rfl
      rcases Nat.eq_zero_or_pos o.bs with h0 | h0
      · omega
      · exact h0
    have hlt := Nat.mod_lt d.length hbs
    rw [encrypt_cfb f1 hs] at h
    cases h
    have hc : absDiff o.count (d.length % o.bs) = o.bs - d.length % o.bs := by unfold absDiff; omega
    simp only [CipherObj.sync, f1, if_true, hc, hold]
    rw [if_neg (by omega)]
    show List.drop _ _ ++ List.take _ _ = _
    rw [show o.bs - (o.bs - (o.bs - d.length % o.bs)) = o.bs - d.length % o.bs by omega, List.drop_replicate,
      show o.bs - (o.bs - d.length % o.bs) = d.length % o.bs by omega]
  · exfalso
    rw [encrypt_bad_segment f1 hs] at h; cases h

example := C31_sync_within_block_refuted (E := E0) (T := T0) (bs := 2) (iv := some [7, 9]) (hc := false) (segBits := 8) rfl [5] _ _ (by decide) rfl

end Pgp.Props
