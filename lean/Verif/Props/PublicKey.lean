import Verif.Lemmas.PublicKey
/-
Property theorems C22, C23: public key packets and fingerprints.
-/
namespace Pgp.Props
open Spec

/-- A small RSA key. -/
theorem exRsa_room : ∀ i ∈ (KeyMaterial.rsa 3233 17).ints, LogRoom Nat.log2 i := fun i hi =>
  logRoom_of_exact rfl (by
    have h : i < 2 ^ 12 := by simp [KeyMaterial.ints] at hi; rcases hi with rfl | rfl <;> decide
    exact Nat.lt_of_lt_of_le h (Nat.pow_le_pow_right (by omega) (by omega)))

/-- C22: an RSA, ElGamal or DSA public key of version 2, 3 or 4 and above serialises, and the octets, followed by
anything, parse back to the same key, the reported offset being the length of the key's octets. The hypothesis on the
integers is that the logarithm used leaves room for them (true of every integer below 2^65535 with an exact logarithm,
`logRoom_of_exact`). -/
theorem C22_public_key_roundtrip (fl : Nat → Nat) (version created alg : Nat) (days : Option Nat) (m : KeyMaterial)
    (hv : versionFits version days) (hc : created < 2 ^ 32) (ha : m.fits alg) (hm : ∀ i ∈ m.ints, LogRoom fl i) :
    ∃ e, (mkPubKey version created alg days m).publicContent fl = .ok e ∧
      ∀ rest, parsePubKey (e ++ rest) = .ok (e.length, mkPubKey version created alg days m) :=
  pubKey_roundtrip hv hc ha hm

example := C22_public_key_roundtrip Nat.log2 4 1000 1 none (.rsa 3233 17) (.inr ⟨by decide, by decide, rfl⟩) (by decide) (.inl rfl) exRsa_room
example := C22_public_key_roundtrip Nat.log2 3 1000 1 (some 365) (.rsa 3233 17) (.inl ⟨.inr rfl, 365, by decide, rfl⟩) (by decide) (.inl rfl) exRsa_room

/-- C22: with a logarithm exact for the key's integers this covers all integers below 2^65535. -/
theorem C22_public_key_roundtrip_exact (fl : Nat → Nat) (version created alg : Nat)
    (days : Option Nat) (m : KeyMaterial) (hv : versionFits version days) (hc : created < 2 ^ 32) (ha : m.fits alg)
    (hm : ∀ i ∈ m.ints, i < 2 ^ 65535) (hfl : ∀ i ∈ m.ints, fl i = Nat.log2 i) :
    ∃ e, (mkPubKey version created alg days m).publicContent fl = .ok e ∧
      ∀ rest, parsePubKey (e ++ rest) = .ok (e.length, mkPubKey version created alg days m) :=
  pubKey_roundtrip hv hc ha fun i hi => logRoom_of_exact (hfl i hi) (hm i hi)

example := C22_public_key_roundtrip_exact Nat.log2 4 1000 1 none (.rsa 3233 17) (.inr ⟨by decide, by decide, rfl⟩) (by decide) (.inl rfl)
  (fun i hi => by
    have h : i < 2 ^ 12 := by simp [KeyMaterial.ints] at hi; rcases hi with rfl | rfl <;> decide
    exact Nat.lt_of_lt_of_le h (Nat.pow_le_pow_right (by omega) (by omega))) (fun _ _ => rfl)

/-- C22: an unknown version or algorithm is rejected, never misread: a packet that parses has a known version and algorithm
and exactly that algorithm's integers. -/
theorem C22_parsed_shape (data : Bytes) (off : Nat) (k : PubKey) (h : parsePubKey data = .ok (off, k)) :
    ∃ version created alg days m, k = mkPubKey version created alg days m ∧ versionFits version days ∧ m.fits alg ∧
      created < 2 ^ 32 ∧ off ≤ data.length := by
  unfold parsePubKey at h
  obtain ⟨v, hv, h⟩ := except_bind_eq_ok.mp h
  obtain ⟨c, hc, h⟩ := except_bind_eq_ok.mp h
  obtain ⟨⟨days, o⟩, hd, h⟩ := except_bind_eq_ok.mp h
  obtain ⟨a, hai, h⟩ := except_bind_eq_ok.mp h
  dsimp only at h
  have hcb : c < 2 ^ 32 := by
    rw [longToInt, bytesToInt_eq] at hc
    split at hc
    · simp only [Except.ok.injEq] at hc
      subst hc
      refine Nat.lt_of_lt_of_le (beNat_lt _) ?_
      calc 256 ^ (List.take 4 (List.drop 1 data)).length ≤ 256 ^ 4 := Nat.pow_le_pow_right (by omega) (by simp)
        _ = 2 ^ 32 := by norm_num
    · cases hc
  have hvf : versionFits v.toNat days := by
    unfold readDays at hd
    split at hd
    · rename_i h23
      obtain ⟨d, hd1, hd⟩ := except_bind_eq_ok.mp hd
      cases hd
      left
      refine ⟨by rcases h23 with rfl | rfl <;> simp, d, ?_, rfl⟩
      rw [shortToInt, bytesToInt_eq] at hd1
      split at hd1
      · simp only [Except.ok.injEq] at hd1
        subst hd1
        refine Nat.lt_of_lt_of_le (beNat_lt _) ?_
        calc 256 ^ (List.take 2 (List.drop 5 data)).length ≤ 256 ^ 2 := Nat.pow_le_pow_right (by omega) (by simp)
          _ = 2 ^ 16 := by norm_num
      · cases hd1
    · split at hd
      · rename_i h4; cases hd; right
        exact ⟨by rw [ge_iff_le, UInt8.le_iff_toNat_le] at h4; exact h4, v.toNat_lt, rfl⟩
      · cases hd
  split at h
  · rename_i ha
    obtain ⟨⟨n, o1⟩, h1, h⟩ := except_bind_eq_ok.mp h
    obtain ⟨⟨e, o2⟩, h2, h⟩ := except_bind_eq_ok.mp h
    simp only [except_pure, Except.ok.injEq, Prod.mk.injEq] at h
    obtain ⟨rfl, rfl⟩ := h
    exact ⟨v.toNat, c, a.toNat, days, .rsa n e, rfl, hvf, by rcases ha with rfl | rfl | rfl <;> simp [KeyMaterial.fits],
      hcb, (mpiToInt_advance h2).2⟩
  · split at h
    · rename_i ha
      obtain ⟨⟨n, o1⟩, h1, h⟩ := except_bind_eq_ok.mp h
      obtain ⟨⟨e, o2⟩, h2, h⟩ := except_bind_eq_ok.mp h
      obtain ⟨⟨y, o3⟩, h3, h⟩ := except_bind_eq_ok.mp h
      simp only [except_pure, Except.ok.injEq, Prod.mk.injEq] at h
      obtain ⟨rfl, rfl⟩ := h
      exact ⟨v.toNat, c, a.toNat, days, .elgamal n e y, rfl, hvf, by rcases ha with rfl | rfl <;> simp [KeyMaterial.fits],
        hcb, (mpiToInt_advance h3).2⟩
    · split at h
      · rename_i ha
        obtain ⟨⟨n, o1⟩, h1, h⟩ := except_bind_eq_ok.mp h
        obtain ⟨⟨e, o2⟩, h2, h⟩ := except_bind_eq_ok.mp h
        obtain ⟨⟨y, o3⟩, h3, h⟩ := except_bind_eq_ok.mp h
        obtain ⟨⟨z, o4⟩, h4, h⟩ := except_bind_eq_ok.mp h
        simp only [except_pure, Except.ok.injEq, Prod.mk.injEq] at h
        obtain ⟨rfl, rfl⟩ := h
        exact ⟨v.toNat, c, a.toNat, days, .dsa n e y z, rfl, hvf, by subst ha; simp [KeyMaterial.fits],
          hcb, (mpiToInt_advance h4).2⟩
      · cases h

example := C22_parsed_shape [4, 0, 0, 3, 232, 1, 0, 12, 12, 161, 0, 5, 17] 13 (mkPubKey 4 1000 1 none (.rsa 3233 17)) (by decide +kernel)

/-- C22: keys with different parts have different octets. -/
theorem C22_public_key_injective (fl : Nat → Nat) (v1 c1 a1 v2 c2 a2 : Nat) (d1 d2 : Option Nat) (m1 m2 : KeyMaterial)
    (hv1 : versionFits v1 d1) (hc1 : c1 < 2 ^ 32) (ha1 : m1.fits a1) (hm1 : ∀ i ∈ m1.ints, LogRoom fl i)
    (hv2 : versionFits v2 d2) (hc2 : c2 < 2 ^ 32) (ha2 : m2.fits a2) (hm2 : ∀ i ∈ m2.ints, LogRoom fl i)
    (h : (mkPubKey v1 c1 a1 d1 m1).publicContent fl = (mkPubKey v2 c2 a2 d2 m2).publicContent fl) :
    v1 = v2 ∧ c1 = c2 ∧ a1 = a2 ∧ d1 = d2 ∧ m1 = m2 := by
  obtain ⟨e1, h1, p1⟩ := pubKey_roundtrip hv1 hc1 ha1 hm1
  obtain ⟨e2, h2, p2⟩ := pubKey_roundtrip hv2 hc2 ha2 hm2
  rw [h1, h2] at h
  have h := Except.ok.inj h
  subst h
  have q := p1 []
  rw [p2 []] at q
  simp only [Except.ok.injEq, Prod.mk.injEq, true_and] at q
  cases m1 <;> cases m2 <;> simp_all [mkPubKey, KeyMaterial.fits]

example := C22_public_key_injective Nat.log2 4 1000 1 4 1000 1 none none (.rsa 3233 17) (.rsa 3233 17) (.inr ⟨by decide, by decide, rfl⟩) (by decide) (.inl rfl) exRsa_room
  (.inr ⟨by decide, by decide, rfl⟩) (by decide) (.inl rfl) exRsa_room rfl

/-- C23: the fingerprint of a key of version 4 or above is the upper-case hex of SHA-1 over 0x99, the two-octet length and
the public content; the key id is its last 16 digits, i.e. the last 8 octets. -/
theorem C23_fingerprint_definition (fl : Nat → Nat) (H : Digest) (hH : ∀ d, (H 2 d).length = 20) (k : PubKey)
    (hv : 4 ≤ k.version) (c : Bytes) (hc : k.publicContent fl = .ok c) :
    k.fingerprint fl H = .ok (hexOf (H 2 ([0x99] ++ beBytes 2 c.length ++ c))) ∧
    k.keyId fl H = .ok (hexOf ((H 2 ([0x99] ++ beBytes 2 c.length ++ c)).drop 12)) := by
  have h1 : k.fingerprint fl H = .ok (hexOf (H 2 ([0x99] ++ beBytes 2 c.length ++ c))) := by
    unfold PubKey.fingerprint
    rw [if_neg (by omega), hc]
    simp [hashKeyInput, intTo2byte_eq]
  refine ⟨h1, ?_⟩
  unfold PubKey.keyId
  rw [h1]
  generalize hd : H 2 ([0x99] ++ beBytes 2 c.length ++ c) = d
  have hl : d.length = 20 := by rw [← hd]; exact hH _
  have hdrop : ∀ (n : Nat) (d : Bytes), (hexOf d).drop (2 * n) = hexOf (d.drop n) := by
    intro n
    induction n with
    | zero => intro d; rfl
    | succ n ih =>
      intro d
      cases d with
      | nil => simp [hexOf]
      | cons x d =>
        rw [show hexOf (x :: d) = hexOfByte x ++ hexOf d from rfl, show 2 * (n + 1) = 2 + 2 * n by ring,
          ← List.drop_drop]
        exact ih d
  simp only [except_bind_ok, except_pure, lastN, hexOf_length, hl]
  rw [if_neg (by omega), show 2 * 20 - 16 = 2 * 12 from rfl, hdrop]

example := C23_fingerprint_definition Nat.log2 (fun _ d => List.replicate 20 (UInt8.ofNat d.length)) (fun _ => by simp) (mkPubKey 4 1000 1 none (.rsa 3233 17)) (by decide)
  [4, 0, 0, 3, 232, 1, 0, 12, 12, 161, 0, 5, 17] (by decide +kernel)

/-- C23: two version-4 keys with equal fingerprints are equal in creation time, algorithm and integers, provided the hash
does not collide on the two hashed octet strings. -/
theorem C23_fingerprint_identifies_partial (fl : Nat → Nat) (H : Digest) (c1 a1 c2 a2 : Nat) (m1 m2 : KeyMaterial)
    (hc1 : c1 < 2 ^ 32) (ha1 : m1.fits a1) (hm1 : ∀ i ∈ m1.ints, LogRoom fl i)
    (hc2 : c2 < 2 ^ 32) (ha2 : m2.fits a2) (hm2 : ∀ i ∈ m2.ints, LogRoom fl i)
    (hcoll : ∀ x y, (mkPubKey 4 c1 a1 none m1).publicContent fl = .ok x →
      (mkPubKey 4 c2 a2 none m2).publicContent fl = .ok y →
      H 2 ([0x99] ++ beBytes 2 x.length ++ x) = H 2 ([0x99] ++ beBytes 2 y.length ++ y) →
      [0x99] ++ beBytes 2 x.length ++ x = [0x99] ++ beBytes 2 y.length ++ y)
    (h : (mkPubKey 4 c1 a1 none m1).fingerprint fl H = (mkPubKey 4 c2 a2 none m2).fingerprint fl H) :
    c1 = c2 ∧ a1 = a2 ∧ m1 = m2 := by
  have hv : versionFits 4 none := .inr ⟨by omega, by omega, rfl⟩
  obtain ⟨e1, h1, p1⟩ := pubKey_roundtrip hv hc1 ha1 hm1
  obtain ⟨e2, h2, p2⟩ := pubKey_roundtrip hv hc2 ha2 hm2
  have v1 : (mkPubKey 4 c1 a1 none m1).version = 4 := by cases m1 <;> rfl
  have v2 : (mkPubKey 4 c2 a2 none m2).version = 4 := by cases m2 <;> rfl
  unfold PubKey.fingerprint at h
  rw [v1, v2, if_neg (by omega), if_neg (by omega), h1, h2] at h
  simp only [except_bind_ok, except_pure, Except.ok.injEq] at h
  have hh := hexOf_inj h
  have he : e1 = e2 := by
    have := hcoll e1 e2 h1 h2 (by simpa [hashKeyInput, intTo2byte_eq] using hh)
    exact hashKeyInput_inj (by simpa [hashKeyInput, intTo2byte_eq] using this)
  subst he
  have := C22_public_key_injective fl 4 c1 a1 4 c2 a2 none none m1 m2 hv hc1 ha1 hm1 hv hc2 ha2 hm2 (h1.trans h2.symm)
  exact ⟨this.2.1, this.2.2.1, this.2.2.2.2⟩

/-- Two keys made at different times have different fingerprints under a digest that tells their two contents apart. -/
example (H : Digest) (hH : ∀ x y : Bytes, x.length = 16 → y.length = 16 → H 2 x = H 2 y → x = y) :
    (mkPubKey 4 1000 1 none (.rsa 3233 17)).fingerprint Nat.log2 H ≠ (mkPubKey 4 1001 1 none (.rsa 3233 17)).fingerprint Nat.log2 H := by
  intro h
  have e1 : (mkPubKey 4 1000 1 none (.rsa 3233 17)).publicContent Nat.log2 = .ok [4, 0, 0, 3, 232, 1, 0, 12, 12, 161, 0, 5, 17] := by decide +kernel
  have e2 : (mkPubKey 4 1001 1 none (.rsa 3233 17)).publicContent Nat.log2 = .ok [4, 0, 0, 3, 233, 1, 0, 12, 12, 161, 0, 5, 17] := by decide +kernel
  have := C23_fingerprint_identifies_partial Nat.log2 H 1000 1 1001 1 (.rsa 3233 17) (.rsa 3233 17) (by decide) (.inl rfl) exRsa_room (by decide) (.inl rfl)
    exRsa_room (fun x y hx hy hxy => by
      rw [e1] at hx; rw [e2] at hy; cases hx; cases hy
      exact hH _ _ rfl rfl hxy) h
  omega

/-- C23 (limit): the fingerprint of a version 2 or 3 RSA or ElGamal key cannot be computed: `AttributeError`. -/
theorem C23_v3_fingerprint_raises (fl : Nat → Nat) (H : Digest) (k : PubKey) (hv : k.version < 4)
    (ha : k.algorithm = 1 ∨ k.algorithm = 2 ∨ k.algorithm = 3 ∨ k.algorithm = 16 ∨ k.algorithm = 20) :
    k.fingerprint fl H = .error .attributeError := by
  unfold PubKey.fingerprint
  rw [if_pos hv]
  rcases ha with h | h | h | h | h <;> simp [h]

example (H : Digest) := C23_v3_fingerprint_raises Nat.log2 H (mkPubKey 3 1000 1 (some 365) (.rsa 3233 17)) (by decide) (.inl rfl)

/-- C23 (limit): every version 2 or 3 DSA key has the same fingerprint, whatever its integers. -/
theorem C23_v3_dsa_fingerprints_collide (fl : Nat → Nat) (H : Digest) (k1 k2 : PubKey) (h1 : k1.version < 4)
    (h2 : k2.version < 4) (a1 : k1.algorithm = 17) (a2 : k2.algorithm = 17) :
    k1.fingerprint fl H = k2.fingerprint fl H := by
  unfold PubKey.fingerprint
  rw [if_pos h1, if_pos h2]
  simp [a1, a2]

example (H : Digest) := C23_v3_dsa_fingerprints_collide Nat.log2 H (mkPubKey 3 1000 17 (some 365) (.dsa 7 5 3 2)) (mkPubKey 3 2000 17 (some 1) (.dsa 11 13 3 9))
  (by decide) (by decide) rfl rfl

end Pgp.Props
