import Verif.Props.Hashing
import Verif.Spec.SignValues
import Verif.Props.KeyIds
/-
C28: the numbers in a signature.
-/
namespace Pgp.Props
open Pgp Pgp.Spec

theorem digits_log {q bits : Nat} (h : BinaryDigits q bits) (h0 : q ≠ 0) : Nat.log2 q + 1 = bits := by
  have h1 := (Nat.log2_lt h0).mpr h.2
  have h2 : bits ≤ Nat.log2 q + 1 := by
    have : ¬ Nat.log2 q + 1 < bits := fun hlt => by
      have h3 : q < 2 ^ (bits - 1) := (Nat.log2_lt h0).mp (by omega)
      have h4 : 2 ^ bits = 2 * 2 ^ (bits - 1) := by
        rw [← Nat.pow_succ']; congr 1; omega
      have := h.1
      omega
    omega
  omega

theorem qBytes_bits {fl : FloorLog2} {q bits : Nat} (h : BinaryDigits q bits) (h0 : q ≠ 0) (hfl : fl q = Nat.log2 q) : qBytes fl q = (bits + 7) / 8 := by
  unfold qBytes ceil8
  rw [hfl, digits_log h h0]

theorem longToBytes_shortest {v : Nat} (hv : v ≠ 0) : ∃ x b, x ≠ 0 ∧ beNat (x :: b) = v ∧ longToBytes v = x :: b := by
  have h1 : v < 256 ^ (Nat.log2 v / 8 + 1) := by
    refine Nat.lt_of_lt_of_le (Nat.lt_log2_self) ?_
    rw [show (256 : Nat) = 2 ^ 8 from rfl, ← Nat.pow_mul]
    exact Nat.pow_le_pow_right (by omega) (by omega)
  have h2 : 256 ^ (Nat.log2 v / 8) ≤ v := by
    refine Nat.le_trans ?_ (Nat.log2_self_le hv)
    rw [show (256 : Nat) = 2 ^ 8 from rfl, ← Nat.pow_mul]
    exact Nat.pow_le_pow_right (by omega) (by omega)
  have h3 : longToBytes v = beBytes (Nat.log2 v / 8 + 1) v := by
    unfold longToBytes
    rw [if_neg hv, octetsDown_eq_beBytes]
  have h4 : beNat (longToBytes v) = v := by rw [h3, beNat_beBytes, Nat.mod_eq_of_lt h1]
  have h5 : (longToBytes v).length = Nat.log2 v / 8 + 1 := by rw [h3, beBytes_length]
  generalize longToBytes v = l at h4 h5
  cases l with
  | nil => cases h5
  | cons x b =>
    refine ⟨x, b, ?_, h4, rfl⟩
    rintro rfl
    rw [beNat_cons, show (0 : UInt8).toNat = 0 from rfl, Nat.zero_mul, Nat.zero_add] at h4
    have h6 := beNat_lt b
    rw [show b.length = Nat.log2 v / 8 by simpa using h5, h4] at h6
    omega

/-- C28: a version 4 signature made with a key consists of the numbers its primitive makes of the digest: for DSA, of as many leading octets of the digest
as the group order takes. -/
theorem C28_signed_values (fl : FloorLog2) (H : Digest) (K : SignKey) (bits : Nat) (hq : BinaryDigits K.prims.dsaQ bits) (h0 : K.prims.dsaQ ≠ 0)
    (hfl : fl K.prims.dsaQ = Nat.log2 K.prims.dsaQ) (i : Item) (hi : ∀ b, i ≠ .raw b) (hsk : ∀ p k, i ≠ .secretSubkey p k) (t h now : Nat) (subs : List Sub) (sig : Sig)
    (hs : signItem fl H K i 4 t h subs now = .ok sig) :
    ∃ hd digest numbers, subsBytes fl (.plain false (.issuer K.keyId) :: .plain false (.creationTime now) :: subs) = .ok hd ∧
      digest = H h ((itemAbout i).octets ++ trailer4 4 (UInt8.ofNat t) (UInt8.ofNat K.alg) (UInt8.ofNat h) hd) ∧
      SignatureNumbers K.prims bits h digest K.alg numbers ∧
      sig = .v4 4 t K.alg h (.plain false (.issuer K.keyId) :: .plain false (.creationTime now) :: subs) [] (digest.take 2) (numbers.map some) := by
  obtain ⟨_, e1, e2, hv, a, b, values, hashed, e3, _, hh, e5, e6, rfl⟩ := sign_shape hs
  rw [if_pos rfl] at hh
  subst hh
  obtain ⟨hd, s1, _, _, _, _, rfl⟩ := sigSignable_v4_ok e5
  have ha : a = (itemAbout i).octets := by
    have h1 := C27_item_octets i 4 (by decide) hi hsk
    cases i with
    | raw b => exact absurd rfl (hi b)
    | document d => rw [show Item.signInput 4 (.document d) = Item.signable 4 (.document d) from rfl, h1] at e3; cases e3; rfl
    | key k => rw [show Item.signInput 4 (.key k) = Item.signable 4 (.key k) from rfl, h1] at e3; cases e3; rfl
    | subkey p k => rw [show Item.signInput 4 (.subkey p k) = Item.signable 4 (.subkey p k) from rfl, h1] at e3; cases e3; rfl
    | secretSubkey p k => exact absurd rfl (hsk p k)
    | userId p k => rw [show Item.signInput 4 (.userId p k) = Item.signable 4 (.userId p k) from rfl, h1] at e3; cases e3; rfl
    | userAttribute p k => rw [show Item.signInput 4 (.userAttribute p k) = Item.signable 4 (.userAttribute p k) from rfl, h1] at e3; cases e3; rfl
  subst ha
  refine ⟨hd, _, values, s1, rfl, ?_, rfl⟩
  generalize H h _ = digest at e6
  unfold signHash at e6
  generalize hk : K.alg = alg at e6
  split at e6
  · rename_i h1
    cases e6
    exact .rsa alg h1
  · split at e6
    · rename_i h1
      cases e6
      subst h1
      exact .elgamal _ _ rfl
    · split at e6
      · rename_i h1
        cases e6
        subst h1
        refine .dsa _ _ ?_
        rw [qBytes_bits hq h0 hfl, osToInt_eq]
        rfl
      · cases e6

theorem toyQ_digits : BinaryDigits toyPrims.dsaQ 160 := by
  refine ⟨?_, ?_⟩ <;> decide +kernel

/-- A DSA key signs a user ID: the two numbers are made of the first twenty octets of the SHA-1 digest. -/
example : ∃ sig digest numbers, signItem Nat.log2 toyHash ⟨"0123456789ABCDEF".toList, 17, false, toyPrims⟩ (.userId [4, 1] [65]) 4 0x13 2 [] 1000 = .ok sig ∧
    SignatureNumbers toyPrims 160 2 digest 17 numbers := by
  obtain ⟨hd, digest, numbers, h1, h2, h3, h4⟩ := C28_signed_values Nat.log2 toyHash ⟨"0123456789ABCDEF".toList, 17, false, toyPrims⟩ 160 toyQ_digits (by decide +kernel)
    rfl (.userId [4, 1] [65]) (by intro b h; cases h) (by intro p k h; cases h) 0x13 2 1000 [] _ rfl
  exact ⟨_, digest, numbers, rfl, h3⟩

/-- C28: a signature is accepted only if the primitive accepts its numbers for the digest of what is signed. -/
theorem C28_verified_values (fl : FloorLog2) (H : Digest) (K : SignKey) (bits : Nat) (hq : BinaryDigits K.prims.dsaQ bits) (h0 : K.prims.dsaQ ≠ 0)
    (hfl : fl K.prims.dsaQ = Nat.log2 K.prims.dsaQ) (i : Item) (hsk : ∀ p k, i ≠ .secretSubkey p k) (v t p h : Nat) (hv : 4 ≤ v) (hashed unhashed : List Sub)
    (hash2 : Bytes) (values : List (Option Nat)) (r : Bool) (ho : verifyItem fl H K i (.v4 v t p h hashed unhashed hash2 values) = .ok r) :
    r = true ∧ ∃ hd, subsBytes fl hashed = .ok hd ∧
      NumbersAccepted K.prims bits h (H h ((itemAbout i).octets ++ trailer4 (UInt8.ofNat v) (UInt8.ofNat t) (UInt8.ofNat p) (UInt8.ofNat h) hd)) p
        (values.filterMap id) := by
  obtain ⟨h1, _, _, hd, h4, _, h6⟩ := C28_verify_sound fl H K i hsk v t p h hv hashed unhashed hash2 values r ho
  refine ⟨h1, hd, h4, ?_⟩
  generalize H h _ = digest at h6
  generalize values.filterMap id = vs at h6
  unfold verifyHash at h6
  split at h6
  · rename_i ha
    cases vs with
    | nil => cases h6
    | cons x more =>
      simp only [Except.ok.injEq] at h6
      by_cases hx : x = 0
      · subst hx
        exact .rsaZero p ha more h6
      · obtain ⟨y, b, hy, hb, hl⟩ := longToBytes_shortest hx
        rw [hl] at h6
        subst hb
        exact .rsa p ha y b more hy h6
  · split at h6
    · rename_i ha
      subst ha
      simp only [Except.ok.injEq] at h6
      exact .elgamal _ h6
    · split at h6
      · rename_i ha
        subst ha
        obtain ⟨u, hu, h6⟩ := except_bind_eq_ok.mp h6
        rw [qBytes_bits hq h0 hfl, osToInt_eq] at h6
        simp only [except_pure, Except.ok.injEq] at h6
        refine .dsa _ (fun hn => ?_) h6
        subst hn
        cases hu
      · cases h6

/-- The signature of that key verifies, so its numbers are accepted. -/
example : ∃ hd values, NumbersAccepted toyPrims 160 2 (toyHash 2 ((itemAbout (.userId [4, 1] [65])).octets ++ trailer4 4 0x13 17 2 hd)) 17 values := by
  have h := C28_verified_values Nat.log2 toyHash ⟨"0123456789ABCDEF".toList, 17, false, toyPrims⟩ 160 toyQ_digits (by decide +kernel) rfl (.userId [4, 1] [65])
    (by intro p k h; cases h) 4 0x13 17 2 (by decide) [.plain false (.issuer "0123456789ABCDEF".toList), .plain false (.creationTime 1000)] [] _ _ true
    (C28_sign_verify_partial Nat.log2 toyHash toyHash_ok ⟨"0123456789ABCDEF".toList, 17, false, toyPrims⟩ 2 toyPrims_correct
      (.userId [4, 1] [65]) (by intro _ h; cases h) 0x13 [] 1000 _ (by rintro (h | h) <;> cases h) rfl)
  obtain ⟨_, hd, _, h⟩ := h
  exact ⟨hd, _, h⟩

/-- C28 (refuted): where the group order is not a whole number of octets long, the number a DSA signature is made of is not the leading bits of the digest, as
many as the group order has (FIPS 186, RFC 4880 5.2.2), unless they are all zero. -/
theorem C28_dsa_bits_refuted (bits : Nat) (hb : bits % 8 ≠ 0) (digest : List UInt8) (hl : bits ≤ 8 * digest.length) (hz : beNat (dsaOctets bits digest) ≠ 0) :
    beNat (dsaOctets bits digest) ≠ beNat digest / 2 ^ (8 * digest.length - bits) := by
  have hn : (bits + 7) / 8 ≤ digest.length := by omega
  have hcut : beNat digest = beNat (dsaOctets bits digest) * 256 ^ (digest.length - (bits + 7) / 8) + beNat (digest.drop ((bits + 7) / 8)) := by
    conv_lhs => rw [← List.take_append_drop ((bits + 7) / 8) digest]
    rw [beNat_append]
    unfold dsaOctets
    simp only [List.length_drop]
  have hr : beNat (digest.drop ((bits + 7) / 8)) < 256 ^ (digest.length - (bits + 7) / 8) := by
    have := beNat_lt (digest.drop ((bits + 7) / 8))
    rwa [List.length_drop] at this
  generalize dsaOctets bits digest = d at *
  generalize beNat (digest.drop ((bits + 7) / 8)) = low at *
  have he : 2 ^ (8 * digest.length - bits) = 256 ^ (digest.length - (bits + 7) / 8) * 2 ^ (8 * ((bits + 7) / 8) - bits) := by
    rw [show (256 : Nat) = 2 ^ 8 from rfl, ← Nat.pow_mul, ← Nat.pow_add]
    congr 1
    omega
  rw [he, ← Nat.div_div_eq_div_mul, hcut, Nat.add_comm, Nat.add_mul_div_right _ _ (Nat.pow_pos (by decide)), Nat.div_eq_of_lt hr, Nat.zero_add]
  have : beNat d / 2 ^ (8 * ((bits + 7) / 8) - bits) < beNat d := Nat.div_lt_self (by omega) (Nat.one_lt_two_pow (by omega))
  omega

/-- A group order of 161 digits and a digest of 32 octets: 21 octets are used, seven bits too many. -/
example : beNat (dsaOctets 161 (List.replicate 32 170)) ≠ beNat (List.replicate 32 170) / 2 ^ (8 * (List.replicate 32 (170 : UInt8)).length - 161) :=
  C28_dsa_bits_refuted 161 (by decide) (List.replicate 32 170) (by decide) (by decide +kernel)

end Pgp.Props
