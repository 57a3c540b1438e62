import Verif.Lemmas.SessionKey
import Verif.Lemmas.Modes
import Verif.Props.S2k
import Verif.Props.Modes
import Mathlib.Data.Int.GCD
/-
Property theorems C26 (session key and one-pass packets), C45 (session key block), C53 (hidden recipients), C61 (ElGamal session
keys are secret).
-/
namespace Pgp.Props
open Spec

/-! ### C26 -/

/-- C26 (public-key session keys): a packet with an eight-octet key id serialises and reads back the same. -/
theorem C26_pkesk_roundtrip_partial (v alg : Nat) (hv : v < 256) (ha : alg < 256) (id esk : Bytes) (hid : id.length = 8) :
    ∃ data, (PkEsk.mk v (some (hexText id)) alg esk).content = .ok data ∧
      parsePkEsk data = .ok ⟨v, some (hexText id), alg, esk⟩ := by
  rw [← hexOf_eq_hexText]
  refine ⟨[UInt8.ofNat v] ++ id ++ [UInt8.ofNat alg] ++ esk, ?_, ?_⟩
  · simp only [PkEsk.content, Option.getD_some, byteOf_lt hv, byteOf_lt ha, hexToBytes_hexOf hid, except_bind_ok, except_pure]
  · generalize hd : [UInt8.ofNat v] ++ id ++ [UInt8.ofNat alg] ++ esk = data
    have d0 : data.drop 0 = UInt8.ofNat v :: (id ++ (UInt8.ofNat alg :: esk)) := by rw [← hd]; simp
    have d1 := drop_succ_of_drop d0
    have d9 := drop_add_of_drop' (n := 8) d1 hid.symm
    have d10 := drop_succ_of_drop d9
    simp only [Nat.zero_add, Nat.reduceAdd] at d1 d9 d10
    simp only [parsePkEsk, idx_of_drop d0, idx_of_drop d9, bytearrayToHex_of_drop (e := 16) d1 (by omega), d10, except_bind_ok,
      except_pure, toNat_ofNat_lt hv, toNat_ofNat_lt ha]

example := C26_pkesk_roundtrip_partial 3 1 (by decide) (by decide) [1, 2, 3, 4, 5, 6, 7, 0xab] [0, 9, 1, 2] rfl

/-- C26 (refuted for wild-card key ids): a packet with no key id never reads back as one; it reads as the id of sixteen zeros. -/
theorem C26_wildcard_lost (v alg : Nat) (hv : v < 256) (ha : alg < 256) (esk : Bytes) :
    ∃ data, (PkEsk.mk v none alg esk).content = .ok data ∧
      parsePkEsk data = .ok ⟨v, some (List.replicate 16 '0'), alg, esk⟩ := by
  have h : hexText (List.replicate 8 0) = List.replicate 16 '0' := by decide +kernel
  obtain ⟨data, h1, h2⟩ := C26_pkesk_roundtrip_partial v alg hv ha (List.replicate 8 0) esk (by simp)
  rw [h] at h1 h2
  exact ⟨data, h1, h2⟩

example := C26_wildcard_lost 3 1 (by decide) (by decide) [0, 9, 1, 2]

/-- No packet at all is read as having the wild-card key id. -/
theorem C26_wildcard_never_read (data : Bytes) (p : PkEsk) (h : parsePkEsk data = .ok p) : p.keyId ≠ none := by
  unfold parsePkEsk at h
  obtain ⟨v, _, h⟩ := except_bind_eq_ok.mp h
  obtain ⟨k, _, h⟩ := except_bind_eq_ok.mp h
  obtain ⟨a, _, h⟩ := except_bind_eq_ok.mp h
  cases h; simp

example := C26_wildcard_never_read [3, 0, 0, 0, 0, 0, 0, 0, 0, 1, 0, 9, 1, 2] ⟨3, some (List.replicate 16 '0'), 1, [0, 9, 1, 2]⟩ (by decide +kernel)

/-- What is read of a written symmetric-key session key packet: everything, but at most `key length + 1` octets of the encrypted
key, and an absent key reads as an empty one. -/
theorem skesk_reads (fl : Nat → Nat) (hl : LogOnCounts fl) (v sym n : Nat) (hv : v < 256) (hsym : sym < 256) (s : S2K)
    (he : Encodable s) (hs : s.sym = sym) (hn : tableKeyOctets sym = some n) (esk : Option Bytes) :
    ∃ data, (SkEsk.mk v sym s esk).content fl = .ok data ∧
      parseSkEsk data = .ok ⟨v, sym, s, some ((esk.getD []).take (n + 1))⟩ := by
  obtain ⟨enc, h1, h2⟩ := C21_s2k_roundtrip fl hl s he
  refine ⟨[UInt8.ofNat v, UInt8.ofNat sym] ++ enc ++ esk.getD [], ?_, ?_⟩
  · simp only [SkEsk.content, byteOf_lt hv, byteOf_lt hsym, h1, except_bind_ok, except_pure]
  · have h2 := h2 [UInt8.ofNat v, UInt8.ofNat sym] (esk.getD [])
    rw [hs] at h2
    have i0 : idx ([UInt8.ofNat v, UInt8.ofNat sym] ++ enc ++ esk.getD []) 0 = .ok (UInt8.ofNat v) := rfl
    have i1 : idx ([UInt8.ofNat v, UInt8.ofNat sym] ++ enc ++ esk.getD []) 1 = .ok (UInt8.ofNat sym) := rfl
    have hsl : slice ([UInt8.ofNat v, UInt8.ofNat sym] ++ enc ++ esk.getD []) ([UInt8.ofNat v, UInt8.ofNat sym].length + enc.length)
        ([UInt8.ofNat v, UInt8.ofNat sym].length + enc.length + n + 1) = (esk.getD []).take (n + 1) := by
      unfold slice
      rw [List.drop_left' (by simp only [List.length_append])]
      congr 1; omega
    unfold parseSkEsk
    rw [i0, i1]
    simp only [except_bind_ok, toNat_ofNat_lt hv, toNat_ofNat_lt hsym, keyLengths_eq, hn]
    rw [show (2 : Nat) = [UInt8.ofNat v, UInt8.ofNat sym].length from rfl, h2]
    simp only [except_bind_ok, except_pure]
    rw [hsl]

/-- C26 (symmetric-key session keys): a packet whose encrypted key has at most the length for its cipher serialises and reads back
the same. -/
theorem C26_skesk_roundtrip_partial (fl : Nat → Nat) (hl : LogOnCounts fl) (v sym n : Nat) (hv : v < 256) (hsym : sym < 256)
    (s : S2K) (he : Encodable s) (hs : s.sym = sym) (hn : tableKeyOctets sym = some n) (esk : Bytes) (hk : esk.length ≤ n + 1) :
    ∃ data, (SkEsk.mk v sym s (some esk)).content fl = .ok data ∧ parseSkEsk data = .ok ⟨v, sym, s, some esk⟩ := by
  obtain ⟨data, h1, h2⟩ := skesk_reads fl hl v sym n hv hsym s he hs hn (some esk)
  rw [Option.getD_some, List.take_of_length_le hk] at h2
  exact ⟨data, h1, h2⟩

example := C26_skesk_roundtrip_partial Nat.log2 (fun _ _ _ => rfl) 4 9 32 (by decide) (by decide) (.iterated 2 9 [1, 2, 3, 4, 5, 6, 7, 8] (countValue 96)) ⟨by decide, rfl, 96, by decide, rfl⟩ rfl rfl (List.replicate 33 5) (by decide)

/-- C26 (refuted for longer encrypted keys): the tail of an encrypted key made for a cipher with longer keys is dropped. -/
theorem C26_skesk_truncated (fl : Nat → Nat) (hl : LogOnCounts fl) (v sym n : Nat) (hv : v < 256) (hsym : sym < 256)
    (s : S2K) (he : Encodable s) (hs : s.sym = sym) (hn : tableKeyOctets sym = some n) (esk : Bytes) (hk : n + 1 < esk.length) :
    ∃ data e, (SkEsk.mk v sym s (some esk)).content fl = .ok data ∧ parseSkEsk data = .ok ⟨v, sym, s, some e⟩ ∧
      e.length = n + 1 ∧ e ≠ esk := by
  obtain ⟨data, h1, h2⟩ := skesk_reads fl hl v sym n hv hsym s he hs hn (some esk)
  refine ⟨data, _, h1, h2, ?_, ?_⟩
  · rw [Option.getD_some, List.length_take]; omega
  · intro h
    have := congrArg List.length h
    rw [Option.getD_some, List.length_take] at this; omega

example := C26_skesk_truncated Nat.log2 (fun _ _ _ => rfl) 4 9 32 (by decide) (by decide) (.iterated 2 9 [1, 2, 3, 4, 5, 6, 7, 8] (countValue 96)) ⟨by decide, rfl, 96, by decide, rfl⟩ rfl rfl (List.replicate 34 5) (by decide)

/-- C26: an absent encrypted key reads back as the empty one, which the library treats the same way when it asks for the session
key. -/
theorem C26_skesk_absent (fl : Nat → Nat) (hl : LogOnCounts fl) (v sym n : Nat) (hv : v < 256) (hsym : sym < 256)
    (s : S2K) (he : Encodable s) (hs : s.sym = sym) (hn : tableKeyOctets sym = some n) :
    (∃ data, (SkEsk.mk v sym s none).content fl = .ok data ∧ parseSkEsk data = .ok ⟨v, sym, s, some []⟩) ∧
      ∀ S H pass, skEskGetKey S H s sym pass (some []) = skEskGetKey S H s sym pass none := by
  refine ⟨?_, fun S H pass => rfl⟩
  obtain ⟨data, h1, h2⟩ := skesk_reads fl hl v sym n hv hsym s he hs hn none
  exact ⟨data, h1, h2⟩

example := C26_skesk_absent Nat.log2 (fun _ _ _ => rfl) 4 9 32 (by decide) (by decide) (.iterated 2 9 [1, 2, 3, 4, 5, 6, 7, 8] (countValue 96)) ⟨by decide, rfl, 96, by decide, rfl⟩ rfl rfl

/-- C26 (refuted for one-pass signatures): for every packet with an eight-octet key id, everything but the key id survives and the
key id comes back as its first four octets. -/
theorem C26_onepass_loses_half (v t h a n : Nat) (hv : v < 256) (ht : t < 256) (hh : h < 256) (ha : a < 256) (hn : n < 256)
    (id1 id2 : Bytes) (h1 : id1.length = 4) (h2 : id2.length = 4) :
    ∃ data, (OnePass.mk v t h a (hexText (id1 ++ id2)) n).content = .ok data ∧
      parseOnePass data = .ok ⟨v, t, h, a, hexText id1, n⟩ ∧ hexText id1 ≠ hexText (id1 ++ id2) := by
  rw [← hexOf_eq_hexText, ← hexOf_eq_hexText]
  have hb : extendInts [v, t, h, a] = .ok [UInt8.ofNat v, UInt8.ofNat t, UInt8.ofNat h, UInt8.ofNat a] := by
    simp [extendInts, byteOf_lt, hv, ht, hh, ha]
  refine ⟨[UInt8.ofNat v, UInt8.ofNat t, UInt8.ofNat h, UInt8.ofNat a] ++ (id1 ++ id2) ++ [UInt8.ofNat n], ?_, ?_, ?_⟩
  · simp only [OnePass.content, hb, hexToBytes_hexOf (n := 8) (show (id1 ++ id2).length = 8 by simp; omega), byteOf_lt hn,
      except_bind_ok, except_pure]
  · generalize hd : [UInt8.ofNat v, UInt8.ofNat t, UInt8.ofNat h, UInt8.ofNat a] ++ (id1 ++ id2) ++ [UInt8.ofNat n] = data
    have d0 : data.drop 0 = UInt8.ofNat v :: UInt8.ofNat t :: UInt8.ofNat h :: UInt8.ofNat a :: (id1 ++ (id2 ++ [UInt8.ofNat n])) := by
      rw [← hd]; simp
    have d1 := drop_succ_of_drop d0
    have d2 := drop_succ_of_drop d1
    have d3 := drop_succ_of_drop d2
    have d4 := drop_succ_of_drop d3
    have d8 := drop_add_of_drop' (n := 4) d4 h1.symm
    have d12 := drop_add_of_drop' (n := 4) d8 h2.symm
    simp only [Nat.zero_add, Nat.reduceAdd] at d1 d2 d3 d4 d8 d12
    simp only [parseOnePass, idx_of_drop d0, idx_of_drop d1, idx_of_drop d2, idx_of_drop d3, idx_of_drop d12,
      bytearrayToHex_of_drop (e := 8) d4 (by omega), except_bind_ok, except_pure, toNat_ofNat_lt, hv, ht, hh, ha, hn]
  · intro he
    have := congrArg List.length he
    rw [hexOf_length, hexOf_length, List.length_append] at this
    omega

example : LogOnCounts Nat.log2 ∧ Encodable (.iterated 2 9 [1,2,3,4,5,6,7,8] (countValue 96)) ∧ tableKeyOctets 9 = some 32 :=
  ⟨fun _ _ _ => rfl, ⟨by decide, rfl, 96, by decide, rfl⟩, rfl⟩

/-! ### C45 -/

/-- C45: the block made for an algorithm and a key reads back as them. -/
theorem C45_block_roundtrip (alg : Nat) (h : alg < 256) (key : Bytes) :
    ∃ m, sessionBlock alg key = .ok m ∧ SessionBlock (UInt8.ofNat alg) key m ∧ readSessionBlock m = .ok (alg, key) := by
  refine ⟨_, sessionBlock_ok h key, rfl, ?_⟩
  exact (readSessionBlock_iff _ _ _).mpr (.inl ⟨UInt8.ofNat alg, (toNat_ofNat_lt h).symm, rfl⟩)

example := C45_block_roundtrip 9 (by decide) (List.replicate 32 200)

/-- C45: a block is accepted exactly if it is an algorithm octet, a key and the key's checksum, with these results; the only other
accepted block is two zero octets. -/
theorem C45_block_accepted_iff (m : Bytes) (a : Nat) (key : Bytes) :
    readSessionBlock m = .ok (a, key) ↔
      (∃ al : UInt8, a = al.toNat ∧ SessionBlock al key m) ∨ (m = [0, 0] ∧ a = 0 ∧ key = []) :=
  readSessionBlock_iff m a key

/-- C45: a wrong checksum is always rejected. -/
theorem C45_wrong_checksum_rejected (al : UInt8) (key t : Bytes) (ht : t.length = 2)
    (hne : t ≠ beBytes 2 (octetSum key % 65536)) : readSessionBlock (al :: (key ++ t)) = .error .valueError := by
  cases h : readSessionBlock (al :: (key ++ t)) with
  | ok r =>
    obtain ⟨a, k⟩ := r
    rcases (readSessionBlock_iff _ _ _).mp h with ⟨al', _, h⟩ | ⟨h, _⟩
    · unfold SessionBlock at h
      injection h with _ h
      obtain ⟨rfl, h⟩ := List.append_inj' h (by simp [ht, beBytes_length])
      exact absurd h hne
    · have := congrArg List.length h
      simp at this; omega
  | error e =>
    obtain ⟨x, y, rfl⟩ : ∃ x y, t = [x, y] := by
      rcases t with _ | ⟨x, _ | ⟨y, _ | ⟨z, t⟩⟩⟩ <;> simp_all
    unfold readSessionBlock at h
    have hlen : (al :: (key ++ [x, y])).length = key.length + 3 := by simp
    rw [hlen] at h
    rw [idx_of_drop (s := key ++ [x, y]) (x := al) (off := 0) (by rfl), idx_lt (off := key.length + 3 - 2) (by rw [hlen]; omega),
      idx_lt (off := key.length + 3 - 1) (by rw [hlen]; omega)] at h
    simp only [except_bind_ok, show ¬ key.length + 3 < 2 by omega, if_false, except_pure] at h
    split at h
    · cases h; rfl
    · cases h

example := C45_wrong_checksum_rejected 9 (List.replicate 32 200) [0, 0] rfl (by decide +kernel)

/-- C45: PKCS#1 padding, encoded with any non-zero padding of the right length, has the length of the modulus, and is removed
exactly, also after leading zeros were lost. -/
theorem C45_pkcs_roundtrip (k : Nat) (ps m : Bytes) (hps : ∀ x ∈ ps, x ≠ 0) (hl : ps.length = k - m.length - 3)
    (hm : m.length + 11 ≤ k) :
    ∃ em, pkcsEncode k ps m = .ok em ∧ em.length = k ∧ PkcsBlock m em ∧
      pkcsDecode k em = some m ∧ pkcsDecode k (em.drop 1) = some m := by
  have hb : PkcsBlock m ([0, 2] ++ ps ++ [0] ++ m) := ⟨ps, hps, by omega, by simp⟩
  have hlen : ([0, 2] ++ ps ++ [0] ++ m : Bytes).length = k := by simp; omega
  refine ⟨[0, 2] ++ ps ++ [0] ++ m, ?_, hlen, hb, ?_, ?_⟩
  · unfold pkcsEncode; rw [if_neg (by omega)]
  · rw [pkcsDecode_iff, hlen, Nat.sub_self]; exact hb
  · rw [pkcsDecode_iff, List.length_drop, hlen, show k - (k - 1) = 1 by omega]
    exact hb

example := C45_pkcs_roundtrip 32 (List.replicate 10 1) (List.replicate 19 3) (fun x hx => by rw [List.eq_of_mem_replicate hx]; decide) rfl (by decide)

/-- C45: and nothing else is taken for a padded block: removing the padding gives `x` exactly if the block (filled up with zeros) is
`00 02 PS 00 x` with at least eight non-zero padding octets. -/
theorem C45_pkcs_decode_iff (k : Nat) (m x : Bytes) :
    pkcsDecode k m = some x ↔ PkcsBlock x (List.replicate (k - m.length) 0 ++ m) := pkcsDecode_iff k m x

/-- What an ElGamal key decrypts its own encrypted session key to, whatever the secret exponent is. -/
theorem elgamal_esk (fl : Nat → Nat) (key : ElGamal) (hp : 1 < key.p) (hfl : ∀ i, 0 < i → i < key.p → LogRoom fl i)
    (inverse : Nat → Nat → Nat) (hinv : InverseOk inverse key.p) (ps : Bytes) (hps : ∀ x ∈ ps, x ≠ 0) (alg : Nat)
    (halg : alg < 256) (sk : Bytes) (hsk : sk.length + 14 ≤ byteLen key.p) (hl : ps.length = byteLen key.p - (sk.length + 3) - 3) :
    ∃ esk, elgamalEncryptKey fl key ps alg sk = .ok esk ∧ (∃ a b, mpiSlices esk esk.length 0 = .ok [a, b]) ∧
      elgamalDecryptKey key inverse esk = .ok (alg, sk) := by
  obtain ⟨m, hm1, hm2, hm3⟩ := C45_block_roundtrip alg halg sk
  have hml : m.length = sk.length + 3 := by rw [hm2]; simp [beBytes_length]
  obtain ⟨em, he1, he2, he3, _, he5⟩ := C45_pkcs_roundtrip (byteLen key.p) ps m hps (by omega) (by omega)
  obtain ⟨ps', hps', hl', hem⟩ := he3
  obtain ⟨b1, b2, b3⟩ := byteLen_bounds (show 0 < key.p by omega)
  -- the encoded block is a number below p, and not zero
  have htail : em.drop 1 = 2 :: (ps' ++ 0 :: m) := by rw [hem]; rfl
  have hval : beNat em = beNat (em.drop 1) := by
    rw [hem, beNat_cons]; simp
  have hlt : beNat em < key.p := by
    rw [hval]
    refine Nat.lt_of_lt_of_le (beNat_lt _) ?_
    rw [List.length_drop, he2]; exact b1
  have hpos : 0 < beNat em := by
    rw [hval, htail, beNat_cons]
    have : 0 < 256 ^ (ps' ++ 0 :: m).length := Nat.pow_pos (by omega)
    rw [show (2 : UInt8).toNat = 2 from rfl]
    omega
  have henc : key.encrypt (osToInt em) 0 = (1, beNat em) := by
    unfold ElGamal.encrypt
    rw [Nat.pow_zero, Nat.pow_zero, Nat.mul_one, osToInt_eq, Nat.mod_eq_of_lt hp, Nat.mod_eq_of_lt hlt]
  obtain ⟨c1, e1, i1, v1, _, l1, l1', s1⟩ := mpiSlices_step (fl := fl) (i := 1)
    (hfl 1 Nat.one_pos hp) (by omega)
  obtain ⟨c2, e2, i2, v2, _, l2, l2', s2⟩ := mpiSlices_step (fl := fl) (i := beNat em)
    (hfl _ hpos hlt) hpos
  have hsl : mpiSlices (e1 ++ e2) (e1 ++ e2).length 0 = .ok [c1, c2] := by
    have hlen : (e1 ++ e2).length = (e1.length + e2.length - 3) + 1 + 1 + 1 := by rw [List.length_append]; omega
    rw [hlen, s1 (s := e2) (by simp)]
    rw [s2 (s := []) (by rw [Nat.zero_add]; simp)]
    rw [mpiSlices_end (by rw [List.length_append]; omega)]
    rfl
  refine ⟨e1 ++ e2, ?_, ⟨c1, c2, hsl⟩, ?_⟩
  · unfold elgamalEncryptKey
    simp only [hm1, he1, except_bind_ok, henc, i1, i2, except_pure]
  · unfold elgamalDecryptKey
    rw [hsl]
    simp only [except_bind_ok, osToInt_eq, v1, v2]
    have hdec : key.decrypt inverse (1, beNat em) = beNat em := by
      unfold ElGamal.decrypt
      have h1 := hinv 1 (Nat.coprime_one_left key.p)
      rw [Nat.one_mul] at h1
      dsimp only
      rw [Nat.one_pow, Nat.mod_eq_of_lt hp, Nat.mul_mod, h1, ← Nat.mul_mod, Nat.mul_one, Nat.mod_eq_of_lt hlt]
    rw [hdec, hval, htail, longToBytes_beNat (by decide), ← htail, he5]
    exact hm3

theorem elgamal_roundtrip (fl : Nat → Nat) (key : ElGamal) (hp : 1 < key.p) (hfl : ∀ i, 0 < i → i < key.p → LogRoom fl i)
    (inverse : Nat → Nat → Nat) (hinv : InverseOk inverse key.p) (ps : Bytes) (hps : ∀ x ∈ ps, x ≠ 0) (alg : Nat)
    (halg : alg < 256) (sk : Bytes) (hsk : sk.length + 14 ≤ byteLen key.p) (hl : ps.length = byteLen key.p - (sk.length + 3) - 3) :
    ∃ esk, elgamalEncryptKey fl key ps alg sk = .ok esk ∧ elgamalDecryptKey key inverse esk = .ok (alg, sk) := by
  obtain ⟨esk, h1, _, h2⟩ := elgamal_esk fl key hp hfl inverse hinv ps hps alg halg sk hsk hl
  exact ⟨esk, h1, h2⟩

/-- There are inverses modulo every `p`. -/
theorem inverse_exists (p : Nat) (hp : 1 < p) : InverseOk (fun a p => (Nat.gcdA a p % (p : Int)).toNat) p := by
  intro a ha
  have h := Nat.gcd_eq_gcd_ab a p
  have hnn : 0 ≤ Nat.gcdA a p % (p : Int) := Int.emod_nonneg _ (by omega)
  apply Int.ofNat.inj
  show (((a * (Nat.gcdA a p % (p : Int)).toNat % p : Nat)) : Int) = ((1 % p : Nat) : Int)
  push_cast
  rw [Int.toNat_of_nonneg hnn, Int.mul_emod, Int.emod_emod, ← Int.mul_emod]
  have ha' : (1 : Int) = a * Nat.gcdA a p + p * Nat.gcdB a p := by rw [← h]; rw [Nat.Coprime] at ha; rw [ha]; rfl
  conv_rhs => rw [ha']
  rw [Int.add_mul_emod_self_left]

/-- C45: a session key encrypted to an ElGamal key is recovered by it. -/
theorem C45_elgamal_roundtrip (fl : Nat → Nat) (key : ElGamal) (hp : 1 < key.p) (hfl : ∀ i, 0 < i → i < key.p → LogRoom fl i)
    (inverse : Nat → Nat → Nat) (hinv : InverseOk inverse key.p) (ps : Bytes) (hps : ∀ x ∈ ps, x ≠ 0) (alg : Nat)
    (halg : alg < 256) (sk : Bytes) (hsk : sk.length + 14 ≤ byteLen key.p) (hl : ps.length = byteLen key.p - (sk.length + 3) - 3) :
    ∃ esk, elgamalEncryptKey fl key ps alg sk = .ok esk ∧ elgamalDecryptKey key inverse esk = .ok (alg, sk) :=
  elgamal_roundtrip fl key hp hfl inverse hinv ps hps alg halg sk hsk hl

/-- A modulus of 256 bits and a session key of 16 octets. -/
example := C45_elgamal_roundtrip Nat.log2 ⟨2 ^ 255 + 95, 5, 7, 11⟩ (by decide +kernel)
  (fun i _ h => logRoom_of_exact rfl (Nat.lt_trans h (Nat.lt_of_lt_of_le (show 2 ^ 255 + 95 < 2 ^ 256 by decide +kernel) (Nat.pow_le_pow_right (by decide) (by decide)))))
  _ (inverse_exists _ (by decide +kernel)) (List.replicate 10 1) (fun x hx => by rw [List.eq_of_mem_replicate hx]; decide) 7 (by decide) (List.replicate 16 3) (by decide +kernel) (by decide +kernel)

/-- C45: an encrypted session key for an ElGamal key that holds no integer, or one instead of two, is refused with IndexError, whatever the
key is. -/
theorem C45_elgamal_missing_integer (fl : Nat → Nat) (key : ElGamal) (inverse : Nat → Nat → Nat) (esk : Bytes)
    (h : esk.length ≤ 2 ∨ ∃ i, 0 < i ∧ LogRoom fl i ∧ intToMpi fl i = .ok esk) :
    elgamalDecryptKey key inverse esk = .error .indexError := by
  unfold elgamalDecryptKey
  rcases h with h | ⟨i, h0, hr, he⟩
  · rw [mpiSlices_end (by omega)]
    rfl
  · obtain ⟨c, e, h1, _, _, hl, _, hs⟩ := mpiSlices_step (fl := fl) hr h0
    rw [he] at h1
    cases h1
    have hlen : esk.length = (esk.length - 1) + 1 := by omega
    have h2 : mpiSlices esk esk.length 0 = .ok [c] := by
      rw [hlen, hs (s := []) (by simp), mpiSlices_end (by omega)]
      rfl
    rw [h2]
    rfl

example := C45_elgamal_missing_integer Nat.log2 ⟨23, 5, 8, 6⟩ (fun a _ => a) [0, 3, 5] (.inr ⟨5, by decide, .inr (by decide), rfl⟩)
example := C45_elgamal_missing_integer Nat.log2 ⟨23, 5, 8, 6⟩ (fun a _ => a) [] (.inl (by decide))

/-- C45: a key too long for the modulus is refused. -/
theorem C45_elgamal_too_long (fl : Nat → Nat) (key : ElGamal) (ps : Bytes) (alg : Nat) (halg : alg < 256) (sk : Bytes)
    (h : byteLen key.p < sk.length + 14) : elgamalEncryptKey fl key ps alg sk = .error .valueError := by
  unfold elgamalEncryptKey
  rw [sessionBlock_ok halg]
  simp only [except_bind_ok]
  unfold pkcsEncode
  rw [if_pos (by simp [beBytes_length]; omega)]
  rfl

example := C45_elgamal_too_long Nat.log2 ⟨2 ^ 255 + 95, 5, 7, 11⟩ [] 9 (by decide) (List.replicate 32 3) (by decide +kernel)

/-- C45 (RSA): a session key that fits (with eleven octets of padding) and whose ciphertext (as long as the modulus) does not start with a zero octet is recovered. -/
theorem C45_rsa_roundtrip_partial (fl : Nat → Nat) (enc : Bytes → Bytes) (dec : Bytes → Option Bytes) (k : Nat)
    (hed : ∀ m, m.length + 11 ≤ k → dec (enc m) = some m) (alg : Nat) (halg : alg < 256) (sk : Bytes)
    (hsk : sk.length + 14 ≤ k) (x : UInt8) (b : Bytes) (hc : ∀ m, sessionBlock alg sk = .ok m → enc m = x :: b) (hlen : b.length + 1 = k) (hx : x ≠ 0) (hfl : OctetLog fl (beNat (x :: b))) :
    ∃ esk, rsaEncryptKey fl enc alg sk = .ok esk ∧ rsaDecryptKey dec k esk = .ok (alg, sk) := by
  obtain ⟨m, hm1, hm2, hm3⟩ := C45_block_roundtrip alg halg sk
  have he := hc m hm1
  have hx0 : 0 < x.toNat := by
    rcases Nat.eq_zero_or_pos x.toNat with h | h
    · exact absurd (UInt8.toNat_inj.mp (by simpa using h)) hx
    · exact h
  have hlo : 256 ^ b.length ≤ beNat (x :: b) := by
    rw [beNat_cons]; exact Nat.le_trans (Nat.le_mul_of_pos_left _ hx0) (Nat.le_add_right ..)
  have hhi := beNat_lt (x :: b)
  have hpos : 0 < beNat (x :: b) := Nat.lt_of_lt_of_le (Nat.pow_pos (by omega)) hlo
  obtain ⟨c, e, i1, v1, cl, l1, l1', s1⟩ := mpiSlices_step (fl := fl) (logRoom_of_octets hfl) hpos
  have hn0 : beNat (x :: b) ≠ 0 := by omega
  have hcl : c.length = k := by
    rw [cl, hfl.2]
    have a1 : 8 * b.length ≤ Nat.log2 (beNat (x :: b)) := (Nat.le_log2 hn0).mpr (by rw [Nat.pow_mul]; exact hlo)
    have a2 : Nat.log2 (beNat (x :: b)) < 8 * (b.length + 1) := (Nat.log2_lt hn0).mpr (by rw [Nat.pow_mul]; simpa using hhi)
    unfold octetsFor; omega
  have hceq : c = x :: b := beNat_inj (by rw [hcl, List.length_cons, hlen]) v1
  refine ⟨e, ?_, ?_⟩
  · unfold rsaEncryptKey
    simp only [hm1, except_bind_ok, he, osToInt_eq, i1]
  · unfold rsaDecryptKey
    have hsl : mpiSlices e e.length 0 = .ok [c] := by
      rw [show e.length = (e.length - 1) + 1 by omega, s1 (s := []) (by simp), mpiSlices_end (by omega)]; rfl
    rw [hsl]
    simp only [except_bind_ok]
    rw [if_neg (by simp [hcl]), hceq, ← he, hed m (by
      have : m.length = sk.length + 3 := by rw [hm2]; simp [beBytes_length]
      clear hlo hhi hpos hn0
      omega)]
    exact hm3

/-- "Encryption" that only pads: the padded block of 24 octets starts with a non-zero octet. -/
example := C45_rsa_roundtrip_partial Nat.log2 (fun m => List.replicate (23 - m.length) 2 ++ 0 :: m) (fun c => some ((c.dropWhile (· == 2)).drop 1)) 24
  (fun m _ => by
    have : ∀ n, (List.replicate n 2 ++ 0 :: m).dropWhile (· == (2 : UInt8)) = 0 :: m := fun n => by
      induction n with
      | zero => simp [List.dropWhile]
      | succ n ih => simpa [List.replicate_succ, List.dropWhile] using ih
    rw [this]; rfl) 7 (by decide) [1, 2, 3, 4] (by decide) 2 (List.replicate 15 2 ++ [0, 7, 1, 2, 3, 4, 0, 10]) (fun m hm => by cases hm; rfl) rfl (by decide) ⟨by decide +kernel, rfl⟩

/-- C45 (refuted for RSA ciphertexts that start with a zero octet): the leading zero is lost in the multi-precision integer, and
the recipient's decryption is refused. -/
theorem C45_rsa_leading_zero (fl : Nat → Nat) (enc : Bytes → Bytes) (dec : Bytes → Option Bytes) (k : Nat)
    (alg : Nat) (halg : alg < 256) (sk b : Bytes)
    (hc : ∀ m, sessionBlock alg sk = .ok m → enc m = 0 :: b) (hlen : b.length + 1 = k) (hfl : beNat b ≠ 0 → OctetLog fl (beNat b)) :
    ∃ esk, rsaEncryptKey fl enc alg sk = .ok esk ∧ rsaDecryptKey dec k esk = .error .valueError := by
  obtain ⟨m, hm1, hm2, hm3⟩ := C45_block_roundtrip alg halg sk
  have he := hc m hm1
  have hval : beNat (0 :: b) = beNat b := by rw [beNat_cons]; simp
  have hhi := beNat_lt b
  by_cases hz : beNat b = 0
  · refine ⟨[0, 0], ?_, rfl⟩
    unfold rsaEncryptKey
    simp only [hm1, except_bind_ok, he, osToInt_eq, hval, hz]
    exact intToMpi_zero fl
  obtain ⟨c, e, i1, v1, cl, l1, l1', s1⟩ := mpiSlices_step (fl := fl) (logRoom_of_octets (hfl hz)) (Nat.pos_of_ne_zero hz)
  have hcl : c.length ≤ b.length := by
    rw [cl, (hfl hz).2]
    have a2 : Nat.log2 (beNat b) < 8 * b.length := (Nat.log2_lt hz).mpr (by rw [Nat.pow_mul]; exact hhi)
    unfold octetsFor; omega
  refine ⟨e, ?_, ?_⟩
  · unfold rsaEncryptKey
    simp only [hm1, except_bind_ok, he, osToInt_eq, hval, i1]
  · unfold rsaDecryptKey
    have hsl : mpiSlices e e.length 0 = .ok [c] := by
      rw [show e.length = (e.length - 1) + 1 by omega, s1 (s := []) (by simp), mpiSlices_end (by omega)]; rfl
    rw [hsl]
    simp only [except_bind_ok]
    rw [if_pos (by omega)]

example := C45_rsa_leading_zero Nat.log2 (fun m => 0 :: m) (fun c => some c) 8 7 (by decide) [1, 2, 3, 4] [7, 1, 2, 3, 4, 0, 10] (fun m hm => by cases hm; rfl) rfl (fun _ => ⟨by decide +kernel, rfl⟩)

/-! ### C61 -/

/-- C61 (refuted): a session key encrypted to an ElGamal public key is recovered with any secret exponent at all, so by anybody:
the library encrypts with the fixed exponent 0. -/
theorem C61_elgamal_session_key_public (fl : Nat → Nat) (key : ElGamal) (hp : 1 < key.p) (hfl : ∀ i, 0 < i → i < key.p → LogRoom fl i)
    (inverse : Nat → Nat → Nat) (hinv : InverseOk inverse key.p) (ps : Bytes) (hps : ∀ x ∈ ps, x ≠ 0) (alg : Nat)
    (halg : alg < 256) (sk : Bytes) (hsk : sk.length + 14 ≤ byteLen key.p) (hl : ps.length = byteLen key.p - (sk.length + 3) - 3) :
    ∃ esk, elgamalEncryptKey fl key ps alg sk = .ok esk ∧
      ∀ anyone : Nat, elgamalDecryptKey { key with x := anyone } inverse esk = .ok (alg, sk) := by
  obtain ⟨esk, h1, _⟩ := elgamal_roundtrip fl key hp hfl inverse hinv ps hps alg halg sk hsk hl
  refine ⟨esk, h1, fun anyone => ?_⟩
  obtain ⟨esk', h1', h2'⟩ := elgamal_roundtrip fl { key with x := anyone } hp hfl inverse hinv ps hps alg halg sk hsk hl
  have : elgamalEncryptKey fl { key with x := anyone } ps alg sk = elgamalEncryptKey fl key ps alg sk := rfl
  rw [this, h1] at h1'
  cases h1'
  exact h2'

example := C61_elgamal_session_key_public Nat.log2 ⟨2 ^ 255 + 95, 5, 7, 11⟩ (by decide +kernel)
  (fun i _ h => logRoom_of_exact rfl (Nat.lt_trans h (Nat.lt_of_lt_of_le (show 2 ^ 255 + 95 < 2 ^ 256 by decide +kernel) (Nat.pow_le_pow_right (by decide) (by decide)))))
  _ (inverse_exists _ (by decide +kernel)) (List.replicate 10 1) (fun x hx => by rw [List.eq_of_mem_replicate hx]; decide) 7 (by decide) (List.replicate 16 3) (by decide +kernel) (by decide +kernel)

/-! ### C53 -/

/-- C53 (refuted): the packet made for a recipient carries the recipient's key id, whether or not hiding it was asked for. -/
theorem C53_key_id_not_hidden (v alg : Nat) (hv : v < 256) (ha : alg < 256) (id esk : Bytes) (hid : id.length = 8) (hide : Bool) :
    ∃ data, (publicKeySessionKeyPacket v (hexText id) alg esk hide).content = .ok data ∧ (data.drop 1).take 8 = id := by
  refine ⟨[UInt8.ofNat v] ++ id ++ [UInt8.ofNat alg] ++ esk, ?_, ?_⟩
  · simp only [publicKeySessionKeyPacket, ← hexOf_eq_hexText, PkEsk.content, Option.getD_some, byteOf_lt hv, byteOf_lt ha,
      hexToBytes_hexOf hid, except_bind_ok, except_pure]
  · rw [show [UInt8.ofNat v] ++ id ++ [UInt8.ofNat alg] ++ esk = UInt8.ofNat v :: (id ++ ([UInt8.ofNat alg] ++ esk)) by simp]
    rw [List.drop_succ_cons, List.drop_zero, ← hid, List.take_left]

example := C53_key_id_not_hidden 3 1 (by decide) (by decide) [1, 2, 3, 4, 5, 6, 7, 0xab] [0, 9, 1, 2] rfl true

end Pgp.Props
