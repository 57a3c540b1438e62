import Verif.Lemmas.SecretKey
import Verif.Props.PublicKey
import Verif.Props.S2k
import Verif.Props.EncData
import Verif.Spec.KeyFile
/-
Property theorems C41 (locking), C50 (secret key packets), C71 (the public part of a secret key).
-/
namespace Pgp.Props
open Spec

/-- A toy block cipher (adds the sum of the key to every octet) and a toy digest, for the examples only. -/
def exCiphers : BlockCiphers := ⟨fun _ key b => b.map (· + key.sum), fun _ key => key.length = 16⟩
def exDigest : Digest := fun alg d => List.replicate ((digestOctets alg).getD 0) (d.sum + 3)

/-- The private integers of a key protected by the passphrase "hi". -/
def exProtect (ints : List Nat) : Bytes :=
  (cfbEnc (exCiphers.enc 7 (List.replicate 16 212)) 16 16 (List.replicate 16 9)
    (secretPlain (exDigest 2) ints ++ List.replicate (16 - (secretPlain (exDigest 2) ints).length % 16) 0)).1.take (secretPlain (exDigest 2) ints).length

def exSecKey (ints : List Nat) : SecKey := ⟨mkPubKey 4 1000 1 none (.rsa 3233 17), .simple 2 7, 7, List.replicate 16 9, exProtect ints, false, true⟩

theorem exKey_usable : Usable exCiphers 7 16 (List.replicate 16 212) := ⟨rfl, by decide, by decide +kernel, fun b hb => by simp [exCiphers, hb]⟩

/-- A key and its packet octets. -/
def exSec : SecKey := exSecKey [2753, 61, 53, 38]
def exSecData : Bytes := (exSec.content Nat.log2 (.error .typeError)).toOption.getD []
theorem exSecData_ok : parseSecKey exSecData = .ok exSec := by decide +kernel

theorem exProtect_text (ints : List Nat) : CfbTextIv (exCiphers.enc 7 (List.replicate 16 212)) 16 (List.replicate 16 9) (secretPlain (exDigest 2) ints) (exProtect ints) :=
  (cfbTextIv_iff (bs := 16) (by decide) (fun b hb => by simp [exCiphers, hb]) rfl _ _).mpr
    ⟨List.replicate (16 - (secretPlain (exDigest 2) ints).length % 16) 0, by simp only [List.length_append, List.length_replicate]; omega, rfl⟩

/-! ### Secret key packets (C50) -/

/-- C50 (part that holds). A protected secret key packet with a non-empty encrypted portion serialises and parses back to itself. -/
theorem C50_packet_roundtrip_partial (fl : Nat → Nat) (hl : LogOnCounts fl) (resealed : Py Bytes) (version created alg : Nat) (days : Option Nat)
    (m : KeyMaterial) (hv : versionFits version days) (hc : created < 2 ^ 32) (ha : m.fits alg) (hm : ∀ i ∈ m.ints, LogRoom fl i)
    (s : S2K) (he : Encodable s) (hs : s.sym < 256) (bl : Nat) (hb : blockOctets s.sym = some bl) (iv enc : Bytes) (hiv : iv.length = bl) (hn : enc ≠ [])
    (checksum : Bool) :
    ∃ data, (SecKey.mk (mkPubKey version created alg days m) s s.sym iv enc checksum (!checksum)).content fl resealed = .ok data ∧
      parseSecKey data = .ok ⟨mkPubKey version created alg days m, s, s.sym, iv, enc, checksum, !checksum⟩ := by
  rw [← blockLengths_eq] at hb
  obtain ⟨p, hp, hpp⟩ := pubKey_roundtrip (fl := fl) hv hc ha hm
  obtain ⟨sb, hsb, hsp⟩ := C21_s2k_roundtrip fl hl s he
  have hiv' : (if s.sym ≠ 0 then iv else []) = iv := by
    by_cases h0 : s.sym = 0
    · rw [h0] at hb
      have : bl = 0 := by simpa [blockLengths] using hb.symm
      rw [if_neg (by simpa using h0)]
      exact (List.length_eq_zero_iff.mp (by omega)).symm
    · rw [if_pos h0]
  have hy := byteOf_lt hs
  set U : UInt8 := if checksum then 255 else 254 with hU
  refine ⟨p ++ ([U] ++ [UInt8.ofNat s.sym] ++ sb ++ iv) ++ enc, ?_, ?_⟩
  · simp only [SecKey.content, SecKey.protection, hp, hy, hsb, except_bind_ok, except_pure, hiv', if_pos hn]
    rfl
  · have e1 : p ++ ([U] ++ [UInt8.ofNat s.sym] ++ sb ++ iv) ++ enc = p ++ (U :: UInt8.ofNat s.sym :: (sb ++ (iv ++ enc))) := by simp
    have d0 : (p ++ (U :: UInt8.ofNat s.sym :: (sb ++ (iv ++ enc)))).drop p.length = U :: UInt8.ofNat s.sym :: (sb ++ (iv ++ enc)) := by simp
    have d1 := drop_succ_of_drop d0
    rw [e1]
    simp only [parseSecKey, hpp, except_bind_ok, parseSecretPart, idx_of_drop d0, idx_of_drop d1, toNat_ofNat_lt hs]
    have hU0 : ¬U = 0 := by rw [hU]; cases checksum <;> decide
    have hU1 : U = 254 ∨ U = 255 := by rw [hU]; cases checksum <;> decide
    rw [if_neg hU0, if_pos hU1]
    have e2 : p ++ (U :: UInt8.ofNat s.sym :: (sb ++ (iv ++ enc))) = (p ++ [U, UInt8.ofNat s.sym]) ++ sb ++ (iv ++ enc) := by simp
    have hoff : p.length + 1 + 1 = (p ++ [U, UInt8.ofNat s.sym]).length := by simp
    rw [e2, hoff, hsp]
    simp only [except_bind_ok, secretTail, hb]
    have d2 : ((p ++ [U, UInt8.ofNat s.sym]) ++ sb ++ (iv ++ enc)).drop ((p ++ [U, UInt8.ofNat s.sym]).length + sb.length) = iv ++ enc := by
      rw [← List.length_append]; exact List.drop_left
    have d3 : ((p ++ [U, UInt8.ofNat s.sym]) ++ sb ++ (iv ++ enc)).drop ((p ++ [U, UInt8.ofNat s.sym]).length + sb.length + bl) = enc := by
      rw [← List.drop_drop, d2]; exact List.drop_left' hiv
    have d4 : slice ((p ++ [U, UInt8.ofNat s.sym]) ++ sb ++ (iv ++ enc)) ((p ++ [U, UInt8.ofNat s.sym]).length + sb.length)
        ((p ++ [U, UInt8.ofNat s.sym]).length + sb.length + bl) = iv := by
      unfold slice
      rw [d2, Nat.add_sub_cancel_left]; exact List.take_left' hiv
    rw [d3, d4]
    have u1 : decide (U = 255) = checksum := by rw [hU]; cases checksum <;> decide
    have u2 : decide (U = 254) = !checksum := by rw [hU]; cases checksum <;> decide
    rw [u1, u2]

example := C50_packet_roundtrip_partial Nat.log2 (fun _ _ _ => rfl) (.error .typeError) 4 1000 1 none (.rsa 3233 17) (.inr ⟨by decide, by decide, rfl⟩) (by decide) (.inl rfl)
  exRsa_room (.simple 2 7) (show 2 < 256 from by decide) (by decide) 16 rfl (List.replicate 16 9) [1, 2, 3] rfl (by decide) false

/-- C50. What parses has usage 254 (with a hash) or 255 (with a checksum), never both and never neither; everything else of the packet is determined by its octets. -/
theorem C50_parsed_shape (data : Bytes) (k : SecKey) (h : parseSecKey data = .ok k) :
    k.hash = (!k.checksum) ∧ ∃ off pub bl, parsePubKey data = .ok (off, pub) ∧ k.pub = pub ∧ blockOctets k.sym = some bl ∧ k.iv.length ≤ bl ∧
      data.drop off ≠ [] ∧ (data.drop off).head? = some (if k.checksum then 255 else 254) := by
  simp only [← blockLengths_eq]
  unfold parseSecKey at h
  obtain ⟨⟨off, pub⟩, hp, h⟩ := except_bind_eq_ok.mp h
  unfold parseSecretPart at h
  obtain ⟨usage, hu, h⟩ := except_bind_eq_ok.mp h
  have hd : (data.drop off).head? = some usage := by
    unfold idx at hu
    split at hu
    · rename_i heq; cases hu; rw [heq]; rfl
    · cases hu
  have hd0 : data.drop off ≠ [] := by intro h0; rw [h0] at hd; cases hd
  split at h
  · cases h
  split at h
  · rename_i hus
    obtain ⟨sym, _, h⟩ := except_bind_eq_ok.mp h
    obtain ⟨⟨s, off'⟩, _, h⟩ := except_bind_eq_ok.mp h
    simp only [secretTail] at h
    split at h
    · cases h
    · rename_i bl hb
      cases h
      have hne : ¬((255 : UInt8) = 254) := by decide
      refine ⟨?_, off, pub, bl, hp, rfl, hb, ?_, hd0, ?_⟩
      · rcases hus with rfl | rfl <;> rfl
      · simp only [slice, List.length_take]; omega
      · rw [hd]; rcases hus with rfl | rfl <;> rfl
  split at h
  · cases h
  · cases h

example := C50_parsed_shape exSecData exSec exSecData_ok

/-- C50 fails: an unprotected key (usage octet 0) cannot be read, nor one protected in the old way (usage octet a cipher code), nor a GnuPG stub with usage 101. -/
theorem C50_other_usages_raise (data : Bytes) (off : Nat) (pub : PubKey) (hp : parsePubKey data = .ok (off, pub)) (usage : UInt8)
    (hu : (data.drop off).head? = some usage) (h1 : usage ≠ 254) (h2 : usage ≠ 255) : Raises (parseSecKey data) := by
  have hi : idx data off = .ok usage := by
    unfold idx
    cases hd : data.drop off with
    | nil => rw [hd] at hu; cases hu
    | cons a l => rw [hd] at hu; cases hu; rfl
  simp only [parseSecKey, hp, except_bind_ok, parseSecretPart, hi]
  rw [if_neg (show ¬(usage = 254 ∨ usage = 255) by tauto)]
  split
  · exact ⟨_, rfl⟩
  · split <;> exact ⟨_, rfl⟩

example := C50_other_usages_raise [4, 0, 0, 3, 232, 1, 0, 12, 12, 161, 0, 5, 17, 0, 0, 1, 1] 13 (mkPubKey 4 1000 1 none (.rsa 3233 17)) (by decide +kernel) 0 rfl (by decide) (by decide)

/-- C50 fails: a packet with an empty encrypted portion, or with a GnuPG specifier, though it parses, cannot be serialised again. -/
theorem C50_not_serialisable (fl : Nat → Nat) (sub : Bool) (k : SecKey) (h : k.enc = [] ∨ ∃ a b c d e, k.s2k = .gnupg a b c d e) :
    Raises (k.content fl (resealedParsed sub)) := by
  unfold SecKey.content
  cases hp : k.pub.publicContent fl with
  | error e => exact ⟨e, rfl⟩
  | ok p =>
    simp only [except_bind_ok]
    cases hq : k.protection fl with
    | error e => exact ⟨e, rfl⟩
    | ok q =>
      rcases h with h | ⟨a, b, c, d, e, h⟩
      · simp only [except_bind_ok, h, ne_eq, not_true_eq_false, if_false, resealedParsed]
        exact ⟨_, rfl⟩
      · simp only [SecKey.protection, h, S2K.toBytes] at hq
        cases hb : byteOf k.sym with
        | error e => rw [hb] at hq; cases hq
        | ok _ => rw [hb] at hq; cases hq

example := C50_not_serialisable Nat.log2 true { exSec with enc := [] } (.inl rfl)

/-- The cipher and the IV are usable. -/
theorem decryptPrivate_eq (S : BlockCiphers) (version alg bl : Nat) (hv : 4 ≤ version) (key iv enc : Bytes) (u : Usable S alg bl key) (hiv : iv.length = bl) :
    decryptPrivate S version (some key) alg iv enc =
      .ok ((cfbDec (S.enc alg key) bl bl iv (enc ++ List.replicate (bl - enc.length % bl) 0)).1.take enc.length) := by
  have hpos := u.pos
  have hpm : (enc ++ List.replicate (bl - enc.length % bl) (0 : UInt8)).length % bl = 0 := by
    rw [List.length_append, List.length_replicate]; exact pad_mod _ _ hpos
  have hlen := (cfbDec_length hpos u.len hpos (Nat.le_refl bl) _ hpm iv hiv).1
  have hmod := Nat.mod_lt enc.length hpos
  simp only [decryptPrivate, ge_iff_le, if_pos hv, getCfbKey, getCfb_ok S u.code hpos u.keyOk hiv, except_bind_ok, u.code, Option.getD_some]
  rw [cfbDecrypt_ok S rfl rfl (show _ % bl = 0 from hpm)]
  simp only [except_bind_ok, except_pure, dropLast]
  rw [if_neg (by omega), hlen]
  congr 2
  simp

/-- C50. The private integers of a version 4 key protected as RFC 4880 prescribes (usage 254) are recovered with the right cipher key, whatever their number and size. -/
theorem C50_private_values_recovered (S : BlockCiphers) (H : Digest) (hH : ∀ d, (H 2 d).length = 20) (version alg bl : Nat) (hv : 4 ≤ version) (key iv enc : Bytes)
    (u : Usable S alg bl key) (hiv : iv.length = bl) (ints : List Nat) (hi : ∀ i ∈ ints, i < 2 ^ 65535)
    (h : CfbTextIv (S.enc alg key) bl iv (secretPlain (H 2) ints) enc) :
    decryptPortion S H version (some key) alg iv enc false true = .ok ints := by
  have hpm : (enc ++ List.replicate (bl - enc.length % bl) (0 : UInt8)).length % bl = 0 := by
    rw [List.length_append, List.length_replicate]; exact pad_mod _ _ u.pos
  obtain ⟨hl, hd⟩ := cfbTextIv_dec u.pos u.len hiv h _ hpm
  simp only [decryptPortion, decryptPrivate_eq S version alg bl hv key iv enc u hiv, except_bind_ok, hl]
  rw [show (cfbDec (S.enc alg key) bl bl iv (enc ++ List.replicate (bl - (secretPlain (H 2) ints).length % bl) 0)).1.take (secretPlain (H 2) ints).length =
    secretPlain (H 2) ints by rw [← hl, hl]; rw [← hl] at hd ⊢; exact hd]
  set B := (ints.map mpi).flatten with hB
  have hlen : (secretPlain (H 2) ints).length = B.length + 20 := by simp [secretPlain, hH, ← hB]
  have ht : (secretPlain (H 2) ints).take ((secretPlain (H 2) ints).length - 20) = B := by
    rw [hlen, Nat.add_sub_cancel]; exact List.take_left
  have hla : lastN (secretPlain (H 2) ints) 20 = H 2 B := by
    unfold lastN
    rw [if_neg (by decide), hlen, Nat.add_sub_cancel]; exact List.drop_left
  simp only [readPrivate, Bool.false_eq_true, if_false, if_true, ht, hla, ne_eq, not_true_eq_false]
  rw [hlen, Nat.add_sub_cancel]
  have := mpiLoopTo_mpis hi (data := secretPlain (H 2) ints) (rest := H 2 B) (off := 0) (fuel := B.length + 20) rfl
    (by have := mpis_length ints; rw [← hB] at this; omega)
  rwa [Nat.zero_add] at this

example := C50_private_values_recovered exCiphers exDigest (fun d => List.length_replicate) 4 7 16 (by decide) _ (List.replicate 16 9) (exProtect [2753, 61]) exKey_usable rfl [2753, 61]
  (fun i hi => Nat.lt_of_lt_of_le (show i < 2 ^ 12 by simp only [List.mem_cons, List.not_mem_nil, or_false] at hi; omega) (Nat.pow_le_pow_right (by decide) (by decide))) (exProtect_text _)

/-- C50. Private values are only ever handed out if the decrypted octets end in the SHA-1 of the rest: a wrong passphrase or an altered packet is accepted only if it hits
upon that. -/
theorem C50_hash_checked (S : BlockCiphers) (H : Digest) (version alg bl : Nat) (hv : 4 ≤ version) (key iv enc : Bytes)
    (u : Usable S alg bl key) (hiv : iv.length = bl) (ints : List Nat) (h : decryptPortion S H version (some key) alg iv enc false true = .ok ints) :
    ∃ body, CfbTextIv (S.enc alg key) bl iv (body ++ H 2 body) enc := by
  simp only [decryptPortion, decryptPrivate_eq S version alg bl hv key iv enc u hiv, except_bind_ok] at h
  have hpm : (enc ++ List.replicate (bl - enc.length % bl) (0 : UInt8)).length % bl = 0 := by
    rw [List.length_append, List.length_replicate]; exact pad_mod _ _ u.pos
  have ht := cfbTextIv_of_dec u.pos u.len hiv enc _ hpm
  generalize (cfbDec (S.enc alg key) bl bl iv (enc ++ List.replicate (bl - enc.length % bl) 0)).1.take enc.length = D at h ht
  simp only [readPrivate, Bool.false_eq_true, if_false, if_true] at h
  split at h
  · cases h
  · rename_i hh
    refine ⟨D.take (D.length - 20), ?_⟩
    rw [← not_not.mp hh]
    unfold lastN
    rw [if_neg (by decide), List.take_append_drop]
    exact ht

example := C50_hash_checked exCiphers exDigest 4 7 16 (by decide) _ (List.replicate 16 9) (exProtect [2753, 61]) exKey_usable rfl [2753, 61] (by decide +kernel)

/-- What is read as an integer is an octet form of it. -/
theorem mpiToInt_inv {data : Bytes} {off i off' : Nat} (h : mpiToInt data off = .ok (i, off')) :
    ∃ b s, LooseMpi i b ∧ data.drop off = b ++ s ∧ off' = off + b.length := by
  unfold mpiToInt mpiLength at h
  obtain ⟨n, hn, h⟩ := except_bind_eq_ok.mp h
  obtain ⟨bits, hb, hn⟩ := except_bind_eq_ok.mp hn
  cases hn
  obtain ⟨r, hr, h⟩ := except_bind_eq_ok.mp h
  cases h
  obtain ⟨h1, h2⟩ := bytesToInt_ok hb
  obtain ⟨h3, h4⟩ := bytesToInt_ok hr
  have hl2 : ((data.drop off).take 2).length = 2 := by rw [List.length_take, List.length_drop]; omega
  have hle : ((data.drop (off + 2)).take (ceil8 bits)).length = ceil8 bits := by
    rw [List.length_take, List.length_drop]; rcases h3 with h3 | h3 <;> omega
  refine ⟨(data.drop off).take 2 ++ (data.drop (off + 2)).take (ceil8 bits), (data.drop (off + 2)).drop (ceil8 bits), ⟨bits, _, ?_, hle, h4.symm, ?_⟩, ?_, ?_⟩
  · rw [h2]
    have := beNat_lt ((data.drop off).take 2)
    rw [hl2] at this
    exact this
  · rw [h2]
    congr 1
    have := beBytes_beNat ((data.drop off).take 2)
    rw [hl2] at this
    exact this.symm
  · rw [List.append_assoc, List.take_append_drop, ← List.drop_drop, List.take_append_drop]
  · rw [List.length_append, hl2, hle]; omega

theorem mpiLoopTo_inv {data : Bytes} {limit fuel off : Nat} {l : List Nat} (h : mpiLoopTo data limit fuel off = .ok l) :
    ∃ bs rest, List.Forall₂ LooseMpi l bs ∧ data.drop off = bs.flatten ++ rest ∧ limit ≤ off + bs.flatten.length := by
  induction fuel generalizing off l with
  | zero =>
    unfold mpiLoopTo at h
    split at h
    · cases h
    · cases h; exact ⟨[], data.drop off, .nil, rfl, by simp only [List.flatten_nil, List.length_nil]; omega⟩
  | succ fuel ih =>
    unfold mpiLoopTo at h
    split at h
    · obtain ⟨⟨v, off'⟩, hv, h⟩ := except_bind_eq_ok.mp h
      obtain ⟨r, hr, h⟩ := except_bind_eq_ok.mp h
      cases h
      obtain ⟨b, s, hb, hd, rfl⟩ := mpiToInt_inv hv
      obtain ⟨bs, rest, h1, h2, h3⟩ := ih hr
      refine ⟨b :: bs, rest, .cons hb h1, ?_, ?_⟩
      · rw [← List.drop_drop, hd, List.drop_left] at h2
        rw [hd, h2, List.flatten_cons, List.append_assoc]
      · rw [List.flatten_cons, List.length_append]; omega
    · cases h; exact ⟨[], data.drop off, .nil, rfl, by simp only [List.flatten_nil, List.length_nil]; omega⟩

/-- C50. What is returned is all that was protected: the decrypted octets are, one after the other, octet forms of the returned integers, and these use up every octet
before the hash. -/
theorem C50_values_exhaust (S : BlockCiphers) (H : Digest) (version alg bl : Nat) (hv : 4 ≤ version) (key iv enc : Bytes)
    (u : Usable S alg bl key) (hiv : iv.length = bl) (ints : List Nat) (h : decryptPortion S H version (some key) alg iv enc false true = .ok ints) :
    ∃ body rest bs, CfbTextIv (S.enc alg key) bl iv (body ++ H 2 body) enc ∧ List.Forall₂ LooseMpi ints bs ∧ body ++ H 2 body = bs.flatten ++ rest ∧
      body.length ≤ bs.flatten.length := by
  simp only [decryptPortion, decryptPrivate_eq S version alg bl hv key iv enc u hiv, except_bind_ok] at h
  have hpm : (enc ++ List.replicate (bl - enc.length % bl) (0 : UInt8)).length % bl = 0 := by
    rw [List.length_append, List.length_replicate]; exact pad_mod _ _ u.pos
  have ht := cfbTextIv_of_dec u.pos u.len hiv enc _ hpm
  generalize (cfbDec (S.enc alg key) bl bl iv (enc ++ List.replicate (bl - enc.length % bl) 0)).1.take enc.length = D at h ht
  simp only [readPrivate, Bool.false_eq_true, if_false, if_true] at h
  split at h
  · cases h
  · rename_i hh
    obtain ⟨bs, rest, h1, h2, h3⟩ := mpiLoopTo_inv h
    have hD : D.take (D.length - 20) ++ H 2 (D.take (D.length - 20)) = D := by
      rw [← not_not.mp hh]
      unfold lastN
      rw [if_neg (by decide), List.take_append_drop]
    refine ⟨D.take (D.length - 20), rest, bs, by rw [hD]; exact ht, h1, by rw [hD]; exact h2, ?_⟩
    rw [List.length_take]
    omega

example := C50_values_exhaust exCiphers exDigest 4 7 16 (by decide) _ (List.replicate 16 9) (exProtect [2753, 61]) exKey_usable rfl [2753, 61] (by decide +kernel)

/-- C50. A wrong hash is rejected. -/
theorem C50_wrong_hash_rejected (S : BlockCiphers) (H : Digest) (version alg bl : Nat) (hv : 4 ≤ version) (key iv enc : Bytes) (u : Usable S alg bl key)
    (hiv : iv.length = bl) (body tail : Bytes) (htl : tail.length = 20) (h : CfbTextIv (S.enc alg key) bl iv (body ++ tail) enc) (hne : tail ≠ H 2 body) :
    decryptPortion S H version (some key) alg iv enc false true = .error .valueError := by
  have hpm : (enc ++ List.replicate (bl - enc.length % bl) (0 : UInt8)).length % bl = 0 := by
    rw [List.length_append, List.length_replicate]; exact pad_mod _ _ u.pos
  obtain ⟨hl, hd⟩ := cfbTextIv_dec u.pos u.len hiv h _ hpm
  rw [← hl] at hd
  simp only [decryptPortion, decryptPrivate_eq S version alg bl hv key iv enc u hiv, except_bind_ok, hd]
  have hlen : (body ++ tail).length - 20 = body.length := by simp [htl]
  simp only [readPrivate, Bool.false_eq_true, if_false, if_true, hlen]
  rw [if_pos]
  unfold lastN
  rw [if_neg (by decide), hlen, List.drop_left, List.take_left]
  exact hne

example := C50_wrong_hash_rejected exCiphers (fun _ _ => List.replicate 20 0) 4 7 16 (by decide) _ (List.replicate 16 9) (exProtect [2753, 61])
  ⟨rfl, by decide, by decide +kernel, fun b hb => by simp [exCiphers, hb]⟩ rfl ([2753, 61].map mpi).flatten (exDigest 2 ([2753, 61].map mpi).flatten) (by decide +kernel)
  (exProtect_text _) (by decide +kernel)

/-- C50 fails: a key protected with a checksum (usage 255) is never decrypted. -/
theorem C50_checksum_never_decrypted (S : BlockCiphers) (H : Digest) (version alg : Nat) (key : Option Bytes) (iv enc : Bytes) (hash : Bool) :
    Raises (decryptPortion S H version key alg iv enc true hash) := by
  unfold decryptPortion
  cases decryptPrivate S version key alg iv enc with
  | error e => exact ⟨e, rfl⟩
  | ok d => exact ⟨_, rfl⟩

/-- C50 fails: nor is a key of version 2 or 3, unless there is nothing to decrypt. -/
theorem C50_old_never_decrypted (S : BlockCiphers) (H : Digest) (version alg : Nat) (hv : version < 4) (key : Option Bytes) (iv enc : Bytes) (hn : enc ≠ [])
    (checksum hash : Bool) : Raises (decryptPortion S H version key alg iv enc checksum hash) := by
  simp only [decryptPortion, decryptPrivate, ge_iff_le, if_neg (show ¬4 ≤ version by omega)]
  split
  · cases getCfbKey S alg key iv with
    | error e => exact ⟨e, rfl⟩
    | ok o => simp only [except_bind_ok, if_neg hn]; exact ⟨_, rfl⟩
  · exact ⟨_, rfl⟩

example := C50_old_never_decrypted exCiphers exDigest 3 7 (by decide) none (List.replicate 16 9) [1, 2] (by decide) true false

/-! ### Locking (C41) -/

/-- The algorithms of keys that can be locked and unlocked: RSA (1, 2, 3), ElGamal (16, 20) and DSA (17). -/
def KnownAlg (o : SecObj) : Prop := o.alg ∈ [1, 2, 3, 16, 17, 20]

theorem isRsa_iff {alg : Nat} : isRsa alg = true ↔ alg ∈ [1, 2, 3] := by simp [isRsa]
theorem isDl_iff {alg : Nat} : isDl alg = true ↔ alg ∈ [16, 17, 20] := by simp [isDl]

theorem KnownAlg.cases {o : SecObj} (h : KnownAlg o) : isRsa o.alg = true ∨ isDl o.alg = true := by
  rw [isRsa_iff, isDl_iff]
  unfold KnownAlg at h
  simp only [List.mem_cons, List.not_mem_nil, or_false] at h ⊢
  omega

/-- No private value is present. (`prime_p` is private for RSA keys only.) -/
def NoPrivate (o : SecObj) : Prop := o.d = none ∧ o.q' = none ∧ o.u = none ∧ o.x = none ∧ (isRsa o.alg = true → o.p = none)

/-- All private values are present. -/
def AllPrivate (o : SecObj) : Prop :=
  (isRsa o.alg = true → ∃ d p q u, o.d = some d ∧ o.p = some p ∧ o.q' = some q ∧ o.u = some u) ∧ (isDl o.alg = true → ∃ x, o.x = some x)

/-- Only private values of the key's own algorithm are ever present. -/
def OwnValues (o : SecObj) : Prop := (isRsa o.alg = true → o.x = none) ∧ (isDl o.alg = true → o.d = none ∧ o.q' = none ∧ o.u = none)

/-- Locked without private values, or unlocked with all of them. -/
def Consistent (o : SecObj) : Prop := OwnValues o ∧ (o.locked = true → NoPrivate o) ∧ (o.locked = false → AllPrivate o)

theorem notBoth {alg : Nat} (h : isRsa alg = true) : isDl alg = false := by
  simp only [isRsa, isDl, decide_eq_true_eq, decide_eq_false_iff_not] at *
  omega

/-- C41. A key made from a packet is locked and holds no private value. -/
theorem C41_starts_locked (data : Bytes) (k : SecKey) (h : parseSecKey data = .ok k) : (SecObj.fromPacket k).locked = true ∧ Consistent (SecObj.fromPacket k) := by
  refine ⟨rfl, ⟨fun _ => rfl, fun _ => ⟨rfl, rfl, rfl⟩⟩, fun _ => ⟨rfl, rfl, rfl, rfl, ?_⟩, nofun⟩
  intro hr
  obtain ⟨_, off, pub, _, hp, rfl, _⟩ := C50_parsed_shape data k h
  obtain ⟨v, c, a, dd, m, hk, _, hm, _⟩ := C22_parsed_shape data off _ hp
  show k.pub.prime = none
  have hr : isRsa k.pub.algorithm = true := hr
  rw [hk] at hr ⊢
  cases m with
  | rsa n e => rfl
  | elgamal p g y =>
    simp only [KeyMaterial.fits] at hm
    have hr : isRsa a = true := hr
    simp only [isRsa, decide_eq_true_eq] at hr
    clear hk
    omega
  | dsa p q g y =>
    simp only [KeyMaterial.fits] at hm
    have hr : isRsa a = true := hr
    simp only [isRsa, decide_eq_true_eq] at hr
    clear hk
    omega

example := C41_starts_locked exSecData exSec exSecData_ok

theorem store_ok (o : SecObj) (vs : List Nat) (h : (o.store vs).2 = .ok ()) : (o.store vs).1.locked = false ∧ AllPrivate (o.store vs).1 ∧ (OwnValues o → OwnValues (o.store vs).1) ∧
    (o.store vs).1.alg = o.alg := by
  unfold SecObj.store at h ⊢
  split at h
  · rename_i hr
    have hd := notBoth hr
    rw [if_pos hr]
    match vs, h with
    | a :: b :: c :: f :: _, _ => exact ⟨rfl, ⟨fun _ => ⟨a, b, c, f, rfl, rfl, rfl, rfl⟩, fun h => by rw [hd] at h; cases h⟩,
        fun ho => ⟨ho.1, fun h => by rw [hd] at h; cases h⟩, rfl⟩
  · rename_i hr
    rw [if_neg hr]
    split at h
    · rename_i hd
      rw [if_pos hd]
      match vs, h with
      | a :: _, _ => exact ⟨rfl, ⟨fun h => absurd h hr, fun _ => ⟨a, rfl⟩⟩, fun ho => ⟨fun h => absurd h hr, ho.2⟩, rfl⟩
    · cases h

/-- C41. A successful unlock leaves the key unlocked with all private values present, and they are the ones decrypted from the packet. -/
theorem C41_unlock (S : BlockCiphers) (H : Digest) (o : SecObj) (pass : Bytes) (h : (o.unlock S H pass).2 = .ok ()) :
    (o.unlock S H pass).1.locked = false ∧ AllPrivate (o.unlock S H pass).1 ∧ (Consistent o → Consistent (o.unlock S H pass).1) ∧
    ∃ vs, o.values S H pass = .ok vs ∧ (isRsa o.alg = true → vs.take 4 = [(o.unlock S H pass).1.d, (o.unlock S H pass).1.p, (o.unlock S H pass).1.q', (o.unlock S H pass).1.u].reduceOption) ∧
      (isDl o.alg = true → vs.take 1 = [(o.unlock S H pass).1.x].reduceOption) := by
  unfold SecObj.unlock at h ⊢
  cases hv : o.values S H pass with
  | error e => rw [hv] at h; cases h
  | ok vs =>
    rw [hv] at h
    simp only at h ⊢
    obtain ⟨h1, h2, h3, h4⟩ := store_ok o vs h
    refine ⟨h1, h2, fun hc => ⟨h3 hc.1, (fun hl => by rw [h1] at hl; cases hl), fun _ => h2⟩, vs, rfl, ?_, ?_⟩
    · intro hr
      unfold SecObj.store at h ⊢
      rw [if_pos hr] at h ⊢
      match vs, h with
      | a :: b :: c :: f :: _, _ => rfl
    · intro hd
      have hr : ¬isRsa o.alg = true := fun hr => by rw [notBoth hr] at hd; cases hd
      unfold SecObj.store at h ⊢
      rw [if_neg hr, if_pos hd] at h ⊢
      match vs, h with
      | a :: _, _ => rfl

example := C41_unlock exCiphers exDigest (SecObj.fromPacket exSec) [104, 105] (by decide +kernel)

/-- C41. Locking a key of a known algorithm always succeeds, removes every private value and keeps the rest. -/
theorem C41_lock (o : SecObj) (ho : OwnValues o) (hk : KnownAlg o) :
    ∃ o', o.lock = (o', .ok ()) ∧ o'.locked = true ∧ NoPrivate o' ∧ Consistent o' ∧ o'.pubPart = { o.pubPart with prime := if isRsa o.alg then none else o.p } ∧ o'.toPacket.isOk = o.toPacket.isOk ∧
      o'.alg = o.alg := by
  by_cases hr : isRsa o.alg = true
  · have hd := notBoth hr
    refine ⟨{ o with d := none, p := none, q' := none, u := none, locked := true }, by unfold SecObj.lock; rw [if_pos hr], rfl, ?_, ?_, ?_, ?_, rfl⟩
    · exact ⟨rfl, rfl, rfl, ho.1 hr, fun _ => rfl⟩
    · exact ⟨⟨fun _ => ho.1 hr, fun h => ⟨rfl, rfl, rfl⟩⟩, fun _ => ⟨rfl, rfl, rfl, ho.1 hr, fun _ => rfl⟩, nofun⟩
    · rw [if_pos hr]; rfl
    · unfold SecObj.toPacket; cases o.s2k <;> rfl
  · have hd : isDl o.alg = true := hk.cases.resolve_left hr
    obtain ⟨h1, h2, h3⟩ := ho.2 hd
    refine ⟨{ o with x := none, locked := true }, by unfold SecObj.lock; rw [if_neg hr, if_pos hd], rfl, ?_, ?_, ?_, ?_, rfl⟩
    · exact ⟨h1, h2, h3, rfl, fun h => absurd h hr⟩
    · exact ⟨⟨fun _ => rfl, fun _ => ⟨h1, h2, h3⟩⟩, fun _ => ⟨h1, h2, h3, rfl, fun h => absurd h hr⟩, nofun⟩
    · rw [if_neg hr]; rfl
    · unfold SecObj.toPacket; cases o.s2k <;> rfl

example := C41_lock ((SecObj.fromPacket exSec).unlock exCiphers exDigest [104, 105]).1 ⟨fun _ => by decide +kernel, fun h => absurd h (by decide +kernel)⟩ (by unfold KnownAlg; decide +kernel)

/-- C41. A locked key does not sign or decrypt, and the key handed to the cryptographic library has only its public numbers. -/
theorem C41_locked_unusable {α : Type} (o : SecObj) (h : o.locked = true) (make : List Nat → Py α) :
    o.sign make = .error .runtimeError ∧ o.decrypt = .error .runtimeError ∧
    ∀ d q u x, o.keyNumbers = ({ o with d := d, q' := q, u := u, x := x } : SecObj).keyNumbers := by
  refine ⟨by unfold SecObj.sign; rw [if_pos h], by unfold SecObj.decrypt; rw [if_pos h], ?_⟩
  intro d q u x
  simp only [SecObj.keyNumbers, h, if_true]

example := C41_locked_unusable (SecObj.fromPacket exSec) rfl (fun _ => .ok 0)

/-- C41. The numbers handed to the cryptographic library, in the order its constructors document: `RSA.construct((n, e[, d, p, q, u]))`,
`DSA.construct((y, g, p, q[, x]))`, `ElGamal.construct((p, g, y[, x]))`; the private ones exactly for an unlocked key. No other key is handed over, among them the
keys of algorithm 2 (RSA, encryption only). -/
theorem C41_numbers_in_order (o : SecObj) :
    ((o.alg = 1 ∨ o.alg = 3) → ∀ n e, o.n = some n → o.e = some e →
      (o.locked = true → o.keyNumbers = .ok [n, e]) ∧
      (o.locked = false → ∀ d p q u, o.d = some d → o.p = some p → o.q' = some q → o.u = some u → o.keyNumbers = .ok [n, e, d, p, q, u])) ∧
    (o.alg = 17 → ∀ y g p q, o.y = some y → o.g = some g → o.p = some p → o.q = some q →
      (o.locked = true → o.keyNumbers = .ok [y, g, p, q]) ∧ (o.locked = false → ∀ x, o.x = some x → o.keyNumbers = .ok [y, g, p, q, x])) ∧
    ((o.alg = 16 ∨ o.alg = 20) → ∀ p g y, o.p = some p → o.g = some g → o.y = some y →
      (o.locked = true → o.keyNumbers = .ok [p, g, y]) ∧ (o.locked = false → ∀ x, o.x = some x → o.keyNumbers = .ok [p, g, y, x])) ∧
    (o.alg ∉ [1, 3, 16, 17, 20] → o.keyNumbers = .error (.pgp "UnsupportedPublicKeyAlgorithm")) := by
  refine ⟨?_, ?_, ?_, ?_⟩
  · intro ha n e hn he
    have h0 : o.keyNumbers = longs ([o.n, o.e] ++ if o.locked then [] else [o.d, o.p, o.q', o.u]) := by
      unfold SecObj.keyNumbers
      rw [if_neg (by omega), if_neg (by omega), if_pos ha]
    refine ⟨fun hl => ?_, fun hl d p q u hd hp hq hu => ?_⟩
    · rw [h0, hl, hn, he]; rfl
    · rw [h0, hl, hn, he, hd, hp, hq, hu]; rfl
  · intro ha y g p q hy hg hp hq
    have h0 : o.keyNumbers = longs ([o.y, o.g, o.p, o.q] ++ if o.locked then [] else [o.x]) := by
      unfold SecObj.keyNumbers
      rw [if_pos ha]
    refine ⟨fun hl => ?_, fun hl x hx => ?_⟩
    · rw [h0, hl, hy, hg, hp, hq]; rfl
    · rw [h0, hl, hy, hg, hp, hq, hx]; rfl
  · intro ha p g y hp hg hy
    have h0 : o.keyNumbers = longs ([o.p, o.g, o.y] ++ if o.locked then [] else [o.x]) := by
      unfold SecObj.keyNumbers
      rw [if_neg (by omega), if_pos ha]
    refine ⟨fun hl => ?_, fun hl x hx => ?_⟩
    · rw [h0, hl, hp, hg, hy]; rfl
    · rw [h0, hl, hp, hg, hy, hx]; rfl
  · intro ha
    simp only [List.mem_cons, List.not_mem_nil, or_false, not_or] at ha
    unfold SecObj.keyNumbers
    rw [if_neg (by omega), if_neg (by omega), if_neg (by omega)]

example := (C41_numbers_in_order (SecObj.fromPacket exSec)).1 (.inl (by decide +kernel)) 3233 17 (by decide +kernel) (by decide +kernel)

/-- The operations on a key object. -/
inductive LockOp where
  | lock
  | unlock (pass : Bytes)

/-- The key after an operation, whether it succeeded or raised. -/
def LockOp.run (S : BlockCiphers) (H : Digest) (o : SecObj) : LockOp → SecObj
  | .lock => o.lock.1
  | .unlock p => (o.unlock S H p).1

/-- With every passphrase tried, the packet gives as many private integers as the algorithm needs, or none. -/
def WellFormed (S : BlockCiphers) (H : Digest) (o : SecObj) (ops : List LockOp) : Prop :=
  ∀ pass vs, .unlock pass ∈ ops → o.values S H pass = .ok vs → (isRsa o.alg = true → 4 ≤ vs.length) ∧ (isDl o.alg = true → 1 ≤ vs.length)

/-- Whether a key should be locked after an operation: locking locks it, the right passphrase unlocks it, a wrong one changes nothing. -/
def LockOp.locks (right : Bytes → Bool) (locked : Bool) : LockOp → Bool
  | .lock => true
  | .unlock p => !right p && locked

/-- The parts that decide what decryption gives. -/
def SameSecret (o o' : SecObj) : Prop :=
  o'.version = o.version ∧ o'.alg = o.alg ∧ o'.s2k = o.s2k ∧ o'.sym = o.sym ∧ o'.iv = o.iv ∧ o'.enc = o.enc ∧ o'.checksum = o.checksum ∧ o'.hash = o.hash

theorem values_same (S : BlockCiphers) (H : Digest) {o o' : SecObj} (h : SameSecret o o') (pass : Bytes) : o'.values S H pass = o.values S H pass := by
  obtain ⟨h1, h2, h3, h4, h5, h6, h7, h8⟩ := h
  simp only [SecObj.values, SecObj.cipherKey, h1, h3, h4, h5, h6, h7, h8]

theorem run_same (S : BlockCiphers) (H : Digest) (o : SecObj) (op : LockOp) : SameSecret o (op.run S H o) := by
  cases op with
  | lock => simp only [LockOp.run, SecObj.lock]; split; · exact ⟨rfl, rfl, rfl, rfl, rfl, rfl, rfl, rfl⟩
            split <;> exact ⟨rfl, rfl, rfl, rfl, rfl, rfl, rfl, rfl⟩
  | unlock p =>
    simp only [LockOp.run, SecObj.unlock]
    split
    · exact ⟨rfl, rfl, rfl, rfl, rfl, rfl, rfl, rfl⟩
    · unfold SecObj.store
      split
      · split <;> exact ⟨rfl, rfl, rfl, rfl, rfl, rfl, rfl, rfl⟩
      · split
        · split <;> exact ⟨rfl, rfl, rfl, rfl, rfl, rfl, rfl, rfl⟩
        · exact ⟨rfl, rfl, rfl, rfl, rfl, rfl, rfl, rfl⟩

/-- C41 (part that holds: keys whose packet holds enough integers). Through every sequence of locking and unlocking, with right and wrong passphrases, the private values are present exactly
while the key is unlocked, and it is unlocked exactly when a right passphrase was given after the last locking. -/
theorem C41_history_partial (S : BlockCiphers) (H : Digest) (o : SecObj) (hk : KnownAlg o) (ops : List LockOp) (hw : WellFormed S H o ops) (hc : Consistent o) :
    Consistent (ops.foldl (LockOp.run S H) o) ∧
    (ops.foldl (LockOp.run S H) o).locked = ops.foldl (LockOp.locks (fun p => (o.values S H p).isOk)) o.locked := by
  induction ops generalizing o with
  | nil => exact ⟨hc, rfl⟩
  | cons op ops ih =>
    have hs := run_same S H o op
    have key : Consistent (op.run S H o) ∧ (op.run S H o).locked = op.locks (fun p => (o.values S H p).isOk) o.locked := by
      cases op with
      | lock =>
        obtain ⟨o', h1, h0, _, h2, _⟩ := C41_lock o hc.1 hk
        simp only [LockOp.run, h1]
        exact ⟨h2, h0⟩
      | unlock p =>
        simp only [LockOp.run, LockOp.locks]
        cases hv : o.values S H p with
        | error e => simp only [SecObj.unlock, hv]; exact ⟨hc, rfl⟩
        | ok vs =>
          have hw' := hw p vs (by simp) hv
          have hok : (o.unlock S H p).2 = .ok () := by
            simp only [SecObj.unlock, hv, SecObj.store]
            by_cases hr : isRsa o.alg = true
            · rw [if_pos hr]
              match vs, hw'.1 hr with
              | a :: b :: c :: f :: _, _ => rfl
            · have hd : isDl o.alg = true := hk.cases.resolve_left hr
              rw [if_neg hr, if_pos hd]
              match vs, hw'.2 hd with
              | a :: _, _ => rfl
          exact ⟨(C41_unlock S H o p hok).2.2.1 hc, (C41_unlock S H o p hok).1⟩
    have hval : (fun p => ((op.run S H o).values S H p).isOk) = fun p => (o.values S H p).isOk := funext fun p => by rw [values_same S H hs]
    have := ih (op.run S H o) (by unfold KnownAlg; rw [hs.2.1]; exact hk) (by
      intro pass vs hm hv
      rw [hs.2.1]
      exact hw pass vs (List.mem_cons_of_mem _ hm) (by rw [← values_same S H hs]; exact hv)) key.1
    rw [hval, key.2] at this
    exact this

/-- A wrong passphrase, the right one, locking, the right one again. -/
example := C41_history_partial exCiphers exDigest (SecObj.fromPacket exSec) (by unfold KnownAlg; decide +kernel) [.unlock [104, 106], .unlock [104, 105], .lock, .unlock [104, 105]] (by
  intro pass vs hp hv
  simp only [List.mem_cons, LockOp.unlock.injEq, reduceCtorEq, List.not_mem_nil, or_false, false_or] at hp
  have h1 : (SecObj.fromPacket exSec).values exCiphers exDigest [104, 106] = .error .valueError := by decide +kernel
  have h2 : (SecObj.fromPacket exSec).values exCiphers exDigest [104, 105] = .ok [2753, 61, 53, 38] := by decide +kernel
  rcases hp with rfl | rfl | rfl
  · rw [h1] at hv; cases hv
  all_goals rw [h2] at hv; cases hv; exact ⟨fun _ => by decide, fun _ => by decide⟩) (C41_starts_locked exSecData exSec exSecData_ok).2

/-- C41 fails: with an RSA key whose packet holds one to three integers, an unlock that raises leaves a private value in a key that says it is locked. -/
theorem C41_failed_unlock_leaves_values (S : BlockCiphers) (H : Digest) (o : SecObj) (pass : Bytes) (hr : isRsa o.alg = true) (a : Nat) (l : List Nat) (hl : l.length < 3)
    (hv : o.values S H pass = .ok (a :: l)) (ho : o.locked = true) :
    ∃ e, (o.unlock S H pass).2 = .error e ∧ (o.unlock S H pass).1.locked = true ∧ (o.unlock S H pass).1.d = some a := by
  simp only [SecObj.unlock, hv, SecObj.store, if_pos hr]
  match l, hl with
  | [], _ => exact ⟨_, rfl, ho, rfl⟩
  | [b], _ => exact ⟨_, rfl, ho, rfl⟩
  | [b, c], _ => exact ⟨_, rfl, ho, rfl⟩

example := C41_failed_unlock_leaves_values exCiphers exDigest (SecObj.fromPacket (exSecKey [5, 6])) [104, 105] rfl 5 [6] (by decide) (by decide +kernel) rfl

/-- Every part of the key. -/
def SecRing.parts (k : SecRing) : List SecObj := k.main :: k.subs

theorem eachUntil_ok (f : SecObj → SecObj × Py Unit) (l : List SecObj) (h : (eachUntil f l).2 = .ok ()) :
    (eachUntil f l).1 = l.map (fun o => (f o).1) ∧ ∀ o ∈ l, (f o).2 = .ok () := by
  induction l with
  | nil => exact ⟨rfl, by simp⟩
  | cons o l ih =>
    simp only [eachUntil] at h ⊢
    cases hf : f o with
    | mk o' r =>
      rw [hf] at h
      cases r with
      | error e => cases h
      | ok _ =>
        obtain ⟨h1, h2⟩ := ih h
        refine ⟨by simp only [h1, List.map_cons, hf], ?_⟩
        intro x hx
        rcases List.mem_cons.mp hx with rfl | hx
        · rw [hf]
        · exact h2 x hx

theorem each_ok (f : SecObj → SecObj × Py Unit) (k : SecRing) (h : (k.each f).2 = .ok ()) :
    SecRing.parts (k.each f).1 = (SecRing.parts k).map (fun o => (f o).1) ∧ ∀ o ∈ SecRing.parts k, (f o).2 = .ok () := by
  have := eachUntil_ok f (SecRing.parts k)
  simp only [SecRing.parts, eachUntil, SecRing.each] at this h ⊢
  cases hf : f k.main with
  | mk o' r =>
    rw [hf] at h this
    cases r with
    | error e => cases h
    | ok _ => exact this h

/-- C41. Unlocking a key with subkeys, if it succeeds, unlocks the key and every subkey. -/
theorem C41_unlock_all (S : BlockCiphers) (H : Digest) (k : SecRing) (pass : Bytes) (h : (k.unlock S H pass).2 = .ok ()) :
    ∀ o ∈ SecRing.parts (k.unlock S H pass).1, o.locked = false ∧ AllPrivate o := by
  obtain ⟨h1, h2⟩ := each_ok _ k h
  intro o ho
  unfold SecRing.unlock at ho
  rw [h1] at ho
  obtain ⟨o', ho', rfl⟩ := List.mem_map.mp ho
  exact ⟨(C41_unlock S H o' pass (h2 o' ho')).1, (C41_unlock S H o' pass (h2 o' ho')).2.1⟩

example := C41_unlock_all exCiphers exDigest ⟨SecObj.fromPacket exSec, [SecObj.fromPacket (exSecKey [5, 6, 7, 8])]⟩ [104, 105] (by decide +kernel)

/-- C41. Locking a key with subkeys of known algorithms locks all of them. -/
theorem C41_lock_all (k : SecRing) (hk : ∀ o ∈ SecRing.parts k, KnownAlg o ∧ OwnValues o) :
    k.lock.2 = .ok () ∧ ∀ o ∈ SecRing.parts k.lock.1, o.locked = true ∧ NoPrivate o := by
  have hok : k.lock.2 = .ok () := by
    have : ∀ l : List SecObj, (∀ o ∈ l, KnownAlg o ∧ OwnValues o) → (eachUntil SecObj.lock l).2 = .ok () := by
      intro l hl
      induction l with
      | nil => rfl
      | cons o l ih =>
        obtain ⟨o', h1, _⟩ := C41_lock o (hl o List.mem_cons_self).2 (hl o List.mem_cons_self).1
        simp only [eachUntil, h1]
        exact ih (fun x hx => hl x (List.mem_cons_of_mem _ hx))
    obtain ⟨o', h1, _⟩ := C41_lock k.main (hk k.main List.mem_cons_self).2 (hk k.main List.mem_cons_self).1
    simp only [SecRing.lock, SecRing.each, h1]
    exact this k.subs (fun x hx => hk x (List.mem_cons_of_mem _ hx))
  refine ⟨hok, ?_⟩
  obtain ⟨h1, _⟩ := each_ok _ k hok
  intro o ho
  unfold SecRing.lock at ho
  rw [h1] at ho
  obtain ⟨o', ho', rfl⟩ := List.mem_map.mp ho
  obtain ⟨o'', h2, h3, h4, _⟩ := C41_lock o' (hk o' ho').2 (hk o' ho').1
  simp only [h2]
  exact ⟨h3, h4⟩

example := C41_lock_all ⟨SecObj.fromPacket exSec, [SecObj.fromPacket (exSecKey [5, 6, 7, 8])]⟩ (by
    intro o ho
    simp only [SecRing.parts, List.mem_cons, List.not_mem_nil, or_false] at ho
    rcases ho with rfl | rfl <;> exact ⟨(by unfold KnownAlg; decide +kernel), fun _ => by decide +kernel, fun h => absurd h (by decide +kernel)⟩)

/-- C41. Once the unlocked context has been entered, it is left with the key and all subkeys locked and no private value present, whatever the body does and whether it returns or
raises (a body that leaves the key's algorithms known); and the body's outcome is passed on. -/
theorem C41_context_relocks {α : Type} (S : BlockCiphers) (H : Digest) (k : SecRing) (pass : Bytes) (body : SecRing → SecRing × Py α)
    (hb : ∀ o ∈ SecRing.parts (body (k.unlock S H pass).1).1, KnownAlg o ∧ OwnValues o) (h : (k.unlock S H pass).2 = .ok ()) :
    (withUnlocked S H k pass body).2 = (body (k.unlock S H pass).1).2 ∧
    ∀ o ∈ SecRing.parts (withUnlocked S H k pass body).1, o.locked = true ∧ NoPrivate o := by
  obtain ⟨h1, h2⟩ := C41_lock_all _ hb
  unfold withUnlocked
  cases hu : k.unlock S H pass with
  | mk k' r =>
    rw [hu] at h h1 h2
    simp only at h h1 h2
    subst h
    simp only
    cases hl : (body k').1.lock with
    | mk k'' r' =>
      rw [hl] at h1 h2
      simp only at h1 h2
      subst h1
      exact ⟨rfl, h2⟩

example := C41_context_relocks exCiphers exDigest ⟨SecObj.fromPacket exSec, [SecObj.fromPacket (exSecKey [5, 6, 7, 8])]⟩ [104, 105] (fun k => (k.lock.1, (.ok 0 : Py Nat))) (by
    have : SecRing.parts (SecRing.lock (SecRing.unlock exCiphers exDigest ⟨SecObj.fromPacket exSec, [SecObj.fromPacket (exSecKey [5, 6, 7, 8])]⟩ [104, 105]).1).1 = [SecObj.fromPacket exSec, SecObj.fromPacket (exSecKey [5, 6, 7, 8])] := by decide +kernel
    intro o ho
    rw [this] at ho
    simp only [List.mem_cons, List.not_mem_nil, or_false] at ho
    rcases ho with rfl | rfl <;> exact ⟨(by unfold KnownAlg; decide +kernel), fun _ => rfl, fun h => absurd h (by decide +kernel)⟩) (by decide +kernel)

/-- C41 fails: if a subkey cannot be unlocked, entering the context raises and leaves the key and the subkeys before it unlocked, private values and all. -/
theorem C41_failed_unlock_leaves_unlocked {α : Type} (S : BlockCiphers) (H : Digest) (m : SecObj) (before : List SecObj) (bad : SecObj) (after : List SecObj) (pass : Bytes)
    (body : SecRing → SecRing × Py α) (hm : (m.unlock S H pass).2 = .ok ()) (hb : ∀ o ∈ before, (o.unlock S H pass).2 = .ok ()) (e : PyErr) (he : (bad.unlock S H pass).2 = .error e) :
    (withUnlocked S H ⟨m, before ++ bad :: after⟩ pass body).2 = .error e ∧
    ∀ o ∈ (m :: before), (o.unlock S H pass).1 ∈ SecRing.parts (withUnlocked S H ⟨m, before ++ bad :: after⟩ pass body).1 ∧
      (o.unlock S H pass).1.locked = false ∧ AllPrivate (o.unlock S H pass).1 := by
  have key : ∀ l : List SecObj, (∀ o ∈ l, (o.unlock S H pass).2 = .ok ()) →
      eachUntil (fun o => o.unlock S H pass) (l ++ bad :: after) = (l.map (fun o => (o.unlock S H pass).1) ++ (bad.unlock S H pass).1 :: after, .error e) := by
    intro l hl
    induction l with
    | nil =>
      simp only [List.nil_append, eachUntil]
      cases hf : bad.unlock S H pass with
      | mk o' r => rw [hf] at he; simp only at he; subst he; rfl
    | cons o l ih =>
      have h0 := hl o List.mem_cons_self
      simp only [List.cons_append, eachUntil]
      cases hf : o.unlock S H pass with
      | mk o' r =>
        rw [hf] at h0
        simp only at h0
        subst h0
        simp only [ih (fun x hx => hl x (List.mem_cons_of_mem _ hx)), List.map_cons, List.cons_append, hf]
  have hall : (SecRing.mk m (before ++ bad :: after)).unlock S H pass =
      (⟨(m.unlock S H pass).1, before.map (fun o => (o.unlock S H pass).1) ++ (bad.unlock S H pass).1 :: after⟩, .error e) := by
    simp only [SecRing.unlock, SecRing.each]
    cases hf : m.unlock S H pass with
    | mk o' r =>
      rw [hf] at hm
      simp only at hm
      subst hm
      simp only [key before hb]
  have hw : withUnlocked S H ⟨m, before ++ bad :: after⟩ pass body =
      (⟨(m.unlock S H pass).1, before.map (fun o => (o.unlock S H pass).1) ++ (bad.unlock S H pass).1 :: after⟩, .error e) := by
    unfold withUnlocked
    rw [hall]
  rw [hw]
  refine ⟨rfl, ?_⟩
  intro o ho
  have hok : (o.unlock S H pass).2 = .ok () := by
    rcases List.mem_cons.mp ho with rfl | ho
    · exact hm
    · exact hb o ho
  refine ⟨?_, (C41_unlock S H o pass hok).1, (C41_unlock S H o pass hok).2.1⟩
  simp only [SecRing.parts]
  rcases List.mem_cons.mp ho with rfl | ho
  · exact List.mem_cons_self
  · exact List.mem_cons_of_mem _ (List.mem_append_left _ (List.mem_map_of_mem ho))

example := C41_failed_unlock_leaves_unlocked exCiphers exDigest (SecObj.fromPacket exSec) [SecObj.fromPacket (exSecKey [5, 6, 7, 8])] (SecObj.fromPacket (exSecKey [5, 6])) [] [104, 105]
  (fun k => (k, (.ok 0 : Py Nat))) (by decide +kernel) (by intro o ho; simp only [List.mem_cons, List.not_mem_nil, or_false] at ho; subst ho; decide +kernel) .indexError (by decide +kernel)

/-- C41 fails: inside the context the key is not always unlocked: leaving an inner context for the same key locks it for the rest of the outer one. -/
theorem C41_nested_context_locks {α β : Type} (S : BlockCiphers) (H : Digest) (k : SecRing) (pass : Bytes) (inner : SecRing → SecRing × Py α)
    (h : (k.unlock S H pass).2 = .ok ()) (hb : ∀ o ∈ SecRing.parts (inner (k.unlock S H pass).1).1, KnownAlg o ∧ OwnValues o) (make : List Nat → Py β) :
    (withUnlocked S H k pass inner).1.main.sign make = .error .runtimeError := by
  have := (C41_context_relocks S H k pass inner hb h).2 _ List.mem_cons_self
  exact (C41_locked_unusable _ this.1 make).1

example := C41_nested_context_locks (α := Nat) (β := Nat) exCiphers exDigest ⟨SecObj.fromPacket exSec, [SecObj.fromPacket (exSecKey [5, 6, 7, 8])]⟩ [104, 105] (fun k => (k.lock.1, .ok 0)) (by decide +kernel) (by
    have : SecRing.parts (SecRing.lock (SecRing.unlock exCiphers exDigest ⟨SecObj.fromPacket exSec, [SecObj.fromPacket (exSecKey [5, 6, 7, 8])]⟩ [104, 105]).1).1 = [SecObj.fromPacket exSec, SecObj.fromPacket (exSecKey [5, 6, 7, 8])] := by decide +kernel
    intro o ho
    rw [this] at ho
    simp only [List.mem_cons, List.not_mem_nil, or_false] at ho
    rcases ho with rfl | rfl <;> exact ⟨(by unfold KnownAlg; decide +kernel), fun _ => rfl, fun h => absurd h (by decide +kernel)⟩) (fun _ => .ok 0)

/-! ### The public part (C71) -/

/-- C71. The octets of the public key made from a secret key depend on no private value: they are the same locked and unlocked. -/
theorem C71_public_octets_partial (fl : Nat → Nat) (S : BlockCiphers) (H : Digest) (o : SecObj) (pass : Bytes) :
    ((o.unlock S H pass).1.toPublic).publicContent fl = o.toPublic.publicContent fl ∧ (o.lock.1.toPublic).publicContent fl = o.toPublic.publicContent fl := by
  have key : ∀ (k : PubKey) (p : Option Nat), isRsa k.algorithm = true → ({ k with prime := p } : PubKey).publicContent fl = k.publicContent fl := by
    intro k p hr
    simp only [isRsa, decide_eq_true_eq] at hr
    simp only [PubKey.publicContent, if_pos hr]
  constructor
  · unfold SecObj.unlock
    split
    · rfl
    · unfold SecObj.store
      split
      · rename_i hr
        split
        · rfl
        · rfl
        · exact key o.toPublic _ hr
        · exact key o.toPublic _ hr
        · exact key o.toPublic _ hr
      · split
        · split <;> rfl
        · rfl
  · unfold SecObj.lock
    split
    · rename_i hr; exact key o.toPublic _ hr
    · split <;> rfl

/-- C71. The public key made from a secret key read from octets is the public key read from the same octets (without the days of validity of versions 2 and 3), and
the secret key packet made again is the one read. -/
theorem C71_public_of_octets_partial (data : Bytes) (k : SecKey) (h : parseSecKey data = .ok k) :
    ∃ off pub, parsePubKey data = .ok (off, pub) ∧ (SecObj.fromPacket k).toPublic = { pub with expirationDays := none } ∧
      (SecObj.fromPacket k).toPacket = .ok { k with pub := { pub with expirationDays := none } } := by
  obtain ⟨_, off, pub, _, hp, rfl, _⟩ := C50_parsed_shape data k h
  exact ⟨off, k.pub, hp, rfl, rfl⟩

example := C71_public_of_octets_partial exSecData exSec exSecData_ok

/-- C71 fails: the public key object made from an unlocked RSA key carries one of the secret primes. -/
theorem C71_prime_leaks (S : BlockCiphers) (H : Digest) (o : SecObj) (pass : Bytes) (hr : isRsa o.alg = true) (d p q u : Nat) (l : List Nat)
    (hv : o.values S H pass = .ok (d :: p :: q :: u :: l)) : (o.unlock S H pass).1.toPublic.prime = some p := by
  simp only [SecObj.unlock, hv, SecObj.store, if_pos hr]
  rfl

/-! ### Concrete cases -/

/-- "hi" gives the cipher key used in `exProtect`. -/
example : (S2K.simple 2 7).toKey exDigest [104, 105] = .ok (some (List.replicate 16 212)) := by decide +kernel

/-- The right passphrase unlocks the key and gives back the four integers; a wrong one raises and leaves it locked. -/
example : let o := SecObj.fromPacket (exSecKey [2753, 61, 53, 38])
    (o.unlock exCiphers exDigest [104, 105]) = ({ o with d := some 2753, p := some 61, q' := some 53, u := some 38, locked := false }, .ok ()) ∧
    (o.unlock exCiphers exDigest [104, 106]) = (o, .error .valueError) := by decide +kernel

/-- A subkey whose packet holds two integers only: the primary key stays unlocked, the subkey holds a private value though locked. -/
example : let k : SecRing := ⟨SecObj.fromPacket (exSecKey [2753, 61, 53, 38]), [SecObj.fromPacket (exSecKey [5, 6])]⟩
    let r := withUnlocked exCiphers exDigest k [104, 105] (fun k => (k, (.ok 0 : Py Nat)))
    r.2 = .error .indexError ∧ r.1.main.locked = false ∧ r.1.main.d = some 2753 ∧ (r.1.subs.map (fun o => (o.locked, o.d))) = [(true, some 5)] := by decide +kernel

/-- Without the bad subkey the context is entered and left. -/
example : let k : SecRing := ⟨SecObj.fromPacket (exSecKey [2753, 61, 53, 38]), [SecObj.fromPacket (exSecKey [5, 6, 7, 8])]⟩
    withUnlocked exCiphers exDigest k [104, 105] (fun k => (k, k.main.keyNumbers)) = (k, .ok [3233, 17, 2753, 61, 53, 38]) := by decide +kernel

/-- The packet of that key, serialised and parsed. -/
example : ((exSecKey [2753, 61, 53, 38]).content Nat.log2 (.error .typeError) >>= parseSecKey) = .ok (exSecKey [2753, 61, 53, 38]) := by decide +kernel

end Pgp.Props
