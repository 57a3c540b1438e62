import Verif.Lemmas.EncData
import Verif.Props.S2k
import Verif.Props.SessionKey
/-
Property theorems C29 (integrity protected data is recovered), C30 (modified data is refused), C62 (passphrase session keys).
-/
namespace Pgp.Props
open Spec

/-- The cipher `alg` is a usable block cipher under `key`: a known code with blocks of `bl` octets, an accepted key, and block
encryption that gives blocks. -/
structure Usable (S : BlockCiphers) (alg bl : Nat) (key : Bytes) : Prop where
  octets : blockOctets alg = some bl
  pos : 0 < bl
  keyOk : S.keyOk alg key = true
  len : ∀ b, b.length = bl → (S.enc alg key b).length = bl

theorem Usable.code {S : BlockCiphers} {alg bl : Nat} {key : Bytes} (u : Usable S alg bl key) : blockLengths alg = some bl :=
  (blockLengths_eq alg).trans u.octets

/-- A toy cipher and digest showing the hypotheses can be met. -/
def toyCiphers : BlockCiphers := ⟨fun _ _ b => b.map (· + 1), fun _ _ => true⟩
def toyDigest : Digest := fun _ d => List.replicate 20 (UInt8.ofNat d.length)

theorem toyUsable : Usable toyCiphers 9 16 [1, 2, 3] := ⟨rfl, by decide, rfl, fun b h => by simp [toyCiphers, h]⟩

example : Usable toyCiphers 9 16 [1, 2, 3] ∧ ∀ d, (toyDigest 2 d).length = 20 :=
  ⟨toyUsable, fun d => by simp [toyDigest]⟩

theorem Usable.two {S : BlockCiphers} {alg bl : Nat} {key : Bytes} (u : Usable S alg bl key) : bl = 8 ∨ bl = 16 := by
  have := blockLengths_cases u.code
  have := u.pos
  omega

theorem lastN_two {bl : Nat} {iv : Bytes} (_ : iv.length = bl) (_ : 2 ≤ bl) : lastN iv 2 = iv.drop (iv.length - 2) := by
  unfold lastN; rw [if_neg (by omega)]

theorem pad_mod (bl n : Nat) (h : 0 < bl) : (n + (bl - n % bl)) % bl = 0 := by
  have := Nat.div_add_mod n bl
  have := Nat.mod_lt n h
  rw [show n + (bl - n % bl) = bl * (n / bl) + bl by omega, Nat.mul_add_mod, Nat.mod_self]

/-- C29: encrypting gives exactly the CFB text that RFC 4880 prescribes. -/
theorem C29_encrypt_standard_partial (S : BlockCiphers) (H : Digest) (alg bl : Nat) (key iv m : Bytes) (u : Usable S alg bl key)
    (hiv : iv.length = bl) (hH : ∀ d, (H 2 d).length = 20) :
    ∃ c, encryptIntegrity S H iv alg key m = .ok c ∧ c.length = bl + m.length + 24 ∧
      CfbText (S.enc alg key) bl (protectedPlain (H 2) iv m) c := by
  have hE : BlockLen bl (S.enc alg key) := u.len
  have h2 := u.two
  have hpos := u.pos
  have hl2 : (lastN iv 2).length = 2 := by rw [lastN_two hiv (by omega), List.length_drop]; omega
  set pad := bl - (m.length + 2 + 22) % bl with hpad
  have hpp : 0 < pad := by have := Nat.mod_lt (m.length + 2 + 22) hpos; omega
  set mdc := H 2 (iv ++ lastN iv 2 ++ (m ++ mdcHeader)) with hmdc
  have hmdcl : mdc.length = 20 := hH _
  set Q := lastN iv 2 ++ (m ++ mdcHeader ++ mdc ++ List.replicate pad 0) with hQ
  have hQl : Q.length = m.length + 2 + 22 + pad := by
    rw [hQ]; simp only [List.length_append, hl2, hmdcl, List.length_replicate, mdcHeader, List.length_cons, List.length_nil]; omega
  have hQm : Q.length % bl = 0 := by rw [hQl]; exact pad_mod _ _ hpos
  have hplain : iv ++ Q = protectedPlain (H 2) iv m ++ List.replicate pad 0 := by
    rw [hQ, hmdc]
    unfold protectedPlain mdcInput prefixed mdcHeader
    rw [lastN_two hiv (by omega)]
    simp only [List.append_assoc]
  have hpl : (protectedPlain (H 2) iv m).length = bl + m.length + 24 := by
    have := congrArg List.length hplain
    simp only [List.length_append, List.length_replicate] at this
    omega
  have hc := cfb_append hpos hE hpos (Nat.le_refl bl) iv Q (by rw [hiv, Nat.mod_self]) (List.replicate bl 0)
  have l1 := cfb_length hpos hE hpos (Nat.le_refl bl) iv (by rw [hiv, Nat.mod_self]) (List.replicate bl 0) (by simp)
  have l2 := cfb_length hpos hE hpos (Nat.le_refl bl) Q hQm _ l1.2
  have htk : (cfbEnc (S.enc alg key) bl bl (List.replicate bl 0) iv).1 ++
      dropLast (cfbEnc (S.enc alg key) bl bl (cfbEnc (S.enc alg key) bl bl (List.replicate bl 0) iv).2 Q).1 pad =
      (cfbEnc (S.enc alg key) bl bl (List.replicate bl 0) (iv ++ Q)).1.take (protectedPlain (H 2) iv m).length := by
    rw [hc]
    unfold dropLast
    rw [if_neg (by omega), take_append_len _ _ _ (by omega)]
    congr 2
    omega
  refine ⟨(cfbEnc (S.enc alg key) bl bl (List.replicate bl 0) iv).1 ++
      dropLast (cfbEnc (S.enc alg key) bl bl (cfbEnc (S.enc alg key) bl bl (List.replicate bl 0) iv).2 Q).1 pad, ?_, ?_, ?_⟩
  · unfold encryptIntegrity blockLengthOf
    rw [u.code]
    simp only [except_bind_ok]
    rw [getCfb_ok S u.code hpos u.keyOk (by simp)]
    simp only [except_bind_ok, ← hpad, ← hmdc, ← hQ]
    rw [cfbEncrypt_ok S rfl rfl (by rw [hiv, Nat.mod_self])]
    simp only [except_bind_ok]
    rw [cfbEncrypt_ok S rfl rfl hQm]
    simp only [except_bind_ok, except_pure]
  · rw [htk, List.length_take, hc]
    dsimp only
    rw [List.length_append, l1.1, l2.1]; omega
  · rw [htk]
    refine (cfbText_iff hpos hE _ _).mpr ⟨List.replicate pad 0, ?_, ?_⟩
    · rw [← hplain, List.length_append, hiv, Nat.add_mod_left]; exact hQm
    · rw [hplain]

example := C29_encrypt_standard_partial toyCiphers toyDigest 9 16 [1, 2, 3] (List.replicate 16 7) [0xcb, 2, 5, 6] toyUsable (by decide)
  (fun d => by simp [toyDigest])

/-- Decrypting a CFB text of a prefixed plain text. -/
theorem decryptOctets_text (S : BlockCiphers) (alg bl : Nat) (key iv body data : Bytes) (u : Usable S alg bl key)
    (hiv : iv.length = bl) (hb : bl ≤ 2 + body.length) (h : CfbText (S.enc alg key) bl (prefixed iv ++ body) data) :
    decryptOctets S alg key data = .ok (iv, body) := by
  have hE : BlockLen bl (S.enc alg key) := u.len
  have h2 := u.two
  have hpos := u.pos
  have hpm : (data ++ List.replicate (bl - data.length % bl) (0 : UInt8)).length % bl = 0 := by
    rw [List.length_append, List.length_replicate]; exact pad_mod _ _ hpos
  obtain ⟨hl, hd⟩ := cfbText_dec hpos hE h _ hpm
  have hpl : (prefixed iv ++ body).length = bl + 2 + body.length := by
    simp only [prefixed, List.length_append, List.length_drop]; omega
  rw [decryptOctets_eq S u.code (by omega) u.keyOk hE data _ (by omega) rfl]
  generalize (cfbDec (S.enc alg key) bl bl (List.replicate bl 0) (data ++ List.replicate (bl - data.length % bl) 0)).1 = W at hd
  rw [← hl] at hd
  have hWt : W.take bl = iv := by
    rw [show W.take bl = (W.take data.length).take bl by rw [List.take_take, Nat.min_eq_left (by omega)], hd]
    unfold prefixed
    rw [List.append_assoc]; exact List.take_left' hiv
  have hW2 : (W.drop bl).take 2 = iv.drop (bl - 2) := by
    rw [show (W.drop bl).take 2 = ((W.take data.length).drop bl).take 2 by
      rw [List.drop_take, List.take_take, Nat.min_eq_left (by omega)], hd]
    unfold prefixed
    rw [List.append_assoc, List.drop_left' hiv, hiv]
    exact List.take_left' (by rw [List.length_drop]; omega)
  rw [if_neg (by rw [hWt, hW2]; simp), hWt, hd]
  congr 2
  exact List.drop_left' (by simp only [prefixed, List.length_append, List.length_drop]; omega)

theorem negSlice_marker (a b c : Bytes) (hb : b.length = 2) (hc : c.length = 20) : negSlice (a ++ b ++ c) 22 20 = b := by
  unfold negSlice
  have h : (a ++ b ++ c).length = a.length + 22 := by simp; omega
  rw [h, show a.length + 22 - 20 = (a ++ b).length by simp; omega, List.take_left' rfl, Nat.add_sub_cancel, List.drop_left' rfl]

theorem packetFromData_mdc (d : Bytes) (hd : d.length = 20) : packetFromData (mdcHeader ++ d) 0 = .ok (22, ⟨.new, 19, d⟩) := by
  have e : (mdcHeader ++ d).length = 22 := by simp [mdcHeader, hd]
  have hd0 : (mdcHeader ++ d).drop 0 = 0xd3 :: 0x14 :: d := rfl
  have hd1 := drop_succ_of_drop hd0
  have hd2 := drop_succ_of_drop hd1
  have hs : slice (mdcHeader ++ d) 2 22 = d := by
    unfold slice; simp only [Nat.reduceAdd, Nat.zero_add] at hd2; rw [hd2, List.take_of_length_le (by omega)]
  unfold packetFromData
  rw [e, frameLoop]
  simp only [tagStep, readTag, idx_of_drop hd0, except_bind_ok]
  rw [if_pos (by decide)]
  simp only [except_bind_ok, except_pure]
  simp only [newPacketLength, Nat.zero_add, idx_of_drop hd1, except_bind_ok]
  rw [if_pos (by decide)]
  simp only [except_bind_ok, except_pure]
  have : (0x14 : UInt8).toNat = 20 := rfl
  rw [this, show 1 + 1 = 2 from rfl, show 2 + 20 = 22 from rfl, hs]
  rfl

/-- What `decrypt` makes of decrypted octets that end in an MDC packet in its usual encoding. -/
theorem decrypt_marker (H : Digest) (accept : RawPacket → Py Unit) (iv main d : Bytes) (hd : d.length = 20)
    (ps : List RawPacket) (ha : accept ⟨.new, 19, d⟩ = .ok ()) :
    (do let qs ← splitPackets (fun p => do acceptMdc p; accept p) (main ++ mdcHeader ++ d)
        checkMdc H iv (main ++ mdcHeader ++ d) qs) = .ok ps ↔
      parseBinaryPacketData main = .ok ps ∧ ps.forM (fun p => do acceptMdc p; accept p) = .ok () ∧
        d = H 2 (iv ++ lastN iv 2 ++ (main ++ mdcHeader)) := by
  have hl : (main ++ mdcHeader ++ d).length = main.length + 22 := by simp [mdcHeader, hd]
  have h1 : lastN (main ++ mdcHeader ++ d) 22 = mdcHeader ++ d := by
    unfold lastN; rw [if_neg (by omega), hl, Nat.add_sub_cancel, List.append_assoc]; exact List.drop_left' rfl
  have h2 : dropLast (main ++ mdcHeader ++ d) 22 = main := by
    unfold dropLast; rw [if_neg (by omega), hl, Nat.add_sub_cancel, List.append_assoc]; exact List.take_left' rfl
  have h3 : dropLast (main ++ mdcHeader ++ d) 20 = main ++ mdcHeader := by
    unfold dropLast; rw [if_neg (by omega), hl]; exact List.take_left' (by simp [mdcHeader])
  have h4 : negSlice (main ++ mdcHeader ++ d) 22 20 = mdcHeader := negSlice_marker _ _ _ rfl hd
  have hne : mdcHeader ++ d ≠ [] := by simp [mdcHeader]
  have hacc : acceptMdc ⟨.new, 19, d⟩ = .ok () := by simp [acceptMdc, pyAssert, hd]
  have hsp : splitPackets (fun p => do acceptMdc p; accept p) (main ++ mdcHeader ++ d) = (do
      let qs ← parseBinaryPacketData main
      qs.forM (fun p => do acceptMdc p; accept p)
      .ok (qs ++ [⟨.new, 19, d⟩])) := by
    unfold splitPackets
    simp only [h4, h1, h2, if_true, ne_eq, hne, not_false_eq_true, packetFromData_mdc d hd, except_bind_ok, hacc, ha, except_pure]
  rw [hsp]
  constructor
  · intro h
    obtain ⟨qs', hq, h⟩ := except_bind_eq_ok.mp h
    obtain ⟨qs, hq1, hq⟩ := except_bind_eq_ok.mp hq
    obtain ⟨u, hq2, hq⟩ := except_bind_eq_ok.mp hq
    cases hq
    unfold checkMdc at h
    rw [List.getLast?_concat] at h
    simp only [h3, ne_eq, not_true, if_false] at h
    split at h
    · cases h
    · rename_i hh
      rw [List.dropLast_concat] at h
      cases h
      exact ⟨hq1, hq2, not_not.mp hh⟩
  · rintro ⟨hq1, hq2, hh⟩
    rw [hq1]
    simp only [except_bind_ok, hq2]
    unfold checkMdc
    rw [List.getLast?_concat]
    simp only [h3, ne_eq, not_true, if_false, ← hh, List.dropLast_concat]

/-- C29: what was encrypted with integrity protection decrypts, with the same key, to exactly the packets of the message. `accept`
is the parsing of packet contents. -/
theorem C29_integrity_roundtrip_partial (S : BlockCiphers) (H : Digest) (alg bl : Nat) (key iv m : Bytes) (u : Usable S alg bl key)
    (hiv : iv.length = bl) (hH : ∀ d, (H 2 d).length = 20) (accept : RawPacket → Py Unit) (hacc : ∀ p, p.type = 19 → accept p = .ok ()) :
    ∃ c, encryptIntegrity S H iv alg key m = .ok c ∧ ∀ ps, decryptIntegrity S H accept alg key c = .ok ps ↔
      parseBinaryPacketData m = .ok ps ∧ ps.forM (fun p => do acceptMdc p; accept p) = .ok () := by
  obtain ⟨c, h1, _, h3⟩ := C29_encrypt_standard_partial S H alg bl key iv m u hiv hH
  refine ⟨c, h1, fun ps => ?_⟩
  have h2 := u.two
  have e : protectedPlain (H 2) iv m = prefixed iv ++ (m ++ mdcHeader ++ H 2 (mdcInput iv m)) := by
    simp [protectedPlain, mdcInput, mdcHeader]
  rw [e] at h3
  have hd := decryptOctets_text S alg bl key iv _ c u hiv (by simp [mdcHeader, hH]; omega) h3
  unfold decryptIntegrity
  rw [hd]
  simp only [except_bind_ok]
  rw [decrypt_marker H accept iv m _ (hH _) ps (hacc _ rfl)]
  have : H 2 (mdcInput iv m) = H 2 (iv ++ lastN iv 2 ++ (m ++ mdcHeader)) := by
    rw [lastN_two hiv (by omega)]; simp [mdcInput, prefixed, mdcHeader]
  simp only [this, and_true]

example := C29_integrity_roundtrip_partial toyCiphers toyDigest 9 16 [1, 2, 3] (List.replicate 16 7) [0xcb, 2, 5, 6] toyUsable (by decide)
  (fun d => by simp [toyDigest]) (fun _ => .ok ()) (fun _ _ => rfl)

/-- C29 (refuted): an empty message is not encrypted at all: no encrypted data is made. -/
theorem C29_empty_not_encrypted (S : BlockCiphers) (H : Digest) (iv : Bytes) (integrity : Bool) (alg : Nat) (key : Bytes) :
    newEncryptedData S H iv integrity alg key [] = .ok none := rfl

/-- C29 (refuted): without integrity protection, encryption always raises. -/
theorem C29_plain_encrypt_raises (S : BlockCiphers) (iv : Bytes) (alg bl : Nat) (key m : Bytes) (u : Usable S alg bl key)
    (hiv : iv.length = bl) : encryptPlain S iv alg key m = .error .valueError := by
  have h2 := u.two
  unfold encryptPlain blockLengthOf
  rw [u.code]
  simp only [except_bind_ok]
  rw [getCfb_ok S u.code u.pos u.keyOk (by simp)]
  simp only [except_bind_ok]
  unfold cfbEncrypt
  rw [encrypt_bad_segment rfl (by
    rw [lastN_two hiv (by omega), List.length_append, List.length_drop]
    dsimp only
    rw [hiv]
    rcases h2 with h | h <;> rw [h] <;> decide)]
  rfl

example := C29_plain_encrypt_raises toyCiphers (List.replicate 16 7) 9 16 [1, 2, 3] [0xcb, 2, 5, 6] toyUsable (by decide)

/-- C29 (refuted): without integrity protection, decryption never gives a message. -/
theorem C29_plain_decrypt_raises {α : Type} (S : BlockCiphers) (openpgp : Nat → Bytes → Bytes → Bytes → Py Bytes)
    (accept : RawPacket → Py Unit) (openMessage : List RawPacket → Py α) (alg : Nat) (key data : Bytes) :
    Raises (decryptPlain S openpgp accept openMessage alg key data) := by
  suffices h : ∀ r, decryptPlain S openpgp accept openMessage alg key data ≠ .ok r by
    cases hr : decryptPlain S openpgp accept openMessage alg key data with
    | ok x => exact absurd hr (h x)
    | error e => exact ⟨e, rfl⟩
  intro r h
  unfold decryptPlain at h
  obtain ⟨bl, _, h⟩ := except_bind_eq_ok.mp h
  obtain ⟨o, _, h⟩ := except_bind_eq_ok.mp h
  obtain ⟨x, _, h⟩ := except_bind_eq_ok.mp h
  obtain ⟨d, _, h⟩ := except_bind_eq_ok.mp h
  obtain ⟨ps, hp, h⟩ := except_bind_eq_ok.mp h
  have : ps = [] := by
    simp only [dropLast, if_true] at hp
    have hn : ¬ negSlice ([] : Bytes) 22 20 = mdcHeader := by decide
    unfold splitPackets at hp
    simp only [hn, if_false] at hp
    have hz : parseBinaryPacketData [] = .ok [] := rfl
    rw [hz] at hp
    simp only [except_bind_ok] at hp
    cases hp; rfl
  subst this
  cases h

/-! ### C30 -/

/-- Decryption gave a result: the data has at least two blocks and is the CFB text of a prefixed plain text. -/
theorem decryptOctets_inv (S : BlockCiphers) (alg bl : Nat) (key data iv body : Bytes) (u : Usable S alg bl key)
    (h : decryptOctets S alg key data = .ok (iv, body)) (hne : data ≠ []) :
    iv.length = bl ∧ CfbText (S.enc alg key) bl (prefixed iv ++ body) data := by
  have hE : BlockLen bl (S.enc alg key) := u.len
  have h2 := u.two
  have hpos := u.pos
  by_cases hl : 2 * bl ≤ data.length
  · have hpm : (data ++ List.replicate (bl - data.length % bl) (0 : UInt8)).length % bl = 0 := by
      rw [List.length_append, List.length_replicate]; exact pad_mod _ _ hpos
    have ht := cfbText_of_dec hpos hE data _ hpm
    have hwl := (cfbDec_length hpos hE hpos (Nat.le_refl bl) _ hpm (List.replicate bl 0) (by simp)).1
    rw [decryptOctets_eq S u.code (by omega) u.keyOk hE data _ hl rfl] at h
    generalize (cfbDec (S.enc alg key) bl bl (List.replicate bl 0) (data ++ List.replicate (bl - data.length % bl) 0)).1 = W
      at h ht hwl
    have hwl' : data.length ≤ W.length := by rw [hwl, List.length_append]; omega
    split at h
    · cases h
    · rename_i hc
      cases h
      have hiv : (W.take bl).length = bl := by rw [List.length_take]; omega
      refine ⟨hiv, ?_⟩
      have e : prefixed (W.take bl) ++ (W.take data.length).drop (bl + 2) = W.take data.length := by
        unfold prefixed
        rw [hiv, ← not_not.mp hc]
        have a1 : W.take bl = (W.take data.length).take bl := by rw [List.take_take, Nat.min_eq_left (by omega)]
        have a2 : (W.drop bl).take 2 = ((W.take data.length).drop bl).take 2 := by
          rw [List.drop_take, List.take_take, Nat.min_eq_left (by omega)]
        rw [a1, a2, List.append_assoc, ← List.drop_drop, List.take_append_drop, List.take_append_drop]
      rw [e]; exact ht
  · exfalso
    unfold decryptOctets blockLengthOf at h
    rw [u.code] at h
    simp only [except_bind_ok] at h
    rw [getCfb_ok S u.code hpos u.keyOk (by simp)] at h
    simp only [except_bind_ok] at h
    obtain ⟨⟨x, o1⟩, hx, h⟩ := except_bind_eq_ok.mp h
    have hm1 := cfbDecrypt_inv S rfl rfl hx
    dsimp only at hm1
    have hsl : (slice data 0 bl).length = min bl data.length := by simp [slice]
    rw [hsl] at hm1
    have hge : bl ≤ data.length := by
      by_contra hlt
      rw [Nat.min_eq_right (by omega), Nat.mod_eq_of_lt (by omega)] at hm1
      exact hne (List.length_eq_zero_iff.mp hm1)
    rw [Nat.min_eq_left hge] at hsl
    rw [cfbDecrypt_ok S rfl rfl (by rw [hsl]; exact Nat.mod_self _)] at hx
    have lx := cfbDec_length hpos hE hpos (Nat.le_refl bl) (slice data 0 bl) (by rw [hsl]; exact Nat.mod_self _)
      (List.replicate bl 0) (by simp)
    cases hx
    obtain ⟨⟨y, o2⟩, hy, h⟩ := except_bind_eq_ok.mp h
    have hm2 := cfbDecrypt_inv S rfl rfl hy
    dsimp only at hm2
    have hsl2 : (slice data bl (bl + bl)).length = data.length - bl := by
      simp only [slice, List.length_take, List.length_drop]; omega
    rw [hsl2, Nat.mod_eq_of_lt (by omega)] at hm2
    have hnil : slice data bl (bl + bl) = [] := List.length_eq_zero_iff.mp (by omega)
    rw [hnil, cfbDecrypt_ok S rfl rfl (by simp)] at hy
    cases hy
    dsimp only at h
    rw [if_pos] at h
    · cases h
    · have : (cfbDec (S.enc alg key) bl bl (cfbDec (S.enc alg key) bl bl (List.replicate bl 0) (slice data 0 bl)).2 []).1 = [] := by
        simp [cfbDec]
      rw [this]
      intro hh
      have hz := congrArg List.length hh
      have hn : (lastN (cfbDec (S.enc alg key) bl bl (List.replicate bl 0) (slice data 0 bl)).1 2).length = 2 := by
        rw [lastN_two (lx.1.trans hsl) (by omega), List.length_drop, lx.1, hsl]; omega
      rw [hn] at hz
      simp [slice] at hz

/-- C30: if integrity protected data is accepted, then it is the encryption of a prefix and a text whose last twenty octets are an
MDC: either the text ends in an MDC packet in its usual encoding whose content is the SHA-1 of everything before it, and the result
is the packets before it; or the packets of the text end in an MDC packet in another encoding whose content is the SHA-1 of all but
the last twenty octets. -/
theorem C30_accepted_is_authentic (S : BlockCiphers) (H : Digest) (accept : RawPacket → Py Unit) (alg bl : Nat) (key data : Bytes)
    (u : Usable S alg bl key) (ps : List RawPacket) (h : decryptIntegrity S H accept alg key data = .ok ps) :
    ∃ iv, iv.length = bl ∧
      ((∃ m d, d.length = 20 ∧ CfbText (S.enc alg key) bl (mdcInput iv m ++ d) data ∧ d = H 2 (mdcInput iv m) ∧
          parseBinaryPacketData m = .ok ps) ∨
        (∃ t d mdc, d.length = 20 ∧ CfbText (S.enc alg key) bl (prefixed iv ++ t ++ d) data ∧
          parseBinaryPacketData (t ++ d) = .ok (ps ++ [mdc]) ∧ mdc.type = 19 ∧ mdc.content.length = 20 ∧
          mdc.content = H 2 (prefixed iv ++ t))) := by
  have h2 := u.two
  unfold decryptIntegrity at h
  obtain ⟨⟨iv, body⟩, h1, h⟩ := except_bind_eq_ok.mp h
  dsimp only at h
  have hne : data ≠ [] := by
    rintro rfl
    unfold decryptOctets blockLengthOf at h1
    rw [u.code] at h1
    simp only [except_bind_ok] at h1
    rw [getCfb_ok S u.code u.pos u.keyOk (by simp)] at h1
    simp only [except_bind_ok] at h1
    rw [show slice ([] : Bytes) 0 bl = [] by simp [slice], cfbDecrypt_ok S rfl rfl (by simp)] at h1
    simp only [except_bind_ok] at h1
    rw [show slice ([] : Bytes) bl (bl + bl) = [] by simp [slice], cfbDecrypt_ok S rfl rfl (by simp)] at h1
    simp only [except_bind_ok] at h1
    rw [if_neg (by simp [cfbDec, slice, lastN])] at h1
    rw [List.drop_eq_nil_of_le (by simp), cfbDecrypt_ok S rfl rfl (by simp)] at h1
    simp only [except_bind_ok, except_pure] at h1
    cases h1
    simp only [cfbDec, List.drop_nil, List.append_nil, dropLast, List.take_nil, ite_self] at h
    obtain ⟨qs, hq, h⟩ := except_bind_eq_ok.mp h
    have hn : ¬ negSlice ([] : Bytes) 22 20 = mdcHeader := by decide
    unfold splitPackets at hq
    simp only [hn, if_false] at hq
    have hz : parseBinaryPacketData [] = .ok [] := rfl
    rw [hz] at hq
    simp only [except_bind_ok] at hq
    cases hq
    cases h
  obtain ⟨hiv, ht⟩ := decryptOctets_inv S alg bl key data iv body u h1 hne
  have hl2 : lastN iv 2 = iv.drop (iv.length - 2) := lastN_two hiv (by omega)
  refine ⟨iv, hiv, ?_⟩
  by_cases hm : negSlice body 22 20 = mdcHeader
  · -- the usual encoding
    left
    have hbl : 22 ≤ body.length := by
      by_contra hlt
      have hz : body.length - 22 = 0 := by omega
      have := congrArg List.length hm
      simp only [negSlice, mdcHeader, List.length_drop, List.length_take, List.length_cons, List.length_nil, hz] at this
      omega
    obtain ⟨m, d, hbody, hd⟩ : ∃ m d, body = m ++ mdcHeader ++ d ∧ d.length = 20 := by
      refine ⟨body.take (body.length - 22), body.drop (body.length - 20), ?_, by rw [List.length_drop]; omega⟩
      rw [← hm]
      unfold negSlice
      have e : body.take (body.length - 22) = (body.take (body.length - 20)).take (body.length - 22) := by
        rw [List.take_take, Nat.min_eq_left (by omega)]
      rw [e, List.take_append_drop, List.take_append_drop]
    rw [hbody] at h
    obtain ⟨qs', hq, hc⟩ := except_bind_eq_ok.mp h
    have hac : accept ⟨.new, 19, d⟩ = .ok () := by
      unfold splitPackets at hq
      have h1 : lastN (m ++ mdcHeader ++ d) 22 = mdcHeader ++ d := by
        unfold lastN
        rw [if_neg (by omega), show (m ++ mdcHeader ++ d).length = m.length + 22 by simp [mdcHeader, hd], Nat.add_sub_cancel,
          List.append_assoc]
        exact List.drop_left' rfl
      have hne : mdcHeader ++ d ≠ [] := by simp [mdcHeader]
      simp only [negSlice_marker m mdcHeader d rfl hd, if_true, h1, ne_eq, hne, not_false_eq_true, packetFromData_mdc d hd,
        except_bind_ok] at hq
      obtain ⟨a, _, hq⟩ := except_bind_eq_ok.mp hq
      obtain ⟨b, _, hq⟩ := except_bind_eq_ok.mp hq
      obtain ⟨c, hacc, hq⟩ := except_bind_eq_ok.mp hq
      obtain ⟨_, _, hacc⟩ := except_bind_eq_ok.mp hacc
      exact hacc
    obtain ⟨a1, _, a3⟩ := (decrypt_marker H accept iv m d hd ps hac).mp h
    refine ⟨m, d, hd, ?_, ?_, a1⟩
    · rw [hbody] at ht
      simpa [mdcInput, mdcHeader] using ht
    · rw [a3, hl2]; simp [mdcInput, prefixed, mdcHeader]
  · right
    obtain ⟨qs, hq, hc⟩ := except_bind_eq_ok.mp h
    unfold splitPackets at hq
    simp only [hm, if_false, ne_eq, not_true] at hq
    obtain ⟨qs', hq1, hq⟩ := except_bind_eq_ok.mp hq
    obtain ⟨_, hq2, hq⟩ := except_bind_eq_ok.mp hq
    cases hq
    unfold checkMdc at hc
    split at hc
    · cases hc
    · rename_i mdc hlast
      split at hc
      · cases hc
      · rename_i hty
        split at hc
        · cases hc
        · rename_i hdig
          cases hc
          have hdl : qs.dropLast ++ [mdc] = qs := by
            obtain ⟨ys, rfl⟩ := List.getLast?_eq_some_iff.mp hlast
            rw [List.dropLast_concat]
          have hclen : mdc.content.length = 20 := by
            have hmem : mdc ∈ qs := List.mem_of_getLast? hlast
            have : ∀ (qs : List RawPacket), qs.forM (fun p => do acceptMdc p; accept p) = .ok () → mdc ∈ qs →
                acceptMdc mdc = .ok () := by
              intro qs
              induction qs with
              | nil => intro _ h; cases h
              | cons q qs ih =>
                intro h hm
                rw [List.forM] at h
                obtain ⟨_, ha, h⟩ := except_bind_eq_ok.mp h
                obtain ⟨_, ha, _⟩ := except_bind_eq_ok.mp ha
                rcases List.mem_cons.mp hm with rfl | hm
                · exact ha
                · exact ih h hm
            have := this qs hq2 hmem
            simpa [acceptMdc, pyAssert, not_not.mp hty] using this
          have hbl : 20 ≤ body.length := by
            have hsub := (parseLoop_sublist (data := body) (off := 0) hq1).1
            have := hsub.length_le
            rw [← hdl, List.map_append, List.flatten_append, List.length_append] at this
            simp [hclen] at this
            omega
          refine ⟨body.take (body.length - 20), body.drop (body.length - 20), mdc, by rw [List.length_drop]; omega, ?_, ?_,
            not_not.mp hty, hclen, ?_⟩
          · rw [List.append_assoc, List.take_append_drop]; exact ht
          · rw [List.take_append_drop, hdl]; exact hq1
          · rw [not_not.mp hdig, hl2]
            simp [dropLast, prefixed]

/-- A packet that is accepted: what the encryption of one literal packet gives. -/
example : ∃ c ps, decryptIntegrity toyCiphers toyDigest (fun _ => .ok ()) 9 [1, 2, 3] c = .ok ps ∧ ps ≠ [] := by
  obtain ⟨c, _, h⟩ := C29_integrity_roundtrip_partial toyCiphers toyDigest 9 16 [1, 2, 3] (List.replicate 16 7) [0xcb, 2, 5, 6] toyUsable
    (by decide) (fun d => by simp [toyDigest]) (fun _ => .ok ()) (fun _ _ => rfl)
  exact ⟨c, [⟨.new, 11, [5, 6]⟩], (h _).mpr ⟨by decide +kernel, by decide +kernel⟩, by decide⟩

/-- CFB texts of different plain texts are different. -/
theorem cfbText_plain_unique {E : Bytes → Bytes} {bs : Nat} (hbs : 0 < bs) (hE : BlockLen bs E) {p p' data : Bytes}
    (h : CfbText E bs p data) (h' : CfbText E bs p' data) : p = p' := by
  have hpm : (data ++ List.replicate (bs - data.length % bs) (0 : UInt8)).length % bs = 0 := by
    rw [List.length_append, List.length_replicate]; exact pad_mod _ _ hbs
  obtain ⟨a1, a2⟩ := cfbText_dec hbs hE h _ hpm
  obtain ⟨b1, b2⟩ := cfbText_dec hbs hE h' _ hpm
  rw [← a1] at a2; rw [← b1] at b2
  exact a2.symm.trans b2

/-- The CFB text of a plain text is determined. -/
theorem cfbText_unique {E : Bytes → Bytes} {bs : Nat} (hbs : 0 < bs) (hE : BlockLen bs E) {p data data' : Bytes}
    (h : CfbText E bs p data) (h' : CfbText E bs p data') : data = data' := by
  have hpm : (data ++ List.replicate (bs - data.length % bs) (0 : UInt8)).length % bs = 0 := by
    rw [List.length_append, List.length_replicate]; exact pad_mod _ _ hbs
  obtain ⟨a1, a2⟩ := cfbText_dec hbs hE h (List.replicate (bs - data.length % bs) 0) hpm
  obtain ⟨pad, c1, c2⟩ := (cfbText_iff hbs hE _ _).mp h
  obtain ⟨pad', c1', c2'⟩ := (cfbText_iff hbs hE _ _).mp h'
  -- the encryption is a prefix-monotone function: compare through `cfbDec` injectivity
  have key : ∀ (x : Bytes), x.length % bs = 0 → ∀ (y : Bytes), y.length = x.length → ∀ (iv : Bytes), iv.length = bs → ∀ n,
      x.take n = y.take n → (cfbEnc E bs bs iv x).1.take n = (cfbEnc E bs bs iv y).1.take n := by
    intro x hx
    refine blocks_induction (P := fun x => ∀ (y : Bytes), y.length = x.length → ∀ (iv : Bytes), iv.length = bs → ∀ n,
      x.take n = y.take n → (cfbEnc E bs bs iv x).1.take n = (cfbEnc E bs bs iv y).1.take n) hbs ?_ ?_ x hx
    · intro y hy iv _ n _
      rw [List.length_nil, List.length_eq_zero_iff] at hy
      rw [hy]
    · intro b r hb hr ih y hy iv hiv n ht
      obtain ⟨b', r', rfl, hb'⟩ : ∃ b' r', y = b' ++ r' ∧ b'.length = bs :=
        ⟨y.take bs, y.drop bs, (List.take_append_drop ..).symm, by rw [List.length_take]; simp at hy; omega⟩
      have hl' : r'.length = r.length := by simp only [List.length_append] at hy; omega
      rw [cfbEnc_block E bs hbs hb, cfbEnc_block E bs hbs hb']
      have hEl := hE iv hiv
      have x1 : (xorB (E iv) b).length = bs := by rw [xorB_length]; omega
      have x2 : (xorB (E iv) b').length = bs := by rw [xorB_length]; omega
      by_cases hn : n ≤ bs
      · have : b.take n = b'.take n := by
          rw [List.take_append_of_le_length (by omega), List.take_append_of_le_length (by omega)] at ht
          exact ht
        dsimp only
        rw [List.take_append_of_le_length (by omega), List.take_append_of_le_length (by omega)]
        unfold xorB
        rw [List.take_zipWith, List.take_zipWith, this]
      · rw [take_append_len _ _ _ (by omega), take_append_len _ _ _ (by omega)] at ht
        obtain ⟨rfl, ht⟩ := List.append_inj ht (by omega)
        dsimp only
        rw [take_append_len _ _ _ (by omega), take_append_len _ _ _ (by omega), x1]
        congr 1
        refine ih _ hl' _ ?_ _ (by rw [hb] at ht; exact ht)
        exact cfbShift_length hiv x1 (Nat.le_refl _)
  have q := key (p ++ pad ++ List.replicate (p ++ pad').length 0)
    (by rw [List.length_append, List.length_replicate, Nat.add_mod, c1, c1']; simp)
    (p ++ pad' ++ List.replicate (p ++ pad).length 0)
    (by simp only [List.length_append, List.length_replicate]; omega) (List.replicate bs 0) (by simp) p.length
    (by rw [List.append_assoc, List.append_assoc, List.take_left' rfl, List.take_left' rfl])
  rw [cfb_append hbs hE hbs (Nat.le_refl _) _ _ c1, cfb_append hbs hE hbs (Nat.le_refl _) _ _ c1'] at q
  rw [List.take_append_of_le_length, List.take_append_of_le_length] at q
  · rw [c2, c2', q]
  · rw [(cfb_length hbs hE hbs (Nat.le_refl _) _ c1' _ (by simp)).1, List.length_append]; omega
  · rw [(cfb_length hbs hE hbs (Nat.le_refl _) _ c1 _ (by simp)).1, List.length_append]; omega

/-- C30: two accepted pieces of data with the same octets under the MDC (in its usual encoding) are the same; so any accepted
modification of the data comes with another hashed text whose SHA-1 value matches. -/
theorem C30_digest_covers_all (S : BlockCiphers) (H : Digest) (alg bl : Nat) (key : Bytes)
    (u : Usable S alg bl key) (data data' iv iv' m m' : Bytes) 
    (h : CfbText (S.enc alg key) bl (protectedPlain (H 2) iv m) data)
    (h' : CfbText (S.enc alg key) bl (protectedPlain (H 2) iv' m') data') (hd : data ≠ data') : mdcInput iv m ≠ mdcInput iv' m' := by
  intro he
  apply hd
  unfold protectedPlain at h h'
  rw [← he] at h'
  exact cfbText_unique u.pos u.len h h'

/-- Two different protected texts exist. -/
example : ∃ c c', CfbText (toyCiphers.enc 9 [1, 2, 3]) 16 (protectedPlain (toyDigest 2) (List.replicate 16 7) [1]) c ∧
    CfbText (toyCiphers.enc 9 [1, 2, 3]) 16 (protectedPlain (toyDigest 2) (List.replicate 16 7) [1, 2]) c' ∧ c ≠ c' := by
  obtain ⟨c, _, l, h⟩ := C29_encrypt_standard_partial toyCiphers toyDigest 9 16 [1, 2, 3] (List.replicate 16 7) [1] toyUsable (by decide)
    (fun d => by simp [toyDigest])
  obtain ⟨c', _, l', h'⟩ := C29_encrypt_standard_partial toyCiphers toyDigest 9 16 [1, 2, 3] (List.replicate 16 7) [1, 2] toyUsable (by decide)
    (fun d => by simp [toyDigest])
  exact ⟨c, c', h, h', fun e => by rw [e, l'] at l; simp at l⟩

/-- C30: a text whose MDC does not match is refused. -/
theorem C30_wrong_digest_refused (S : BlockCiphers) (H : Digest) (accept : RawPacket → Py Unit) (alg bl : Nat)
    (key iv m d data : Bytes) (u : Usable S alg bl key) (hiv : iv.length = bl) (hd : d.length = 20)
    (ht : CfbText (S.enc alg key) bl (mdcInput iv m ++ d) data) (hbad : d ≠ H 2 (mdcInput iv m)) :
    Raises (decryptIntegrity S H accept alg key data) := by
  cases hr : decryptIntegrity S H accept alg key data with
  | error e => exact ⟨e, rfl⟩
  | ok ps =>
    exfalso
    have h2 := u.two
    have e : mdcInput iv m ++ d = prefixed iv ++ (m ++ mdcHeader ++ d) := by simp [mdcInput, mdcHeader]
    rw [e] at ht
    have hdec := decryptOctets_text S alg bl key iv _ data u hiv (by simp [mdcHeader, hd]; omega) ht
    obtain ⟨iv1, hiv1, h⟩ := C30_accepted_is_authentic S H accept alg bl key data u ps hr
    rcases h with ⟨m1, d1, hd1, ht1, hm1, _⟩ | ⟨t, d1, mdc, hd1, ht1, hp, h19, hlen, hc⟩
    · have := cfbText_plain_unique u.pos u.len ht ht1
      rw [← e] at this
      obtain ⟨h1, h2⟩ := List.append_inj' this (by omega)
      rw [h2, h1] at hbad
      exact hbad hm1
    · have hh := cfbText_plain_unique u.pos u.len ht ht1
      rw [← e] at hh
      obtain ⟨h1, h2'⟩ := List.append_inj' hh (by omega)
      -- the model looks for the marker first, so this case is refused as well
      unfold decryptIntegrity at hr
      rw [hdec] at hr
      simp only [except_bind_ok] at hr
      obtain ⟨qs', hq, hcm⟩ := except_bind_eq_ok.mp hr
      have hac : accept ⟨.new, 19, d⟩ = .ok () := by
        unfold splitPackets at hq
        have h1 : lastN (m ++ mdcHeader ++ d) 22 = mdcHeader ++ d := by
          unfold lastN
          rw [if_neg (by omega), show (m ++ mdcHeader ++ d).length = m.length + 22 by simp [mdcHeader, hd], Nat.add_sub_cancel,
            List.append_assoc]
          exact List.drop_left' rfl
        have hne : mdcHeader ++ d ≠ [] := by simp [mdcHeader]
        simp only [negSlice_marker m mdcHeader d rfl hd, if_true, h1, ne_eq, hne, not_false_eq_true, packetFromData_mdc d hd,
          except_bind_ok] at hq
        obtain ⟨a, _, hq⟩ := except_bind_eq_ok.mp hq
        obtain ⟨b, _, hq⟩ := except_bind_eq_ok.mp hq
        obtain ⟨c, hacc, hq⟩ := except_bind_eq_ok.mp hq
        obtain ⟨_, _, hacc⟩ := except_bind_eq_ok.mp hacc
        exact hacc
      obtain ⟨_, _, a3⟩ := (decrypt_marker H accept iv m d hd ps hac).mp hr
      apply hbad
      rw [a3, lastN_two hiv (by omega)]
      simp [mdcInput, prefixed, mdcHeader]

/-! ### C62 -/

/-- Encrypting whole octets with CFB as `skEskEncryptKey` does it, and the decryption of `skEskGetKey`. -/
theorem skEsk_encrypt (S : BlockCiphers) (H : Digest) (s2k : S2K) (bl sym : Nat) (pass sk key : Bytes)
    (hk : s2k.toKey H pass = .ok (some key)) (u : Usable S s2k.sym bl key) (hsym : sym < 256) :
    ∃ e, skEskEncryptKey S H s2k sym pass sk = .ok e ∧ e.length = sk.length + 1 ∧
      CfbText (S.enc s2k.sym key) bl (UInt8.ofNat sym :: sk) e := by
  have hE : BlockLen bl (S.enc s2k.sym key) := u.len
  have hpos := u.pos
  set P := UInt8.ofNat sym :: sk with hP
  set pad := bl - P.length % bl with hpad
  have hpp : 0 < pad := by have := Nat.mod_lt P.length hpos; omega
  have hm : (P ++ List.replicate pad (0 : UInt8)).length % bl = 0 := by
    rw [List.length_append, List.length_replicate]; exact pad_mod _ _ hpos
  have hl := (cfb_length hpos hE hpos (Nat.le_refl _) _ hm (List.replicate bl 0) (by simp)).1
  have htk : dropLast (cfbEnc (S.enc s2k.sym key) bl bl (List.replicate bl 0) (P ++ List.replicate pad 0)).1 pad =
      (cfbEnc (S.enc s2k.sym key) bl bl (List.replicate bl 0) (P ++ List.replicate pad 0)).1.take P.length := by
    unfold dropLast
    rw [if_neg (by omega), hl, List.length_append, List.length_replicate, Nat.add_sub_cancel]
  refine ⟨(cfbEnc (S.enc s2k.sym key) bl bl (List.replicate bl 0) (P ++ List.replicate pad 0)).1.take P.length, ?_, ?_, ?_⟩
  · unfold skEskEncryptKey
    rw [hk, u.code]
    simp only [except_bind_ok]
    rw [getCfb_ok S u.code hpos u.keyOk (by simp), byteOf_lt hsym]
    simp only [except_bind_ok, ← hP, ← hpad]
    rw [cfbEncrypt_ok S rfl rfl hm]
    simp only [except_bind_ok, except_pure]
    rw [htk]
  · rw [List.length_take, hl, List.length_append, List.length_replicate, hP]; simp
  · exact (cfbText_iff hpos hE _ _).mpr ⟨_, hm, rfl⟩

theorem skEsk_decrypt (S : BlockCiphers) (H : Digest) (s2k : S2K) (bl sym : Nat) (pass sk key e : Bytes) (a : UInt8)
    (hk : s2k.toKey H pass = .ok (some key)) (u : Usable S sym bl key) (h : CfbText (S.enc sym key) bl (a :: sk) e) :
    skEskGetKey S H s2k sym pass (some e) = .ok (a.toNat, some sk) := by
  have hE : BlockLen bl (S.enc sym key) := u.len
  have hpos := u.pos
  have hpm : (e ++ List.replicate (bl - e.length % bl) (0 : UInt8)).length % bl = 0 := by
    rw [List.length_append, List.length_replicate]; exact pad_mod _ _ hpos
  obtain ⟨hl, hd⟩ := cfbText_dec hpos hE h _ hpm
  have hwl := (cfbDec_length hpos hE hpos (Nat.le_refl bl) _ hpm (List.replicate bl 0) (by simp)).1
  have hpp : 0 < bl - e.length % bl := by have := Nat.mod_lt e.length hpos; omega
  have hne : e ≠ [] := by rintro rfl; simp at hl
  obtain ⟨x, xs, rfl⟩ := List.exists_cons_of_ne_nil hne
  have htk : dropLast (cfbDec (S.enc sym key) bl bl (List.replicate bl 0) ((x :: xs) ++
      List.replicate (bl - (x :: xs).length % bl) 0)).1 (bl - (x :: xs).length % bl) = a :: sk := by
    unfold dropLast
    rw [if_neg (by omega), hwl, List.length_append, List.length_replicate, Nat.add_sub_cancel]
    rw [← hl] at hd; exact hd
  unfold skEskGetKey
  rw [hk]
  simp only [except_bind_ok]
  rw [u.code]
  dsimp only
  rw [getCfb_ok S u.code hpos u.keyOk (by simp)]
  simp only [except_bind_ok]
  rw [cfbDecrypt_ok S rfl rfl hpm]
  simp only [except_bind_ok]
  rw [htk]
  rfl

/-- C62: a session key encrypted under a passphrase is recovered, with its algorithm, from the packet with the same passphrase.
`sym` is the cipher of the packet and of the S2K specifier, `key` what the specifier makes of the passphrase. -/
theorem C62_passphrase_recovers_partial (S : BlockCiphers) (H : Digest) (fl : Nat → Nat) (hl : LogOnCounts fl) (s2k : S2K)
    (he : Encodable s2k) (bl v n : Nat) (pass sk key : Bytes) (hk : s2k.toKey H pass = .ok (some key)) (u : Usable S s2k.sym bl key)
    (hv : v < 256) (hsym : s2k.sym < 256) (hn : tableKeyOctets s2k.sym = some n) (hsk : sk ≠ []) (hlen : sk.length ≤ n) :
    ∃ e data, setSessionKey S H s2k s2k.sym pass (some sk) = .ok (some e) ∧
      (SkEsk.mk v s2k.sym s2k (some e)).content fl = .ok data ∧
      parseSkEsk data = .ok ⟨v, s2k.sym, s2k, some e⟩ ∧
      skEskGetKey S H s2k s2k.sym pass (some e) = .ok (s2k.sym, some sk) := by
  obtain ⟨e, h1, h2, h3⟩ := skEsk_encrypt S H s2k bl s2k.sym pass sk key hk u hsym
  obtain ⟨data, h4, h5⟩ := C26_skesk_roundtrip_partial fl hl v s2k.sym n hv hsym s2k he rfl hn e (by omega)
  refine ⟨e, data, ?_, h4, h5, ?_⟩
  · obtain ⟨x, xs, rfl⟩ := List.exists_cons_of_ne_nil hsk
    simp only [setSessionKey, h1, except_bind_ok, except_pure]
  · have := skEsk_decrypt S H s2k bl s2k.sym pass sk key e _ hk u h3
    rwa [toNat_ofNat_lt hsym] at this

example := C62_passphrase_recovers_partial toyCiphers (fun _ d => List.replicate 20 (UInt8.ofNat d.length)) Nat.log2 (fun _ _ _ => rfl)
  (S2K.simple 2 9) (by show 2 < 256; decide) 16 4 32 [112, 119] (List.replicate 32 7) _ rfl
  ⟨rfl, by decide, rfl, fun b h => by simp [toyCiphers, h]⟩ (by decide) (by decide) rfl (by decide) (by decide)

/-- C62: without a session key, the key made from the passphrase is the session key, on both sides. -/
theorem C62_passphrase_is_key (S : BlockCiphers) (H : Digest) (s2k : S2K) (sym : Nat) (pass key : Bytes)
    (hk : s2k.toKey H pass = .ok (some key)) :
    setSessionKey S H s2k sym pass none = .ok none ∧ skEskGetKey S H s2k sym pass none = .ok (sym, some key) := by
  refine ⟨rfl, ?_⟩
  simp only [skEskGetKey, hk, except_bind_ok, except_pure]

example := C62_passphrase_is_key toyCiphers (fun _ d => List.replicate 20 (UInt8.ofNat d.length)) (S2K.simple 2 9) 9 [112, 119] _ rfl

/-- C62 (refuted when the session cipher is not the cipher of the specifier): the key is encrypted with the specifier's cipher but
the packet names the session's cipher, and what is read back is decrypted with that one: whenever the two ciphers, under the keys
the specifier makes for each, differ on the zero block, the key that comes out is a wrong one. -/
theorem C62_other_cipher_lost (S : BlockCiphers) (H : Digest) (s2k s2k' : S2K) (bl sym : Nat) (pass sk key key' : Bytes)
    (hk : s2k.toKey H pass = .ok (some key)) (u : Usable S s2k.sym bl key) (hk' : s2k'.toKey H pass = .ok (some key'))
    (u' : Usable S sym bl key') (hsym : sym < 256)
    (hdiff : (S.enc s2k.sym key (List.replicate bl 0)).take 1 ≠ (S.enc sym key' (List.replicate bl 0)).take 1) :
    ∃ e, skEskEncryptKey S H s2k sym pass sk = .ok e ∧ skEskGetKey S H s2k' sym pass (some e) ≠ .ok (sym, some sk) := by
  obtain ⟨e, h1, h2, h3⟩ := skEsk_encrypt S H s2k bl sym pass sk key hk u hsym
  refine ⟨e, h1, fun hg => hdiff ?_⟩
  have hpos := u.pos
  -- what is read back is the text of `e` under the other cipher
  obtain ⟨p', hp'⟩ : ∃ p', CfbText (S.enc sym key') bl p' e :=
    ⟨_, cfbText_of_dec hpos u'.len e (List.replicate (bl - e.length % bl) 0)
      (by rw [List.length_append, List.length_replicate]; exact pad_mod _ _ hpos)⟩
  have hlen : p'.length = sk.length + 1 := by
    have := (cfbText_dec hpos u'.len hp' (List.replicate (bl - e.length % bl) 0)
      (by rw [List.length_append, List.length_replicate]; exact pad_mod _ _ hpos)).1
    omega
  obtain ⟨a, as, rfl⟩ := List.exists_cons_of_ne_nil (show p' ≠ [] by rintro rfl; simp at hlen)
  have hd := skEsk_decrypt S H s2k' bl sym pass as key' e a hk' u' hp'
  rw [hd] at hg
  obtain ⟨rfl, rfl⟩ : a.toNat = sym ∧ as = sk := by simpa using hg
  have ha : UInt8.ofNat a.toNat = a := by simp
  rw [ha] at h3
  -- first octets of the two encryptions of the same text
  have first : ∀ (E : Bytes → Bytes), (∀ b, b.length = bl → (E b).length = bl) → CfbText E bl (a :: as) e →
      e.take 1 = xorB ((E (List.replicate bl 0)).take 1) [a] := by
    intro E hE ht
    obtain ⟨pad, q1, q2⟩ := (cfbText_iff hpos hE _ _).mp ht
    obtain ⟨b, r, hbr, hb⟩ : ∃ b r, a :: as ++ pad = b ++ r ∧ b.length = bl := by
      have hge : bl ≤ (a :: as ++ pad).length := by
        rcases Nat.eq_zero_or_pos ((a :: as ++ pad).length / bl) with h | h
        · have := Nat.div_add_mod (a :: as ++ pad).length bl
          rw [h, q1] at this
          simp at this
        · have := Nat.div_add_mod (a :: as ++ pad).length bl
          have := Nat.le_mul_of_pos_right bl h
          omega
      exact ⟨_, _, (List.take_append_drop bl _).symm, by rw [List.length_take]; omega⟩
    have hb1 : b.take 1 = [a] := by
      have : (b ++ r).take 1 = [a] := by rw [← hbr]; rfl
      rwa [List.take_append_of_le_length (by omega)] at this
    rw [q2, List.take_take, Nat.min_eq_left (by simp), hbr, cfbEnc_block E bl hpos hb]
    have hx : (xorB (E (List.replicate bl 0)) b).length = bl := by
      rw [xorB_length, hE _ (by simp)]; omega
    rw [List.take_append_of_le_length (by omega), ← hb1]
    unfold xorB
    rw [List.take_zipWith]
  have f1 := first _ u.len h3
  have f2 := first _ u'.len hp'
  have l1 : ∀ (E : Bytes → Bytes), (∀ b, b.length = bl → (E b).length = bl) → ∃ x, (E (List.replicate bl 0)).take 1 = [x] := by
    intro E hE
    obtain ⟨x, xs, hx⟩ := List.exists_cons_of_ne_nil (show E (List.replicate bl 0) ≠ [] by
      intro h; have := hE (List.replicate bl 0) (by simp); rw [h] at this; simp at this; omega)
    exact ⟨x, by rw [hx]; rfl⟩
  obtain ⟨x, hx⟩ := l1 _ u.len
  obtain ⟨y, hy⟩ := l1 _ u'.len
  rw [hx] at f1 ⊢; rw [hy] at f2 ⊢
  rw [f1] at f2
  simp only [xorB, List.zipWith_cons_cons, List.zipWith_nil_right, List.cons.injEq, and_true] at f2
  have : x = y := by
    have h := congrArg (· ^^^ a) f2
    simpa [UInt8.xor_assoc] using h
  rw [this]

example : ∃ key, (S2K.simple 2 9).toKey (fun _ d => List.replicate 20 (UInt8.ofNat d.length)) [112, 119] = .ok (some key) ∧
    Usable toyCiphers (S2K.simple 2 9).sym 16 key ∧ tableKeyOctets (S2K.simple 2 9).sym = some 32 := by
  obtain ⟨key, h⟩ : ∃ key, (S2K.simple 2 9).toKey (fun _ d => List.replicate 20 (UInt8.ofNat d.length)) [112, 119] = .ok (some key) :=
    ⟨_, rfl⟩
  exact ⟨key, h, ⟨rfl, by decide, rfl, fun b h => by simp [toyCiphers, h]⟩, rfl⟩

end Pgp.Props
