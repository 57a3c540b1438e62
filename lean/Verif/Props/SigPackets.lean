import Verif.Lemmas.SigPackets
import Verif.Lemmas.NoDiv
/-
Property theorems C24, C25: signature subpackets and signature packets.
-/
namespace Pgp.Props
open Spec

def exFit : Sig := .v4 4 0x10 1 8
    [.plain true (.creationTime 1400000000), .embedded false (.v4 4 0x19 1 8 [] [.plain false (.issuer "0123456789ABCDEF".toList)] [1, 2] [])]
    [.plain false (.note "a".toList (some "b.org".toList) (.text "x".toList))] [0xab, 0xcd] [some 5]

/-- A signature with a critical creation time, an embedded signature and a notation. -/
theorem exFit_ok : SigOk Nat.log2 exFit := by
  refine SigOk.v4 (values := [5]) (by decide) (by decide) (by decide) ?_ ?_ ⟨[5, 130, 83, 114, 78, 0, 21, 32, 4, 25, 1, 8, 0, 0, 0, 10, 9, 16, 0x01, 0x23, 0x45, 0x67, 0x89, 0xab, 0xcd, 0xef, 1, 2], by decide +kernel, by decide⟩
    ⟨[17, 20, 128, 0, 0, 0, 0, 7, 0, 1, 97, 64, 98, 46, 111, 114, 103, 120], by decide +kernel, by decide⟩ rfl ?_
  · intro s hs
    simp only [List.mem_cons, List.not_mem_nil, or_false] at hs
    rcases hs with rfl | rfl
    · exact .plain (by simp [PlainOk])
    · refine .embedded (SigOk.v4 (values := []) (by decide) (by decide) (by decide) (by simp) ?_ ⟨[], by decide +kernel, by decide⟩
        ⟨[9, 16, 0x01, 0x23, 0x45, 0x67, 0x89, 0xab, 0xcd, 0xef], by decide +kernel, by decide⟩ rfl (by simp))
      intro s hs
      simp only [List.mem_singleton] at hs
      subst hs
      exact .plain ⟨rfl, by intro c hc; revert c hc; decide⟩
  · intro s hs
    simp only [List.mem_singleton] at hs
    subst hs
    exact .plain ⟨by decide, by decide, by decide +kernel, by decide +kernel⟩
  · intro i hi
    simp only [List.mem_singleton] at hi
    subst hi
    exact logRoom_of_exact rfl (Nat.lt_of_lt_of_le (by decide : 5 < 2 ^ 3) (Nat.pow_le_pow_right (by omega) (by omega)))

/-- C24: a list of subpackets that fit (any kinds, nesting of embedded signatures included) written one after the other,
anywhere in a message, reads back as the same list with the same critical bits and values, and the reader stops where the
writer did. -/
theorem C24_subpackets_roundtrip_partial (fl : Nat → Nat) (l : List Sub) (hl : ∀ s ∈ l, SubOk fl s) (e : Bytes)
    (he : subsBytes fl l = .ok e) (pre rest : Bytes) :
    parseSubs (pre ++ e ++ rest) pre.length (pre.length + e.length) = .ok (l, pre.length + e.length) :=
  subs_write (fun s hs => subOk_write (hl s hs)) he (rest := rest) (by simp)

example := C24_subpackets_roundtrip_partial Nat.log2 [.plain true (.creationTime 1400000000), .plain false (.issuer "0123456789ABCDEF".toList)]
  (by
    intro s hs
    simp only [List.mem_cons, List.not_mem_nil, or_false] at hs
    rcases hs with rfl | rfl
    · exact .plain (by simp [PlainOk])
    · exact .plain ⟨rfl, by unfold UpperHex; decide⟩)
  [5, 130, 83, 114, 78, 0, 9, 16, 0x01, 0x23, 0x45, 0x67, 0x89, 0xab, 0xcd, 0xef] (by decide +kernel) [1] [2]

/-- C24: the octets of a subpacket are the length of type-and-content, the type with the critical bit on top, the content. -/
theorem C24_subpacket_wire (fl : Nat → Nat) (critical : Bool) (v : Plain) (c e : Bytes) (hv : v.type < 128)
    (hc : v.content = .ok c) (he : Sub.toBytes fl (.plain critical v) = .ok e) :
    ∃ l, NewDefinite l (c.length + 1) ∧ e = l ++ [UInt8.ofNat (v.type + if critical then 128 else 0)] ++ c := by
  rw [Sub.toBytes, hc] at he
  exact subBytes_ok hv he

example := C24_subpacket_wire Nat.log2 true (.trust 1 120) [1, 120] [3, 133, 1, 120] (by decide) rfl (by decide +kernel)

/-- C24: a value that fits is always written, unless its content has 2^32 - 1 octets or more. -/
theorem C24_subpacket_written (fl : Nat → Nat) (critical : Bool) (v : Plain) (hv : PlainOk v) :
    ∃ c, v.content = .ok c ∧ (c.length + 1 ≤ 4294967295 → ∃ e, Sub.toBytes fl (.plain critical v) = .ok e) := by
  obtain ⟨c, h1, _, h3, _⟩ := plain_roundtrip hv
  refine ⟨c, h1, fun hc => ?_⟩
  obtain ⟨l, h2, _⟩ := newPacketLengthToBytes_definite hc false
  refine ⟨l ++ [UInt8.ofNat (v.type + if critical then 0x80 else 0)] ++ c, ?_⟩
  rw [Sub.toBytes, h1]
  simp only [except_bind_ok, subBytes, h2, byteOf_lt (show (v.type + if critical then 0x80 else 0) < 256 by split <;> omega)]
  rfl

example := C24_subpacket_written Nat.log2 true (.trust 1 120) (by simp [PlainOk])

/-- C24 fails for regular expressions: whatever the pattern, what is read from the octets written is not that pattern (the
terminating zero octet is not written). -/
theorem C24_regex_lost (fl : Nat → Nat) (critical : Bool) (p : List Char) (e : Bytes)
    (he : Sub.toBytes fl (.plain critical (.regex p)) = .ok e) :
    ∀ o, parseSubs e 0 e.length ≠ .ok ([.plain critical (.regex p)], o) := by
  intro o h
  obtain ⟨l, hl, rfl⟩ := C24_subpacket_wire fl critical (.regex p) _ e (by simp [Plain.type]) rfl he
  have hh := subHeader_write (data := l ++ [UInt8.ofNat (6 + if critical then 0x80 else 0)] ++ asciiEncodeReplace p)
    (s := []) (off := 0) (ty := 6) (critical := critical) (by decide) hl (by simp)
  simp only [Plain.type] at h
  rw [parseSubs_eq, if_pos (by simp), hh] at h
  obtain ⟨s, h1, h⟩ := except_bind_eq_ok.mp h
  obtain ⟨⟨r, o'⟩, h2, h⟩ := except_bind_eq_ok.mp h
  cases h
  unfold readSub at h1
  rw [if_neg (by decide)] at h1
  obtain ⟨v, h3, h1⟩ := except_bind_eq_ok.mp h1
  cases h1
  simp only [parsePlain, readRegex] at h3
  obtain ⟨_, h4, h3⟩ := except_bind_eq_ok.mp h3
  obtain ⟨_, h5, h3⟩ := except_bind_eq_ok.mp h3
  simp only [except_pure, Except.ok.injEq, Plain.regex.injEq] at h3
  have := congrArg List.length h3
  simp only [asciiDecodeReplace, asciiEncodeReplace, List.length_map, List.length_dropLast] at this
  unfold pyAssert at h4
  split at h4
  · rename_i h6; simp [asciiEncodeReplace] at h6; omega
  · cases h4

example := C24_regex_lost Nat.log2 false "ab".toList [3, 6, 97, 98] (by decide +kernel)

/-- C24 fails for revocation keys: they are never written, and never read from any octets. -/
theorem C24_revocation_key_unusable (fl : Nat → Nat) (critical : Bool) (fp : List Char) (alg : Nat) (sensitive : Bool)
    (d : Bytes) :
    Raises (Sub.toBytes fl (.plain critical (.revocationKey fp alg sensitive))) ∧ Raises (parsePlain 12 d) := by
  constructor
  · rw [Sub.toBytes]
    simp only [Plain.content]
    split
    · exact ⟨.valueError, rfl⟩
    · exact ⟨.typeError, rfl⟩
  · simp only [parsePlain, readRevocationKey, pyAssert]
    split
    · exact ⟨.typeError, rfl⟩
    · exact ⟨.assertionError, rfl⟩

/-- C24 fails for signature targets: they are never written. -/
theorem C24_target_unwritable (fl : Nat → Nat) (critical : Bool) (alg h : Nat) (hash : List Char) (n : Option Nat) :
    Raises (Sub.toBytes fl (.plain critical (.target alg h hash n))) := by
  rw [Sub.toBytes]
  simp only [Plain.content]
  cases hexToBytes hash ((hashLengths h).or n) with
  | error e => exact ⟨e, rfl⟩
  | ok b => exact ⟨.typeError, rfl⟩

/-- C24 fails for additional recipient requests: from 22 octets only half of the fingerprint is read, and a fingerprint with
the 40 digits of a real one is never what is read back. -/
theorem C24_additional_recipient_halved (strong : Bool) (alg : UInt8) (fp : Bytes) (hfp : fp.length = 20) :
    (Plain.additionalRecipient strong alg.toNat (hexText fp)).content = .ok ([if strong then 0x80 else 0, alg] ++ fp) ∧
    parsePlain 10 ([if strong then 0x80 else 0, alg] ++ fp) =
      .ok (.additionalRecipient strong alg.toNat (hexText (fp.take 10))) := by
  constructor
  · rw [← hexOf_eq_hexText]
    simp only [Plain.content, byteOf_toNat, hexToBytes_hexOf hfp, except_bind_ok, except_pure]
  · simp only [parsePlain, readAdditionalRecipient]
    have h := bytearrayToHex_of_drop (data := [if strong then 0x80 else 0, alg] ++ fp) (b := fp.take 10) (s := fp.drop 10)
      (off := 2) (e := 20) (by simp) (by simp [hfp])
    rw [h, hexOf_eq_hexText]
    cases strong <;> rfl

example := C24_additional_recipient_halved true 1 (List.replicate 20 7) rfl

/-- C24 fails for notations that are not text: they come back as text. -/
theorem C24_raw_notation_becomes_text (d : Bytes) (name : List Char) (ns : Option (List Char)) (b : Bytes) :
    parsePlain 20 d ≠ .ok (.note name ns (.raw b)) := by
  intro h
  simp only [parsePlain, readNote] at h
  iterate 7 obtain ⟨_, _, h⟩ := except_bind_eq_ok.mp h
  simp [except_pure] at h

/-- C24 fails for types without a class: their content is dropped, so that writing what was read loses it. -/
theorem C24_unknown_content_dropped (fl : Nat → Nat) (critical : Bool) (t : Nat) (ht : t < 128) (hk : t ∉ knownTypes)
    (c : Bytes) (hc : c.length + 1 ≤ 4294967295) :
    ∃ l, NewDefinite l (c.length + 1) ∧
      parseSubs (l ++ [UInt8.ofNat (t + if critical then 128 else 0)] ++ c) 0
        (l ++ [UInt8.ofNat (t + if critical then 128 else 0)] ++ c).length =
        .ok ([.plain critical (.other t)], (l ++ [UInt8.ofNat (t + if critical then 128 else 0)] ++ c).length) ∧
      Sub.toBytes fl (.plain critical (.other t)) = .ok [1, UInt8.ofNat (t + if critical then 128 else 0)] := by
  obtain ⟨l, _, h2, _⟩ := newPacketLengthToBytes_definite hc false
  refine ⟨l, h2, ?_, ?_⟩
  · have hh := subHeader_write (data := l ++ [UInt8.ofNat (t + if critical then 0x80 else 0)] ++ c) (s := []) (off := 0)
      (critical := critical) ht h2 (by simp)
    rw [parseSubs_eq, if_pos (by simp), hh]
    have : readSub t critical c = .ok (.plain critical (.other t)) := by
      unfold readSub
      rw [if_neg (by intro e; subst e; exact hk (by decide))]
      have : parsePlain t c = .ok (.other t) := by
        unfold parsePlain
        split <;> first | rfl | (exfalso; exact hk (by decide))
      rw [this]; rfl
    dsimp only
    rw [this, parseSubs_eq, if_neg (by omega), Nat.zero_add]; rfl
  · have hb : byteOf 1 = .ok 1 := by decide
    rw [Sub.toBytes]
    simp only [Plain.content, Plain.type, except_bind_ok, subBytes, newPacketLengthToBytes, List.length_nil, Nat.zero_add,
      show (1 : Nat) < 192 by decide, if_true, hb, except_pure,
      byteOf_lt (show (t + if critical then 0x80 else 0) < 256 by split <;> omega)]
    rfl

example := C24_unknown_content_dropped Nat.log2 true 100 (by decide) (by decide) [1, 2, 3] (by decide)

theorem noDiv_parsePlain (ty : Nat) (d : Bytes) : NoDiv (parsePlain ty d) := by
  have ht : NoDiv (readTime d) := noDiv_bind (noDiv_pyAssert _) fun _ _ => noDiv_longToInt _ _
  have hb : NoDiv (readBool d) := noDiv_bind (noDiv_pyAssert _) fun _ _ => noDiv_bind (noDiv_idx _ _) fun _ _ =>
    noDiv_bind (noDiv_pyAssert _) fun _ _ => noDiv_pure _
  have hf : NoDiv (readFirst d) := noDiv_bind (noDiv_pyAssert _) fun _ _ => noDiv_idx _ _
  have hu : NoDiv (readUri d) := noDiv_bind (noDiv_pyAssert _) fun _ _ => noDiv_pure _
  have hs : NoDiv (utf8DecodeStrict d) := noDiv_mapM _ (fun a => by cases a; exact noDiv_error (by decide); exact noDiv_ok _) _
  unfold parsePlain
  split <;> try first
    | exact noDiv_ok _
    | exact noDiv_bind ht fun _ _ => noDiv_pure _
    | exact noDiv_bind hb fun _ _ => noDiv_pure _
    | exact noDiv_bind hf fun _ _ => noDiv_pure _
    | exact noDiv_bind hu fun _ _ => noDiv_pure _
    | exact noDiv_bind hs fun _ _ => noDiv_pure _
  · exact noDiv_bind (noDiv_pyAssert _) fun _ _ => noDiv_bind (noDiv_idx _ _) fun _ _ => noDiv_bind (noDiv_idx _ _) fun _ _ =>
      noDiv_pure _
  · exact noDiv_bind (noDiv_pyAssert _) fun _ _ => noDiv_bind (noDiv_pyAssert _) fun _ _ => noDiv_pure _
  · exact noDiv_bind (noDiv_idx _ _) fun _ _ => noDiv_bind (noDiv_idx _ _) fun _ _ =>
      noDiv_bind (noDiv_bytearrayToHex _ _ _) fun _ _ => noDiv_pure _
  · exact noDiv_bind (noDiv_pyAssert _) fun _ _ => noDiv_error (by decide)
  · exact noDiv_bind (noDiv_pyAssert _) fun _ _ => noDiv_bind (noDiv_bytearrayToHex _ _ _) fun _ _ => noDiv_pure _
  · exact noDiv_bind (noDiv_pyAssert _) fun _ _ => noDiv_bind (noDiv_pyAssert _) fun _ _ => noDiv_bind (noDiv_idx _ _) fun _ _ =>
      noDiv_bind (noDiv_pyAssert _) fun _ _ => noDiv_bind (noDiv_shortToInt _ _) fun _ _ =>
      noDiv_bind (noDiv_shortToInt _ _) fun _ _ => noDiv_bind (noDiv_pyAssert _) fun _ _ => noDiv_pure _
  · exact noDiv_bind (noDiv_idx _ _) fun _ _ => noDiv_pure _
  · refine noDiv_bind (noDiv_pyAssert _) fun _ _ => noDiv_bind (noDiv_idx _ _) fun _ _ => noDiv_bind (noDiv_idx _ _) fun _ _ =>
      noDiv_bind ?_ fun _ _ => noDiv_bind (noDiv_bytearrayToHex _ _ _) fun _ _ => noDiv_pure _
    unfold targetLength
    split
    · exact noDiv_ok _
    · exact noDiv_bind (noDiv_pyAssert _) fun _ _ => noDiv_pure _

theorem noDiv_sigTail (d : Bytes) (o : Nat) : NoDiv (sigTail d o) :=
  noDiv_bind (mpiLoop_fuel d d.length (o + 2) (by omega)) fun _ _ => noDiv_pure _

theorem noDiv_subHeader (d : Bytes) (o : Nat) : NoDiv (subHeader d o) :=
  noDiv_bind (noDiv_newPacketLength _ _) fun _ _ => noDiv_bind (noDiv_pyAssert _) fun _ _ =>
    noDiv_bind (noDiv_idx _ _) fun _ _ => noDiv_pure _

/-- C24, C25: reading subpackets and signatures terminates on every input, however the lengths lie and however deeply
signatures are embedded in each other. -/
theorem C25_parse_terminates (data : Bytes) :
    parseSig data ≠ .error .diverges ∧ ∀ off stop, parseSubs data off stop ≠ .error .diverges := by
  suffices h : ∀ n, ∀ data : Bytes, data.length ≤ n →
      NoDiv (parseSig data) ∧ ∀ off stop, NoDiv (parseSubs data off stop) from h data.length data (Nat.le_refl _)
  intro n
  induction n using Nat.strongRecOn with
  | ind n ih =>
    intro data hn
    have hsubs : ∀ k off stop, data.length - off ≤ k → NoDiv (parseSubs data off stop) := by
      intro k
      induction k with
      | zero =>
        intro off stop hk
        rw [parseSubs_eq]
        split
        · cases hs : subHeader data off with
          | error e => intro h; have := noDiv_subHeader data off; rw [hs] at this; apply this; cases h; rfl
          | ok r =>
            obtain ⟨ty, cr, sub, off'⟩ := r
            have := subHeader_progress hs
            omega
        · exact noDiv_ok _
      | succ k ihk =>
        intro off stop hk
        rw [parseSubs_eq]
        split
        · cases hs : subHeader data off with
          | error e => intro h; have := noDiv_subHeader data off; rw [hs] at this; apply this; cases h; rfl
          | ok r =>
            obtain ⟨ty, cr, sub, off'⟩ := r
            have hp := subHeader_progress hs
            dsimp only
            refine noDiv_bind ?_ fun _ _ => noDiv_bind (ihk off' stop (by omega)) fun _ _ => noDiv_pure _
            unfold readSub
            split
            · exact noDiv_bind (ih sub.length (by omega) sub (Nat.le_refl _)).1 fun _ _ => noDiv_pure _
            · exact noDiv_bind (noDiv_parsePlain _ _) fun _ _ => noDiv_pure _
        · exact noDiv_ok _
    have hs : ∀ off stop, NoDiv (parseSubs data off stop) := fun off stop => hsubs _ off stop (Nat.le_refl _)
    refine ⟨?_, hs⟩
    rw [parseSig_eq]
    refine noDiv_bind (noDiv_idx _ _) fun v _ => ?_
    split
    · unfold parseSigV3
      refine noDiv_bind (noDiv_idx _ _) fun _ _ => noDiv_ite (noDiv_error (by decide)) ?_
      exact noDiv_bind (noDiv_idx _ _) fun _ _ => noDiv_bind (noDiv_longToInt _ _) fun _ _ =>
        noDiv_bind (noDiv_bytearrayToHex _ _ _) fun _ _ => noDiv_bind (noDiv_idx _ _) fun _ _ =>
        noDiv_bind (noDiv_idx _ _) fun _ _ => noDiv_bind (noDiv_sigTail _ _) fun _ _ => noDiv_pure _
    · split
      · exact noDiv_bind (noDiv_idx _ _) fun _ _ => noDiv_bind (noDiv_idx _ _) fun _ _ => noDiv_bind (noDiv_idx _ _) fun _ _ =>
          noDiv_bind (noDiv_shortToInt _ _) fun _ _ => noDiv_bind (hs _ _) fun _ _ => noDiv_bind (noDiv_shortToInt _ _) fun _ _ =>
          noDiv_bind (hs _ _) fun _ _ => noDiv_bind (noDiv_sigTail _ _) fun _ _ => noDiv_pure _
      · exact noDiv_error (by decide)

/-- C25: a version 4 signature that fits (areas below 2^16 octets, embedded signatures to any depth) is written, and parsing
its content gives the same type, algorithms, hashed and unhashed subpackets, hash prefix and integers. -/
theorem C25_signature_roundtrip (fl : Nat → Nat) (sig : Sig) (h : SigOk fl sig) :
    ∃ e, Sig.content fl sig = .ok e ∧ parseSig e = .ok sig := sigOk_write h

example := C25_signature_roundtrip Nat.log2 exFit exFit_ok

/-- C25: signatures with different parts have different octets. -/
theorem C25_signature_injective (fl : Nat → Nat) (a b : Sig) (ha : SigOk fl a) (hb : SigOk fl b)
    (h : Sig.content fl a = Sig.content fl b) : a = b := by
  obtain ⟨e, h1, p1⟩ := sigOk_write ha
  obtain ⟨f, h2, p2⟩ := sigOk_write hb
  rw [h1, h2] at h
  cases h
  rw [p1] at p2
  exact Except.ok.inj p2

example := C25_signature_injective Nat.log2 exFit exFit exFit_ok exFit_ok rfl

/-- C25 fails for versions 2 and 3: they are read but never written. -/
theorem C25_v3_unwritable (fl : Nat → Nat) (version t p h created : Nat) (keyId : List Char) (hash2 : Bytes)
    (values : List (Option Nat)) : Raises (Sig.content fl (.v3 version t p h created keyId hash2 values)) := by
  rw [Sig.content]
  cases byteOf version with
  | error e => exact ⟨e, rfl⟩
  | ok _ =>
    cases byteOf t with
    | error e => exact ⟨e, rfl⟩
    | ok _ => exact ⟨.typeError, rfl⟩

/-- C25: a version 2 or 3 signature keeps only the first half of the issuer's key id. -/
theorem C25_v3_key_id_halved (version : UInt8) (hv : version = 2 ∨ version = 3) (t p h : UInt8) (created : Nat)
    (hc : created < 2 ^ 32) (keyId hash2 : Bytes) (hk : keyId.length = 8) (h2 : hash2.length = 2) :
    parseSig ([version, 5, t] ++ intTo4byte created ++ keyId ++ [p, h] ++ hash2) =
      .ok (.v3 version.toNat t.toNat p.toNat h.toNat created (hexText (keyId.take 4)) hash2 []) := by
  generalize hD : [version, 5, t] ++ intTo4byte created ++ keyId ++ [p, h] ++ hash2 = data
  have d0 : data.drop 0 = version :: 5 :: t :: (intTo4byte created ++ (keyId ++ (p :: h :: hash2))) := by
    rw [← hD]; simp
  have d1 := drop_succ_of_drop d0
  have d2 := drop_succ_of_drop d1
  have d3 := drop_succ_of_drop d2
  have d7 := drop_add_of_drop' d3 (n := 4) rfl
  have d15 := drop_add_of_drop' d7 (n := 8) hk.symm
  have d16 := drop_succ_of_drop d15
  have d17 := drop_succ_of_drop d16
  simp only [Nat.zero_add, Nat.reduceAdd] at d1 d2 d3 d7 d15 d16 d17
  have d7' : data.drop 7 = keyId.take 4 ++ (keyId.drop 4 ++ (p :: h :: hash2)) := by
    rw [d7, ← List.append_assoc, List.take_append_drop]
  have hlen : data.length = 19 := by rw [← hD]; simp [intTo4byte_length, hk, h2]
  have a1 := longToInt_of_drop d3
  rw [Nat.mod_eq_of_lt (by simpa using hc)] at a1
  have a2 := bytearrayToHex_of_drop (e := 8) d7' (by simp [hk])
  have a3 : sigTail data 17 = .ok (hash2, []) := by
    unfold sigTail
    have : mpiLoop data data.length (17 + 2) = .ok [] := by
      rw [hlen]; unfold mpiLoop; rw [if_neg (by omega)]
    rw [this, slice_of_drop (s := []) (a := hash2) (by simpa using d17) (by omega)]; rfl
  rw [parseSig_eq, idx_of_drop d0]
  simp only [except_bind_ok, if_pos hv, parseSigV3, idx_of_drop d1, idx_of_drop d2, a1, a2, idx_of_drop d15, idx_of_drop d16, a3,
    except_pure, hexOf_eq_hexText, ne_eq, not_true_eq_false, if_false]

example := C25_v3_key_id_halved 3 (.inr rfl) 0 1 8 1400000000 (by decide) [1, 2, 3, 4, 5, 6, 7, 8] [9, 9] rfl rfl

/-- C25: other versions are rejected. -/
theorem C25_other_versions_rejected (v : UInt8) (rest : Bytes) (h : v ≠ 2 ∧ v ≠ 3 ∧ v ≠ 4) :
    parseSig (v :: rest) = .error .valueError := by
  rw [parseSig_eq, idx_of_drop (s := rest) (x := v) rfl]
  simp only [except_bind_ok]
  rw [if_neg (by tauto), if_neg h.2.2]

example := C25_other_versions_rejected 5 [1, 2] (by decide)

/-- C60 is false: the hashed area announces one octet, yet a subpacket of any length that merely starts there is reported as
hashed in full, although all but its first octet lie outside the area. -/
theorem C60_hashed_area_overrun (fl : Nat → Nat) (t p h : UInt8) (s : Sub) (hs : SubOk fl s) (e : Bytes)
    (he : Sub.toBytes fl s = .ok e) (hash2 : Bytes) (h2 : hash2.length = 2) :
    parseSig ([4, t, p, h] ++ intTo2byte 1 ++ e ++ [0, 0] ++ hash2) = .ok (.v4 4 t.toNat p.toNat h.toNat [s] [] hash2 []) := by
  generalize hD : [4, t, p, h] ++ intTo2byte 1 ++ e ++ [0, 0] ++ hash2 = data
  have d0 : data.drop 0 = 4 :: t :: p :: h :: (intTo2byte 1 ++ (e ++ (intTo2byte 0 ++ hash2))) := by
    rw [← hD]; simp [intTo2byte, octet, lowByte]
  have d1 := drop_succ_of_drop d0
  have d2 := drop_succ_of_drop d1
  have d3 := drop_succ_of_drop d2
  have d4 := drop_succ_of_drop d3
  have d6 := drop_add_of_drop' d4 (n := 2) rfl
  have d7 := drop_add_of_drop d6
  have d8 := drop_add_of_drop' d7 (n := 2) rfl
  simp only [Nat.zero_add, Nat.reduceAdd] at d1 d2 d3 d4 d6 d7 d8
  have a4 := shortToInt_of_drop d4
  have a6 := shortToInt_of_drop d7
  rw [Nat.mod_eq_of_lt (by norm_num)] at a4 a6
  obtain ⟨ty, critical, c, p1, p2, p3⟩ := subOk_write hs e he data 6 _ d6
  have he1 : 0 < e.length := List.length_pos_iff.mpr p3
  have a5 : parseSubs data 6 (6 + 1) = .ok ([s], 6 + e.length) := by
    rw [parseSubs_eq, if_pos (by omega), p1]
    dsimp only
    rw [p2, parseSubs_eq, if_neg (by omega)]; rfl
  have a7 : parseSubs data (6 + e.length + 2) (6 + e.length + 2 + 0) = .ok ([], 6 + e.length + 2) := by
    rw [parseSubs_eq, if_neg (by omega)]
  have hlen : data.length = 6 + e.length + 2 + 2 := by rw [← hD]; simp [intTo2byte_length, h2]; omega
  have a8 : sigTail data (6 + e.length + 2) = .ok (hash2, []) := by
    unfold sigTail
    have : mpiLoop data data.length (6 + e.length + 2 + 2) = .ok [] := by
      rw [hlen]; unfold mpiLoop; rw [if_neg (by omega)]
    rw [this, slice_of_drop (s := []) (a := hash2) (by simpa using d8) (by omega)]; rfl
  rw [parseSig_eq]
  simp only [idx_of_drop d0, idx_of_drop d1, idx_of_drop d2, idx_of_drop d3, a4, a5, a6, a7, a8, except_bind_ok, except_pure]
  rw [if_neg (by decide), if_pos trivial]

example := C60_hashed_area_overrun Nat.log2 0x13 1 8 (.plain false (.creationTime 1400000000)) (.plain (by simp [PlainOk])) [5, 2, 83, 114, 78, 0] (by decide +kernel) [1, 2] rfl

end Pgp.Props
