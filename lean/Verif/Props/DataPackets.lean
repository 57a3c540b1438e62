import Verif.Lemmas.DataPackets
/-
Property theorems C47 (compression), C51 (user attributes), C54 (literal data), C64 (small packets).
-/
namespace Pgp.Props
open Spec

/-! ## C47 -/

/-- C47 (deflate): whatever pieces are fed to the deflate wrapper before it is flushed, it gives the deflate data of the zlib stream (without
the header of two octets and the checksum of four), which decompresses, through the same kind of wrapper and cut into any pieces, to the concatenation of the pieces. -/
theorem C47_deflate_complete (Z : Zlib) (hz : ZlibWorks Z) (lvl lvl' : Option Nat) (c : Z.Comp) (hc : Z.newComp lvl = .ok c)
    (p : Bytes) (ps : List Bytes) :
    ∃ z, feedFlush deflateCompress deflateFlush (CompState.new Z lvl) (p :: ps) = .ok z ∧
      (∃ header check : Bytes, header.length = 2 ∧ check.length = 4 ∧ Zstream Z c (p :: ps) = header ++ z ++ check) ∧
      ∀ q qs, (q :: qs).flatten = z →
        feedFlush deflateDecompress deflateFlush (CompState.new Z lvl') (q :: qs) = .ok (p :: ps).flatten := by
  obtain ⟨d, hd, hraw⟩ := hz.raw lvl c hc
  obtain ⟨header, body, check, h1, h2, h3, h4⟩ := hraw (p :: ps)
  refine ⟨body, ?_, ⟨header, check, h1, h2, h3⟩, fun q qs hq => deflate_new_unfeed q qs hd (h4 (q :: qs) hq)⟩
  rw [deflate_new_feed hc p ps, h3, stripZlib_parts h1 h2]

/-- C47 (zlib, partial): fed with a single piece the zlib wrapper is complete. Missing: several pieces, for which it is false
(`C47_zlib_pieces_refuted`). -/
theorem C47_zlib_single_partial (Z : Zlib) (hz : ZlibWorks Z) (lvl lvl' : Option Nat) (c : Z.Comp) (hc : Z.newComp lvl = .ok c) (p : Bytes) :
    ∃ z, feedFlush zlibCompress zlibFlush (CompState.new Z lvl) [p] = .ok z ∧
      ∀ q qs, (q :: qs).flatten = z →
        feedFlush zlibDecompress zlibFlush (CompState.new Z lvl') (q :: qs) = .ok p := by
  refine ⟨_, zlib_new_feed hc p [], fun q qs hq => ?_⟩
  have := hz.inverse lvl c hc [p] (q :: qs) hq
  rw [List.flatten_singleton] at this
  exact zlib_new_unfeed q qs this

/-- C47 refuted (zlib, several pieces): everything after the first piece is lost: the stream is the one for the first piece alone,
and decompresses to it. -/
theorem C47_zlib_pieces_refuted (Z : Zlib) (hz : ZlibWorks Z) (lvl : Option Nat) (c : Z.Comp) (hc : Z.newComp lvl = .ok c)
    (p : Bytes) (ps : List Bytes) (hps : ps.flatten ≠ []) :
    ∃ z, feedFlush zlibCompress zlibFlush (CompState.new Z lvl) (p :: ps) = .ok z ∧
      feedFlush zlibDecompress zlibFlush (CompState.new Z lvl) [z] = .ok p ∧ p ≠ (p :: ps).flatten := by
  obtain ⟨z, h1, h2⟩ := C47_zlib_single_partial Z hz lvl lvl c hc p
  refine ⟨z, ?_, h2 z [] (by simp), ?_⟩
  · rw [zlib_new_feed hc] at h1 ⊢; exact h1
  · intro h
    rw [List.flatten_cons] at h
    exact hps (by simpa using h)

/-- C47: a compressed data packet made with algorithm 0, 1 or 2 from any (expressible) packets decompresses to the same packets. -/
theorem C47_packets_roundtrip (Z : Zlib) (B : Bz2) (hz : ZlibWorks Z) (alg : Nat) (ha : alg ≤ 2) (lvl : Option Nat) (c : Z.Comp)
    (hc : Z.newComp lvl = .ok c) (ps : List RawPacket) (hp : ∀ p ∈ ps, Expressible p) :
    ∃ z, compressPackets Z B alg lvl ps = .ok z ∧ decompressData Z B alg z = .ok ps := by
  obtain ⟨es, h1, h2, h3⟩ := parseLoop_roundtrip hp
  have hparse : parseBinaryPacketData es.flatten = .ok ps := h3 (by simp) h2
  unfold compressPackets decompressData
  obtain rfl | rfl | rfl : alg = 0 ∨ alg = 1 ∨ alg = 2 := by omega
  · refine ⟨es.flatten, ?_, ?_⟩
    · simp [getCompression, h1, CompInstance.compress, CompInstance.flush]
    · simp [getCompression, CompInstance.decompress, CompInstance.flush, hparse]
  · obtain ⟨z, hz1, -, hz2⟩ := C47_deflate_complete Z hz lvl none c hc es.flatten []
    have hz3 := hz2 z [] (by simp)
    rw [List.flatten_singleton] at hz3
    refine ⟨z, ?_, ?_⟩
    · simp only [getCompression, h1, except_bind_ok, CompInstance.compress, one_ne_zero, if_false, if_true, CompInstance.flush]
      simp only [feedFlush] at hz1
      obtain ⟨⟨o, s⟩, h4, h5⟩ := except_bind_eq_ok.mp hz1
      obtain ⟨r, h6, h5⟩ := except_bind_eq_ok.mp h5
      obtain ⟨⟨o', s'⟩, h7, h6⟩ := except_bind_eq_ok.mp h6
      cases h6
      cases h5
      simp only [h4, except_bind_ok, except_pure, h7]
    · simp only [getCompression, except_bind_ok, CompInstance.decompress, one_ne_zero, if_false, if_true, CompInstance.flush]
      simp only [feedFlush] at hz3
      obtain ⟨⟨o, s⟩, h4, h5⟩ := except_bind_eq_ok.mp hz3
      obtain ⟨r, h6, h5⟩ := except_bind_eq_ok.mp h5
      obtain ⟨⟨o', s'⟩, h7, h6⟩ := except_bind_eq_ok.mp h6
      cases h6
      simp only [except_pure, Except.ok.injEq] at h5
      simp only [h4, except_bind_ok, except_pure, h7, h5, hparse]
  · obtain ⟨z, hz1, hz2⟩ := C47_zlib_single_partial Z hz lvl none c hc es.flatten
    have hz3 := hz2 z [] (by simp)
    refine ⟨z, ?_, ?_⟩
    · simp only [getCompression, h1, except_bind_ok, CompInstance.compress, OfNat.ofNat_ne_zero, OfNat.ofNat_ne_one, if_false, if_true,
        CompInstance.flush]
      simp only [feedFlush] at hz1
      obtain ⟨⟨o, s⟩, h4, h5⟩ := except_bind_eq_ok.mp hz1
      obtain ⟨r, h6, h5⟩ := except_bind_eq_ok.mp h5
      obtain ⟨⟨o', s'⟩, h7, h6⟩ := except_bind_eq_ok.mp h6
      cases h6
      cases h5
      simp only [h4, except_bind_ok, except_pure, h7]
    · simp only [getCompression, except_bind_ok, CompInstance.decompress, OfNat.ofNat_ne_zero, OfNat.ofNat_ne_one, if_false, if_true,
        CompInstance.flush]
      simp only [feedFlush] at hz3
      obtain ⟨⟨o, s⟩, h4, h5⟩ := except_bind_eq_ok.mp hz3
      obtain ⟨r, h6, h5⟩ := except_bind_eq_ok.mp h5
      obtain ⟨⟨o', s'⟩, h7, h6⟩ := except_bind_eq_ok.mp h6
      cases h6
      simp only [except_pure, Except.ok.injEq] at h5
      simp only [h4, except_bind_ok, except_pure, h7, h5, hparse]

/-- C47 refuted (bzip2 and unknown algorithms): no bzip2-compressed packet can ever be opened, whatever it holds; the error for an
unknown algorithm is AttributeError. -/
theorem C47_bzip2_never_opens_refuted (Z : Zlib) (B : Bz2) (alg : Nat) (ha : 3 ≤ alg) (data : Bytes) :
    (∃ e, decompressData Z B alg data = .error e) ∧ (4 ≤ alg → decompressData Z B alg data = .error .attributeError) := by
  have h0 : alg ≠ 0 := by omega
  have h1 : alg ≠ 1 := by omega
  have h2 : alg ≠ 2 := by omega
  constructor
  · unfold decompressData getCompression
    simp only [h0, h1, h2, if_false]
    split
    · cases hb : B.newComp none with
      | error e => exact ⟨e, rfl⟩
      | ok c => exact ⟨.attributeError, rfl⟩
    · exact ⟨.attributeError, rfl⟩
  · intro h4
    have h3 : alg ≠ 3 := by omega
    unfold decompressData getCompression
    simp only [h0, h1, h2, h3, if_false]
    rfl

example (Z : Zlib) (B : Bz2) := (C47_bzip2_never_opens_refuted Z B 3 (by decide) [0x42, 0x5a]).1

example := C47_deflate_complete toyZlib toyZlib_works (some 6) none false rfl [1] [[2, 3], [4]]
example := C47_zlib_single_partial toyZlib toyZlib_works (some 6) none false rfl [1, 2, 3]
example := C47_zlib_pieces_refuted toyZlib toyZlib_works (some 6) false rfl [1] [[2, 3]] (by decide)
example (B : Bz2) := C47_packets_roundtrip toyZlib B toyZlib_works 1 (by decide) (some 6) false rfl [⟨.new, 11, [1, 2, 3]⟩] (by
  intro p hp; rw [List.mem_singleton] at hp; subst hp; exact Or.inl ⟨rfl, by decide, by decide, by decide⟩)

/-- C47: after a flush the wrappers refuse everything, and a wrapper used for compression refuses decompression and conversely;
flushing before anything was fed is AttributeError. -/
theorem C47_misuse (Z : Zlib) (s s' : CompState Z) (o data : Bytes) :
    (deflateFlush s = .ok (o, s') → deflateFlush s' = .error .valueError ∧ deflateCompress s' data = .error .valueError ∧
      deflateDecompress s' data = .error .valueError) ∧
    (zlibFlush s = .ok (o, s') → zlibFlush s' = .error .valueError ∧ zlibCompress s' data = .error .valueError ∧
      zlibDecompress s' data = .error .valueError) ∧
    (deflateCompress s data = .ok (o, s') → ∀ d, deflateDecompress s' d = .error .valueError) ∧
    (deflateDecompress s data = .ok (o, s') → ∀ d, deflateCompress s' d = .error .valueError) ∧
    (∀ lvl, deflateFlush (CompState.new Z lvl) = .error .attributeError ∧ zlibFlush (CompState.new Z lvl) = .error .attributeError) := by
  refine ⟨?_, ?_, ?_, ?_, fun _ => ⟨rfl, rfl⟩⟩
  · intro h
    unfold deflateFlush at h
    split at h
    · cases h
    · split at h <;> cases h <;> exact ⟨rfl, rfl, rfl⟩
  · intro h
    unfold zlibFlush at h
    split at h
    · cases h
    · split at h <;> cases h <;> exact ⟨rfl, rfl, rfl⟩
  · intro h d
    unfold deflateCompress at h
    split at h
    · cases h
    · split at h
      · cases h
      · obtain ⟨c, _, h⟩ := except_bind_eq_ok.mp h
        cases h; rfl
      · cases h; rfl
  · intro h d
    unfold deflateDecompress at h
    split at h
    · cases h
    · split at h
      · cases h
      · obtain ⟨⟨_, c⟩, _, h⟩ := except_bind_eq_ok.mp h
        obtain ⟨⟨_, c⟩, _, h⟩ := except_bind_eq_ok.mp h
        cases h; rfl
      · obtain ⟨⟨_, c⟩, _, h⟩ := except_bind_eq_ok.mp h
        cases h; rfl

/-- The hypotheses are met by a working codec. -/
example : ZlibWorks toyZlib ∧ toyZlib.newComp (some 6) = .ok false ∧ ([[1], [2, 3]] : List Bytes).flatten ≠ [] :=
  ⟨toyZlib_works, rfl, by decide⟩

/-! ## C54 -/

private theorem utf8_ascii_length {name : List Char} (hn : ∀ c ∈ name, c.toNat < 128) : (utf8Encode name).length = name.length := by
  induction name with
  | nil => rfl
  | cons c cs ih =>
    have h1 : (utf8Char c).length = 1 := by simp [utf8Char, hn c (by simp)]
    have h2 := ih (fun d hd => hn d (by simp [hd]))
    simp only [utf8Encode, List.flatMap_cons, List.length_append, List.length_cons] at h2 ⊢
    omega

/-- C54: a literal packet with binary data (`b`, or the deprecated `l`, `1`), an ASCII file name of at most 255 characters and a time
below 2^32 survives (the time comes back as a number). -/
theorem C54_binary_roundtrip (fmt : UInt8) (hf : fmt ∈ ([0x62, 0x6c, 0x31] : Bytes)) (name : List Char) (hn : ∀ c ∈ name, c.toNat < 128)
    (hl : name.length ≤ 255) (t : Nat) (ht : t < 2 ^ 32) (data : Bytes) :
    ∃ w, Literal.content ⟨fmt, name, .datetime t, .octets data⟩ = .ok w ∧
      Literal.parse w = .ok ⟨fmt, name, .int t, .octets data⟩ := by
  have hul := utf8_ascii_length hn
  have hfm : fmt ∈ ([0x6c, 0x31, 0x62, 0x74, 0x75] : Bytes) := by
    simp only [List.mem_cons, List.not_mem_nil, or_false] at hf ⊢; tauto
  have hne : fmt ≠ 0x74 ∧ fmt ≠ 0x75 := by
    simp only [List.mem_cons, List.not_mem_nil, or_false] at hf
    rcases hf with rfl | rfl | rfl <;> decide
  refine ⟨fmt :: UInt8.ofNat name.length :: (utf8Encode name ++ intTo4byte t ++ data), ?_, ?_⟩
  · simp [Literal.content, hfm, byteOf_lt (show name.length < 256 by omega), LitTime.timestamp, LitData.encode, hne.1, hne.2]
  · generalize hw : fmt :: UInt8.ofNat name.length :: (utf8Encode name ++ intTo4byte t ++ data) = w
    have d0 : w.drop 0 = fmt :: (UInt8.ofNat name.length :: (utf8Encode name ++ intTo4byte t ++ data)) := by rw [List.drop_zero, ← hw]
    have d1 := drop_succ_of_drop d0
    have d2 := drop_succ_of_drop d1
    simp only [Nat.zero_add, Nat.reduceAdd, List.append_assoc] at d1 d2
    have hnn : (UInt8.ofNat name.length).toNat = name.length := toNat_ofNat_lt (by omega)
    have s2 := slice_append_of_drop d2
    rw [hul] at s2
    have d3 := drop_add_of_drop d2
    rw [hul] at d3
    have hlong := longToInt_of_drop d3
    rw [Nat.mod_eq_of_lt (by omega)] at hlong
    have d4 := drop_add_of_drop d3
    rw [intTo4byte_length] at d4
    simp only [Literal.parse, idx_of_drop d0, idx_of_drop d1, except_bind_ok, hnn, s2, hlong, d4, litDecode, hne.1, hne.2, if_false,
      except_pure, utf8DecodeReplace_encode]

example : ∀ c ∈ "hello.txt".toList, c.toNat < 128 := by decide

private theorem latin1_roundtrip {s : List Char} (h : ∀ c ∈ s, c.toNat < 256) : latin1Decode (latin1Encode s) = s := by
  induction s with
  | nil => rfl
  | cons c cs ih =>
    have h1 := h c (by simp)
    have h2 := ih (fun d hd => h d (by simp [hd]))
    simp only [latin1Decode, latin1Encode, List.map_cons, h1, if_true, toNat_ofNat_lt h1, ofNat_toNat_char, List.cons.injEq,
      true_and] at h2 ⊢
    exact h2

/-- C54: text packets survive: `u` with any text, `t` with text of characters below 256. -/
theorem C54_text_roundtrip (fmt : UInt8) (s : List Char) (hf : fmt = 0x75 ∨ fmt = 0x74 ∧ ∀ c ∈ s, c.toNat < 256) (name : List Char)
    (hn : ∀ c ∈ name, c.toNat < 128) (hl : name.length ≤ 255) (t : Nat) (ht : t < 2 ^ 32) :
    ∃ w, Literal.content ⟨fmt, name, .datetime t, .text s⟩ = .ok w ∧
      Literal.parse w = .ok ⟨fmt, name, .int t, .text s⟩ := by
  have hul := utf8_ascii_length hn
  obtain ⟨body, hb1, hb2⟩ : ∃ body, LitData.encode fmt (.text s) = .ok body ∧ litDecode fmt body = .ok (.text s) := by
    rcases hf with rfl | ⟨rfl, hs⟩
    · refine ⟨utf8Encode s, by simp [LitData.encode], ?_⟩
      simp [litDecode, utf8DecodeStrict_encode]
    · refine ⟨latin1Encode s, by simp [LitData.encode], ?_⟩
      simp [litDecode, latin1_roundtrip hs]
  have hfm : fmt ∈ ([0x6c, 0x31, 0x62, 0x74, 0x75] : Bytes) := by
    rcases hf with rfl | ⟨rfl, _⟩ <;> decide
  refine ⟨fmt :: UInt8.ofNat name.length :: (utf8Encode name ++ intTo4byte t ++ body), ?_, ?_⟩
  · simp [Literal.content, hfm, byteOf_lt (show name.length < 256 by omega), LitTime.timestamp, hb1]
  · generalize hw : fmt :: UInt8.ofNat name.length :: (utf8Encode name ++ intTo4byte t ++ body) = w
    have d0 : w.drop 0 = fmt :: (UInt8.ofNat name.length :: (utf8Encode name ++ intTo4byte t ++ body)) := by rw [List.drop_zero, ← hw]
    have d1 := drop_succ_of_drop d0
    have d2 := drop_succ_of_drop d1
    simp only [Nat.zero_add, Nat.reduceAdd, List.append_assoc] at d1 d2
    have hnn : (UInt8.ofNat name.length).toNat = name.length := toNat_ofNat_lt (by omega)
    have s2 := slice_append_of_drop d2
    rw [hul] at s2
    have d3 := drop_add_of_drop d2
    rw [hul] at d3
    have hlong := longToInt_of_drop d3
    rw [Nat.mod_eq_of_lt (by omega)] at hlong
    have d4 := drop_add_of_drop d3
    rw [intTo4byte_length] at d4
    simp only [Literal.parse, idx_of_drop d0, idx_of_drop d1, except_bind_ok, hnn, s2, hlong, d4, hb2,
      except_pure, utf8DecodeReplace_encode]

example := C54_text_roundtrip 0x75 "gr\u00fc\u00df".toList (.inl rfl) "a.txt".toList (by decide) (by decide) 1000 (by decide)

/-- C54 refuted (parsed packets): a literal packet that was parsed can never be serialised again: AttributeError (its time is a
number). -/
theorem C54_reserialise_refuted (w : Bytes) (l : Literal) (h : Literal.parse w = .ok l) (hf : l.dataFormat ∈ ([0x62, 0x74, 0x75] : Bytes)) :
    l.content = .error .attributeError ∨ l.content = .error .valueError := by
  unfold Literal.parse at h
  obtain ⟨f, _, h⟩ := except_bind_eq_ok.mp h
  obtain ⟨n, _, h⟩ := except_bind_eq_ok.mp h
  obtain ⟨t, _, h⟩ := except_bind_eq_ok.mp h
  obtain ⟨b, _, h⟩ := except_bind_eq_ok.mp h
  cases h
  have hfm : f ∈ ([0x6c, 0x31, 0x62, 0x74, 0x75] : Bytes) := by
    simp only [List.mem_cons, List.not_mem_nil, or_false] at hf ⊢; tauto
  unfold Literal.content
  simp only [hfm, not_true_eq_false, if_false]
  unfold byteOf
  split
  · left; rfl
  · right; rfl

example : ∃ l, Literal.parse [0x75, 1, 97, 0, 0, 0, 5, 104] = .ok l ∧ l.dataFormat ∈ ([0x62, 0x74, 0x75] : Bytes) := by
  obtain ⟨w, hw, hp⟩ := C54_text_roundtrip 0x75 ['h'] (.inl rfl) ['a'] (by decide) (by decide) 5 (by decide)
  have e : w = [0x75, 1, 97, 0, 0, 0, 5, 104] := by
    have : Literal.content ⟨0x75, ['a'], .datetime 5, .text ['h']⟩ = .ok [0x75, 1, 97, 0, 0, 0, 5, 104] := by decide +kernel
    rw [this] at hw; exact (Except.ok.inj hw).symm
  exact ⟨_, e ▸ hp, by decide⟩

/-- C54 refuted (file names that are not ASCII): the length octet counts characters, not octets, so the end of the name becomes part
of the time and the time part of the data: the data read back is never the data written. -/
theorem C54_non_ascii_name_refuted (name : List Char) (hl : name.length ≤ 255) (hn : (utf8Encode name).length ≠ name.length) (t : Nat)
    (data : Bytes) :
    ∃ w, Literal.content ⟨0x62, name, .datetime t, .octets data⟩ = .ok w ∧
      ∀ l, Literal.parse w = .ok l → l.data ≠ .octets data := by
  have hle : name.length ≤ (utf8Encode name).length := by
    clear hn hl
    induction name with
    | nil => simp
    | cons c cs ih =>
      have := (utf8Char_length c).1
      simp only [utf8Encode, List.flatMap_cons, List.length_append, List.length_cons] at ih ⊢
      omega
  refine ⟨0x62 :: UInt8.ofNat name.length :: (utf8Encode name ++ intTo4byte t ++ data), ?_, ?_⟩
  · simp [Literal.content, byteOf_lt (show name.length < 256 by omega), LitTime.timestamp, LitData.encode]
  · intro l h
    unfold Literal.parse at h
    have hnn : (UInt8.ofNat name.length).toNat = name.length := toNat_ofNat_lt (by omega)
    have i0 : idx (0x62 :: UInt8.ofNat name.length :: (utf8Encode name ++ intTo4byte t ++ data)) 0 = .ok 0x62 := rfl
    have i1 : idx (0x62 :: UInt8.ofNat name.length :: (utf8Encode name ++ intTo4byte t ++ data)) 1 = .ok (UInt8.ofNat name.length) := rfl
    rw [i0, i1] at h
    simp only [except_bind_ok, hnn] at h
    obtain ⟨t', _, h⟩ := except_bind_eq_ok.mp h
    simp only [litDecode] at h
    have e1 : (0x62 : UInt8) ≠ 0x74 := by decide
    have e2 : (0x62 : UInt8) ≠ 0x75 := by decide
    rw [if_neg e1, if_neg e2] at h
    simp only [except_bind_ok, except_pure, Except.ok.injEq] at h
    intro hd
    rw [← h] at hd
    simp only [LitData.octets.injEq] at hd
    have := congrArg List.length hd
    simp only [List.length_drop, List.length_cons, List.length_append, intTo4byte_length] at this
    omega

example : (utf8Encode ['é']).length ≠ ['é'].length := by decide

/-- C54: a file name of more than 255 characters, or an unknown format letter, raises ValueError. -/
theorem C54_rejects (l : Literal) (h : 255 < l.filename.length ∨ ¬ (l.dataFormat ∈ ([0x6c, 0x31, 0x62, 0x74, 0x75] : Bytes))) :
    l.content = .error .valueError := by
  unfold Literal.content
  by_cases hf : l.dataFormat ∈ ([0x6c, 0x31, 0x62, 0x74, 0x75] : Bytes)
  · have hl : 255 < l.filename.length := h.resolve_right (fun h => h hf)
    rw [if_neg (not_not.mpr hf)]
    have : byteOf l.filename.length = .error .valueError := by simp [byteOf]; omega
    rw [this]; rfl
  · rw [if_pos hf]

example := C54_rejects ⟨0x75, List.replicate 256 'a', .int 0, .text []⟩ (.inl (by rw [List.length_replicate]; decide))

/-! ## C51 -/

/-- A documented image header: version 1, sixteen octets, one octet for the encoding. -/
def ImageOk : AttrSub → Prop
  | .other t => t < 256 ∧ t ≠ 1
  | .image v hl f d => v = 1 ∧ hl = 16 ∧ (∃ n, f = some n ∧ n < 256) ∧ d.length + 17 ≤ 4294967295

private theorem attr_roundtrip (a : AttrSub) (h : ImageOk a) : ∃ e, e ≠ [] ∧ a.toBytes = .ok e ∧
    ∀ {data s : Bytes} {off : Nat}, data.drop off = e ++ s → attrFromData data off = .ok (a, off + e.length) := by
  obtain ⟨c, hc, hl, ht, hparse⟩ : ∃ c, a.content = .ok c ∧ c.length + 1 ≤ 4294967295 ∧ a.type < 256 ∧
      (a.type = 1 → imageParse c = .ok a) ∧ (a.type ≠ 1 → a = .other a.type ∧ c = []) := by
    cases a with
    | other t => exact ⟨[], rfl, by simp, h.1, fun h' => absurd h' h.2, fun _ => ⟨rfl, rfl⟩⟩
    | image v hl f d =>
      obtain ⟨rfl, rfl, ⟨n, rfl, hn⟩, hd⟩ := h
      refine ⟨[16, 0, 1] ++ [UInt8.ofNat n] ++ List.replicate 12 0 ++ d, ?_, ?_, by simp [AttrSub.type], ?_, ?_⟩
      · simp only [AttrSub.content, byteOf_lt (show 1 < 256 by omega), byteOf_lt hn, except_bind_ok, except_pure]
        rfl
      · simp; omega
      · intro _
        have hnn : (UInt8.ofNat n).toNat = n := toNat_ofNat_lt hn
        simp only [imageParse, List.cons_append, List.nil_append, List.replicate]
        simp [idx, hnn, slice]
      · intro h'; simp [AttrSub.type] at h'
  obtain ⟨lb, h1, h2, h3⟩ := newPacketLengthToBytes_definite hl false
  refine ⟨lb ++ [UInt8.ofNat a.type] ++ c, by simp, ?_, ?_⟩
  · simp only [AttrSub.toBytes, hc, h1, byteOf_lt ht, except_bind_ok, except_pure]
  · intro data s off hd
    have hd' : data.drop off = lb ++ (UInt8.ofNat a.type :: (c ++ s)) := by rw [hd]; simp
    have d1 := drop_add_of_drop hd'
    have d2 := drop_succ_of_drop d1
    have hs : slice data (off + lb.length + 1) (off + lb.length + 1 + (c.length + 1) - 1) = c := by
      have := slice_append_of_drop d2
      rw [show off + lb.length + 1 + (c.length + 1) - 1 = off + lb.length + 1 + c.length by omega]
      exact this
    simp only [attrFromData, newPacketLength_definite hd' h2, except_bind_ok, Bool.false_eq_true, if_false, idx_of_drop d1,
      toNat_ofNat_lt ht, hs]
    have hlen : off + lb.length + 1 + (c.length + 1) - 1 = off + (lb ++ [UInt8.ofNat a.type] ++ c).length := by
      simp only [List.length_append, List.length_singleton]; omega
    rw [hlen]
    by_cases h1 : a.type = 1
    · rw [if_pos h1, hparse.1 h1]; rfl
    · rw [if_neg h1, ← (hparse.2 h1).1]; rfl

private theorem attrs_roundtrip : ∀ (as : List AttrSub), (∀ a ∈ as, ImageOk a) → ∃ es, as.mapM AttrSub.toBytes = .ok es ∧
    as.length ≤ es.flatten.length ∧
    ∀ {data : Bytes} {off fuel : Nat}, data.drop off = es.flatten → as.length ≤ fuel → attrsLoop data fuel off = .ok as := by
  intro as
  induction as with
  | nil =>
    intro _
    refine ⟨[], rfl, by simp, ?_⟩
    intro data off fuel hd _
    have : ¬ off < data.length := by
      simp only [List.flatten_nil, List.drop_eq_nil_iff] at hd; omega
    cases fuel <;> simp [attrsLoop, this]
  | cons a as ih =>
    intro h
    obtain ⟨es, h1, h2, h3⟩ := ih (fun b hb => h b (by simp [hb]))
    obtain ⟨e, hne, he, hr⟩ := attr_roundtrip a (h a (by simp))
    refine ⟨e :: es, by simp [he, h1], ?_, ?_⟩
    · have := List.length_pos_iff.mpr hne
      simp only [List.flatten_cons, List.length_append, List.length_cons]; omega
    · intro data off fuel hd hf
      obtain ⟨k, rfl⟩ : ∃ k, fuel = k + 1 := ⟨fuel - 1, by simp at hf; omega⟩
      rw [List.flatten_cons] at hd
      have hlt : off < data.length := by
        have := congrArg List.length hd
        have := List.length_pos_iff.mpr hne
        simp only [List.length_drop, List.length_append] at *; omega
      simp only [attrsLoop, hlt, if_true, hr hd, except_bind_ok, h3 (drop_add_of_drop hd) (by simpa using hf), except_pure]

/-- C51: any list of images with the documented header (version 1, 16 octets) and any format and data, mixed with contentless
subpackets of other types, survives serialisation. -/
theorem C51_attributes_roundtrip (as : List AttrSub) (h : ∀ a ∈ as, ImageOk a) :
    ∃ w, attrsContent as = .ok w ∧ attrsParse w = .ok as := by
  obtain ⟨es, h1, h2, h3⟩ := attrs_roundtrip as h
  refine ⟨es.flatten, by simp [attrsContent, h1], ?_⟩
  exact h3 (by simp) h2

example : ∀ a ∈ [AttrSub.image 1 16 (some 1) [0xff, 0xd8], .other 100, .image 1 16 (some 1) []], ImageOk a := by
  intro a ha
  simp only [List.mem_cons, List.not_mem_nil, or_false] at ha
  rcases ha with rfl | rfl | rfl
  · exact ⟨rfl, rfl, ⟨1, rfl, by decide⟩, by decide⟩
  · exact ⟨by decide, by decide⟩
  · exact ⟨rfl, rfl, ⟨1, rfl, by decide⟩, by decide⟩

/-- C51: what is accepted as an image has exactly the documented header: 16, 0, 1, the format, then zeros up to octet 16; its data
is what follows. -/
theorem C51_image_header (d : Bytes) (a : AttrSub) (h : imageParse d = .ok a) :
    ∃ f : UInt8, d.take 4 = [16, 0, 1, f] ∧ (∀ x ∈ (d.drop 4).take 12, x = 0) ∧ a = .image 1 16 (some f.toNat) (d.drop 16) := by
  unfold imageParse at h
  obtain ⟨x0, h0, h⟩ := except_bind_eq_ok.mp h
  obtain ⟨x1, h1, h⟩ := except_bind_eq_ok.mp h
  obtain ⟨x2, h2, h⟩ := except_bind_eq_ok.mp h
  split at h
  · next hv =>
    split at h
    · cases h
    · next hlen =>
      obtain ⟨x3, h3, h⟩ := except_bind_eq_ok.mp h
      split at h
      · cases h
      · next hz =>
        cases h
        match d with
        | [] => simp [idx] at h0
        | [_] => simp [idx] at h1
        | [_, _] => simp [idx] at h2
        | [_, _, _] => simp [idx] at h3
        | y0 :: y1 :: y2 :: y3 :: rest =>
          simp only [idx, List.drop_zero, List.drop_succ_cons, Except.ok.injEq] at h0 h1 h2 h3
          subst h0 h1 h2 h3
          have hl : y0.toNat + (y1.toNat <<< 8) = 16 := by simpa using hlen
          rw [Nat.shiftLeft_eq] at hl
          have hy1 : y1.toNat = 0 := by omega
          have hy0 : y0.toNat = 16 := by omega
          have e0 : y0 = 16 := UInt8.toNat_inj.mp (by rw [hy0]; rfl)
          have e1 : y1 = 0 := UInt8.toNat_inj.mp (by rw [hy1]; rfl)
          have e2 : y2 = 1 := UInt8.toNat_inj.mp (by rw [hv]; rfl)
          subst e0 e1 e2
          refine ⟨y3, by simp, ?_, by simp⟩
          intro x hx
          by_contra hne
          apply hz
          rw [List.any_eq_true]
          exact ⟨x, by simpa [slice] using hx, by simpa using hne⟩
  · cases h

example := C51_image_header ([16, 0, 1, 1] ++ List.replicate 12 0 ++ [0xff, 0xd8]) _ rfl

/-- C51 refuted (other subpackets): the content of a subpacket of any other type is dropped; serialising what was parsed gives
different octets. -/
theorem C51_other_content_dropped_refuted (t : UInt8) (ht : t ≠ 1) (d : Bytes) (hd : d ≠ []) (hl : d.length < 191) :
    ∃ w, attrsParse (UInt8.ofNat (d.length + 1) :: t :: d) = .ok [.other t.toNat] ∧ attrsContent [.other t.toNat] = .ok w ∧
      w ≠ UInt8.ofNat (d.length + 1) :: t :: d := by
  have htn : t.toNat ≠ 1 := fun h => ht (UInt8.toNat_inj.mp (by rw [h]; rfl))
  have hlt : t.toNat < 256 := t.toNat_lt
  refine ⟨[1, t], ?_, ?_, ?_⟩
  · have hnn : (UInt8.ofNat (d.length + 1)).toNat = d.length + 1 := toNat_ofNat_lt (by omega)
    have h1 : newPacketLength (UInt8.ofNat (d.length + 1) :: t :: d) 0 = .ok (1, d.length + 1, false) := by
      simp only [newPacketLength, idx, List.drop_zero, except_bind_ok, hnn, show d.length + 1 < 192 by omega, if_true]
      rfl
    have h2 : attrFromData (UInt8.ofNat (d.length + 1) :: t :: d) 0 = .ok (.other t.toNat, 1 + 1 + (d.length + 1) - 1) := by
      simp only [attrFromData, h1, except_bind_ok, Bool.false_eq_true, if_false]
      simp [idx, htn]
    unfold attrsParse
    simp only [List.length_cons, attrsLoop, Nat.zero_lt_succ, if_true, h2, except_bind_ok]
    rw [if_neg (by omega)]
    rfl
  · simp only [attrsContent, List.mapM_cons, List.mapM_nil, AttrSub.toBytes, AttrSub.content, AttrSub.type, except_bind_ok,
      List.length_nil, Nat.zero_add, byteOf_lt hlt]
    simp [newPacketLengthToBytes, byteOf, except_bind_ok]
  · intro h
    have := congrArg List.length h
    simp only [List.length_cons, List.length_nil] at this
    have h3 : d.length = 0 := by omega
    exact hd (List.length_eq_zero_iff.mp h3)

example := C51_other_content_dropped_refuted 100 (by decide) [1, 2, 3] (by decide) (by decide)

/-- C51: reading attributes terminates on every input. -/
theorem C51_terminates (data : Bytes) : attrsParse data ≠ .error .diverges := by
  have himg : ∀ d, imageParse d ≠ .error .diverges := by
    intro d h
    have hidx : ∀ {n e}, idx d n = .error e → e = .indexError := fun h => idx_error h
    unfold imageParse at h
    cases h0 : idx d 0 with
    | error e => rw [h0] at h; cases h; exact absurd (hidx h0) (by simp)
    | ok a =>
      cases h1 : idx d 1 with
      | error e => rw [h0, h1] at h; cases h; exact absurd (hidx h1) (by simp)
      | ok b =>
        cases h2 : idx d 2 with
        | error e => rw [h0, h1, h2] at h; cases h; exact absurd (hidx h2) (by simp)
        | ok c =>
          rw [h0, h1, h2] at h
          simp only [except_bind_ok] at h
          split at h
          · split at h
            · cases h
            · cases h3 : idx d 3 with
              | error e => rw [h3] at h; cases h; exact absurd (hidx h3) (by simp)
              | ok f =>
                rw [h3] at h
                simp only [except_bind_ok] at h
                split at h <;> cases h
          · cases h
  have hstep : ∀ off, attrFromData data off ≠ .error .diverges ∧ ∀ a o, attrFromData data off = .ok (a, o) → off < o := by
    intro off
    unfold attrFromData
    cases hn : newPacketLength data off with
    | error e =>
      refine ⟨?_, fun a o h => by cases h⟩
      intro h
      have := newPacketLength_error hn
      cases h; cases this
    | ok y =>
      obtain ⟨o', n, part⟩ := y
      have hb := newPacketLength_bounds hn
      simp only [except_bind_ok]
      cases part with
      | true => exact ⟨by simp, fun a o h => by simp at h⟩
      | false =>
        simp only [Bool.false_eq_true, if_false]
        cases ht : idx data o' with
        | error e =>
          refine ⟨?_, fun a o h => by cases h⟩
          intro h
          have := idx_error ht
          cases h; cases this
        | ok t =>
          simp only [except_bind_ok]
          split
          · cases hi : imageParse (slice data (o' + 1) (o' + 1 + n - 1)) with
            | error e =>
              refine ⟨?_, fun a o h => by cases h⟩
              intro h
              cases h
              exact himg _ hi
            | ok a =>
              refine ⟨by simp, fun a o h => ?_⟩
              cases h; omega
          · refine ⟨by simp, fun a o h => ?_⟩
            cases h; omega
  have hloop : ∀ fuel off, data.length - off ≤ fuel → attrsLoop data fuel off ≠ .error .diverges := by
    intro fuel
    induction fuel with
    | zero =>
      intro off h
      have : ¬ off < data.length := by omega
      simp [attrsLoop, this]
    | succ k ih =>
      intro off h
      unfold attrsLoop
      split
      · next hlt =>
        cases ha : attrFromData data off with
        | error e =>
          intro he
          cases he
          exact (hstep off).1 ha
        | ok y =>
          obtain ⟨a, o⟩ := y
          have := (hstep off).2 a o ha
          simp only [except_bind_ok]
          have h2 := ih o (by omega)
          cases hr : attrsLoop data k o with
          | error e => intro he; cases he; exact h2 hr
          | ok r => simp
      · simp
  exact hloop _ _ (by omega)

/-! ## C64 -/

/-- C64: compressed data, integrity protected data, user ids, comments, MDCs, control packets and trust packets written by the
library read back as they were. -/
theorem C64_small_packets_roundtrip (c : Compressed) (hc : c.algorithm < 256) (e : Seipd) (he : e.version < 256) (s : List Char)
    (m : Bytes) (hm : m.length = 20) (g : GpgControl) (hg : g.marker.length = 8 ∧ g.control < 256) (t : Trust)
    (ht : t.value < 256 ∧ ∀ n, t.sigCache = some n → t.value = 0 ∧ n < 128) :
    (∃ w, c.content = .ok w ∧ Compressed.parse w = .ok c) ∧ (∃ w, e.content = .ok w ∧ Seipd.parse w = .ok e) ∧
    userIdParse (userIdContent s) = s ∧ commentParse (commentContent s) = .ok s ∧ mdcParse (mdcContent m) = .ok m ∧
    (∃ w, g.content = .ok w ∧ GpgControl.parse w = .ok g) ∧ (∃ w, t.content = .ok w ∧ Trust.parse w = .ok t) := by
  refine ⟨⟨UInt8.ofNat c.algorithm :: c.data, ?_, ?_⟩, ⟨UInt8.ofNat e.version :: e.data, ?_, ?_⟩, utf8DecodeReplace_encode s,
    utf8DecodeStrict_encode s, ?_, ⟨g.marker ++ [UInt8.ofNat g.control] ++ g.data, ?_, ?_⟩, ?_⟩
  · simp [Compressed.content, byteOf_lt hc]
  · simp [Compressed.parse, idx, Nat.mod_eq_of_lt hc]
  · simp [Seipd.content, byteOf_lt he]
  · simp [Seipd.parse, idx, Nat.mod_eq_of_lt he]
  · simp [mdcParse, mdcContent, hm]
  · simp [GpgControl.content, byteOf_lt hg.2]
  · have d8 : (g.marker ++ [UInt8.ofNat g.control] ++ g.data).drop 8 = UInt8.ofNat g.control :: g.data := by
      rw [← hg.1]; simp
    have t8 : (g.marker ++ [UInt8.ofNat g.control] ++ g.data).take 8 = g.marker := by
      rw [← hg.1]; simp
    have d9 := drop_succ_of_drop d8
    simp only [GpgControl.parse, idx_of_drop d8, except_bind_ok, t8, toNat_ofNat_lt hg.2, except_pure]
    rw [show (8 : Nat) + 1 = 9 by rfl] at d9
    rw [d9]
  · obtain ⟨v, sc⟩ := t
    obtain ⟨hv, hs⟩ := ht
    cases sc with
    | none =>
      refine ⟨[UInt8.ofNat v], by simp [Trust.content, byteOf_lt hv], ?_⟩
      simp only at hv
      simp [Trust.parse, idx, Nat.mod_eq_of_lt hv]
    | some n =>
      obtain ⟨h1, h2⟩ := hs n rfl
      simp only at h1
      subst h1
      have h3 : ∀ n : Fin 128, n.val &&& 0x80 = 0 := by decide
      have h4 := h3 ⟨n, h2⟩
      refine ⟨[0, UInt8.ofNat n], by simp [Trust.content, byteOf_lt (show n < 256 by omega), byteOf_lt (show 0 < 256 by omega)], ?_⟩
      simp [Trust.parse, idx, Nat.mod_eq_of_lt (show n < 256 by omega), h4]

example : (Trust.mk 0 (some 3)).value < 256 ∧ ∀ n, (Trust.mk 0 (some 3)).sigCache = some n → (Trust.mk 0 (some 3)).value = 0 ∧ n < 128 := by
  refine ⟨by decide, fun n h => ?_⟩
  cases h; decide

/-- C64 refuted (user ids that are not UTF-8): the octets of a user id that is not valid UTF-8 are not recovered, and such ids with
different octets become the same id. -/
theorem C64_user_id_not_utf8_refuted (w : Bytes) (h : none ∈ utf8Units w) :
    userIdContent (userIdParse w) ≠ w ∧ ∃ w', w' ≠ w ∧ userIdParse w' = userIdParse w := by
  have hne : userIdContent (userIdParse w) ≠ w := by
    intro he
    have h1 := congrArg utf8Units he
    unfold userIdContent at h1
    rw [utf8Units_encode] at h1
    rw [← h1] at h
    simp at h
  exact ⟨hne, _, hne, utf8DecodeReplace_encode _⟩

example : none ∈ utf8Units [0x41, 0xff] := by simp [utf8Units, utf8Lead]

/-- C64 refuted (trust packets): the octets after the first are lost unless there are exactly two and the first is 0. -/
theorem C64_trust_octets_refuted (v : UInt8) (rest : Bytes) (h : rest ≠ []) (hv : v ≠ 0 ∨ rest.length ≠ 1) :
    ∃ t, Trust.parse (v :: rest) = .ok t ∧ t.content ≠ .ok (v :: rest) := by
  refine ⟨⟨v.toNat, none⟩, ?_, ?_⟩
  · have : ¬ (v.toNat = 0 ∧ (v :: rest).length = 2) := by
      rintro ⟨h1, h2⟩
      rcases hv with h3 | h3
      · exact h3 (UInt8.toNat_inj.mp (by rw [h1]; rfl))
      · simp at h2; exact h3 (by omega)
    unfold Trust.parse
    simp only [idx, List.drop_zero, except_bind_ok]
    rw [if_neg this]
    rfl
  · have hvl : v.toNat < 256 := v.toNat_lt
    simp only [Trust.content, byteOf_lt hvl, except_bind_ok, except_pure, ne_eq, Except.ok.injEq, List.cons.injEq, not_and]
    intro _ h2
    exact h h2.symm

example := C64_trust_octets_refuted 0 [1, 2] (by decide) (.inr (by decide))

end Pgp.Props
