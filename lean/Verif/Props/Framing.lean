import Verif.Lemmas.Framing
/-
Property theorems C09–C14: packet framing.
-/
namespace Pgp.Props
open Spec

/-! ## C09 -/

/-- C09 (partial): every packet with a type the header can hold and 1..2^32-1 content octets (new format) or fewer
than 2^24 (old format), written anywhere in a buffer, parses back to the same header format, type and content, with
the offset exactly at its end.  Missing: new-format packets with *empty* content, for which the property is false
(`C09_new_empty_content_refuted`), and old-format packets of at least 2^24 octets, which parse back only at the end
of the data (`C09_old_large`). -/
theorem C09_frame_roundtrip_partial (p : RawPacket) (h : Expressible p) :
    ∃ e, (∀ fuel, 1 ≤ fuel → Packet.toBytes fuel p = .ok e) ∧ ∀ pre suf : Bytes,
      packetFromData (pre ++ e ++ suf) pre.length = .ok ((pre ++ e).length, p) := by
  obtain ⟨e, _, h1, h2⟩ := frame_roundtrip h 0
  refine ⟨e, ?_, fun pre suf => ?_⟩
  · intro fuel hf
    obtain ⟨k, rfl⟩ : ∃ k, fuel = k + 1 := ⟨fuel - 1, by omega⟩
    obtain ⟨e', _, h1', h2'⟩ := frame_roundtrip h k
    rw [h1']
    rcases h with ⟨hf, ht, hl1, hl2⟩ | ⟨hf, ht, hl⟩
    · have hne : p.content ≠ [] := by intro hc; rw [hc] at hl1; simp at hl1
      have hlen : p.content.length ≠ 0 := by simpa using hne
      rw [← h1, ← h1']
      unfold Packet.toBytes
      rw [hf]
      obtain ⟨eb, hb1, _, _⟩ := newPacketLengthToBytes_definite hl2 (decide (p.type ∈ DATA_TYPES))
      simp only [byteOf_lt (show 0x80 + (0x40 + p.type) < 256 by omega), except_bind_ok]
      unfold serializeLoop
      simp only [hlen, if_false, hb1, except_bind_ok]
      cases k <;> simp [serializeLoop]
    · rw [← h1, ← h1']
      unfold Packet.toBytes
      rw [hf]
  · rw [h2 (s := suf) (by simp), List.length_append]

example : Expressible ⟨.new, 11, [1, 2, 3]⟩ ∧ Expressible ⟨.old, 13, []⟩ := by
  constructor
  · exact Or.inl ⟨rfl, by decide, by decide, by decide⟩
  · exact Or.inr ⟨rfl, by decide, by decide⟩

/-- C09: an old-format packet of at least 2^24 octets parses back if and only if it is the last thing in the data:
whatever follows it is swallowed into its content. -/
theorem C09_old_large (p : RawPacket) (hf : p.fmt = .old) (ht : p.type < 16) (hl : 2 ^ 24 ≤ p.content.length) :
    ∃ e, (∀ fuel, Packet.toBytes fuel p = .ok e) ∧ ∀ pre suf : Bytes,
      packetFromData (pre ++ e ++ suf) pre.length =
        .ok ((pre ++ e ++ suf).length, { p with content := p.content ++ suf }) := by
  have h1 : ¬ p.content.length < 256 := by omega
  have h2 : ¬ p.content.length < 65536 := by omega
  have h3 : ¬ p.content.length < 16777216 := by omega
  have hs : p.type <<< 2 = p.type * 4 := Nat.shiftLeft_eq _ 2
  refine ⟨UInt8.ofNat (0x80 + (p.type <<< 2) + 3) :: p.content, fun fuel => ?_, fun pre suf => ?_⟩
  · unfold Packet.toBytes
    simp only [hf, oldPacketLengthToBytes, h1, h2, h3, if_false,
      byteOf_lt (show 0x80 + (p.type <<< 2) + 3 < 256 by omega), except_bind_ok]
    rfl
  · set tag := UInt8.ofNat (0x80 + (p.type <<< 2) + 3) with htag
    have hn : tag.toNat = 0x80 + (p.type <<< 2) + 3 := toNat_ofNat_lt (by omega)
    have hd : (pre ++ tag :: p.content ++ suf).drop pre.length = tag :: (p.content ++ suf) := by simp
    have hlen := length_of_drop hd (by simp)
    have hdd := drop_succ_of_drop hd
    unfold packetFromData
    rw [frameLoop_succ, show tagStep _ none pre.length = _ from readTag_old ht (by omega) hd]
    have hm : tag.toNat % 4 = 3 := by rw [hn]; omega
    have ho : oldPacketLength (pre ++ tag :: p.content ++ suf) pre.length =
        .ok (pre.length + 1, (p.content ++ suf).length) := by
      unfold oldPacketLength
      rw [idx_of_drop hd]
      simp only [except_bind_ok, and3, hm]
      simp only [OfNat.ofNat_ne_zero, OfNat.ofNat_ne_one, Nat.reduceEqDiff, if_false, except_pure]
      congr 2
      rw [hlen]; simp only [List.length_cons]; omega
    simp only [except_bind_ok, ho, List.nil_append]
    rw [slice_of_drop (a := p.content ++ suf) (s := []) (by simp) rfl, hlen]
    cases p
    simp_all; omega

example := C09_old_large ⟨.old, 11, List.replicate (2 ^ 24) 0⟩ rfl (by decide) (by simp only [List.length_replicate]; omega)

/-- C09 refuted for empty content: a new-format packet with no content serialises to its tag octet alone, and no
parse of that octet, whatever follows, ever gives the packet back ending where it ended. Alone, it raises
IndexError. -/
theorem C09_new_empty_content_refuted (t : Nat) (ht : t < 64) :
    ∃ e, (∀ fuel, Packet.toBytes fuel ⟨.new, t, []⟩ = .ok e) ∧
      packetFromData e 0 = .error .indexError ∧
      ∀ suf p, packetFromData (e ++ suf) 0 ≠ .ok (e.length, p) := by
  refine ⟨[UInt8.ofNat (0x80 + (0x40 + t))], fun fuel => ?_, ?_, ?_⟩
  · unfold Packet.toBytes
    simp only [byteOf_lt (show 0x80 + (0x40 + t) < 256 by omega), except_bind_ok]
    cases fuel <;> simp [serializeLoop]
  · unfold packetFromData
    rw [frameLoop_succ, show tagStep _ none 0 = _ from readTag_new ht (s := []) rfl]
    rfl
  · intro suf p h
    unfold packetFromData at h
    have htag : tagStep ([UInt8.ofNat (0x80 + (0x40 + t))] ++ suf) none 0 = .ok (t, .new, 0 + 1) :=
      readTag_new ht (s := suf) rfl
    rw [frameLoop_succ, htag] at h
    simp only [except_bind_ok] at h
    cases hn : newPacketLength ([UInt8.ofNat (0x80 + (0x40 + t))] ++ suf) (0 + 1) with
    | error e => rw [hn] at h; cases h
    | ok y =>
      obtain ⟨o', n, inc⟩ := y
      have hb := newPacketLength_bounds hn
      rw [hn] at h
      simp only [except_bind_ok] at h
      split at h
      · have := (frameLoop_ok h).1
        simp at this; omega
      · simp only [Except.ok.injEq, Prod.mk.injEq, List.length_singleton] at h
        omega

example := C09_new_empty_content_refuted 13 (by decide)

/-- C09: a type that does not fit the header raises ValueError. -/
theorem C09_type_too_large (fuel : Nat) (p : RawPacket)
    (h : p.fmt = .new ∧ 64 ≤ p.type ∨ p.fmt = .old ∧ 32 ≤ p.type) :
    Packet.toBytes fuel p = .error .valueError := by
  rcases h with ⟨hf, ht⟩ | ⟨hf, ht⟩
  · unfold Packet.toBytes; rw [hf]
    simp [byteOf_ge (show 256 ≤ 0x80 + (0x40 + p.type) by omega)]
  · unfold Packet.toBytes; rw [hf]
    have hs : p.type <<< 2 = p.type * 4 := Nat.shiftLeft_eq _ 2
    simp [byteOf_ge (show 256 ≤ 0x80 + (p.type <<< 2) + (oldPacketLengthToBytes p.content.length).1 by omega)]

example := C09_type_too_large 5 ⟨.old, 40, [1]⟩ (.inr ⟨rfl, by decide⟩)

/-- C09 refuted for old-format packets with a type in 16..31: the tag overflows into the new-format bit, and the
packet (here with fewer than 192 content octets) parses back as a *new-format* packet of another type. -/
theorem C09_old_type_16_31_refuted (fuel : Nat) (p : RawPacket) (hf : p.fmt = .old) (h1 : 16 ≤ p.type)
    (h2 : p.type < 32) (hl : p.content.length < 192) :
    ∃ e, Packet.toBytes fuel p = .ok e ∧
      packetFromData e 0 = .ok (e.length, ⟨.new, (p.type - 16) * 4, p.content⟩) := by
  have hs : p.type <<< 2 = p.type * 4 := Nat.shiftLeft_eq _ 2
  have hb : p.content.length < 256 := by omega
  refine ⟨UInt8.ofNat (0x80 + (0x40 + (p.type - 16) * 4)) :: UInt8.ofNat p.content.length :: p.content, ?_, ?_⟩
  · unfold Packet.toBytes
    have ht : 0x80 + (p.type <<< 2) + 0 = 0x80 + (0x40 + (p.type - 16) * 4) := by omega
    simp only [hf, oldPacketLengthToBytes, hb, if_true, ht,
      byteOf_lt (show 0x80 + (0x40 + (p.type - 16) * 4) < 256 by omega), except_bind_ok, extendInts, List.mapM_cons,
      List.mapM_nil, byteOf_lt hb, except_pure]
    rfl
  · have hn := toNat_ofNat_lt hb
    have he : NewDefinite [UInt8.ofNat p.content.length] p.content.length := by
      have := NewDefinite.one (UInt8.ofNat p.content.length) (by omega)
      rwa [hn] at this
    unfold packetFromData
    have htag : tagStep (UInt8.ofNat (0x80 + (0x40 + (p.type - 16) * 4)) :: UInt8.ofNat p.content.length :: p.content)
        none 0 = .ok ((p.type - 16) * 4, .new, 0 + 1) := readTag_new (by omega) rfl
    rw [frameLoop_new_definite (s := []) (c := p.content) htag he (by simp)]
    simp; omega

example : Packet.toBytes 1 ⟨.old, 17, [1, 2, 3]⟩ = .ok [0xc4, 3, 1, 2, 3] ∧
    packetFromData [0xc4, 3, 1, 2, 3] 0 = .ok (5, ⟨.new, 4, [1, 2, 3]⟩) := by decide

/-! ## C10 -/

/-- C10: the concatenation of any list of serialised (expressible) packets parses back to the same list. -/
theorem C10_parse_concat_partial (ps : List RawPacket) (h : ∀ p ∈ ps, Expressible p) :
    ∃ es, ps.mapM (Packet.toBytes 1) = .ok es ∧ parseBinaryPacketData es.flatten = .ok ps := by
  obtain ⟨es, h1, h2, h3⟩ := parseLoop_roundtrip h
  exact ⟨es, h1, h3 (by simp) h2⟩

example : ∀ p ∈ ([⟨.new, 11, [1, 2, 3]⟩, ⟨.old, 13, []⟩, ⟨.new, 63, [9]⟩] : List RawPacket), Expressible p := by
  intro p hp
  simp only [List.mem_cons, List.not_mem_nil, or_false] at hp
  rcases hp with rfl | rfl | rfl
  · exact Or.inl ⟨rfl, by decide, by decide, by decide⟩
  · exact Or.inr ⟨rfl, by decide, by decide⟩
  · exact Or.inl ⟨rfl, by decide, by decide, by decide⟩

/-- C10 refuted when one of the packets is new-format with empty content: here an empty user id before a trust
packet changes both. -/
theorem C10_empty_content_refuted :
    (do let a ← Packet.toBytes 1 ⟨.new, 13, []⟩
        let b ← Packet.toBytes 1 ⟨.new, 12, [5, 6]⟩
        parseBinaryPacketData (a ++ b)) ≠ .ok [⟨.new, 13, []⟩, ⟨.new, 12, [5, 6]⟩] := by decide

/-! ## C11 -/

/-- C11: neither the single-packet parser nor the whole-buffer parser ever runs forever: their fuel (one more than,
respectively equal to, the number of octets) is never exhausted; the only exception of the framing layer is
IndexError. -/
theorem C11_parser_terminates (data : Bytes) (off : Nat) :
    packetFromData data off ≠ .error .diverges ∧ parseBinaryPacketData data ≠ .error .diverges ∧
      ∀ e, packetFromData data off = .error e → e = .indexError :=
  ⟨frameLoop_fuel _ _ _ _ _ (by omega), parseLoop_fuel _ _ _ (by omega),
    fun _ h => frameLoop_error (by omega) h⟩

/-- C11: every parsed packet consumes at least one octet, and its content is made of octets of the consumed stretch,
in order. -/
theorem C11_packet_progress (data : Bytes) (off off' : Nat) (p : RawPacket)
    (h : packetFromData data off = .ok (off', p)) :
    off < off' ∧ off < data.length ∧ List.Sublist p.content (slice data off off') := by
  obtain ⟨h1, h2, c, h3, h4⟩ := frameLoop_ok h
  rw [List.nil_append] at h3
  exact ⟨h1, h2, h3 ▸ h4⟩

example := C11_packet_progress [0xcb, 2, 5, 6, 7] 0 4 ⟨.new, 11, [5, 6]⟩ (by decide)

/-- C11: the contents of all parsed packets, in order, are a subsequence of the input octets, and there are at most
as many packets as octets. -/
theorem C11_no_invention (data : Bytes) (ps : List RawPacket) (h : parseBinaryPacketData data = .ok ps) :
    List.Sublist (ps.map RawPacket.content).flatten data ∧ ps.length ≤ data.length := by
  have := parseLoop_sublist h
  simpa using this

example : parseBinaryPacketData [0xcb, 3, 1, 2, 3, 0xb4, 0] = .ok [⟨.new, 11, [1, 2, 3]⟩, ⟨.old, 13, []⟩] := by decide

/-! ## C12 -/

/-- C12 (in-memory parser): a packet of non-zero type sent as any number of partial chunks and a final chunk, anywhere
in the data, is parsed into the concatenated body, ending right after the final chunk. -/
theorem C12_chunks_reassembled_partial (t : Nat) (ht0 : t ≠ 0) (ht : t < 64) (cs : List Chunk) (e final : Bytes)
    (he : NewDefinite e final.length) (pre suf : Bytes) :
    packetFromData (pre ++ partialWire t cs e final ++ suf) pre.length =
      .ok ((pre ++ partialWire t cs e final).length, ⟨.new, t, partialBody cs final⟩) := by
  set data := pre ++ partialWire t cs e final ++ suf with hdata
  have hd : data.drop pre.length =
      UInt8.ofNat (0x80 + (0x40 + t)) :: ((cs.map Chunk.wire).flatten ++ (e ++ (final ++ suf))) := by
    rw [hdata]
    have : 192 + t = 0x80 + (0x40 + t) := by omega
    simp [partialWire, this]
  have htag : tagStep data none pre.length = _ := readTag_new ht hd
  have hd2 := drop_succ_of_drop hd
  have hlen := length_of_drop hd (by simp)
  have hcs : cs.length ≤ (cs.map Chunk.wire).flatten.length := by
    clear hd hd2 hlen htag hdata
    induction cs with
    | nil => simp
    | cons c cs ih =>
      simp only [List.map_cons, List.flatten_cons, List.length_append, List.length_cons, Chunk.wire]; omega
  unfold packetFromData
  cases cs with
  | nil =>
    simp only [List.map_nil, List.flatten_nil, List.nil_append] at hd2
    rw [frameLoop_new_definite htag he hd2]
    simp [partialBody, partialWire]; omega
  | cons c cs =>
    simp only [List.map_cons, List.flatten_cons, List.append_assoc] at hd2
    rw [frameLoop_chunk c htag hd2, frameLoop_chunks ht0 cs he (drop_add_of_drop hd2)
      (by simp only [List.length_cons, List.length_append] at hcs hlen; omega)]
    simp [partialBody, partialWire, Nat.add_assoc]; omega

example : ∃ cs : List Chunk, ∃ e : Bytes, cs.length = 2 ∧ NewDefinite e [9].length ∧
    partialWire 11 cs e [9] = [0xcb, 0xe0, 7, 0xe1, 5, 6, 1, 9] ∧ partialBody cs [9] = [7, 5, 6, 9] :=
  ⟨[⟨0, [7], by decide, rfl⟩, ⟨1, [5, 6], by decide, rfl⟩], [1], rfl, .one 1 (by decide), rfl, rfl⟩

/-- C12 refuted for the stream parser: after a partial chunk it reads the next *length* octet as a tag, so unless that
octet happens to have the packet's type in its low six bits the parse raises ValueError. -/
theorem C12_stream_partial_refuted (t : Nat) (ht : t < 64) (c : Chunk) (x : UInt8) (rest : Bytes)
    (hx : x.toNat % 64 ≠ t) :
    packetFromStream (UInt8.ofNat (192 + t) :: (c.wire ++ x :: rest)) = .error .valueError := by
  have hk := c.hk
  have hn : (UInt8.ofNat (224 + c.k)).toNat = 224 + c.k := toNat_ofNat_lt (by omega)
  have hnt : (UInt8.ofNat (192 + t)).toNat = 192 + t := toNat_ofNat_lt (by omega)
  have hb : (192 + t) &&& 64 ≠ 0 := by
    have : ∀ t : Fin 64, (192 + t.val) &&& 64 ≠ 0 := by decide
    exact this ⟨t, ht⟩
  have htag : (192 + t) % 64 = t := by omega
  have hlen : newPacketLengthFromStream (c.wire ++ x :: rest) = .ok (2 ^ c.k, true, c.body ++ x :: rest) := by
    unfold newPacketLengthFromStream
    have h1 : ¬ (224 + c.k) < 192 := by omega
    have h2 : ¬ (224 + c.k) < 224 := by omega
    have h3 : ¬ (224 + c.k) = 255 := by omega
    have h4 : (224 + c.k) % 32 = c.k := by omega
    simp only [Chunk.wire, List.cons_append, readOrd, except_bind_ok, hn, h1, h2, h3, if_false, except_pure, and31, h4,
      Nat.shiftLeft_eq, Nat.one_mul]
  unfold packetFromStream
  rw [List.length_cons]
  unfold streamLoop
  simp only [readOrd, except_bind_ok, hnt, hb, hlen, and63, htag, Bool.false_eq_true, if_false, ne_eq,
    not_false_eq_true, if_true]
  have hdrop : (c.body ++ x :: rest).drop (2 ^ c.k) = x :: rest := by rw [← c.hlen]; simp
  rw [hdrop]
  generalize hL : (c.wire ++ x :: rest).length = L
  cases L with
  | zero => simp [Chunk.wire] at hL
  | succ L =>
    unfold streamLoop
    simp [readOrd, and63, hx]

example : (1 : UInt8).toNat % 64 ≠ 11 := by decide

/-! ## C13 -/

/-- C13: for a packet with a new-format definite length or an old-format definite length type, reading from a file and
reading from memory agree: same frame, same octets consumed; one raises iff the other does. -/
theorem C13_stream_memory_agree (b : UInt8) (rest : Bytes)
    (hdef : (b.toNat &&& 0x40 ≠ 0 ∧ ∀ o n, newPacketLength (b :: rest) 1 ≠ .ok (o, n, true)) ∨
            (b.toNat &&& 0x40 = 0 ∧ b.toNat % 4 ≠ 3)) (p : RawPacket) (tl : Bytes) :
    packetFromStream (b :: rest) = .ok (p, tl) ↔
      ∃ off, packetFromData (b :: rest) 0 = .ok (off, p) ∧ tl = (b :: rest).drop off := by
  have hidx : idx (b :: rest) 0 = .ok b := rfl
  unfold packetFromStream packetFromData
  rw [frameLoop_succ]
  simp only [List.length_cons]
  unfold streamLoop
  simp only [readOrd, except_bind_ok, Bool.false_eq_true, if_false]
  rcases hdef with ⟨hb, hnp⟩ | ⟨hb, hm⟩
  · have htag : tagStep (b :: rest) none 0 = .ok (b.toNat &&& 0x3f, .new, 0 + 1) := by
      simp [tagStep, readTag, hidx, hb]
    rw [htag]
    simp only [hb, ne_eq, not_false_eq_true, if_true, except_bind_ok]
    constructor
    · intro h
      cases hs : newPacketLengthFromStream rest with
      | error e => rw [hs] at h; cases h
      | ok y =>
        obtain ⟨n, inc, fh2⟩ := y
        rw [hs] at h
        simp only [except_bind_ok] at h
        obtain ⟨o', hn, hr⟩ := (C08_stream_aux (b :: rest) 1 n inc fh2).mp hs
        cases inc with
        | true => exact absurd hn (hnp o' n)
        | false =>
          simp only [Bool.false_eq_true, if_false, Except.ok.injEq, Prod.mk.injEq] at h
          obtain ⟨rfl, rfl⟩ := h
          refine ⟨o' + n, ?_, ?_⟩
          · rw [hn]
            simp only [except_bind_ok, Bool.false_eq_true, if_false, List.nil_append, slice,
              Nat.add_sub_cancel_left, hr]
          · rw [hr, List.drop_drop]
    · rintro ⟨off, h, rfl⟩
      cases hn : newPacketLength (b :: rest) (0 + 1) with
      | error e => rw [hn] at h; cases h
      | ok y =>
        obtain ⟨o', n, inc⟩ := y
        rw [hn] at h
        simp only [except_bind_ok] at h
        have hs := (C08_stream_aux (b :: rest) 1 n inc _).mpr ⟨o', hn, rfl⟩
        cases inc with
        | true => exact absurd hn (hnp o' n)
        | false =>
          simp only [Bool.false_eq_true, if_false, Except.ok.injEq, Prod.mk.injEq] at h
          obtain ⟨rfl, rfl⟩ := h
          have hs' : newPacketLengthFromStream rest = _ := hs
          rw [hs']
          simp only [except_bind_ok, Bool.false_eq_true, if_false, List.nil_append, slice,
              Nat.add_sub_cancel_left, List.drop_drop]
  · have htag : tagStep (b :: rest) none 0 = .ok ((b.toNat &&& 0x3f) >>> 2, .old, 0) := by
      simp [tagStep, readTag, hidx, hb]
    rw [htag]
    simp only [hb, ne_eq, not_true_eq_false, if_false, except_bind_ok, List.nil_append]
    constructor
    · intro h
      cases hs : oldPacketLengthFromStream (b :: rest) with
      | error e => rw [hs] at h; cases h
      | ok y =>
        obtain ⟨n, fh2⟩ := y
        rw [hs] at h
        simp only [except_bind_ok, Except.ok.injEq, Prod.mk.injEq] at h
        obtain ⟨rfl, rfl⟩ := h
        obtain ⟨o', hn, hr⟩ := ((C08_old_stream_aux (b :: rest) 0 n fh2 rest b rfl).1 hm).mp hs
        refine ⟨o' + n, ?_, by rw [hr, List.drop_drop]⟩
        rw [hn]
        simp only [except_bind_ok, slice, Nat.add_sub_cancel_left, hr]
    · rintro ⟨off, h, rfl⟩
      cases hn : oldPacketLength (b :: rest) 0 with
      | error e => rw [hn] at h; cases h
      | ok y =>
        obtain ⟨o', n⟩ := y
        rw [hn] at h
        simp only [except_bind_ok, Except.ok.injEq, Prod.mk.injEq] at h
        obtain ⟨rfl, rfl⟩ := h
        have hs := ((C08_old_stream_aux (b :: rest) 0 n _ rest b rfl).1 hm).mpr ⟨o', hn, rfl⟩
        have hs' : oldPacketLengthFromStream (b :: rest) = _ := hs
        rw [hs']
        simp only [except_bind_ok, slice, Nat.add_sub_cancel_left, List.drop_drop]

example : (0xcb : UInt8).toNat &&& 0x40 ≠ 0 ∧ packetFromStream [0xcb, 2, 5, 6, 7] = .ok (⟨.new, 11, [5, 6]⟩, [7]) ∧
    (0x99 : UInt8).toNat % 4 ≠ 3 := by decide

/-! ## C14 -/

/-- C14 refuted: a packet of a data-bearing type (8, 9, 11, 18) in new format with more than 2^32-1 octets of content
is never serialised: the loop exceeds every iteration bound. -/
theorem C14_large_data_packet_never_serialises (p : RawPacket) (hf : p.fmt = .new) (ht : p.type ∈ [8, 9, 11, 18])
    (hl : 2 ^ 32 - 1 < p.content.length) (fuel : Nat) : Packet.toBytes fuel p = .error .diverges := by
  have hlt : p.type < 64 := by
    simp only [List.mem_cons, List.not_mem_nil, or_false] at ht; omega
  have hd : decide (p.type ∈ DATA_TYPES) = true := by simpa [DATA_TYPES] using ht
  have h1 : ¬ p.content.length < 192 := by omega
  have h2 : ¬ p.content.length < 8384 := by omega
  have h3 : ¬ p.content.length ≤ MAX_PACKET_LENGTH := by unfold MAX_PACKET_LENGTH; omega
  have hb : byteOf (0xe0 + 0x1e) = .ok 0xfe := rfl
  have hw : newPacketLengthToBytes p.content.length true = .ok ([0xfe], p.content.length - 2 ^ 30) := by
    simp only [newPacketLengthToBytes, h1, h2, h3, if_false, if_true, hb, except_bind_ok]
    rfl
  have loop : ∀ fuel rem off res, rem ≠ 0 → serializeLoop p.content true fuel rem off res = .error .diverges := by
    intro fuel
    induction fuel with
    | zero => intro rem off res h; simp [serializeLoop, h]
    | succ fuel ih =>
      intro rem off res h
      unfold serializeLoop
      simp only [h, if_false, hw, except_bind_ok]
      exact ih _ _ _ (by omega)
  unfold Packet.toBytes
  simp only [hf, byteOf_lt (show 0x80 + (0x40 + p.type) < 256 by omega), except_bind_ok, hd]
  exact loop _ _ _ _ (by omega)

example (fuel : Nat) := C14_large_data_packet_never_serialises ⟨.new, 11, List.replicate (2 ^ 32) 0⟩ rfl (by decide)
  (by simp only [List.length_replicate]; omega) fuel

/-- C14 (partial): in every other case one iteration suffices: the result does not depend on the fuel and is either
octets or ValueError.  Missing: the diverging case above. -/
theorem C14_serialise_terminates_partial (p : RawPacket)
    (h : p.fmt = .old ∨ p.type ∉ [8, 9, 11, 18] ∨ p.content.length ≤ 2 ^ 32 - 1) (fuel : Nat) (hf : 1 ≤ fuel) :
    Packet.toBytes fuel p = Packet.toBytes 1 p ∧
      ((∃ e, Packet.toBytes 1 p = .ok e) ∨ Packet.toBytes 1 p = .error .valueError) := by
  obtain ⟨k, rfl⟩ : ∃ k, fuel = k + 1 := ⟨fuel - 1, by omega⟩
  cases hfmt : p.fmt with
  | old =>
    unfold Packet.toBytes
    simp only [hfmt, true_and]
    cases hb : byteOf (0x80 + (p.type <<< 2) + (oldPacketLengthToBytes p.content.length).1) with
    | error e =>
      unfold byteOf at hb; split at hb <;> cases hb
      right; rfl
    | ok tag =>
      left
      have : ∃ e, extendInts (oldPacketLengthToBytes p.content.length).2 = .ok e := by
        by_cases hl : p.content.length < 16777216
        · obtain ⟨t, l, e, h1, h2, _⟩ := old_length_key hl
          exact ⟨e, by rw [h1]; exact h2⟩
        · have h1 : ¬ p.content.length < 256 := by omega
          have h2 : ¬ p.content.length < 65536 := by omega
          exact ⟨[], by simp [oldPacketLengthToBytes, h1, h2, hl, extendInts]⟩
      obtain ⟨e, he⟩ := this
      simp [he]
  | new =>
    unfold Packet.toBytes
    simp only [hfmt]
    cases hb : byteOf (0x80 + (0x40 + p.type)) with
    | error e =>
      unfold byteOf at hb; split at hb <;> cases hb
      exact ⟨rfl, Or.inr rfl⟩
    | ok tag =>
      simp only [except_bind_ok]
      by_cases h0 : p.content.length = 0
      · simp [serializeLoop, h0]
      · by_cases hl : p.content.length ≤ 4294967295
        · obtain ⟨e, h1, _⟩ := newPacketLengthToBytes_definite hl (decide (p.type ∈ DATA_TYPES))
          unfold serializeLoop
          simp only [h0, if_false, h1, except_bind_ok]
          cases k <;> simp [serializeLoop]
        · have hnd : decide (p.type ∈ DATA_TYPES) = false := by
            rcases h with h | h | h
            · rw [hfmt] at h; cases h
            · simpa [DATA_TYPES] using h
            · omega
          have h1 : ¬ p.content.length < 192 := by omega
          have h2 : ¬ p.content.length < 8384 := by omega
          have h3 : ¬ p.content.length ≤ MAX_PACKET_LENGTH := hl
          have hw : newPacketLengthToBytes p.content.length false = .error .valueError := by
            simp [newPacketLengthToBytes, h1, h2, h3]
          unfold serializeLoop
          simp [h0, hnd, hw]

/-- Non-vacuity of the diverging case: such a content exists (its length is what matters). -/
example : ∃ p : RawPacket, p.fmt = .new ∧ p.type ∈ [8, 9, 11, 18] ∧ 2 ^ 32 - 1 < p.content.length :=
  ⟨⟨.new, 11, List.replicate (2 ^ 32) 0⟩, rfl, by simp, by simp only [List.length_replicate]; omega⟩

end Pgp.Props
