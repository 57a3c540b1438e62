import Verif.Spec.Framing
import Verif.Lemmas.Lengths
namespace Pgp
open Spec

theorem slice_append_of_drop {α} {data a s : List α} {off : Nat} (h : data.drop off = a ++ s) :
    slice data off (off + a.length) = a := slice_of_drop h rfl

theorem frameLoop_succ (data : Bytes) (fuel : Nat) (st : Option (Nat × HeaderFormat)) (offset : Nat) (acc : Bytes) :
    frameLoop data (fuel + 1) st offset acc =
      (tagStep data st offset >>= fun (tag, fmt, offset) =>
        match fmt with
        | .new =>
          newPacketLength data offset >>= fun (offset, n, inc) =>
            if inc then frameLoop data fuel (some (tag, .new)) (offset + n) (acc ++ slice data offset (offset + n))
            else .ok (offset + n, ⟨.new, tag, acc ++ slice data offset (offset + n)⟩)
        | .old =>
          oldPacketLength data offset >>= fun (offset, n) =>
            .ok (offset + n, ⟨.old, tag, acc ++ slice data offset (offset + n)⟩)) := by
  conv => lhs; unfold frameLoop
  cases tagStep data st offset with
  | error e => rfl
  | ok x =>
    obtain ⟨t, f, o⟩ := x
    simp only [except_bind_ok]
    cases f <;> rfl

/-- A definite new-format frame at the current offset, with tag and header already known. -/
theorem frameLoop_new_definite {data e c s : Bytes} {off fuel t : Nat} {acc : Bytes} {st : Option (Nat × HeaderFormat)}
    {off0 : Nat}
    (hst : tagStep data st off0 = .ok (t, .new, off))
    (he : NewDefinite e c.length) (hd : data.drop off = e ++ (c ++ s)) :
    frameLoop data (fuel + 1) st off0 acc =
      .ok (off + e.length + c.length, ⟨.new, t, acc ++ c⟩) := by
  have h1 := newPacketLength_definite hd he
  have h2 := slice_append_of_drop (drop_add_of_drop hd)
  rw [frameLoop_succ, hst]
  simp [h1, h2]

theorem readTag_new {data s : Bytes} {off t : Nat} (ht : t < 64)
    (hd : data.drop off = UInt8.ofNat (0x80 + (0x40 + t)) :: s) :
    readTag data off = .ok (t, .new, off + 1) := by
  have hn : (UInt8.ofNat (0x80 + (0x40 + t))).toNat = 0x80 + (0x40 + t) := toNat_ofNat_lt (by omega)
  unfold readTag
  rw [idx_of_drop hd]
  simp only [except_bind_ok, hn, and63]
  have h1 : (0x80 + (0x40 + t)) &&& 64 ≠ 0 := by
    have : ∀ t : Fin 64, (0x80 + (0x40 + t.val)) &&& 64 ≠ 0 := by decide
    exact this ⟨t, ht⟩
  simp only [h1, if_true, ne_eq, not_false_eq_true, except_pure]
  congr 2; omega

theorem readTag_old {data s : Bytes} {off t lt : Nat} (ht : t < 16) (hlt : lt < 4)
    (hd : data.drop off = UInt8.ofNat (0x80 + (t <<< 2) + lt) :: s) :
    readTag data off = .ok (t, .old, off) := by
  have hs : t <<< 2 = t * 4 := Nat.shiftLeft_eq t 2
  have hn : (UInt8.ofNat (0x80 + (t <<< 2) + lt)).toNat = 0x80 + (t <<< 2) + lt := toNat_ofNat_lt (by omega)
  unfold readTag
  rw [idx_of_drop hd]
  simp only [except_bind_ok, hn]
  have key : ∀ t : Fin 16, ∀ lt : Fin 4, (0x80 + (t.val <<< 2) + lt.val) &&& 64 = 0 ∧
      ((0x80 + (t.val <<< 2) + lt.val) &&& 63) >>> 2 = t.val := by decide
  obtain ⟨h1, h2⟩ := key ⟨t, ht⟩ ⟨lt, hlt⟩
  simp only at h1 h2
  simp only [h1, h2, ne_eq, not_true_eq_false, if_false, except_pure]

theorem serialize_new {p : RawPacket} (hf : p.fmt = .new) (ht : p.type < 64) (hne : p.content ≠ [])
    (hl : p.content.length ≤ 4294967295) (fuel : Nat) :
    ∃ e, NewDefinite e p.content.length ∧
      Packet.toBytes (fuel + 1) p = .ok (UInt8.ofNat (0x80 + (0x40 + p.type)) :: (e ++ p.content)) := by
  obtain ⟨e, h1, h2, _⟩ := newPacketLengthToBytes_definite hl (decide (p.type ∈ DATA_TYPES))
  refine ⟨e, h2, ?_⟩
  have hlen : p.content.length ≠ 0 := by simpa using hne
  unfold Packet.toBytes
  rw [hf]
  simp only [byteOf_lt (show 0x80 + (0x40 + p.type) < 256 by omega), except_bind_ok]
  unfold serializeLoop
  simp only [hlen, if_false, h1, except_bind_ok]
  have hs : slice p.content 0 (p.content.length - 0) = p.content := by simp [slice]
  rw [hs]
  cases fuel <;> simp [serializeLoop]

theorem old_length_key {n : Nat} (h : n < 16777216) :
    ∃ t l e, oldPacketLengthToBytes n = (t, l) ∧ extendInts l = .ok e ∧ t < 3 ∧ e.length = l.length ∧
      OldDefinite t e n := by
  unfold oldPacketLengthToBytes
  by_cases h1 : n < 256
  · refine ⟨0, [n], [UInt8.ofNat n], by simp [h1], by simp [extendInts, byteOf_lt h1], by omega, rfl, ?_⟩
    have := OldDefinite.one [UInt8.ofNat n] rfl
    rwa [beNat_singleton, toNat_ofNat_lt h1] at this
  · by_cases h2 : n < 65536
    · have ha : n >>> 8 < 256 := by rw [shr8]; omega
      have hb : n &&& 255 < 256 := by rw [and255]; omega
      refine ⟨1, [n >>> 8, n &&& 255], intTo2byte n, by simp [h1, h2], ?_, by omega, rfl, ?_⟩
      · simp only [extendInts, List.mapM_cons, List.mapM_nil, byteOf_lt ha, byteOf_lt hb, except_bind_ok,
          except_pure, intTo2byte, octet, lowByte]
        rw [Nat.mod_eq_of_lt ha, and255]; rfl
      · have h5 := OldDefinite.two (intTo2byte n) rfl
        have hv : beNat (intTo2byte n) = n := by
          rw [intTo2byte_eq, beNat_beBytes, Nat.mod_eq_of_lt (by omega)]
        rwa [hv] at h5
    · have ha : n >>> 24 < 256 := by rw [Nat.shiftRight_eq_div_pow]; omega
      have hb : (n >>> 16) &&& 255 < 256 := by rw [and255]; omega
      have hc : (n >>> 8) &&& 255 < 256 := by rw [and255]; omega
      have hd : n &&& 255 < 256 := by rw [and255]; omega
      have h3 : n < 16777216 := h
      refine ⟨2, [n >>> 24, (n >>> 16) &&& 255, (n >>> 8) &&& 255, n &&& 255], intTo4byte n,
        by simp only [h1, h2, h3, if_false, if_true], ?_, by omega, rfl, ?_⟩
      · simp only [extendInts, List.mapM_cons, List.mapM_nil, byteOf_lt ha, byteOf_lt hb, byteOf_lt hc,
          byteOf_lt hd, except_bind_ok, except_pure, intTo4byte, octet, lowByte]
        rw [Nat.mod_eq_of_lt ha, and255, and255, and255]; rfl
      · have h5 := OldDefinite.four (intTo4byte n) rfl
        have hv : beNat (intTo4byte n) = n := by
          rw [intTo4byte_eq, beNat_beBytes, Nat.mod_eq_of_lt (by omega)]
        rwa [hv] at h5

theorem serialize_old {p : RawPacket} (hf : p.fmt = .old) (ht : p.type < 16) (hl : p.content.length < 16777216)
    (fuel : Nat) :
    ∃ lt e, lt < 3 ∧ OldDefinite lt e p.content.length ∧
      Packet.toBytes fuel p = .ok (UInt8.ofNat (0x80 + (p.type <<< 2) + lt) :: (e ++ p.content)) := by
  obtain ⟨lt, l, e, h1, h2, h3, _, h5⟩ := old_length_key hl
  refine ⟨lt, e, h3, h5, ?_⟩
  have hs : p.type <<< 2 = p.type * 4 := Nat.shiftLeft_eq _ 2
  unfold Packet.toBytes
  simp only [hf, h1, byteOf_lt (show 0x80 + (p.type <<< 2) + lt < 256 by omega), except_bind_ok, h2]
  simp

theorem frameLoop_old_definite {data e c s : Bytes} {off fuel t lt : Nat} (ht : t < 16) (hlt : lt < 3)
    (he : OldDefinite lt e c.length)
    (hd : data.drop off = UInt8.ofNat (0x80 + (t <<< 2) + lt) :: (e ++ (c ++ s))) :
    frameLoop data (fuel + 1) none off [] = .ok (off + 1 + e.length + c.length, ⟨.old, t, c⟩) := by
  have hs : t <<< 2 = t * 4 := Nat.shiftLeft_eq t 2
  have hn : (UInt8.ofNat (0x80 + (t <<< 2) + lt)).toNat = 0x80 + (t <<< 2) + lt := toNat_ofNat_lt (by omega)
  have hm : (UInt8.ofNat (0x80 + (t <<< 2) + lt)).toNat % 4 = lt := by rw [hn]; omega
  have h1 := oldPacketLength_definite hd (by rw [hm]; exact he)
  have h2 := slice_append_of_drop (drop_add_of_drop (drop_succ_of_drop hd))
  rw [frameLoop_succ, show tagStep data none off = _ from readTag_old ht (by omega) hd]
  simp [h1, h2]

theorem frame_roundtrip {p : RawPacket} (h : Expressible p) (fuel : Nat) :
    ∃ e, e ≠ [] ∧ Packet.toBytes (fuel + 1) p = .ok e ∧
      ∀ {data s : Bytes} {off : Nat}, data.drop off = e ++ s → packetFromData data off = .ok (off + e.length, p) := by
  rcases h with ⟨hf, ht, hl1, hl2⟩ | ⟨hf, ht, hl⟩
  · obtain ⟨e, he, hs⟩ := serialize_new hf ht (by intro hc; rw [hc] at hl1; simp at hl1) hl2 fuel
    refine ⟨_, by simp, hs, ?_⟩
    intro data s off hd
    have hd' : data.drop off = UInt8.ofNat (0x80 + (0x40 + p.type)) :: (e ++ (p.content ++ s)) := by
      rw [hd]; simp
    have := frameLoop_new_definite (st := none) (off0 := off) (fuel := data.length) (acc := [])
      (readTag_new ht hd') he (drop_succ_of_drop hd')
    unfold packetFromData
    rw [this]
    cases p; simp_all; omega
  · obtain ⟨lt, e, hlt, he, hs⟩ := serialize_old hf ht hl (fuel + 1)
    refine ⟨_, by simp, hs, ?_⟩
    intro data s off hd
    have hd' : data.drop off = UInt8.ofNat (0x80 + (p.type <<< 2) + lt) :: (e ++ (p.content ++ s)) := by
      rw [hd]; simp
    unfold packetFromData
    rw [frameLoop_old_definite ht hlt he hd']
    cases p; simp_all; omega

theorem readTag_off {data : Bytes} {off off' t : Nat} {f : HeaderFormat} (h : readTag data off = .ok (t, f, off')) :
    (f = .new ∧ off' = off + 1 ∨ f = .old ∧ off' = off) ∧ off < data.length := by
  unfold readTag at h
  cases hi : idx data off with
  | error e => rw [hi] at h; cases h
  | ok x =>
    rw [hi] at h
    obtain ⟨s, hs⟩ := idx_ok hi
    have := length_of_drop hs (by simp)
    simp only [List.length_cons] at this
    simp only [except_bind_ok] at h
    split at h
    · cases h; exact ⟨Or.inl ⟨rfl, rfl⟩, by omega⟩
    · cases h; exact ⟨Or.inr ⟨rfl, rfl⟩, by omega⟩

theorem newPacketLength_bounds {data : Bytes} {off off' n : Nat} {p : Bool}
    (h : newPacketLength data off = .ok (off', n, p)) : off + 1 ≤ off' ∧ off' ≤ data.length := by
  obtain ⟨e, s, hd, ho, hk⟩ := newPacketLength_ok h
  have hlen := congrArg List.length hd
  simp only [List.length_drop, List.length_append] at hlen
  have hle : 1 ≤ e.length := by
    rcases hk with ⟨_, hk⟩ | ⟨_, hk⟩ <;> cases hk <;> simp
  omega

theorem oldPacketLength_bounds {data : Bytes} {off off' n : Nat}
    (h : oldPacketLength data off = .ok (off', n)) : off + 1 ≤ off' ∧ off' ≤ data.length := by
  unfold oldPacketLength at h
  cases hx : idx data off with
  | error e => rw [hx] at h; cases h
  | ok x =>
    obtain ⟨s, hs⟩ := idx_ok hx
    have hlen := length_of_drop hs (by simp)
    simp only [List.length_cons] at hlen
    rw [hx] at h
    simp only [except_bind_ok] at h
    split at h
    · simp only [except_bind_eq_ok] at h
      obtain ⟨y, hy, he⟩ := h
      obtain ⟨s', hs'⟩ := idx_ok hy
      have := length_of_drop hs' (by simp)
      simp only [List.length_cons] at this
      cases he; omega
    · split at h
      · simp only [except_bind_eq_ok] at h
        obtain ⟨y, hy, he⟩ := h
        have := (bytesToInt_ok hy).1
        cases he; omega
      · split at h
        · simp only [except_bind_eq_ok] at h
          obtain ⟨y, hy, he⟩ := h
          have := (bytesToInt_ok hy).1
          cases he; omega
        · cases h; omega

theorem idx_error {data : Bytes} {off : Nat} {e : PyErr} (h : idx data off = .error e) : e = .indexError := by
  unfold idx at h; split at h <;> cases h; rfl

theorem bytesToInt_error {data : Bytes} {off n : Nat} {e : PyErr} (h : bytesToInt data off n = .error e) :
    e = .indexError := by
  rw [bytesToInt_eq] at h; split at h <;> cases h; rfl

theorem newPacketLength_error {data : Bytes} {off : Nat} {e : PyErr} (h : newPacketLength data off = .error e) :
    e = .indexError := by
  unfold newPacketLength longToInt at h
  cases hi : idx data off with
  | error e' => rw [hi] at h; cases h; exact idx_error hi
  | ok x =>
    rw [hi] at h
    simp only [except_bind_ok] at h
    split at h
    · cases h
    · split at h
      · cases hi2 : idx data (off + 1) with
        | error e' => rw [hi2] at h; cases h; exact idx_error hi2
        | ok y => rw [hi2] at h; cases h
      · split at h
        · cases hi2 : bytesToInt data (off + 1) 4 with
          | error e' => rw [hi2] at h; cases h; exact bytesToInt_error hi2
          | ok y => rw [hi2] at h; cases h
        · cases h

theorem oldPacketLength_error {data : Bytes} {off : Nat} {e : PyErr} (h : oldPacketLength data off = .error e) :
    e = .indexError := by
  unfold oldPacketLength longToInt shortToInt at h
  cases hi : idx data off with
  | error e' => rw [hi] at h; cases h; exact idx_error hi
  | ok x =>
    rw [hi] at h
    simp only [except_bind_ok] at h
    split at h
    · cases hi2 : idx data (off + 1) with
      | error e' => rw [hi2] at h; cases h; exact idx_error hi2
      | ok y => rw [hi2] at h; cases h
    · split at h
      · cases hi2 : bytesToInt data (off + 1) 2 with
        | error e' => rw [hi2] at h; cases h; exact bytesToInt_error hi2
        | ok y => rw [hi2] at h; cases h
      · split at h
        · cases hi2 : bytesToInt data (off + 1) 4 with
          | error e' => rw [hi2] at h; cases h; exact bytesToInt_error hi2
          | ok y => rw [hi2] at h; cases h
        · cases h

theorem readTag_error {data : Bytes} {off : Nat} {e : PyErr} (h : readTag data off = .error e) :
    e = .indexError := by
  unfold readTag at h
  cases hi : idx data off with
  | error e' => rw [hi] at h; cases h; exact idx_error hi
  | ok x => rw [hi] at h; simp only [except_bind_ok] at h; split at h <;> cases h

theorem tagStep_ok {data : Bytes} {st : Option (Nat × HeaderFormat)} {off off' t : Nat} {f : HeaderFormat}
    (h : tagStep data st off = .ok (t, f, off')) : off ≤ off' := by
  unfold tagStep at h
  split at h
  · split at h
    · cases h; exact Nat.le_refl _
    · have := (readTag_off h).1; omega
  · have := (readTag_off h).1; omega

theorem tagStep_error {data : Bytes} {st : Option (Nat × HeaderFormat)} {off : Nat} {e : PyErr}
    (h : tagStep data st off = .error e) : e = .indexError := by
  unfold tagStep at h
  split at h
  · split at h
    · cases h
    · exact readTag_error h
  · exact readTag_error h

theorem frameLoop_fuel (data : Bytes) (fuel : Nat) (st : Option (Nat × HeaderFormat)) (off : Nat) (acc : Bytes)
    (h : data.length - off < fuel) : frameLoop data fuel st off acc ≠ .error .diverges := by
  induction fuel generalizing st off acc with
  | zero => omega
  | succ fuel ih =>
    rw [frameLoop_succ]
    cases ht : tagStep data st off with
    | error e => have := tagStep_error ht; subst this; simp
    | ok x =>
      obtain ⟨t, f, o⟩ := x
      have hle := tagStep_ok ht
      simp only [except_bind_ok]
      cases f with
      | new =>
        simp only
        cases hn : newPacketLength data o with
        | error e => have := newPacketLength_error hn; subst this; simp
        | ok y =>
          obtain ⟨o', n, inc⟩ := y
          have hb := newPacketLength_bounds hn
          simp only [except_bind_ok]
          split
          · exact ih _ _ _ (by omega)
          · simp
      | old =>
        simp only
        cases hn : oldPacketLength data o with
        | error e => have := oldPacketLength_error hn; subst this; simp
        | ok y => simp

/-- Errors of the frame reader are IndexErrors. -/
theorem frameLoop_error {data : Bytes} {fuel : Nat} {st : Option (Nat × HeaderFormat)} {off : Nat} {acc : Bytes}
    {e : PyErr} (h : data.length - off < fuel) (he : frameLoop data fuel st off acc = .error e) : e = .indexError := by
  induction fuel generalizing st off acc with
  | zero => omega
  | succ fuel ih =>
    rw [frameLoop_succ] at he
    cases ht : tagStep data st off with
    | error e' => rw [ht] at he; cases he; exact tagStep_error ht
    | ok x =>
      obtain ⟨t, f, o⟩ := x
      have hle := tagStep_ok ht
      rw [ht] at he
      simp only [except_bind_ok] at he
      cases f with
      | new =>
        simp only at he
        cases hn : newPacketLength data o with
        | error e' => rw [hn] at he; cases he; exact newPacketLength_error hn
        | ok y =>
          obtain ⟨o', n, inc⟩ := y
          have hb := newPacketLength_bounds hn
          rw [hn] at he
          simp only [except_bind_ok] at he
          split at he
          · exact ih (by omega) he
          · cases he
      | old =>
        simp only at he
        cases hn : oldPacketLength data o with
        | error e' => rw [hn] at he; cases he; exact oldPacketLength_error hn
        | ok y => rw [hn] at he; cases he

theorem slice_sublist_extend {α} (data : List α) {a b c d : Nat} (h1 : a ≤ b) (h3 : c ≤ d) :
    List.Sublist (slice data b c) (slice data a d) := by
  unfold slice
  have e : data.drop b = (data.drop a).drop (b - a) := by rw [List.drop_drop]; congr 1; omega
  rw [e]
  by_cases hc : b ≤ c
  · have : (List.drop (b - a) (List.drop a data)).take (c - b) =
        ((data.drop a).take (c - a)).drop (b - a) := by
      rw [List.drop_take]; congr 1; omega
    rw [this]
    refine (List.drop_sublist _ _).trans ?_
    have : (data.drop a).take (c - a) = ((data.drop a).take (d - a)).take (c - a) := by
      rw [List.take_take]; congr 1; omega
    rw [this]; exact List.take_sublist _ _
  · have : c - b = 0 := by omega
    rw [this]; simp

theorem slice_append_slice {α} (data : List α) {a b c : Nat} (h1 : a ≤ b) (h2 : b ≤ c) :
    slice data a b ++ slice data b c = slice data a c := by
  unfold slice
  have e : data.drop b = (data.drop a).drop (b - a) := by rw [List.drop_drop]; congr 1; omega
  rw [e]
  generalize data.drop a = l
  have : c - a = (b - a) + (c - b) := by omega
  rw [this, List.take_add]

/-- What a successful frame read consumed and where its content comes from. -/
theorem frameLoop_ok {data : Bytes} {fuel : Nat} {st : Option (Nat × HeaderFormat)} {off : Nat} {acc : Bytes}
    {off' : Nat} {p : RawPacket} (h : frameLoop data fuel st off acc = .ok (off', p)) :
    off < off' ∧ off < data.length ∧ ∃ c, p.content = acc ++ c ∧ List.Sublist c (slice data off off') := by
  induction fuel generalizing st off acc with
  | zero => simp [frameLoop] at h
  | succ fuel ih =>
    rw [frameLoop_succ] at h
    cases ht : tagStep data st off with
    | error e' => rw [ht] at h; cases h
    | ok x =>
      obtain ⟨t, f, o⟩ := x
      have hle := tagStep_ok ht
      rw [ht] at h
      simp only [except_bind_ok] at h
      cases f with
      | new =>
        simp only at h
        cases hn : newPacketLength data o with
        | error e' => rw [hn] at h; cases h
        | ok y =>
          obtain ⟨o', n, inc⟩ := y
          have hb := newPacketLength_bounds hn
          rw [hn] at h
          simp only [except_bind_ok] at h
          split at h
          · obtain ⟨i1, _, c, hc, hs⟩ := ih h
            refine ⟨by omega, by omega, slice data o' (o' + n) ++ c, by rw [hc, List.append_assoc], ?_⟩
            have hsplit := slice_append_slice data (a := off) (b := o' + n) (c := off') (by omega) (by omega)
            rw [← hsplit]
            exact List.Sublist.append (slice_sublist_extend data (by omega) (by omega)) hs
          · simp only [Except.ok.injEq, Prod.mk.injEq] at h
            obtain ⟨rfl, rfl⟩ := h
            exact ⟨by omega, by omega, _, rfl, slice_sublist_extend data (by omega) (by omega)⟩
      | old =>
        simp only at h
        cases hn : oldPacketLength data o with
        | error e' => rw [hn] at h; cases h
        | ok y =>
          obtain ⟨o', n⟩ := y
          have hb := oldPacketLength_bounds hn
          rw [hn] at h
          simp only [except_bind_ok, Except.ok.injEq, Prod.mk.injEq] at h
          obtain ⟨rfl, rfl⟩ := h
          exact ⟨by omega, by omega, _, rfl, slice_sublist_extend data (by omega) (by omega)⟩


theorem parseLoop_fuel (data : Bytes) (fuel off : Nat) (h : data.length - off ≤ fuel) :
    parseLoop data fuel off ≠ .error .diverges := by
  induction fuel generalizing off with
  | zero =>
    have : ¬ off < data.length := by omega
    simp [parseLoop, this]
  | succ fuel ih =>
    unfold parseLoop
    split
    · cases hp : packetFromData data off with
      | error e =>
        have := frameLoop_error (by omega) hp
        subst this; simp
      | ok x =>
        obtain ⟨off', p⟩ := x
        have := (frameLoop_ok hp).1
        have hh := ih off' (by omega)
        simp only [except_bind_ok]
        cases hl : parseLoop data fuel off' with
        | ok r => simp
        | error e => simp only [except_bind_error]; intro hc; cases hc; exact hh hl
    · simp

theorem parseLoop_sublist {data : Bytes} {fuel off : Nat} {ps : List RawPacket}
    (h : parseLoop data fuel off = .ok ps) :
    List.Sublist (ps.map RawPacket.content).flatten (data.drop off) ∧ ps.length ≤ data.length - off := by
  induction fuel generalizing off ps with
  | zero =>
    unfold parseLoop at h
    split at h
    · cases h
    · cases h; simp
  | succ fuel ih =>
    unfold parseLoop at h
    split at h
    · rename_i hlt
      simp only [except_bind_eq_ok] at h
      obtain ⟨⟨off', p⟩, hp, r, hr, he⟩ := h
      cases he
      obtain ⟨h1, h2, c, hc, hs⟩ := frameLoop_ok hp
      obtain ⟨h3, h4⟩ := ih hr
      constructor
      · simp only [List.map_cons, List.flatten_cons]
        have e : data.drop off = slice data off off' ++ data.drop off' := by
          unfold slice
          have : data.drop off' = (data.drop off).drop (off' - off) := by rw [List.drop_drop]; congr 1; omega
          rw [this, List.take_append_drop]
        rw [e]
        refine List.Sublist.append ?_ h3
        rw [hc]; exact hs
      · simp only [List.length_cons]; omega
    · cases h; simp

theorem parseLoop_roundtrip {ps : List RawPacket} (h : ∀ p ∈ ps, Expressible p) :
    ∃ es, ps.mapM (Packet.toBytes 1) = .ok es ∧ ps.length ≤ es.flatten.length ∧
      ∀ {data : Bytes} {off fuel : Nat}, data.drop off = es.flatten → ps.length ≤ fuel →
        parseLoop data fuel off = .ok ps := by
  induction ps with
  | nil =>
    refine ⟨[], rfl, by simp, ?_⟩
    intro data off fuel hd _
    have : ¬ off < data.length := by
      have := congrArg List.length hd; simp at this; omega
    cases fuel <;> simp [parseLoop, this]
  | cons p ps ih =>
    obtain ⟨e, hne, hs, hr⟩ := frame_roundtrip (h p (by simp)) 0
    obtain ⟨es, hes, hl, hrs⟩ := ih (fun q hq => h q (by simp [hq]))
    have hpos : 0 < e.length := List.length_pos_iff.mpr hne
    refine ⟨e :: es, by simp [List.mapM_cons, hs, hes], by simp only [List.length_cons, List.flatten_cons, List.length_append]; omega, ?_⟩
    intro data off fuel hd hf
    cases fuel with
    | zero => simp at hf
    | succ fuel =>
      rw [List.flatten_cons] at hd
      have hlt : off < data.length := by
        have := length_of_drop hd (by intro hc; simp at hc; exact hne hc.1)
        simp only [List.length_append] at this; omega
      simp only [parseLoop, hlt, if_true]
      rw [hr hd]
      simp only [except_bind_ok]
      rw [hrs (drop_add_of_drop hd) (by simp at hf; omega)]
      rfl

/-- One partial chunk. -/
theorem frameLoop_chunk {data s : Bytes} {off0 off fuel t : Nat} {acc : Bytes} {st : Option (Nat × HeaderFormat)}
    (c : Chunk) (hst : tagStep data st off0 = .ok (t, .new, off)) (hd : data.drop off = c.wire ++ s) :
    frameLoop data (fuel + 1) st off0 acc =
      frameLoop data fuel (some (t, .new)) (off + c.wire.length) (acc ++ c.body) := by
  have hk := c.hk
  have hn : (UInt8.ofNat (224 + c.k)).toNat = 224 + c.k := toNat_ofNat_lt (by omega)
  have hp : NewPartial [UInt8.ofNat (224 + c.k)] (2 ^ c.k) := by
    have := NewPartial.mk (UInt8.ofNat (224 + c.k)) (by omega) (by omega)
    rwa [hn, Nat.add_sub_cancel_left] at this
  have hd' : data.drop off = [UInt8.ofNat (224 + c.k)] ++ (c.body ++ s) := by rw [hd]; simp [Chunk.wire]
  have h1 := newPacketLength_partial hd' hp
  have h2 := slice_append_of_drop (drop_add_of_drop hd')
  rw [c.hlen] at h2
  rw [frameLoop_succ, hst]
  simp only [except_bind_ok, h1, h2, if_true]
  congr 1
  simp only [Chunk.wire, List.length_cons, List.length_nil, c.hlen]; omega

theorem frameLoop_chunks {data s : Bytes} {t : Nat} (ht : t ≠ 0) (cs : List Chunk) {e final : Bytes}
    (he : NewDefinite e final.length) {off fuel : Nat} {acc : Bytes}
    (hd : data.drop off = (cs.map Chunk.wire).flatten ++ (e ++ (final ++ s))) (hf : cs.length < fuel) :
    frameLoop data fuel (some (t, .new)) off acc =
      .ok (off + ((cs.map Chunk.wire).flatten ++ (e ++ final)).length, ⟨.new, t, acc ++ partialBody cs final⟩) := by
  induction cs generalizing off fuel acc with
  | nil =>
    cases fuel with
    | zero => omega
    | succ fuel =>
      rw [frameLoop_new_definite (off := off) (t := t) (by simp [tagStep, ht]) he (by simpa using hd)]
      simp [partialBody, Nat.add_assoc]
  | cons c cs ih =>
    cases fuel with
    | zero => omega
    | succ fuel =>
      simp only [List.map_cons, List.flatten_cons, List.append_assoc] at hd
      rw [frameLoop_chunk (t := t) c (by simp [tagStep, ht]) hd, ih (drop_add_of_drop hd) (by simp at hf; omega)]
      simp [partialBody, Nat.add_assoc]

end Pgp
