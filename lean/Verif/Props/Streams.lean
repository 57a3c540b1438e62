import Verif.Spec.Streams
import Verif.Props.Framing
import Verif.Props.KeyFile
import Verif.Lemmas.NoDiv
import Verif.Props.Lengths
/-
C10 and C13 for whole lists of packets as they arrive.
-/
namespace Pgp.Props
open Pgp.Spec

theorem framed_ne {p : RawPacket} {w : Bytes} (h : Framed p w) : w ≠ [] := by cases h <;> simp

theorem framed_memory {p : RawPacket} {w : Bytes} (h : Framed p w) {data s : Bytes} {off : Nat} (hd : data.drop off = w ++ s) :
    packetFromData data off = .ok (off + w.length, p) := by
  cases h with
  | new t c l ht hl =>
    have hd' : data.drop off = UInt8.ofNat (0x80 + (0x40 + t)) :: (l ++ (c ++ s)) := by
      rw [hd]; simp only [List.cons_append, List.append_assoc, List.cons.injEq, and_true]
      congr 1; omega
    have := frameLoop_new_definite (st := none) (off0 := off) (fuel := data.length) (acc := []) (readTag_new ht hd') hl (drop_succ_of_drop hd')
    unfold packetFromData
    rw [this]
    simp only [List.length_cons, List.length_append, List.nil_append]
    congr 2; omega
  | old t lt c l ht hl =>
    have hlt : lt < 3 := by rcases oldDefinite_length hl with h | h | h <;> omega
    have hd' : data.drop off = UInt8.ofNat (0x80 + (t <<< 2) + lt) :: (l ++ (c ++ s)) := by
      rw [hd]; simp only [List.cons_append, List.append_assoc, List.cons.injEq, and_true]
      rw [Nat.shiftLeft_eq]; congr 1; omega
    have := frameLoop_old_definite (fuel := data.length) ht hlt hl hd'
    unfold packetFromData
    rw [this]
    simp only [List.length_cons, List.length_append]
    congr 2; omega

theorem framed_stream {p : RawPacket} {w : Bytes} (h : Framed p w) (s : Bytes) : packetFromStream (w ++ s) = .ok (p, s) := by
  have hm := framed_memory h (data := w ++ s) (off := 0) (s := s) rfl
  have hd : (w ++ s).drop (0 + w.length) = s := by rw [Nat.zero_add, List.drop_left]
  cases h with
  | new t c l ht hl =>
    have hn : (UInt8.ofNat (192 + t)).toNat = 192 + t := toNat_ofNat_lt (by omega)
    have hb : (192 + t) &&& 0x40 ≠ 0 := by
      have : ∀ t : Fin 64, (192 + t.val) &&& 0x40 ≠ 0 := by decide
      exact this ⟨t, ht⟩
    refine (C13_stream_memory_agree (UInt8.ofNat (192 + t)) (l ++ c ++ s) (.inl ⟨by rw [hn]; exact hb, ?_⟩) _ s).mpr ⟨_, hm, hd.symm⟩
    intro o n hc
    have := newPacketLength_definite (data := UInt8.ofNat (192 + t) :: (l ++ c ++ s)) (off := 1) (e := l) (s := c ++ s) (by simp) hl
    rw [this] at hc
    simp at hc
  | old t lt c l ht hl =>
    have hlt : lt < 3 := by rcases oldDefinite_length hl with h | h | h <;> omega
    have hn : (UInt8.ofNat (128 + 4 * t + lt)).toNat = 128 + 4 * t + lt := toNat_ofNat_lt (by omega)
    have hb : (128 + 4 * t + lt) &&& 0x40 = 0 := by
      have : ∀ (t : Fin 16) (lt : Fin 3), (128 + 4 * t.val + lt.val) &&& 0x40 = 0 := by decide
      exact this ⟨t, ht⟩ ⟨lt, hlt⟩
    exact (C13_stream_memory_agree _ (l ++ c ++ s) (.inr ⟨by rw [hn]; exact hb, by rw [hn]; omega⟩) _ s).mpr ⟨_, hm, hd.symm⟩

theorem framed_lists {ps : List RawPacket} {ws : List Bytes} (h : List.Forall₂ Framed ps ws) : ps.length ≤ ws.flatten.length := by
  induction h with
  | nil => simp
  | cons h _ ih =>
    have := List.length_pos_iff.mpr (framed_ne h)
    simp only [List.length_cons, List.flatten_cons, List.length_append]
    omega

/-- C10: packets as they may arrive, each behind a header with a definite length in any of its encodings, are read from memory as exactly these packets, in order. -/
theorem C10_received_concat (ps : List RawPacket) (ws : List Bytes) (h : List.Forall₂ Framed ps ws) : parseBinaryPacketData ws.flatten = .ok ps := by
  have key : ∀ (data : Bytes) (off fuel : Nat), data.drop off = ws.flatten → ps.length ≤ fuel → parseLoop data fuel off = .ok ps := by
    induction h with
    | nil =>
      intro data off fuel hd _
      have : ¬ off < data.length := by
        have := congrArg List.length hd; simp at this; omega
      cases fuel <;> simp [parseLoop, this]
    | @cons p w ps ws hp _ ih =>
      intro data off fuel hd hf
      obtain ⟨fuel, rfl⟩ : ∃ k, fuel = k + 1 := ⟨fuel - 1, by simp only [List.length_cons] at hf; omega⟩
      rw [List.flatten_cons] at hd
      have hl : off < data.length := by
        have := congrArg List.length hd
        have := List.length_pos_iff.mpr (framed_ne hp)
        simp only [List.length_drop, List.length_append] at *
        omega
      unfold parseLoop
      rw [if_pos hl, framed_memory hp hd]
      simp only [except_bind_ok]
      rw [ih data _ fuel (drop_add_of_drop hd) (by simp only [List.length_cons] at hf; omega)]
      rfl
  exact key _ 0 _ rfl (framed_lists h)

/-- C13: the same packets are read from a file as from memory. -/
theorem C13_stream_list (ps : List RawPacket) (ws : List Bytes) (h : List.Forall₂ Framed ps ws) :
    parseBinaryPacketStream ws.flatten = .ok ps ∧ parseBinaryPacketStream ws.flatten = parseBinaryPacketData ws.flatten := by
  have key : ∀ (fuel : Nat), ps.length ≤ fuel → parseStreamLoop fuel ws.flatten = .ok ps := by
    induction h with
    | nil => intro fuel _; cases fuel <;> simp [parseStreamLoop]
    | @cons p w ps ws hp _ ih =>
      intro fuel hf
      obtain ⟨fuel, rfl⟩ : ∃ k, fuel = k + 1 := ⟨fuel - 1, by simp only [List.length_cons] at hf; omega⟩
      unfold parseStreamLoop
      rw [List.flatten_cons, if_neg (by simp [framed_ne hp]), framed_stream hp]
      simp only [except_bind_ok]
      rw [ih fuel (by simp only [List.length_cons] at hf; omega)]
      rfl
  have h1 := key ws.flatten.length (framed_lists h)
  exact ⟨h1, by rw [C10_received_concat ps ws h]; exact h1⟩

/-- A long way of writing a length, a short one and an empty packet. -/
theorem exFramed : List.Forall₂ Framed [⟨.new, 13, [65]⟩, ⟨.old, 12, [1, 2]⟩, ⟨.new, 60, []⟩] [[205, 255, 0, 0, 0, 1, 65], [178, 0, 0, 0, 2, 1, 2], [252, 0]] :=
  .cons (.new 13 [65] [255, 0, 0, 0, 1] (by decide) (.five 0 0 0 1))
    (.cons (.old 12 2 [1, 2] [0, 0, 0, 2] (by decide) (.four [0, 0, 0, 2] rfl)) (.cons (.new 60 [] [0] (by decide) (.one 0 (by decide))) .nil))

example := C10_received_concat _ _ exFramed
example := C13_stream_list _ _ exFramed

/-! ### Reading files ends -/

theorem readOrd_shrinks {fh r : Bytes} {x : UInt8} (h : readOrd fh = .ok (x, r)) : fh = x :: r := by
  cases fh with
  | nil => cases h
  | cons a t => cases h; rfl

theorem noDiv_newStream (fh : Bytes) : NoDiv (newPacketLengthFromStream fh) := by
  intro h
  cases fh with
  | nil => cases h
  | cons x fh =>
    simp only [newPacketLengthFromStream, readOrd, except_bind_ok] at h
    split at h
    · cases h
    · split at h
      · cases fh with
        | nil => cases h
        | cons y fh => cases h
      · split at h
        · cases hl : longToInt (readN fh 4).1 0 with
          | error e => rw [hl] at h; cases h; exact noDiv_longToInt _ _ hl
          | ok n => rw [hl] at h; cases h
        · cases h

theorem noDiv_oldStream (fh : Bytes) : NoDiv (oldPacketLengthFromStream fh) := by
  intro h
  cases fh with
  | nil => cases h
  | cons x fh =>
    simp only [oldPacketLengthFromStream, readOrd, except_bind_ok] at h
    split at h
    · cases fh with
      | nil => cases h
      | cons y fh => cases h
    · split at h
      · cases hl : shortToInt (readN fh 2).1 0 with
        | error e => rw [hl] at h; cases h; exact noDiv_shortToInt _ _ hl
        | ok n => rw [hl] at h; cases h
      · split at h
        · cases hl : longToInt (readN fh 4).1 0 with
          | error e => rw [hl] at h; cases h; exact noDiv_longToInt _ _ hl
          | ok n => rw [hl] at h; cases h
        · cases h

theorem newStream_shrinks {fh r : Bytes} {n : Nat} {p : Bool} (h : newPacketLengthFromStream fh = .ok (n, p, r)) : r.length < fh.length := by
  obtain ⟨o, h1, rfl⟩ := (C08_stream_aux fh 0 n p r).mp (by simpa using h)
  obtain ⟨h2, _, h3, _⟩ := C08_new_length_progress fh 0 o n p h1
  rw [List.length_drop]; omega

theorem oldStream_shrinks {fh r : Bytes} {n : Nat} (h : oldPacketLengthFromStream fh = .ok (n, r)) : r.length < fh.length := by
  cases fh with
  | nil => cases h
  | cons x fh =>
    by_cases hx : x.toNat % 4 = 3
    · have := ((C08_old_stream_aux (x :: fh) 0 n r fh x rfl).2 hx).1
      rw [List.drop_zero] at this
      rw [this] at h; cases h
    · obtain ⟨o, h1, rfl⟩ := ((C08_old_stream_aux (x :: fh) 0 n r fh x rfl).1 hx).mp (by simpa using h)
      obtain ⟨h2, _, h3⟩ := C08_old_length_progress (x :: fh) 0 o n h1
      rw [List.length_drop]; omega

theorem streamLoop_ends : ∀ (fuel : Nat) (fh : Bytes) (prev : Option Nat) (acc : Bytes), fh.length < fuel →
    NoDiv (streamLoop fuel fh prev acc) ∧ ∀ p r, streamLoop fuel fh prev acc = .ok (p, r) → r.length < fh.length := by
  intro fuel
  induction fuel with
  | zero => intro fh _ _ h; omega
  | succ fuel ih =>
    intro fh prev acc hf
    cases fh with
    | nil => exact ⟨nofun, nofun⟩
    | cons x fh =>
      have tail : ∀ y : Py (RawPacket × Bytes), y = (if x.toNat &&& 0x40 ≠ 0 then do
            let (dataLength, incomplete, fh2) ← newPacketLengthFromStream fh
            if incomplete then streamLoop fuel (fh2.drop dataLength) (some (x.toNat &&& 0x3f)) (acc ++ fh2.take dataLength)
            else .ok (⟨.new, x.toNat &&& 0x3f, acc ++ fh2.take dataLength⟩, fh2.drop dataLength)
          else do
            let (dataLength, fh2) ← oldPacketLengthFromStream (x :: fh)
            .ok (⟨.old, (x.toNat &&& 0x3f) >>> 2, acc ++ fh2.take dataLength⟩, fh2.drop dataLength)) →
          NoDiv y ∧ ∀ p r, y = .ok (p, r) → r.length < (x :: fh).length := by
        intro y hy
        by_cases hb : x.toNat &&& 0x40 ≠ 0
        · rw [if_pos hb] at hy
          cases hl : newPacketLengthFromStream fh with
          | error e =>
            rw [hl] at hy
            subst hy
            refine ⟨fun h => noDiv_newStream fh (by rw [hl]; cases h; rfl), fun p r h => by cases h⟩
          | ok z =>
            obtain ⟨n, inc, fh2⟩ := z
            have hs := newStream_shrinks hl
            rw [hl] at hy
            simp only [except_bind_ok] at hy
            have hd : (fh2.drop n).length ≤ fh2.length := by rw [List.length_drop]; omega
            simp only [List.length_cons] at hf ⊢
            cases inc with
            | true =>
              simp only [if_true] at hy
              obtain ⟨h1, h2⟩ := ih (fh2.drop n) (some (x.toNat &&& 0x3f)) (acc ++ fh2.take n) (by omega)
              subst hy
              exact ⟨h1, fun p r hr => by have := h2 p r hr; omega⟩
            | false =>
              simp only [Bool.false_eq_true, if_false] at hy
              subst hy
              refine ⟨noDiv_ok _, fun p r hr => ?_⟩
              simp only [Except.ok.injEq, Prod.mk.injEq] at hr
              rw [← hr.2]; omega
        · rw [if_neg hb] at hy
          cases hl : oldPacketLengthFromStream (x :: fh) with
          | error e =>
            rw [hl] at hy
            subst hy
            refine ⟨fun h => noDiv_oldStream (x :: fh) (by rw [hl]; cases h; rfl), fun p r h => by cases h⟩
          | ok z =>
            obtain ⟨n, fh2⟩ := z
            have hs := oldStream_shrinks hl
            have hd : (fh2.drop n).length ≤ fh2.length := by rw [List.length_drop]; omega
            rw [hl] at hy
            simp only [except_bind_ok] at hy
            subst hy
            refine ⟨noDiv_ok _, fun p r hr => ?_⟩
            simp only [Except.ok.injEq, Prod.mk.injEq] at hr
            rw [← hr.2]; omega
      unfold streamLoop
      simp only [readOrd, except_bind_ok]
      cases prev with
      | none =>
        simp only [Bool.false_eq_true, if_false]
        exact tail _ rfl
      | some t =>
        by_cases ht : decide (x.toNat &&& 0x3f ≠ t) = true
        · simp only [if_pos ht]
          exact ⟨noDiv_error (by decide), fun p r h => by cases h⟩
        · simp only [if_neg ht]
          exact tail _ rfl

/-- C11: reading packets from a file ends for every content of the file, and each packet read moves the position forward. -/
theorem C11_stream_terminates (fh : Bytes) :
    packetFromStream fh ≠ .error .diverges ∧ parseBinaryPacketStream fh ≠ .error .diverges ∧
      ∀ p rest, packetFromStream fh = .ok (p, rest) → rest.length < fh.length := by
  have h1 : ∀ fh : Bytes, NoDiv (packetFromStream fh) ∧ ∀ p r, packetFromStream fh = .ok (p, r) → r.length < fh.length :=
    fun fh => streamLoop_ends _ fh none [] (by omega)
  refine ⟨(h1 fh).1, ?_, (h1 fh).2⟩
  have key : ∀ (fuel : Nat) (fh : Bytes), fh.length ≤ fuel → NoDiv (parseStreamLoop fuel fh) := by
    intro fuel
    induction fuel with
    | zero =>
      intro fh hf
      rw [List.length_eq_zero_iff.mp (Nat.le_zero.mp hf)]
      exact nofun
    | succ fuel ih =>
      intro fh hf
      unfold parseStreamLoop
      split
      · exact nofun
      · cases hp : packetFromStream fh with
        | error e => intro h; exact (h1 fh).1 (by rw [hp]; cases h; rfl)
        | ok y =>
          obtain ⟨p, r⟩ := y
          have hs := (h1 fh).2 p r hp
          simp only [except_bind_ok]
          intro h
          cases hr : parseStreamLoop fuel r with
          | error e => rw [hr] at h; exact ih r (by omega) (by rw [hr]; cases h; rfl)
          | ok l => rw [hr] at h; cases h
  exact key _ fh le_rfl

example := C11_stream_terminates [205, 225, 1, 2, 205, 1]

end Pgp.Props
