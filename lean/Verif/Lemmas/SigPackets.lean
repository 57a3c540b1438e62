import Verif.Lemmas.Hex
import Verif.Lemmas.Text
import Verif.Lemmas.Framing
import Verif.Spec.SigPackets
/-
Lemmas about signature subpackets and packets.
-/
namespace Pgp
open Spec

theorem pyAssert_true {c : Bool} (h : c = true) : pyAssert c = .ok () := by simp [pyAssert, h]

theorem extendInts_map_toNat (l : List Nat) (h : ∀ x ∈ l, x < 256) :
    ∃ b : Bytes, extendInts l = .ok b ∧ b.map UInt8.toNat = l ∧ b.length = l.length := by
  induction l with
  | nil => exact ⟨[], rfl, rfl, rfl⟩
  | cons x l ih =>
    obtain ⟨b, h1, h2, h3⟩ := ih fun y hy => h y (by simp [hy])
    refine ⟨UInt8.ofNat x :: b, ?_, ?_, by simp [h3]⟩
    · unfold extendInts at *
      rw [List.mapM_cons, byteOf_lt (h x (by simp)), h1]; rfl
    · rw [List.map_cons, h2, toNat_ofNat_lt (h x (by simp))]

theorem splitAt_none {s : List Char} (h : '@' ∉ s) : splitAt s = (s, none) := by
  induction s with
  | nil => rfl
  | cons c s ih =>
    simp only [List.mem_cons, not_or] at h
    rw [splitAt, if_neg (fun e => h.1 e.symm), ih h.2]

theorem splitAt_some {s t : List Char} (h : '@' ∉ s) : splitAt (s ++ '@' :: t) = (s, some t) := by
  induction s with
  | nil => simp [splitAt]
  | cons c s ih =>
    simp only [List.mem_cons, not_or] at h
    rw [List.cons_append, splitAt, if_neg (fun e => h.1 e.symm), ih h.2]

theorem utf8Encode_append (a b : List Char) : utf8Encode (a ++ b) = utf8Encode a ++ utf8Encode b := by
  simp [utf8Encode]

theorem noteName_eq (name : List Char) (ns : Option (List Char)) (hns : ns ≠ some []) (hn : '@' ∉ name) :
    splitAt (utf8DecodeReplace (noteName name ns)) = (name, ns) := by
  match ns, hns with
  | none, _ =>
    rw [show noteName name none = utf8Encode name from rfl, utf8DecodeReplace_encode, splitAt_none hn]
  | some (c :: s), _ =>
    rw [show noteName name (some (c :: s)) = utf8Encode name ++ [0x40] ++ utf8Encode (c :: s) from rfl,
      show ([0x40] : Bytes) = utf8Encode ['@'] from rfl, ← utf8Encode_append, ← utf8Encode_append, utf8DecodeReplace_encode,
      List.append_assoc]
    exact splitAt_some hn

theorem noteName_encode (name : List Char) (ns : Option (List Char)) (hns : ns ≠ some []) :
    noteName name ns = utf8Encode (name ++ (ns.map ('@' :: ·)).getD []) := by
  unfold noteName
  match ns, hns with
  | none, _ => simp
  | some (c :: s), _ =>
    simp only [Option.map_some, Option.getD_some]
    rw [utf8Encode_append, show '@' :: c :: s = ['@'] ++ (c :: s) from rfl, utf8Encode_append, List.append_assoc]
    rfl

theorem readTime_write {t : Nat} (h : t < 2 ^ 32) : readTime (intTo4byte t) = .ok t := by
  unfold readTime
  rw [pyAssert_true (by rfl), except_bind_ok, longToInt_of_drop (i := t) (s := []) (by simp), Nat.mod_eq_of_lt (by simpa using h)]

theorem readBool_write (b : Bool) : readBool (boolOctet b) = .ok b := by cases b <;> rfl

theorem keyFlags_write (f : KeyFlags) : f.octet < 256 ∧ KeyFlags.ofOctet (UInt8.ofNat f.octet) = f := by
  obtain ⟨a, b, c, d, e, g, h⟩ := f
  revert a b c d e g h; decide +kernel

theorem readNote_write {name v : List Char} {ns : Option (List Char)} (hn : '@' ∉ name) (hns : ns ≠ some [])
    (hv : (utf8Encode v).length < 65536)
    (hl : (utf8Encode (name ++ (ns.map ('@' :: ·)).getD [])).length < 65536) :
    readNote (noteContent name ns (.text v)) = .ok (.note name ns (.text v)) := by
  have hnl : (noteName name ns).length < 65536 := by rw [noteName_encode name ns hns]; exact hl
  generalize hd : noteContent name ns (.text v) = d
  have hd' : d = [0x80, 0, 0, 0] ++ (intTo2byte (noteName name ns).length ++ (intTo2byte (utf8Encode v).length ++
      (noteName name ns ++ utf8Encode v))) := by
    rw [← hd]; simp only [noteContent, List.append_assoc]
  have d0 : d.drop 0 = [0x80, 0, 0, 0] ++ (intTo2byte (noteName name ns).length ++ (intTo2byte (utf8Encode v).length ++
      (noteName name ns ++ utf8Encode v))) := hd'
  have d1 : d.drop 1 = [0, 0, 0] ++ (intTo2byte (noteName name ns).length ++ (intTo2byte (utf8Encode v).length ++
      (noteName name ns ++ utf8Encode v))) := by rw [hd']; rfl
  have d4 := drop_add_of_drop' d0 (n := 4) rfl
  rw [Nat.zero_add] at d4
  have d6 := drop_add_of_drop' d4 (n := 2) rfl
  have d8 := drop_add_of_drop' d6 (n := 2) rfl
  have d9 := drop_add_of_drop d8
  norm_num at d6 d8 d9
  have hlen : 8 + (noteName name ns).length + (utf8Encode v).length = d.length := by
    rw [hd']; simp only [List.length_append, intTo2byte_length, List.length_cons, List.length_nil]; omega
  have a1 : (slice d 1 4).all (· == 0) = true := by
    rw [slice_of_drop (j := 4) d1 rfl]; rfl
  have a2 : idx d 0 = .ok 0x80 := idx_of_drop (s := List.append [0, 0, 0] _) d0
  have a3 := shortToInt_of_drop d4
  have a4 := shortToInt_of_drop d6
  rw [Nat.mod_eq_of_lt (by norm_num; omega)] at a3 a4
  have a5 := slice_of_drop d8 rfl
  have a6 : slice d (8 + (noteName name ns).length) (8 + (noteName name ns).length + (utf8Encode v).length) = utf8Encode v :=
    slice_of_drop (s := []) (by simpa using d9) rfl
  have a7 : decide (d.length ≥ 8) = true := by simp; omega
  have a8 : (8 + (noteName name ns).length + (utf8Encode v).length == d.length) = true := by simpa using hlen
  have a9 : ((0x80 : UInt8).toNat &&& 0x7f == 0) = true := by decide
  unfold readNote
  simp only [pyAssert_true a7, pyAssert_true a1, a2, a3, a4, a5, a6, pyAssert_true a8, pyAssert_true a9, except_bind_ok,
    except_pure, noteName_eq name ns hns hn, utf8DecodeReplace_encode]

/-- A value that fits is written and read back. -/
theorem plain_roundtrip {v : Plain} (h : PlainOk v) :
    ∃ c, v.content = .ok c ∧ parsePlain v.type c = .ok v ∧ v.type < 128 ∧ v.type ≠ 32 := by
  cases v with
  | creationTime t => exact ⟨_, rfl, by simp only [parsePlain, Plain.type, readTime_write h]; rfl, by simp [Plain.type], by simp [Plain.type]⟩
  | expiration t => exact ⟨_, rfl, by simp only [parsePlain, Plain.type, readTime_write h]; rfl, by simp [Plain.type], by simp [Plain.type]⟩
  | keyExpiration t => exact ⟨_, rfl, by simp only [parsePlain, Plain.type, readTime_write h]; rfl, by simp [Plain.type], by simp [Plain.type]⟩
  | exportable b => exact ⟨_, rfl, by simp only [parsePlain, Plain.type, readBool_write]; rfl, by simp [Plain.type], by simp [Plain.type]⟩
  | revocable b => exact ⟨_, rfl, by simp only [parsePlain, Plain.type, readBool_write]; rfl, by simp [Plain.type], by simp [Plain.type]⟩
  | primaryUserId b => exact ⟨_, rfl, by simp only [parsePlain, Plain.type, readBool_write]; rfl, by simp [Plain.type], by simp [Plain.type]⟩
  | trust d a =>
    refine ⟨[UInt8.ofNat d, UInt8.ofNat a], by simp only [Plain.content, byteOf_lt h.1, byteOf_lt h.2]; rfl, ?_, by simp [Plain.type],
      by simp [Plain.type]⟩
    simp only [parsePlain, Plain.type, readTrust]
    rw [pyAssert_true (by rfl)]
    simp only [except_bind_ok, idx, List.drop_zero, List.drop_succ_cons, except_pure, toNat_ofNat_lt h.1, toNat_ofNat_lt h.2]
  | prefSym l =>
    obtain ⟨b, h1, h2, _⟩ := extendInts_map_toNat l h
    exact ⟨b, h1, by simp only [parsePlain, Plain.type, h2], by simp [Plain.type], by simp [Plain.type]⟩
  | prefHash l =>
    obtain ⟨b, h1, h2, _⟩ := extendInts_map_toNat l h
    exact ⟨b, h1, by simp only [parsePlain, Plain.type, h2], by simp [Plain.type], by simp [Plain.type]⟩
  | prefComp l =>
    obtain ⟨b, h1, h2, _⟩ := extendInts_map_toNat l h
    exact ⟨b, h1, by simp only [parsePlain, Plain.type, h2], by simp [Plain.type], by simp [Plain.type]⟩
  | issuer k =>
    obtain ⟨b, hb, rfl⟩ := upperHex_is_hexOf 8 k h.2 h.1
    refine ⟨b, hexToBytes_hexOf hb, ?_, by simp [Plain.type], by simp [Plain.type]⟩
    simp only [parsePlain, Plain.type, readIssuer]
    rw [pyAssert_true (by simp [hb]), bytearrayToHex_of_drop (b := b) (s := []) (by simp) (by omega)]
    rfl
  | note name ns value =>
    cases value with
    | text v => exact ⟨_, rfl, by simp only [parsePlain, Plain.type, readNote_write h.1 h.2.1 h.2.2.1 h.2.2.2], by simp [Plain.type], by simp [Plain.type]⟩
    | raw b => exact h.elim
  | keyServerPrefs b => exact ⟨_, rfl, by cases b <;> rfl, by simp [Plain.type], by simp [Plain.type]⟩
  | prefKeyServer u =>
    refine ⟨_, rfl, ?_, by simp [Plain.type], by simp [Plain.type]⟩
    have : (utf8Encode u).length > 0 := List.length_pos_iff.mpr fun e => h (utf8Encode_eq_nil.mp e)
    simp only [parsePlain, Plain.type, readUri]
    rw [pyAssert_true (by simpa using this), utf8DecodeReplace_encode]; rfl
  | policyUri u =>
    refine ⟨_, rfl, ?_, by simp [Plain.type], by simp [Plain.type]⟩
    have : (utf8Encode u).length > 0 := List.length_pos_iff.mpr fun e => h (utf8Encode_eq_nil.mp e)
    simp only [parsePlain, Plain.type, readUri]
    rw [pyAssert_true (by simpa using this), utf8DecodeReplace_encode]; rfl
  | keyFlags f =>
    have hf := keyFlags_write f
    refine ⟨[UInt8.ofNat f.octet], by simp only [Plain.content, byteOf_lt hf.1]; rfl, ?_, by simp [Plain.type], by simp [Plain.type]⟩
    simp only [parsePlain, Plain.type, readFirst]
    rw [pyAssert_true (by rfl)]
    simp only [except_bind_ok, idx, List.drop_zero, except_pure, hf.2]
  | userId s =>
    exact ⟨_, rfl, by simp only [parsePlain, Plain.type, utf8DecodeStrict_encode]; rfl, by simp [Plain.type], by simp [Plain.type]⟩
  | revocationReason c r =>
    refine ⟨[UInt8.ofNat c] ++ utf8Encode r, by simp only [Plain.content, byteOf_lt h]; rfl, ?_, by simp [Plain.type], by simp [Plain.type]⟩
    simp only [parsePlain, Plain.type, readReason, List.singleton_append]
    simp only [except_bind_ok, idx, List.drop_zero, except_pure, List.drop_succ_cons, toNat_ofNat_lt h, utf8DecodeReplace_encode]
  | features b => exact ⟨_, rfl, by cases b <;> rfl, by simp [Plain.type], by simp [Plain.type]⟩
  | other t =>
    refine ⟨[], rfl, ?_, h.1, fun e => h.2 (by rw [show t = 32 from e]; decide)⟩
    obtain ⟨h1, h2⟩ := h
    simp only [Plain.type]
    unfold parsePlain
    split <;> first | rfl | (exfalso; exact h2 (by decide))
  | regex _ => exact h.elim
  | additionalRecipient _ _ _ => exact h.elim
  | revocationKey _ _ _ => exact h.elim
  | target _ _ _ _ => exact h.elim

/-- Where `subHeader` ends up: it always advances, and the content is shorter than the data. -/
theorem subHeader_progress {data : Bytes} {off ty off' : Nat} {critical : Bool} {sub : Bytes}
    (h : subHeader data off = .ok (ty, critical, sub, off')) :
    sub.length < data.length ∧ off < off' ∧ off < data.length := by
  unfold subHeader at h
  obtain ⟨⟨o, n, p⟩, h1, h⟩ := except_bind_eq_ok.mp h
  obtain ⟨_, h2, h⟩ := except_bind_eq_ok.mp h
  obtain ⟨tag, h3, h⟩ := except_bind_eq_ok.mp h
  dsimp only at *
  simp only [except_pure, Except.ok.injEq, Prod.mk.injEq] at h
  obtain ⟨_, _, rfl, rfl⟩ := h
  have b := newPacketLength_bounds h1
  have i := idx_ok h3
  refine ⟨?_, by omega, by omega⟩
  simp only [slice, List.length_take, List.length_drop]
  omega

theorem testBit7 {ty : Nat} (h : ty < 128) (critical : Bool) :
    (UInt8.ofNat (ty + if critical then 0x80 else 0)).toNat &&& 0x7f = ty ∧
    (UInt8.ofNat (ty + if critical then 0x80 else 0)).toNat.testBit 7 = critical := by
  have h2 : (ty + if critical then 0x80 else 0) < 256 := by split <;> omega
  rw [toNat_ofNat_lt h2, and127, Nat.testBit, Nat.shiftRight_eq_div_pow]
  cases critical
  · simp; omega
  · simp only [if_true]
    refine ⟨by omega, ?_⟩
    have : (ty + 128) / 2 ^ 7 = 1 := by norm_num; omega
    rw [this]; rfl

theorem subBytes_ok {ty : Nat} {critical : Bool} {c e : Bytes} (hty : ty < 128) (h : subBytes ty critical c = .ok e) :
    ∃ l, NewDefinite l (c.length + 1) ∧ e = l ++ [UInt8.ofNat (ty + if critical then 0x80 else 0)] ++ c := by
  unfold subBytes at h
  obtain ⟨⟨l, n⟩, h1, h⟩ := except_bind_eq_ok.mp h
  rw [byteOf_lt (by split <;> omega)] at h
  cases h
  by_cases hc : c.length + 1 ≤ 4294967295
  · obtain ⟨l', h2, h3, _⟩ := newPacketLengthToBytes_definite hc false
    rw [h1] at h2
    simp only [Except.ok.injEq, Prod.mk.injEq] at h2
    exact ⟨l, by rw [h2.1]; exact h3, rfl⟩
  · unfold newPacketLengthToBytes at h1
    rw [if_neg (by omega), if_neg (by omega), if_neg (by unfold MAX_PACKET_LENGTH; omega), if_neg (by simp)] at h1
    cases h1

theorem subHeader_write {data s c l : Bytes} {off ty : Nat} {critical : Bool} (hty : ty < 128)
    (hl : NewDefinite l (c.length + 1))
    (hd : data.drop off = (l ++ [UInt8.ofNat (ty + if critical then 0x80 else 0)] ++ c) ++ s) :
    subHeader data off = .ok (ty, critical, c, off + (l ++ [UInt8.ofNat (ty + if critical then 0x80 else 0)] ++ c).length) := by
  generalize hx : UInt8.ofNat (ty + if critical then 0x80 else 0) = x at *
  have hb := testBit7 hty critical
  rw [hx] at hb
  have d0 : data.drop off = l ++ ([x] ++ (c ++ s)) := by rw [hd]; simp only [List.append_assoc]
  have d1 := drop_add_of_drop d0
  have d2 := drop_succ_of_drop d1
  have a1 := newPacketLength_definite d0 hl
  have a2 := idx_of_drop d1
  have a3 : slice data (off + l.length + 1) (off + l.length + (c.length + 1)) = c := slice_of_drop d2 (by omega)
  unfold subHeader
  simp only [a1, a2, a3, except_bind_ok, Bool.not_false, pyAssert_true, except_pure, hb.1, hb.2]
  simp only [List.length_append, List.length_singleton]
  congr 4
  omega

/-- What one subpacket reads as. -/
def readSub (ty : Nat) (critical : Bool) (c : Bytes) : Py Sub :=
  if ty = 32 then do
    let sig ← parseSig c
    return Sub.embedded critical sig
  else do
    let v ← parsePlain ty c
    return Sub.plain critical v

theorem parseSubs_eq (data : Bytes) (off stop : Nat) : parseSubs data off stop =
    if off < stop then
      match subHeader data off with
      | .error e => .error e
      | .ok (ty, critical, sub, off') => do
        let s ← readSub ty critical sub
        let (l, o) ← parseSubs data off' stop
        return (s :: l, o)
    else .ok ([], off) := by
  conv_lhs => unfold parseSubs
  split
  · cases hs : subHeader data off with
    | error e => rfl
    | ok r =>
      obtain ⟨ty, critical, sub, off'⟩ := r
      have := subHeader_progress hs
      simp only [dif_pos this]
      rfl
  · rfl

def SubP (fl : Nat → Nat) (s : Sub) : Prop :=
  ∀ e, Sub.toBytes fl s = .ok e → ∀ data off rest, data.drop off = e ++ rest →
    ∃ ty critical c, subHeader data off = .ok (ty, critical, c, off + e.length) ∧ readSub ty critical c = .ok s ∧ e ≠ []

theorem subs_write {fl : Nat → Nat} {l : List Sub} (hl : ∀ s ∈ l, SubP fl s) {e : Bytes} (he : subsBytes fl l = .ok e)
    {data rest : Bytes} {off : Nat} (hd : data.drop off = e ++ rest) :
    parseSubs data off (off + e.length) = .ok (l, off + e.length) := by
  induction l generalizing e off with
  | nil =>
    rw [subsBytes] at he
    cases he
    rw [parseSubs_eq]; simp
  | cons s l ih =>
    rw [subsBytes] at he
    obtain ⟨a, h1, he⟩ := except_bind_eq_ok.mp he
    obtain ⟨b, h2, he⟩ := except_bind_eq_ok.mp he
    cases he
    rw [List.append_assoc] at hd
    obtain ⟨ty, critical, c, p1, p2, p3⟩ := hl s (by simp) a h1 data off _ hd
    have ha : 0 < a.length := List.length_pos_iff.mpr p3
    have hi := ih (fun s hs => hl s (by simp [hs])) h2 (drop_add_of_drop hd)
    rw [parseSubs_eq, if_pos (by rw [List.length_append]; omega), p1]
    dsimp only
    rw [List.length_append, ← Nat.add_assoc, p2, hi]
    rfl

theorem sigValues_some (fl : Nat → Nat) (l : List Nat) : sigValues fl (l.map some) = writeMpis fl l := by
  induction l with
  | nil => rfl
  | cons x l ih => simp only [List.map_cons, sigValues, writeMpis, ih]

theorem parseSig_eq (data : Bytes) : parseSig data = (do
    let v ← idx data 0
    if v = 2 ∨ v = 3 then parseSigV3 data v.toNat
    else if v = 4 then do
      let t ← idx data 1
      let p ← idx data 2
      let h ← idx data 3
      let l1 ← shortToInt data 4
      let (hashed, off) ← parseSubs data 6 (6 + l1)
      let l2 ← shortToInt data off
      let (unhashed, off) ← parseSubs data (off + 2) (off + 2 + l2)
      let (hash2, values) ← sigTail data off
      return .v4 4 t.toNat p.toNat h.toNat hashed unhashed hash2 values
    else .error .valueError) := by
  conv_lhs => unfold parseSig

theorem sig_write {fl : Nat → Nat} {t p h : Nat} {hashed unhashed : List Sub} {hash2 : Bytes} {values : List Nat}
    (ht : t < 256) (hp : p < 256) (hh : h < 256) (hhs : ∀ s ∈ hashed, SubP fl s) (hus : ∀ s ∈ unhashed, SubP fl s)
    (hhl : ∃ e, subsBytes fl hashed = .ok e ∧ e.length < 65536) (hul : ∃ e, subsBytes fl unhashed = .ok e ∧ e.length < 65536)
    (h2 : hash2.length = 2) (hv : ∀ i ∈ values, LogRoom fl i) :
    ∃ e, Sig.content fl (.v4 4 t p h hashed unhashed hash2 (values.map some)) = .ok e ∧
      parseSig e = .ok (.v4 4 t p h hashed unhashed hash2 (values.map some)) := by
  obtain ⟨hd, hd1, hd2⟩ := hhl
  obtain ⟨ud, ud1, ud2⟩ := hul
  obtain ⟨vs, vs1, vsl, vs2⟩ := mpiLoop_roundtrip hv
  refine ⟨[4, UInt8.ofNat t, UInt8.ofNat p, UInt8.ofNat h] ++ intTo2byte hd.length ++ hd ++ intTo2byte ud.length ++ ud ++ hash2 ++ vs,
    ?_, ?_⟩
  · rw [Sig.content]
    simp only [byteOf_lt ht, byteOf_lt hp, byteOf_lt hh, hd1, ud1, sigValues_some, vs1, except_bind_ok, except_pure,
      byteOf_lt (show 4 < 256 by decide)]
    rfl
  · generalize hD : [4, UInt8.ofNat t, UInt8.ofNat p, UInt8.ofNat h] ++ intTo2byte hd.length ++ hd ++ intTo2byte ud.length ++ ud ++ hash2 ++ vs
      = data
    have d0 : data.drop 0 = 4 :: UInt8.ofNat t :: UInt8.ofNat p :: UInt8.ofNat h :: (intTo2byte hd.length ++ (hd ++
        (intTo2byte ud.length ++ (ud ++ (hash2 ++ vs))))) := by
      rw [← hD]; simp only [List.append_assoc, List.drop_zero]; rfl
    have d1 := drop_succ_of_drop d0
    have d2 := drop_succ_of_drop d1
    have d3 := drop_succ_of_drop d2
    have d4 := drop_succ_of_drop d3
    have d6 := drop_add_of_drop' d4 (n := 2) rfl
    have d7 := drop_add_of_drop d6
    have d8 := drop_add_of_drop' d7 (n := 2) rfl
    have d9 := drop_add_of_drop d8
    have d10 := drop_add_of_drop' d9 (n := 2) h2.symm
    simp only [Nat.zero_add, Nat.reduceAdd] at d1 d2 d3 d4 d6 d7 d8 d9 d10
    have a0 := idx_of_drop d0
    have a1 := idx_of_drop d1
    have a2 := idx_of_drop d2
    have a3 := idx_of_drop d3
    have a4 := shortToInt_of_drop d4
    rw [Nat.mod_eq_of_lt (by norm_num; omega)] at a4
    have a5 := subs_write hhs hd1 d6
    have a6 := shortToInt_of_drop d7
    rw [Nat.mod_eq_of_lt (by norm_num; omega)] at a6
    have a7 := subs_write hus ud1 d8
    have a8 := slice_of_drop (j := 6 + hd.length + 2 + ud.length + 2) d9 (by omega)
    have hlen : values.length ≤ data.length := by
      rw [← hD]; simp only [List.length_append]; omega
    have a9 := vs2 d10 hlen
    have a10 : sigTail data (6 + hd.length + 2 + ud.length) = .ok (hash2, values.map some) := by
      unfold sigTail
      simp only [a8, a9, except_bind_ok, except_pure]
    rw [parseSig_eq]
    simp only [a0, a1, a2, a3, a4, a5, a6, a7, a10, except_bind_ok, except_pure, toNat_ofNat_lt ht, toNat_ofNat_lt hp,
      toNat_ofNat_lt hh]
    rw [if_neg (by decide), if_pos trivial]

theorem sub_plain_write (fl : Nat → Nat) {critical : Bool} {v : Plain} (h : PlainOk v) : SubP fl (.plain critical v) := by
  intro e he data off rest hd
  obtain ⟨c, h1, h2, h3, h4⟩ := plain_roundtrip h
  rw [Sub.toBytes, h1] at he
  obtain ⟨l, h5, rfl⟩ := subBytes_ok h3 he
  refine ⟨v.type, critical, c, subHeader_write h3 h5 hd, ?_, by simp⟩
  unfold readSub
  rw [if_neg h4, h2]; rfl

theorem sub_embedded_write {fl : Nat → Nat} {critical : Bool} {sig : Sig}
    (h : ∃ e, Sig.content fl sig = .ok e ∧ parseSig e = .ok sig) : SubP fl (.embedded critical sig) := by
  intro e he data off rest hd
  obtain ⟨c, h1, h2⟩ := h
  rw [Sub.toBytes, h1] at he
  obtain ⟨l, h5, rfl⟩ := subBytes_ok (by decide) he
  refine ⟨32, critical, c, subHeader_write (by decide) h5 hd, ?_, by simp⟩
  unfold readSub
  rw [if_pos rfl, h2]; rfl

mutual
theorem subOk_write {fl : Nat → Nat} : ∀ {s : Sub}, SubOk fl s → SubP fl s
  | _, .plain h => sub_plain_write fl h
  | _, .embedded h => sub_embedded_write (sigOk_write h)

/-- A signature that fits is written and read back. -/
theorem sigOk_write {fl : Nat → Nat} : ∀ {sig : Sig}, SigOk fl sig → ∃ e, Sig.content fl sig = .ok e ∧ parseSig e = .ok sig
  | _, .v4 ht hp hh hhashed hunhashed hhl hul h2 hv =>
    sig_write ht hp hh (fun s hs => subOk_write (hhashed s hs)) (fun s hs => subOk_write (hunhashed s hs)) hhl hul h2 hv
end

end Pgp
