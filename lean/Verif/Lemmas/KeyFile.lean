import Verif.Model.KeyFile
import Verif.Spec.KeyFile
import Verif.Lemmas.SigWire
import Verif.Lemmas.KeysRound
import Verif.Lemmas.PublicKey
import Verif.Lemmas.Framing
import Verif.Props.DataPackets
import Mathlib.Data.List.Forall2
/-
Lemmas for C83: octets of keys.
-/
namespace Pgp
open Spec

/-! ### Headers -/

theorem newDefinite_le {l : Bytes} {n : Nat} (h : NewDefinite l n) : n ≤ 4294967295 := by
  cases h with
  | one a h => omega
  | two a b h h' => have := uint8_lt b; omega
  | five a b c d => have := beNat_lt [a, b, c, d]; simp at this; omega

theorem shortest_length {l : Bytes} {n : Nat} (h : Shortest l n) : l.length = if n < 192 then 1 else if n < 8384 then 2 else 5 := by
  obtain ⟨e, h1, h2, h3⟩ := newPacketLengthToBytes_definite (newDefinite_le h.1) false
  rw [shortest_written h] at h1
  cases h1
  exact h3

theorem shortest_written_any {l : Bytes} {n : Nat} (h : Shortest l n) (ap : Bool) : newPacketLengthToBytes n ap = .ok (l, 0) := by
  obtain ⟨e, h1, h2, h3⟩ := newPacketLengthToBytes_definite (newDefinite_le h.1) ap
  rw [h1, newDefinite_unique h2 h.1 rfl (by rw [h3, shortest_length h])]

theorem oldDefinite_unique {a b : Bytes} {n lt : Nat} (ha : OldDefinite lt a n) (hb : OldDefinite lt b n) : a = b := by
  have aux : ∀ {x y : Bytes}, x.length = y.length → beNat x = beNat y → x = y := fun h h' => beNat_inj h h'
  generalize hm : n = m at hb
  cases ha <;> cases hb <;> exact aux (by omega) (by omega)

theorem oldDefinite_length {lt : Nat} {l : Bytes} {n : Nat} (h : OldDefinite lt l n) :
    (lt = 0 ∧ l.length = 1 ∧ n < 256) ∨ (lt = 1 ∧ l.length = 2 ∧ n < 65536) ∨ (lt = 2 ∧ l.length = 4) := by
  cases h with
  | one e he => have := beNat_lt l; rw [he] at this; exact .inl ⟨rfl, he, by omega⟩
  | two e he => have := beNat_lt l; rw [he] at this; exact .inr (.inl ⟨rfl, he, by omega⟩)
  | four e he => exact .inr (.inr ⟨rfl, he⟩)

theorem old_written {lt : Nat} {l : Bytes} {n : Nat} (hn : n < 2 ^ 24) (h : OldDefinite lt l n)
    (hmin : ∀ lt' l', OldDefinite lt' l' n → l.length ≤ l'.length) :
    ∃ ns, oldPacketLengthToBytes n = (lt, ns) ∧ extendInts ns = .ok l := by
  obtain ⟨t, ns, e, h1, h2, _, _, h3⟩ := old_length_key hn
  have ht : t = lt := by
    have h4 := hmin t e h3
    have h5 : t = 0 ∧ n < 256 ∨ t = 1 ∧ ¬ n < 256 ∧ n < 65536 ∨ t = 2 ∧ ¬ n < 65536 := by
      unfold oldPacketLengthToBytes at h1
      split at h1
      · cases h1; omega
      · split at h1
        · cases h1; omega
        · split at h1 <;> cases h1 <;> omega
    rcases oldDefinite_length h with h | h | h <;> rcases oldDefinite_length h3 with h' | h' | h' <;> omega
  subst ht
  exact ⟨ns, h1, by rw [h2, oldDefinite_unique h3 h]⟩

theorem header_written {f : HeaderFormat} {type : Nat} {c h : Bytes} (hh : HeaderOf f type c.length h) :
    Packet.toBytes 1 ⟨f, type, c⟩ = .ok (h ++ c) ∧ Expressible ⟨f, type, c⟩ := by
  cases f with
  | new =>
    obtain ⟨ht, hn, l, hl, rfl⟩ := hh
    have hle := newDefinite_le hl.1
    refine ⟨?_, .inl ⟨rfl, ht, hn, by simpa using hle⟩⟩
    have hw := shortest_written_any hl (decide (type ∈ DATA_TYPES))
    unfold Packet.toBytes
    simp only [byteOf_lt (show 0x80 + (0x40 + type) < 256 by omega), except_bind_ok]
    rw [serializeLoop, if_neg (by omega), hw]
    simp only [except_bind_ok, serializeLoop, Nat.sub_zero, if_true, slice]
    simp [show 192 + type = 128 + (64 + type) by omega]
  | old =>
    obtain ⟨ht, hn, lt, l, h1, h2, rfl⟩ := hh
    refine ⟨?_, .inr ⟨rfl, ht, hn⟩⟩
    obtain ⟨ns, h3, h4⟩ := old_written hn h1 h2
    have hlt := oldDefinite_length h1
    have hs : type <<< 2 = 4 * type := by rw [Nat.shiftLeft_eq]; omega
    unfold Packet.toBytes
    simp only [h3, hs, byteOf_lt (show 0x80 + 4 * type + lt < 256 by omega), except_bind_ok, h4, except_pure]
    simp

/-! ### Public key packets -/

theorem intToMpi_mpi {fl : Nat → Nat} {i : Nat} (h : 0 < i → fl i = Nat.log2 i) : intToMpi fl i = .ok (mpi i) := by
  by_cases h0 : i = 0
  · subst h0; rw [intToMpi_zero]; rfl
  · rw [intToMpi_pos fl (Nat.pos_of_ne_zero h0), h (Nat.pos_of_ne_zero h0), intTo2byte_eq, octetsDown_eq_beBytes]
    unfold mpi
    simp only [bitLen, h0, if_false]; rfl

theorem publicContent_wire {fl : Nat → Nat} {v a : UInt8} {t dd : Bytes} {days : Option Nat} {m : KeyMaterial} (ht : t.length = 4)
    (hd : daysBytes v.toNat days = .ok dd) (ha : m.fits a.toNat) (hg : ∀ i ∈ m.ints, 0 < i → fl i = Nat.log2 i) :
    (mkPubKey v.toNat (beNat t) a.toNat days m).publicContent fl = .ok (v :: t ++ dd ++ a :: (m.ints.map mpi).flatten) := by
  have h4 := intTo4byte_beNat ht
  cases m with
  | rsa n e =>
    simp only [KeyMaterial.fits] at ha
    have h1 := intToMpi_mpi (hg n (by simp [KeyMaterial.ints]))
    have h2 := intToMpi_mpi (hg e (by simp [KeyMaterial.ints]))
    simp only [PubKey.publicContent, mkPubKey, byteOf_toNat, hd, except_bind_ok, except_pure, if_pos ha, mpiOpt, h1, h2, h4, KeyMaterial.ints,
      List.map_cons, List.map_nil, List.flatten_cons, List.flatten_nil]
    simp
  | elgamal p g y =>
    simp only [KeyMaterial.fits] at ha
    have h1 := intToMpi_mpi (hg p (by simp [KeyMaterial.ints]))
    have h2 := intToMpi_mpi (hg g (by simp [KeyMaterial.ints]))
    have h3 := intToMpi_mpi (hg y (by simp [KeyMaterial.ints]))
    have hna : ¬ (a.toNat = 1 ∨ a.toNat = 2 ∨ a.toNat = 3) := by omega
    simp only [PubKey.publicContent, mkPubKey, byteOf_toNat, hd, except_bind_ok, except_pure, if_neg hna, if_pos ha, mpiOpt, h1, h2, h3, h4,
      KeyMaterial.ints, List.map_cons, List.map_nil, List.flatten_cons, List.flatten_nil]
    simp
  | dsa p q g y =>
    simp only [KeyMaterial.fits] at ha
    have h1 := intToMpi_mpi (hg p (by simp [KeyMaterial.ints]))
    have h2 := intToMpi_mpi (hg q (by simp [KeyMaterial.ints]))
    have h3 := intToMpi_mpi (hg g (by simp [KeyMaterial.ints]))
    have h5 := intToMpi_mpi (hg y (by simp [KeyMaterial.ints]))
    have hna : ¬ (a.toNat = 1 ∨ a.toNat = 2 ∨ a.toNat = 3) := by omega
    have hna' : ¬ (a.toNat = 16 ∨ a.toNat = 20) := by omega
    simp only [PubKey.publicContent, mkPubKey, byteOf_toNat, hd, except_bind_ok, except_pure, if_neg hna, if_neg hna', if_pos ha, mpiOpt, h1, h2, h3,
      h4, h5, KeyMaterial.ints, List.map_cons, List.map_nil, List.flatten_cons, List.flatten_nil]
    simp

theorem mpiToInt_loose {i : Nat} {b : Bytes} (h : LooseMpi i b) {data s : Bytes} {off : Nat} (hd : data.drop off = b ++ s) :
    mpiToInt data off = .ok (i, off + b.length) := by
  obtain ⟨bits, body, h1, h2, h3, rfl⟩ := h
  rw [List.append_assoc, ← intTo2byte_eq] at hd
  unfold mpiToInt mpiLength
  rw [shortToInt_of_drop hd, Nat.mod_eq_of_lt h1]
  simp only [except_bind_ok, except_pure]
  have h4 : ceil8 bits = body.length := h2.symm
  rw [h4, bytesToInt_of_drop (drop_add_of_drop' (n := 2) hd rfl) rfl, h3]
  simp only [except_bind_ok, List.length_append, beBytes_length, Nat.add_assoc]

theorem looseKey_parse {v a : UInt8} {t : Bytes} {m : KeyMaterial} {c : Bytes} (h : LooseKey v a t m c) (rest : Bytes) :
    parsePubKey (c ++ rest) = .ok (c.length, mkPubKey v.toNat (beNat t) a.toNat none m) := by
  obtain ⟨hv, ht, ha, bs, hb, rfl⟩ := h
  generalize hdat : v :: t ++ a :: bs.flatten ++ rest = data
  have d0 : data.drop 0 = v :: (t ++ (a :: (bs.flatten ++ rest))) := by rw [← hdat]; simp
  have d1 := drop_succ_of_drop d0
  have d5 : data.drop 5 = a :: (bs.flatten ++ rest) := drop_add_of_drop' d1 (n := 4) ht.symm
  have d6 : data.drop 6 = bs.flatten ++ rest := drop_succ_of_drop d5
  have c0 := idx_of_drop d0
  have c1 : longToInt data 1 = .ok (beNat t) := bytesToInt_of_drop d1 ht.symm
  have c5 := idx_of_drop d5
  have hd : readDays data v = .ok (none, 5) := by
    unfold readDays
    have h2 : ¬ (v = 2 ∨ v = 3) := by rintro (rfl | rfl) <;> exact absurd hv (by decide)
    rw [if_neg h2, if_pos (by rw [ge_iff_le, UInt8.le_iff_toNat_le]; exact hv)]; rfl
  have hlen : (v :: t ++ a :: bs.flatten).length = 6 + bs.flatten.length := by simp [ht]; omega
  rw [hlen]
  cases m with
  | rsa n e =>
    simp only [KeyMaterial.fits] at ha
    have ha' : a = 1 ∨ a = 2 ∨ a = 3 := by
      rcases ha with h | h | h
      · exact .inl (UInt8.toNat_inj.mp h)
      · exact .inr (.inl (UInt8.toNat_inj.mp h))
      · exact .inr (.inr (UInt8.toNat_inj.mp h))
    cases hb with | cons h1 hb => cases hb with | cons h2 hb => cases hb; (
      rename_i b1 b2
      simp only [List.flatten_cons, List.flatten_nil, List.append_nil, List.append_assoc] at d6 ⊢
      have p1 := mpiToInt_loose h1 d6
      have p2 := mpiToInt_loose h2 (drop_add_of_drop d6)
      simp only [parsePubKey, c0, c1, c5, hd, except_bind_ok, if_pos ha', p1, p2, except_pure, mkPubKey, List.length_append, ← Nat.add_assoc])
  | elgamal p g y =>
    simp only [KeyMaterial.fits] at ha
    have ha' : a = 16 ∨ a = 20 := by
      rcases ha with h | h
      · exact .inl (UInt8.toNat_inj.mp h)
      · exact .inr (UInt8.toNat_inj.mp h)
    have hna : ¬ (a = 1 ∨ a = 2 ∨ a = 3) := by rcases ha' with rfl | rfl <;> decide
    cases hb with | cons h1 hb => cases hb with | cons h2 hb => cases hb with | cons h3 hb => cases hb; (
      rename_i b1 b2 b3
      simp only [List.flatten_cons, List.flatten_nil, List.append_nil, List.append_assoc] at d6 ⊢
      have p1 := mpiToInt_loose h1 d6
      have q2 := drop_add_of_drop d6
      have p2 := mpiToInt_loose h2 q2
      have p3 := mpiToInt_loose h3 (drop_add_of_drop q2)
      simp only [parsePubKey, c0, c1, c5, hd, except_bind_ok, if_neg hna, if_pos ha', p1, p2, p3, except_pure, mkPubKey, List.length_append, ← Nat.add_assoc])
  | dsa p q g y =>
    simp only [KeyMaterial.fits] at ha
    have ha' : a = 17 := UInt8.toNat_inj.mp ha
    subst ha'
    cases hb with | cons h1 hb => cases hb with | cons h2 hb => cases hb with | cons h3 hb => cases hb with | cons h4 hb => cases hb; (
      rename_i b1 b2 b3 b4
      simp only [List.flatten_cons, List.flatten_nil, List.append_nil, List.append_assoc] at d6 ⊢
      have p1 := mpiToInt_loose h1 d6
      have q2 := drop_add_of_drop d6
      have p2 := mpiToInt_loose h2 q2
      have q3 := drop_add_of_drop q2
      have p3 := mpiToInt_loose h3 q3
      have p4 := mpiToInt_loose h4 (drop_add_of_drop q3)
      have n1 : ¬ ((17 : UInt8) = 1 ∨ (17 : UInt8) = 2 ∨ (17 : UInt8) = 3) := by decide
      have n2 : ¬ ((17 : UInt8) = 16 ∨ (17 : UInt8) = 20) := by decide
      simp only [parsePubKey, c0, c1, c5, hd, except_bind_ok, if_neg n1, if_neg n2, if_true, p1, p2, p3, p4, except_pure, mkPubKey, List.length_append, ← Nat.add_assoc])

theorem looseMpi_mpi {i : Nat} (h : i < 2 ^ 65535) : LooseMpi i (mpi i) := by
  have hb : bitLen i < 65536 := by
    unfold bitLen
    split
    · omega
    · rename_i h0
      have : Nat.log2 i < 65535 := (Nat.log2_lt h0).mpr h
      omega
  refine ⟨bitLen i, beBytes (octetsFor (bitLen i)) i, hb, beBytes_length _ _, ?_, rfl⟩
  rw [beNat_beBytes, Nat.mod_eq_of_lt]
  by_cases h0 : i = 0
  · subst h0; exact Nat.pow_pos (by decide)
  · have : bitLen i = Nat.log2 i + 1 := by simp [bitLen, h0]
    rw [this]
    exact lt_pow_ceil8 log2_lt_pow

/-- The public part of a key packet is written with exact bit counts. -/
def KeyPart (fl : Nat → Nat) (good : Nat → Prop) : KBody → Prop
  | .key _ _ k _ => ∃ c, k.publicContent fl = .ok c ∧ KeyWire good c
  | _ => True

/-- What a packet content stands for: it is read as the body, and the body is written with the same octets. -/
def Stands (magic : Bytes → Str) (fl : Nat → Nat) (good : Nat → Prop) (type : Nat) (c : Bytes) (b : KBody) : Prop :=
  (∀ f, readBody ⟨f, type, c⟩ = .ok b) ∧ b.content fl = .ok c ∧ b.type = type ∧ Modern magic b ∧ KeyPart fl good b

def GoodInts (fl : Nat → Nat) (good : Nat → Prop) : Prop := ∀ i, good i → LogRoom fl i ∧ (0 < i → fl i = Nat.log2 i)

theorem keyWire_parse {fl : Nat → Nat} {good : Nat → Prop} (hg : GoodInts fl good) {c : Bytes} (h : KeyWire good c) :
    ∃ k, (∀ rest, parsePubKey (c ++ rest) = .ok (c.length, k)) ∧ k.publicContent fl = .ok c ∧ k.expirationDays = none ∧ 4 ≤ k.version := by
  obtain ⟨v, a, t, m, hv, ht, ha, hm, rfl⟩ := h
  have hd : daysBytes v.toNat none = .ok [] := by
    unfold daysBytes; rw [if_neg (by omega)]
  have hc := publicContent_wire (fl := fl) ht hd ha (fun i hi => (hg i (hm i hi)).2)
  rw [List.append_nil] at hc
  have hlt : beNat t < 2 ^ 32 := by have := beNat_lt t; rw [ht] at this; omega
  obtain ⟨e, h1, h2⟩ := pubKey_roundtrip (fl := fl) (created := beNat t) (.inr ⟨hv, v.toNat_lt, rfl⟩) hlt ha
    (fun i hi => (hg i (hm i hi)).1)
  rw [hc] at h1
  cases h1
  exact ⟨_, h2, hc, by cases m <;> rfl, by cases m <;> exact hv⟩

theorem keyWire_stands {magic : Bytes → Str} {fl : Nat → Nat} {good : Nat → Prop} (hg : GoodInts fl good) {c : Bytes} (h : KeyWire good c)
    (sub : Bool) : ∃ k, Stands magic fl good (if sub then 14 else 6) c (.key false sub k none) ∧ 4 ≤ k.version := by
  obtain ⟨k, h1, h2, h3, h4⟩ := keyWire_parse hg h
  have h1 := h1 []
  rw [List.append_nil] at h1
  refine ⟨k, ⟨fun f => ?_, ?_, by cases sub <;> rfl, h3, _, h2, h⟩, h4⟩
  · unfold readBody
    cases sub <;> simp [h1]
  · simp only [KBody.content, h2]

theorem sigWire_stands {magic : Bytes → Str} {fl : Nat → Nat} {good : Nat → Prop} (hg : GoodInts fl good) {c : Bytes} {types : List Nat}
    (h : SigWire good c ∧ ∃ t ∈ types, c[1]? = some (UInt8.ofNat t)) (hs : ∀ t ∈ types, t < 256) :
    ∃ s, Stands magic fl good 2 c (.sig s) ∧ s.sigType ∈ types := by
  obtain ⟨h, t, ht, hc⟩ := h
  cases h with
  | mk hh hu lh lu hv =>
    rename_i t' p h x y hashed unhashed values
    obtain ⟨hs', h1, h2⟩ := subsWire_ok hg hh
    obtain ⟨us, h3, h4⟩ := subsWire_ok hg hu
    have hok : SigOk fl (.v4 4 t'.toNat p.toNat h.toNat hs' us [x, y] (values.map some)) :=
      .v4 (uint8_lt t') (uint8_lt p) (uint8_lt h) h1 h3 ⟨_, h2, lh⟩ ⟨_, h4, lu⟩ rfl fun i hi => (hg i (hv i hi)).1
    have hcont : Sig.content fl (.v4 4 t'.toNat p.toNat h.toNat hs' us [x, y] (values.map some)) =
        .ok ([4, t', p, h] ++ beBytes 2 hashed.length ++ hashed ++ beBytes 2 unhashed.length ++ unhashed ++ [x, y] ++ (values.map mpi).flatten) := by
      rw [Sig.content, byteOf_lt (show 4 < 256 by decide), h2, h4, sigValues_mpis fun i hi => (hg i (hv i hi)).2]
      simp only [byteOf_toNat, except_bind_ok, except_pure, intTo2byte_eq]
      rfl
    obtain ⟨e, h5, h6⟩ := sigOk_write hok
    rw [hcont] at h5
    cases h5
    refine ⟨.v4 4 t'.toNat p.toNat h.toNat hs' us [x, y] (values.map some), ⟨fun f => ?_, hcont, rfl, trivial, trivial⟩, ?_⟩
    · simp only [readBody, h6]; rfl
    · show t'.toNat ∈ types
      simp only [List.append_assoc, List.cons_append, List.getElem?_cons_succ, List.getElem?_cons_zero, Option.some.injEq] at hc
      rw [hc, toNat_ofNat_lt (hs t ht)]
      exact ht

theorem uid_stands {magic : Bytes → Str} {fl : Nat → Nat} {good : Nat → Prop} {c : Bytes} (h : Utf8 c) : ∃ s, Stands magic fl good 13 c (.uid s) := by
  obtain ⟨s, rfl⟩ := h
  refine ⟨s, fun f => ?_, rfl, rfl, trivial, trivial⟩
  simp only [readBody, userIdParse, utf8DecodeReplace_encode]; rfl

theorem imageWire_ok {magic : Bytes → Str} {b : Bytes} (h : ImageWire magic b) :
    ∃ a, Props.ImageOk a ∧ StdImage magic a ∧ a.toBytes = .ok b := by
  obtain ⟨l, d, f, hl, hf, rfl⟩ := h
  refine ⟨.image 1 16 (some f.toNat) d, ⟨rfl, rfl, ⟨_, rfl, f.toNat_lt⟩, newDefinite_le hl.1⟩, ⟨rfl, rfl, ?_⟩, ?_⟩
  · rcases hf with rfl | ⟨rfl, h⟩
    · exact .inl rfl
    · exact .inr ⟨rfl, h⟩
  · have hc : (AttrSub.image 1 16 (some f.toNat) d).content = .ok ([16, 0, 1, f] ++ List.replicate 12 0 ++ d) := by
      simp only [AttrSub.content, byteOf_lt (show 1 < 256 by omega), byteOf_toNat, except_bind_ok, except_pure]
      rfl
    have hlen : ([16, 0, 1, f] ++ List.replicate 12 0 ++ d).length + 1 = d.length + 17 := by simp
    simp only [AttrSub.toBytes, hc, except_bind_ok, hlen, shortest_written hl, AttrSub.type, byteOf_lt (show 1 < 256 by omega), except_pure]
    simp

theorem attrs_stands {magic : Bytes → Str} {fl : Nat → Nat} {good : Nat → Prop} {c : Bytes} (h : Cat (ImageWire magic) c) :
    ∃ as, Stands magic fl good 17 c (.attr as) := by
  obtain ⟨ps, hp, rfl⟩ := h
  have aux : ∀ ps : List Bytes, (∀ p ∈ ps, ImageWire magic p) → ∃ as : List AttrSub, (∀ a ∈ as, Props.ImageOk a ∧ StdImage magic a) ∧
      as.mapM AttrSub.toBytes = .ok ps := by
    intro ps
    induction ps with
    | nil => intro _; exact ⟨[], by simp, rfl⟩
    | cons p ps ih =>
      intro hp
      obtain ⟨as, h1, h2⟩ := ih (fun q hq => hp q (by simp [hq]))
      obtain ⟨a, h3, h4, h5⟩ := imageWire_ok (hp p (by simp))
      refine ⟨a :: as, ?_, by simp [h5, h2]⟩
      intro x hx
      rcases List.mem_cons.mp hx with rfl | hx
      exacts [⟨h3, h4⟩, h1 x hx]
  obtain ⟨as, h1, h2⟩ := aux ps hp
  have hc : attrsContent as = .ok ps.flatten := by simp only [attrsContent, h2, except_bind_ok, except_pure]
  obtain ⟨w, h3, h4⟩ := Props.C51_attributes_roundtrip as (fun a ha => (h1 a ha).1)
  rw [hc] at h3
  cases h3
  refine ⟨as, fun f => ?_, hc, rfl, fun a ha => (h1 a ha).2, trivial⟩
  simp only [readBody, h4]; rfl

/-! ### Sequences -/

/-- A framed packet and the packet object it is read as. -/
def Holds (magic : Bytes → Str) (F : HeaderFormat → Prop) (fl : Nat → Nat) (good : Nat → Prop) (r : RawPacket) (p : KPacket) : Prop :=
  readPacket r = .ok p ∧ p.raw fl none = .ok r ∧ F p.fmt ∧ Modern magic p.body ∧ Expressible r ∧ KeyPart fl good p.body

/-- Octets and the packet objects they stand for. -/
def Rep (magic : Bytes → Str) (F : HeaderFormat → Prop) (fl : Nat → Nat) (good : Nat → Prop) (b : Bytes) (ps : List KPacket) : Prop :=
  ∃ rs es, List.Forall₂ (Holds magic F fl good) rs ps ∧ rs.mapM (Packet.toBytes 1) = .ok es ∧ es.flatten = b

theorem rep_nil {magic : Bytes → Str} {F : HeaderFormat → Prop} {fl : Nat → Nat} {good : Nat → Prop} : Rep magic F fl good [] [] := ⟨[], [], .nil, rfl, rfl⟩

theorem mapM_append_ok {α β : Type} {f : α → Py β} : ∀ {a b : List α} {x y : List β}, a.mapM f = .ok x → b.mapM f = .ok y →
    (a ++ b).mapM f = .ok (x ++ y) := by
  intro a
  induction a with
  | nil => intro b x y h h'; cases h; exact h'
  | cons q a ih =>
    intro b x y h h'
    rw [List.mapM_cons] at h
    obtain ⟨v, h1, h⟩ := except_bind_eq_ok.mp h
    obtain ⟨w, h2, h⟩ := except_bind_eq_ok.mp h
    cases h
    rw [List.cons_append, List.mapM_cons, h1, ih h2 h']
    rfl

theorem forall₂_app {α β : Type} {R : α → β → Prop} : ∀ {a : List α} {b : List β} {c : List α} {d : List β}, List.Forall₂ R a b →
    List.Forall₂ R c d → List.Forall₂ R (a ++ c) (b ++ d) := by
  intro a b c d h h'
  induction h with
  | nil => exact h'
  | cons hx _ ih => exact .cons hx ih

theorem rep_append {magic : Bytes → Str} {F : HeaderFormat → Prop} {fl : Nat → Nat} {good : Nat → Prop} {b b' : Bytes} {ps ps' : List KPacket}
    (h : Rep magic F fl good b ps) (h' : Rep magic F fl good b' ps') : Rep magic F fl good (b ++ b') (ps ++ ps') := by
  obtain ⟨rs, es, h1, h2, rfl⟩ := h
  obtain ⟨rs', es', h1', h2', rfl⟩ := h'
  exact ⟨rs ++ rs', es ++ es', forall₂_app h1 h1', mapM_append_ok h2 h2', by simp⟩

theorem packet_rep {magic : Bytes → Str} {F : HeaderFormat → Prop} {fl : Nat → Nat} {good : Nat → Prop} {type : Nat} {C : Bytes → Prop} {Q : KBody → Prop}
    (hC : ∀ c, C c → ∃ b, Stands magic fl good type c b ∧ Q b) {b : Bytes} (h : PacketOf F type C b) :
    ∃ p, Rep magic F fl good b [p] ∧ Q p.body := by
  obtain ⟨f, hd, c, hf, hc, hh, rfl⟩ := h
  obtain ⟨body, ⟨h1, h2, h3, h4, h7⟩, hq⟩ := hC c hc
  obtain ⟨h5, h6⟩ := header_written hh
  refine ⟨⟨f, body⟩, ⟨[⟨f, type, c⟩], [hd ++ c], .cons ⟨?_, ?_, hf, h4, h6, h7⟩ .nil, ?_, by simp⟩, hq⟩
  · simp only [readPacket, h1, except_bind_ok, except_pure]
  · simp only [KPacket.raw, h2, except_bind_ok, except_pure, h3, Option.getD_none]
  · simp [h5]

theorem cat_rep {magic : Bytes → Str} {F : HeaderFormat → Prop} {fl : Nat → Nat} {good : Nat → Prop} {P : Bytes → Prop} {Q : List KBody → Prop}
    (hP : ∀ b, P b → ∃ ps, Rep magic F fl good b ps ∧ Q (ps.map KPacket.body)) {b : Bytes} (h : Cat P b) :
    ∃ ps, Rep magic F fl good b ps ∧ Groups Q (ps.map KPacket.body) := by
  obtain ⟨bs, hb, rfl⟩ := h
  induction bs with
  | nil => exact ⟨[], rep_nil, [], rfl, by simp⟩
  | cons x bs ih =>
    obtain ⟨ps, h1, gs, h2, h3⟩ := ih (fun q hq => hb q (by simp [hq]))
    obtain ⟨ps', h4, h5⟩ := hP x (hb x (by simp))
    refine ⟨ps' ++ ps, by rw [List.flatten_cons]; exact rep_append h4 h1, ps'.map KPacket.body :: gs, by simp [h2], ?_⟩
    intro g hg
    rcases List.mem_cons.mp hg with rfl | hg
    exacts [h5, h3 g hg]

theorem sigs_rep {magic : Bytes → Str} {F : HeaderFormat → Prop} {fl : Nat → Nat} {good : Nat → Prop} (hg : GoodInts fl good) {types : List Nat}
    (ht : ∀ t ∈ types, t < 256) {b : Bytes} (h : Cat (SigPacket F good types) b) :
    ∃ ps, Rep magic F fl good b ps ∧ ∀ p ∈ ps.map KPacket.body, SigOf types p := by
  obtain ⟨ps, h1, gs, h2, h3⟩ := cat_rep (magic := magic) (fl := fl) (good := good) (Q := fun l => ∀ p ∈ l, SigOf types p) (fun b hb => by
    obtain ⟨p, h1, h2⟩ := packet_rep (magic := magic) (fl := fl) (good := good) (Q := SigOf types) (fun c hc => by
      obtain ⟨s, h1, h2⟩ := sigWire_stands (magic := magic) hg hc ht
      exact ⟨_, h1, h2⟩) hb
    exact ⟨[p], h1, by simpa using h2⟩) h
  refine ⟨ps, h1, fun p hp => ?_⟩
  rw [h2] at hp
  obtain ⟨g, hg', hp⟩ := List.mem_flatten.mp hp
  exact h3 g hg' p hp

theorem sigRun_of {types : List Nat} {l : List KBody} (h : ∀ p ∈ l, SigOf types p) (a : Bool) : SigRun types a l :=
  ⟨fun p hp => .inl (h p hp), fun _ p t e => by
    have := h p (by rw [e]; simp)
    intro hp
    cases p <;> first | exact hp | exact this⟩

theorem certified_rep {magic : Bytes → Str} {F : HeaderFormat → Prop} {fl : Nat → Nat} {good : Nat → Prop} (hg : GoodInts fl good)
    {P : Bytes → Prop} {Q : KBody → Prop} (hP : ∀ b, P b → ∃ p, Rep magic F fl good b [p] ∧ Q p.body) {b : Bytes} (h : Certified F good P b) :
    ∃ ps, Rep magic F fl good b ps ∧ ∃ x body, ps.map KPacket.body = x :: body ∧ Q x ∧ SigRun certTypes false body := by
  obtain ⟨a, s, h1, h2, rfl⟩ := h
  obtain ⟨p, h3, h4⟩ := hP a h1
  obtain ⟨ps, h5, h6⟩ := sigs_rep (magic := magic) hg (by decide) h2
  exact ⟨p :: ps, rep_append h3 h5, p.body, ps.map KPacket.body, rfl, h4, sigRun_of h6 false⟩

theorem file_rep_of {magic : Bytes → Str} {F : HeaderFormat → Prop} {fl : Nat → Nat} {good : Nat → Prop} (hg : GoodInts fl good) {b : Bytes}
    (secret : Bool) {primary sub : Nat} {K : Bytes → Prop}
    (hK : ∀ isSub c, K c → ∃ k priv, Stands magic fl good (if isSub then sub else primary) c (.key secret isSub k priv) ∧ 4 ≤ k.version)
    (h : KeyFileOf primary sub K magic F good b) : ∃ ps, Rep magic F fl good b ps ∧ KeySequence secret (ps.map KPacket.body) := by
  obtain ⟨k, d, u, a, s, hk, hd, hu, ha, hs, rfl⟩ := h
  obtain ⟨pk, rk, ⟨k', priv, ek, vk⟩⟩ := packet_rep (magic := magic) (fl := fl) (good := good) (Q := fun b => ∃ k' priv, b = .key secret false k' priv ∧ 4 ≤ k'.version)
    (fun c hc => by
      obtain ⟨k', priv, h1, h2⟩ := hK false c hc
      exact ⟨_, h1, k', priv, rfl, h2⟩) hk
  obtain ⟨pd, rd, qd⟩ := sigs_rep (magic := magic) hg (by decide) hd
  obtain ⟨pu, ru, qu⟩ := cat_rep (Q := UidGroup) (fun b hb => by
    obtain ⟨ps, h1, x, body, h2, ⟨s, rfl⟩, h3⟩ := certified_rep (magic := magic) (Q := fun b => ∃ s, b = .uid s) hg (fun b hb =>
      packet_rep (Q := fun b => ∃ s, b = .uid s) (fun c hc => by
        obtain ⟨s, h1⟩ := uid_stands (magic := magic) (fl := fl) (good := good) hc
        exact ⟨_, h1, s, rfl⟩) hb) hb
    exact ⟨ps, h1, s, body, h2, h3⟩) hu
  obtain ⟨pa, ra, qa⟩ := cat_rep (Q := AttrGroup) (fun b hb => by
    obtain ⟨ps, h1, x, body, h2, ⟨s, rfl⟩, h3⟩ := certified_rep (magic := magic) (Q := fun b => ∃ s, b = .attr s) hg (fun b hb =>
      packet_rep (Q := fun b => ∃ s, b = .attr s) (fun c hc => by
        obtain ⟨s, h1⟩ := attrs_stands (magic := magic) (fl := fl) (good := good) hc
        exact ⟨_, h1, s, rfl⟩) hb) hb
    exact ⟨ps, h1, s, body, h2, h3⟩) ha
  obtain ⟨ps, rs, qs⟩ := cat_rep (Q := SubGroup secret) (fun b hb => by
    obtain ⟨x, y, z, h1, h2, h3, rfl⟩ := hb
    obtain ⟨p, h4, k', priv', h5⟩ := packet_rep (magic := magic) (fl := fl) (good := good) (Q := fun b => ∃ k' priv, b = .key secret true k' priv) (fun c hc => by
      obtain ⟨k', priv, h1, h2⟩ := hK true c hc
      exact ⟨_, h1, k', priv, rfl⟩) h1
    have h23 : Cat (SigPacket F good [0x18]) (y ++ z) := by
      obtain ⟨l, hl, rfl⟩ := h3
      refine ⟨y :: l, ?_, rfl⟩
      intro q hq
      rcases List.mem_cons.mp hq with rfl | hq
      exacts [h2, hl q hq]
    obtain ⟨q, h6, h7⟩ := sigs_rep (magic := magic) hg (by decide) h23
    refine ⟨p :: q, rep_append h4 h6, k', priv', q.map KPacket.body, by simp [h5], ?_, sigRun_of h7 false⟩
    rintro hq
    obtain ⟨r', es, h8, h9, h10⟩ := h6
    rw [List.map_eq_nil_iff] at hq
    subst hq
    cases h8
    cases h9
    obtain ⟨f, hd, c, -, hc, hh, rfl⟩ := h2
    cases hc.1
    simp at h10) hs
  refine ⟨pk :: (pd ++ pu ++ pa ++ ps), ?_, ?_⟩
  · have := rep_append rk (rep_append (rep_append (rep_append rd ru) ra) rs)
    simpa using this
  · refine ⟨k', priv, _, _, _, _, by simp only [List.map_cons, ek, List.map_append], ⟨sigRun_of qd false, ?_⟩, qu, qa, qs, fun h => by omega⟩
    intro a p b e hp
    refine ⟨rfl, fun q hq ht => ?_⟩
    have := qd q (by rw [e]; simp [hq])
    cases q <;> first | exact ht | exact this

theorem file_rep {magic : Bytes → Str} {F : HeaderFormat → Prop} {fl : Nat → Nat} {good : Nat → Prop} (hg : GoodInts fl good) {b : Bytes}
    (h : PublicKeyFile magic F good b) : ∃ ps, Rep magic F fl good b ps ∧ KeySequence false (ps.map KPacket.body) :=
  file_rep_of hg false (fun isSub c hc => by
    obtain ⟨k, h1, h2⟩ := keyWire_stands (magic := magic) hg hc isSub
    exact ⟨k, none, h1, h2⟩) h

end Pgp
