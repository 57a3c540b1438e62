import Verif.Spec.PacketWire
import Verif.Props.SessionKey
import Verif.Props.SecretKey
import Verif.Props.SigWire
import Verif.Lemmas.KeyFile
import Verif.Lemmas.SigMeaning
/-
C87: the octets of every kind of packet content stand for what RFC 4880 says, for the reader and for the writer. (A round trip alone would also hold if both agreed on
another layout.)
-/
namespace Pgp.Props
open Pgp.Spec

/-- The object for a specifier: the count is the decoded one. -/
def specObj (sym : Nat) : Specifier → S2K
  | .simple h => .simple h.toNat sym
  | .salted h s => .salted h.toNat sym s
  | .iterated h s c => .iterated h.toNat sym s (countValue c.toNat)

theorem spec_read (sp : Specifier) (hw : sp.wellFormed) (sym : Nat) {data s : Bytes} {off : Nat} (hd : data.drop off = sp.octets ++ s) :
    parseS2k sym data off = .ok (specObj sym sp, off + sp.octets.length) := by
  cases sp with
  | simple h =>
    have hd : data.drop off = 0 :: h :: s := hd
    simp only [parseS2k, idx_of_drop hd, idx_of_drop (drop_succ_of_drop hd), except_bind_ok, if_true]
    rfl
  | salted h salt =>
    have hd : data.drop off = 1 :: h :: (salt ++ s) := hd
    have d1 := drop_succ_of_drop hd
    have d2 := drop_succ_of_drop d1
    simp only [parseS2k, idx_of_drop hd, idx_of_drop d1, slice_of_drop d2 (show off + 1 + 1 + 8 = off + 1 + 1 + salt.length by rw [hw]), except_bind_ok,
      if_neg (show ¬((1 : UInt8) = 0) by decide), if_true]
    show _ = Except.ok (specObj sym (.salted h salt), off + (salt.length + 1 + 1))
    rw [hw]; rfl
  | iterated h salt c =>
    have hd : data.drop off = 3 :: h :: (salt ++ (c :: s)) := by rw [hd]; simp [Specifier.octets]
    have d1 := drop_succ_of_drop hd
    have d2 := drop_succ_of_drop d1
    have d3 : data.drop (off + 1 + 1 + 8) = c :: s := drop_add_of_drop' d2 hw.symm
    simp only [parseS2k, idx_of_drop hd, idx_of_drop d1, slice_of_drop d2 (show off + 1 + 1 + 8 = off + 1 + 1 + salt.length by rw [hw]), idx_of_drop d3, except_bind_ok,
      if_neg (show ¬((3 : UInt8) = 0) by decide), if_neg (show ¬((3 : UInt8) = 1) by decide), if_true, s2kCountToInt_eq, except_pure]
    show _ = Except.ok (specObj sym (.iterated h salt c), off + ((salt ++ [c]).length + 1 + 1))
    rw [List.length_append, hw]; rfl

theorem spec_written (fl : Nat → Nat) (hl : LogOnCounts fl) (sp : Specifier) (sym : Nat) : (specObj sym sp).toBytes fl = .ok sp.octets := by
  cases sp with
  | simple h => simp only [specObj, S2K.toBytes, byteOf_toNat, except_bind_ok]; rfl
  | salted h s => simp only [specObj, S2K.toBytes, byteOf_toNat, except_bind_ok]; rfl
  | iterated h s c =>
    simp only [specObj, S2K.toBytes, byteOf_toNat, intToS2kCount_value hl c.toNat_lt, except_bind_ok, UInt8.ofNat_toNat]
    simp [Specifier.octets, except_pure]

/-- C87. String-to-key specifiers: type, hash algorithm, eight octets of salt, coded count `(16 + (c & 15)) << ((c >> 4) + 6)`. -/
theorem C87_specifier (fl : Nat → Nat) (hl : LogOnCounts fl) (sp : Specifier) (hw : sp.wellFormed) (sym : Nat) (pre post : Bytes) :
    parseS2k sym (pre ++ sp.octets ++ post) pre.length = .ok (specObj sym sp, pre.length + sp.octets.length) ∧ (specObj sym sp).toBytes fl = .ok sp.octets :=
  ⟨spec_read sp hw sym (by rw [List.append_assoc, List.drop_left]), spec_written fl hl sp sym⟩

example := C87_specifier Nat.log2 (fun _ _ _ => rfl) (.iterated 8 [1, 2, 3, 4, 5, 6, 7, 8] 0x60) rfl 9 [4, 9] [1, 2]

/-- C87. Public-key encrypted session keys: version, key id (eight octets, shown in hexadecimal), algorithm, encrypted integers. -/
theorem C87_public_key_session_key (v a : UInt8) (id d : Bytes) (hid : id.length = 8) :
    parsePkEsk (v :: id ++ a :: d) = .ok ⟨v.toNat, some (hexText id), a.toNat, d⟩ ∧
    (PkEsk.mk v.toNat (some (hexText id)) a.toNat d).content = .ok (v :: id ++ a :: d) := by
  rw [← hexOf_eq_hexText]
  generalize hd : v :: id ++ a :: d = data
  have d0 : data.drop 0 = v :: (id ++ (a :: d)) := by rw [← hd]; simp
  have d1 := drop_succ_of_drop d0
  have d9 : data.drop 9 = a :: d := drop_add_of_drop' d1 hid.symm
  have d10 : data.drop 10 = d := drop_succ_of_drop d9
  refine ⟨?_, ?_⟩
  · simp only [parsePkEsk, idx_of_drop d0, bytearrayToHex_of_drop d1 (show 16 = 2 * id.length by omega), idx_of_drop d9, d10, except_bind_ok, except_pure]
  · simp only [PkEsk.content, Option.getD_some, byteOf_toNat, hexToBytes_hexOf hid, except_bind_ok, except_pure]
    rw [← hd]; simp

example := C87_public_key_session_key 3 1 [1, 2, 3, 4, 5, 6, 7, 8] [0, 9, 1, 2] rfl

/-- C87. Symmetric-key encrypted session keys: version, cipher, specifier, encrypted key (if any) of one octet more than the cipher's key. -/
theorem C87_symmetric_session_key (fl : Nat → Nat) (hl : LogOnCounts fl) (v c : UInt8) (n : Nat) (hn : tableKeyOctets c.toNat = some n) (sp : Specifier) (hw : sp.wellFormed)
    (d : Bytes) (hd : d.length ≤ n + 1) :
    parseSkEsk (v :: c :: (sp.octets ++ d)) = .ok ⟨v.toNat, c.toNat, specObj c.toNat sp, some d⟩ ∧
    (SkEsk.mk v.toNat c.toNat (specObj c.toNat sp) (some d)).content fl = .ok (v :: c :: (sp.octets ++ d)) := by
  rw [← keyLengths_eq] at hn
  generalize he : v :: c :: (sp.octets ++ d) = data
  have d0 : data.drop 0 = v :: c :: (sp.octets ++ d) := by rw [← he]; rfl
  have d1 := drop_succ_of_drop d0
  have d2 := drop_succ_of_drop d1
  have d3 : data.drop (2 + sp.octets.length) = d := drop_add_of_drop d2
  refine ⟨?_, ?_⟩
  · simp only [parseSkEsk, idx_of_drop d0, idx_of_drop d1, spec_read sp hw c.toNat d2, except_bind_ok, hn, except_pure, slice, d3]
    rw [List.take_of_length_le (by omega)]
  · simp only [SkEsk.content, byteOf_toNat, spec_written fl hl, except_bind_ok, Option.getD_some, except_pure]
    rw [← he]; simp

example := C87_symmetric_session_key Nat.log2 (fun _ _ _ => rfl) 4 9 32 rfl (.iterated 8 [1, 2, 3, 4, 5, 6, 7, 8] 0x60) rfl [] (by decide)

/-- C87. One-pass signatures: version, signature type, hash algorithm, public-key algorithm, key id, flag. Written so; read so but for the key id, of which only the first
half is kept (refuted). -/
theorem C87_one_pass_partial (v t h a n : UInt8) (id : Bytes) (hid : id.length = 8) :
    (OnePass.mk v.toNat t.toNat h.toNat a.toNat (hexText id) n.toNat).content = .ok (v :: t :: h :: a :: (id ++ [n])) ∧
    parseOnePass (v :: t :: h :: a :: (id ++ [n])) = .ok ⟨v.toNat, t.toNat, h.toNat, a.toNat, hexText (id.take 4), n.toNat⟩ := by
  rw [← hexOf_eq_hexText, ← hexOf_eq_hexText]
  generalize he : v :: t :: h :: a :: (id ++ [n]) = data
  have d0 : data.drop 0 = v :: t :: h :: a :: (id ++ [n]) := by rw [← he]; rfl
  have d1 := drop_succ_of_drop d0
  have d2 := drop_succ_of_drop d1
  have d3 := drop_succ_of_drop d2
  have d4 := drop_succ_of_drop d3
  have d12 : data.drop 12 = [n] := drop_add_of_drop' d4 hid.symm
  have d4' : data.drop 4 = id.take 4 ++ (id.drop 4 ++ [n]) := by rw [d4, ← List.append_assoc, List.take_append_drop]
  have hl : (id.take 4).length = 4 := by rw [List.length_take]; omega
  refine ⟨?_, ?_⟩
  · have := extendInts_octets [v, t, h, a]
    simp only [List.map_cons, List.map_nil] at this
    simp only [OnePass.content, this, hexToBytes_hexOf hid, byteOf_toNat, except_bind_ok, except_pure]
    rw [← he]; simp
  · simp only [parseOnePass, idx_of_drop d0, idx_of_drop d1, idx_of_drop d2, idx_of_drop d3, bytearrayToHex_of_drop d4' (show 8 = 2 * (id.take 4).length by omega),
      idx_of_drop d12, except_bind_ok, except_pure]

example := C87_one_pass_partial 3 0 8 1 1 [1, 2, 3, 4, 5, 6, 7, 8] rfl

/-- C87. Literal data: format, length of the name, name, date (four octets), data. The data is given as octets, or for the format 't' as the characters with the codes of
the octets, for 'u' as the text in UTF-8. -/
theorem C87_literal (f n : UInt8) (name : List Char) (t body : Bytes) (hn : (utf8Encode name).length = n.toNat) (ht : t.length = 4) :
    (f ≠ 0x74 → f ≠ 0x75 → Literal.parse (f :: n :: (utf8Encode name ++ t ++ body)) = .ok ⟨f, name, .int (beNat t), .octets body⟩) ∧
    (Literal.parse (0x74 :: n :: (utf8Encode name ++ t ++ body)) = .ok ⟨0x74, name, .int (beNat t), .text (body.map fun x => Char.ofNat x.toNat)⟩) ∧
    (∀ s, body = utf8Encode s → Literal.parse (0x75 :: n :: (utf8Encode name ++ t ++ body)) = .ok ⟨0x75, name, .int (beNat t), .text s⟩) := by
  have main : ∀ g : UInt8, Literal.parse (g :: n :: (utf8Encode name ++ t ++ body)) =
      (litDecode g body >>= fun b => .ok ⟨g, name, .int (beNat t), b⟩) := by
    intro g
    generalize he : g :: n :: (utf8Encode name ++ t ++ body) = data
    have d0 : data.drop 0 = g :: n :: (utf8Encode name ++ (t ++ body)) := by rw [← he]; simp
    have d1 := drop_succ_of_drop d0
    have d2 := drop_succ_of_drop d1
    have d3 : data.drop (2 + n.toNat) = t ++ body := drop_add_of_drop' d2 hn.symm
    have d4 : data.drop (2 + n.toNat + 4) = body := drop_add_of_drop' d3 ht.symm
    have c3 : longToInt data (2 + n.toNat) = .ok (beNat t) := bytesToInt_of_drop d3 ht.symm
    simp only [Literal.parse, idx_of_drop d0, idx_of_drop d1, slice_of_drop d2 (show 2 + n.toNat = 0 + 1 + 1 + (utf8Encode name).length by omega), utf8DecodeReplace_encode, c3, d4,
      except_bind_ok]
    rfl
  refine ⟨fun h1 h2 => ?_, ?_, fun s hs => ?_⟩
  · rw [main, litDecode, if_neg h1, if_neg h2]; rfl
  · rw [main, litDecode, if_pos rfl]; rfl
  · rw [main, litDecode, if_neg (by decide), if_pos rfl, hs, utf8DecodeStrict_encode]; rfl

example := (C87_literal 0x62 3 "a.t".toList [0, 0, 1, 0] [104, 105] (by decide +kernel) rfl).1 (by decide) (by decide)

/-- C87. Literal data is written so, for names in ASCII. -/
theorem C87_literal_written (f : UInt8) (name : List Char) (ha : ∀ c ∈ name, c.toNat < 128) (hl : name.length ≤ 255) (t : Nat) (d : LitData) (body : Bytes)
    (hd : (f = 0x62 ∨ f = 0x6c ∨ f = 0x31) ∧ d = .octets body ∨ f = 0x75 ∧ (∃ s, d = .text s ∧ body = utf8Encode s) ∨
      f = 0x74 ∧ ∃ s : List Char, d = .text s ∧ (∀ c ∈ s, c.toNat < 256) ∧ body.map (fun x => Char.ofNat x.toNat) = s) :
    Literal.content ⟨f, name, .datetime t, d⟩ = .ok (f :: UInt8.ofNat name.length :: (utf8Encode name ++ beBytes 4 t ++ body)) := by
  have hb : byteOf name.length = .ok (UInt8.ofNat name.length) := byteOf_lt (by omega)
  have he : d.encode f = .ok body ∧ f ∈ ([0x6c, 0x31, 0x62, 0x74, 0x75] : Bytes) := by
    rcases hd with ⟨h, rfl⟩ | ⟨rfl, s, rfl, rfl⟩ | ⟨rfl, s, rfl, hs, hm⟩
    · rcases h with rfl | rfl | rfl <;> exact ⟨rfl, by decide⟩
    · exact ⟨rfl, by decide⟩
    · refine ⟨?_, by decide⟩
      rw [LitData.encode, if_pos rfl, ← hm, latin1Encode, List.map_map]
      congr 1
      conv => rhs; rw [← List.map_id body]
      apply List.map_congr_left
      intro x _
      have hx := x.toNat_lt
      have hv : (Char.ofNat x.toNat).toNat = x.toNat := toNat_char (.inl (by omega))
      show (if (Char.ofNat x.toNat).toNat < 256 then UInt8.ofNat (Char.ofNat x.toNat).toNat else 0x3f) = x
      rw [hv, if_pos hx, UInt8.ofNat_toNat]
  simp only [Literal.content, not_not.mpr he.2, if_false, hb, LitTime.timestamp, he.1, except_bind_ok, except_pure, intTo4byte_eq]

example := C87_literal_written 0x62 "a.t".toList (by decide +kernel) (by decide +kernel) 1000 (.octets [104, 105]) [104, 105] (.inl ⟨.inl rfl, rfl⟩)

/-- C87. Compressed data (algorithm, data), integrity protected data (version, data), user ids (UTF-8), modification detection codes (20 octets), trust (one octet)
and GnuPG's control packets (eight octets, control octet, data). -/
theorem C87_small_packets (x : UInt8) (d m : Bytes) (s : List Char) (hm : m.length = 8) (c : Bytes) (hc : c.length = 20) :
    (Compressed.parse (x :: d) = .ok ⟨x.toNat, d⟩ ∧ (Compressed.mk x.toNat d).content = .ok (x :: d)) ∧
    (Seipd.parse (x :: d) = .ok ⟨x.toNat, d⟩ ∧ (Seipd.mk x.toNat d).content = .ok (x :: d)) ∧
    (userIdParse (utf8Encode s) = s ∧ userIdContent s = utf8Encode s) ∧ (mdcParse c = .ok c ∧ mdcContent c = c) ∧
    (Trust.parse [x] = .ok ⟨x.toNat, none⟩ ∧ (Trust.mk x.toNat none).content = .ok [x]) ∧
    (GpgControl.parse (m ++ x :: d) = .ok ⟨m, x.toNat, d⟩ ∧ (GpgControl.mk m x.toNat d).content = .ok (m ++ x :: d)) := by
  have e : m ++ x :: d = (m ++ [x]) ++ d := by simp
  have d8 : (m ++ x :: d).drop 8 = x :: d := List.drop_left' hm
  refine ⟨⟨rfl, ?_⟩, ⟨rfl, ?_⟩, ⟨utf8DecodeReplace_encode s, rfl⟩, ⟨if_pos hc, rfl⟩, ⟨?_, ?_⟩, ?_, ?_⟩
  · simp only [Compressed.content, byteOf_toNat, except_bind_ok, except_pure]
  · simp only [Seipd.content, byteOf_toNat, except_bind_ok, except_pure]
  · have : ¬(x.toNat = 0 ∧ [x].length = 2) := fun h => absurd h.2 (show ¬(1 : Nat) = 2 by decide)
    simp only [Trust.parse, idx_of_drop (show [x].drop 0 = x :: [] from rfl), except_bind_ok, if_neg this, except_pure]
  · simp only [Trust.content, byteOf_toNat, except_bind_ok, except_pure]
  · simp only [GpgControl.parse, idx_of_drop d8, except_bind_ok, except_pure, List.take_left' hm]
    have d9 : (m ++ x :: d).drop 9 = d := drop_succ_of_drop d8
    rw [d9]
  · simp only [GpgControl.content, byteOf_toNat, except_bind_ok, except_pure, e]

example := C87_small_packets 2 [120, 156] (List.replicate 8 7) "Ä <a@b.c>".toList rfl (List.replicate 20 5) rfl

/-- C87. An image in a user attribute: type 1; the header of 16 octets (little-endian length, version 1, format, zeros); the image. Any other subpacket: its type, and
nothing of its content. -/
theorem C87_attribute (l d : Bytes) (f : UInt8) (hl : Shortest l (d.length + 17)) :
    attrsParse (l ++ 1 :: [16, 0, 1, f] ++ List.replicate 12 0 ++ d) = .ok [.image 1 16 (some f.toNat) d] ∧
    attrsContent [.image 1 16 (some f.toNat) d] = .ok (l ++ 1 :: [16, 0, 1, f] ++ List.replicate 12 0 ++ d) := by
  have hc : (AttrSub.image 1 16 (some f.toNat) d).content = .ok ([16, 0, 1, f] ++ List.replicate 12 0 ++ d) := by
    simp only [AttrSub.content, byteOf_lt (show 1 < 256 by omega), byteOf_toNat, except_bind_ok, except_pure]
    rfl
  have hw : attrsContent [.image 1 16 (some f.toNat) d] = .ok (l ++ 1 :: [16, 0, 1, f] ++ List.replicate 12 0 ++ d) := by
    have hlen : ([16, 0, 1, f] ++ List.replicate 12 0 ++ d).length + 1 = d.length + 17 := by simp
    have hb : (AttrSub.image 1 16 (some f.toNat) d).toBytes = .ok (l ++ 1 :: [16, 0, 1, f] ++ List.replicate 12 0 ++ d) := by
      simp only [AttrSub.toBytes, hc, except_bind_ok, hlen, shortest_written hl, AttrSub.type, byteOf_lt (show 1 < 256 by omega), except_pure]
      simp
    simp only [attrsContent, List.mapM_cons, List.mapM_nil, hb, except_bind_ok, except_pure, List.flatten_cons, List.flatten_nil, List.append_nil]
  refine ⟨?_, hw⟩
  obtain ⟨w, h1, h2⟩ := C51_attributes_roundtrip [.image 1 16 (some f.toNat) d] (by
    intro a ha
    cases List.mem_singleton.mp ha
    exact ⟨rfl, rfl, ⟨_, rfl, f.toNat_lt⟩, newDefinite_le hl.1⟩)
  rw [hw] at h1
  cases h1
  exact h2

example := C87_attribute [19] [0xff, 0xd8] 1 (shortest_one rfl (by decide))

/-- Reading the integers of a key that starts at the algorithm octet. -/
theorem key_read {v a : UInt8} {t dd : Bytes} {days : Option Nat} {m : KeyMaterial} {bs : List Bytes} (ht : t.length = 4) (ha : m.fits a.toNat)
    (hb : List.Forall₂ LooseMpi m.ints bs) (rest : Bytes)
    (hd : readDays (v :: t ++ dd ++ a :: bs.flatten ++ rest) v = .ok (days, 5 + dd.length)) :
    parsePubKey (v :: t ++ dd ++ a :: bs.flatten ++ rest) = .ok ((v :: t ++ dd ++ a :: bs.flatten).length, mkPubKey v.toNat (beNat t) a.toNat days m) := by
  have hlen : (v :: t ++ dd ++ a :: bs.flatten).length = 5 + dd.length + 1 + bs.flatten.length := by simp [ht]; omega
  rw [hlen]
  generalize hdat : v :: t ++ dd ++ a :: bs.flatten ++ rest = data at hd ⊢
  have d0 : data.drop 0 = v :: (t ++ (dd ++ a :: (bs.flatten ++ rest))) := by rw [← hdat]; simp
  have d1 := drop_succ_of_drop d0
  have d5' : data.drop 5 = dd ++ a :: (bs.flatten ++ rest) := drop_add_of_drop' d1 (n := 4) ht.symm
  have d5 : data.drop (5 + dd.length) = a :: (bs.flatten ++ rest) := drop_add_of_drop d5'
  have d6 : data.drop (5 + dd.length + 1) = bs.flatten ++ rest := drop_succ_of_drop d5
  have c0 := idx_of_drop d0
  have c1 : longToInt data 1 = .ok (beNat t) := bytesToInt_of_drop d1 ht.symm
  have c5 := idx_of_drop d5
  generalize 5 + dd.length = o at *
  cases m with
  | rsa n e =>
    simp only [KeyMaterial.fits] at ha
    have ha' : a = 1 ∨ a = 2 ∨ a = 3 := by
      rcases ha with h | h | h
      · exact .inl (UInt8.toNat_inj.mp h)
      · exact .inr (.inl (UInt8.toNat_inj.mp h))
      · exact .inr (.inr (UInt8.toNat_inj.mp h))
    cases hb with | cons h1 hb => cases hb with | cons h2 hb => cases hb; (
      rename_i b1 b2
      simp only [List.flatten_cons, List.flatten_nil, List.append_nil, List.append_assoc] at d6 ⊢
      have p1 := mpiToInt_loose h1 d6
      have p2 := mpiToInt_loose h2 (drop_add_of_drop d6)
      simp only [parsePubKey, c0, c1, c5, hd, except_bind_ok, if_pos ha', p1, p2, except_pure, mkPubKey, List.length_append, ← Nat.add_assoc])
  | elgamal p g y =>
    simp only [KeyMaterial.fits] at ha
    have ha' : a = 16 ∨ a = 20 := by
      rcases ha with h | h
      · exact .inl (UInt8.toNat_inj.mp h)
      · exact .inr (UInt8.toNat_inj.mp h)
    have hna : ¬ (a = 1 ∨ a = 2 ∨ a = 3) := by rcases ha' with rfl | rfl <;> decide
    cases hb with | cons h1 hb => cases hb with | cons h2 hb => cases hb with | cons h3 hb => cases hb; (
      rename_i b1 b2 b3
      simp only [List.flatten_cons, List.flatten_nil, List.append_nil, List.append_assoc] at d6 ⊢
      have p1 := mpiToInt_loose h1 d6
      have q2 := drop_add_of_drop d6
      have p2 := mpiToInt_loose h2 q2
      have p3 := mpiToInt_loose h3 (drop_add_of_drop q2)
      simp only [parsePubKey, c0, c1, c5, hd, except_bind_ok, if_neg hna, if_pos ha', p1, p2, p3, except_pure, mkPubKey, List.length_append, ← Nat.add_assoc])
  | dsa p q g y =>
    simp only [KeyMaterial.fits] at ha
    have ha' : a = 17 := UInt8.toNat_inj.mp ha
    subst ha'
    cases hb with | cons h1 hb => cases hb with | cons h2 hb => cases hb with | cons h3 hb => cases hb with | cons h4 hb => cases hb; (
      rename_i b1 b2 b3 b4
      simp only [List.flatten_cons, List.flatten_nil, List.append_nil, List.append_assoc] at d6 ⊢
      have p1 := mpiToInt_loose h1 d6
      have q2 := drop_add_of_drop d6
      have p2 := mpiToInt_loose h2 q2
      have q3 := drop_add_of_drop q2
      have p3 := mpiToInt_loose h3 q3
      have p4 := mpiToInt_loose h4 (drop_add_of_drop q3)
      have n1 : ¬ ((17 : UInt8) = 1 ∨ (17 : UInt8) = 2 ∨ (17 : UInt8) = 3) := by decide
      have n2 : ¬ ((17 : UInt8) = 16 ∨ (17 : UInt8) = 20) := by decide
      simp only [parsePubKey, c0, c1, c5, hd, except_bind_ok, if_neg n1, if_neg n2, if_true, p1, p2, p3, p4, except_pure, mkPubKey, List.length_append, ← Nat.add_assoc])

/-- The octets of the validity period: two for versions 2 and 3, none from version 4 on. -/
def DaysOctets (v : UInt8) (days : Option Nat) (dd : Bytes) : Prop :=
  (v = 2 ∨ v = 3) ∧ dd.length = 2 ∧ days = some (beNat dd) ∨ 4 ≤ v.toNat ∧ dd = [] ∧ days = none

/-- C87. Public keys: version, creation time (four octets), for versions 2 and 3 the days of validity (two octets), algorithm, and the integers: n and e for RSA (1, 2, 3);
p, g and y for ElGamal (16, 20); p, q, g and y for DSA (17). Each is a bit count of two octets and the octets for that many bits. -/
theorem C87_public_key (v a : UInt8) (t dd : Bytes) (days : Option Nat) (m : KeyMaterial) (bs : List Bytes) (ht : t.length = 4) (hd : DaysOctets v days dd)
    (ha : m.fits a.toNat) (hb : List.Forall₂ LooseMpi m.ints bs) (rest : Bytes) :
    ∃ k, parsePubKey (v :: t ++ dd ++ a :: bs.flatten ++ rest) = .ok ((v :: t ++ dd ++ a :: bs.flatten).length, k) ∧ k.version = v.toNat ∧ k.creationTime = beNat t ∧
      k.expirationDays = days ∧ k.algorithm = a.toNat ∧
      (∀ n e, m = .rsa n e → k.modulus = some n ∧ k.exponent = some e) ∧
      (∀ p g y, m = .elgamal p g y → k.prime = some p ∧ k.groupGenerator = some g ∧ k.keyValue = some y) ∧
      (∀ p q g y, m = .dsa p q g y → k.prime = some p ∧ k.groupOrder = some q ∧ k.groupGenerator = some g ∧ k.keyValue = some y) := by
  refine ⟨mkPubKey v.toNat (beNat t) a.toNat days m, key_read ht ha hb rest ?_, ?_⟩
  · generalize hdat : v :: t ++ dd ++ a :: bs.flatten ++ rest = data
    have d1 : data.drop 1 = t ++ (dd ++ a :: (bs.flatten ++ rest)) := by rw [← hdat]; simp
    have d5 : data.drop 5 = dd ++ a :: (bs.flatten ++ rest) := drop_add_of_drop' d1 (n := 4) ht.symm
    rcases hd with ⟨hv, h2, rfl⟩ | ⟨hv, rfl, rfl⟩
    · have : shortToInt data 5 = .ok (beNat dd) := bytesToInt_of_drop d5 h2.symm
      simp only [readDays, if_pos hv, this, except_bind_ok, except_pure, h2]
    · have h2 : ¬ (v = 2 ∨ v = 3) := by rintro (rfl | rfl) <;> exact absurd hv (by decide)
      rw [readDays, if_neg h2, if_pos (by rw [ge_iff_le, UInt8.le_iff_toNat_le]; exact hv)]; rfl
  · cases m <;> refine ⟨rfl, rfl, rfl, rfl, ?_, ?_, ?_⟩ <;> intros <;> (rename_i h; cases h) <;> simp [mkPubKey]

example := C87_public_key 3 17 [0, 0, 1, 0] [1, 2] (some 258) (.dsa 23 11 4 9) [[0, 5, 23], [0, 4, 11], [0, 3, 4], [0, 4, 9]] rfl (.inl ⟨.inr rfl, rfl, rfl⟩) rfl
  (.cons ⟨5, [23], by decide, rfl, rfl, rfl⟩ (.cons ⟨4, [11], by decide, rfl, rfl, rfl⟩ (.cons ⟨3, [4], by decide, rfl, rfl, rfl⟩ (.cons ⟨4, [9], by decide, rfl, rfl, rfl⟩ .nil)))) []

/-- C87. Public keys are written so, with exact bit counts (given an exact logarithm). -/
theorem C87_public_key_written (fl : Nat → Nat) (v a : UInt8) (t dd : Bytes) (days : Option Nat) (m : KeyMaterial) (ht : t.length = 4) (hd : DaysOctets v days dd)
    (ha : m.fits a.toNat) (hg : ∀ i ∈ m.ints, 0 < i → fl i = Nat.log2 i) :
    (mkPubKey v.toNat (beNat t) a.toNat days m).publicContent fl = .ok (v :: t ++ dd ++ a :: (m.ints.map mpi).flatten) := by
  refine publicContent_wire ht ?_ ha hg
  unfold daysBytes
  rcases hd with ⟨hv, h2, rfl⟩ | ⟨hv, rfl, rfl⟩
  · rw [if_pos (by rcases hv with rfl | rfl <;> decide)]
    show Except.ok (intTo2byte (beNat dd)) = _
    rw [intTo2byte_eq, ← h2, beBytes_beNat]
  · rw [if_neg (by omega)]

example := C87_public_key_written Nat.log2 3 17 [0, 0, 1, 0] [1, 2] (some 258) (.dsa 23 11 4 9) rfl (.inl ⟨.inr rfl, rfl, rfl⟩) rfl (fun _ _ _ => rfl)

/-- C87. Secret keys: the octets of the public key, the usage octet (254: SHA-1 hash, 255: checksum), cipher, specifier, initial vector of one cipher block and the
encrypted private values. -/
theorem C87_secret_key (fl : Nat → Nat) (hl : LogOnCounts fl) (resealed : Py Bytes) (pk : Bytes) (k : PubKey) (hr : ∀ rest, parsePubKey (pk ++ rest) = .ok (pk.length, k))
    (hw : k.publicContent fl = .ok pk) (u c : UInt8) (hu : u = 254 ∨ u = 255) (sp : Specifier) (hs : sp.wellFormed) (bl : Nat) (hb : blockOctets c.toNat = some bl)
    (hc : c ≠ 0) (iv enc : Bytes) (hiv : iv.length = bl) (hn : enc ≠ []) :
    parseSecKey (pk ++ u :: c :: (sp.octets ++ iv ++ enc)) = .ok ⟨k, specObj c.toNat sp, c.toNat, iv, enc, u = 255, u = 254⟩ ∧
    (SecKey.mk k (specObj c.toNat sp) c.toNat iv enc (u = 255) (u = 254)).content fl resealed = .ok (pk ++ u :: c :: (sp.octets ++ iv ++ enc)) := by
  have hcn : c.toNat ≠ 0 := fun h => hc (UInt8.toNat_inj.mp h)
  rw [← blockLengths_eq] at hb
  have hu0 : ¬u = 0 := by rcases hu with rfl | rfl <;> decide
  refine ⟨?_, ?_⟩
  · have h0 := hr (u :: c :: (sp.octets ++ iv ++ enc))
    generalize hdat : pk ++ u :: c :: (sp.octets ++ iv ++ enc) = data at h0 ⊢
    have d0 : data.drop pk.length = u :: c :: (sp.octets ++ (iv ++ enc)) := by rw [← hdat, List.drop_left]; simp
    have d1 := drop_succ_of_drop d0
    have d2 := drop_succ_of_drop d1
    have d3 := drop_add_of_drop d2
    have d4 := drop_add_of_drop' d3 hiv.symm
    simp only [parseSecKey, h0, except_bind_ok, parseSecretPart, idx_of_drop d0, if_neg hu0, if_pos hu, idx_of_drop d1, spec_read sp hs c.toNat d2, secretTail, hb,
      slice_of_drop d3 (show _ + bl = _ + iv.length by rw [hiv]), d4]
  · have hue : (if decide (u = 255) = true then (255 : UInt8) else 254) = u := by rcases hu with rfl | rfl <;> decide
    simp only [SecKey.content, hw, SecKey.protection, byteOf_toNat, spec_written fl hl, except_bind_ok, except_pure, hue, if_pos hcn, if_pos hn]
    simp

example := C87_secret_key Nat.log2 (fun _ _ _ => rfl) (.error .typeError) ([4, 0, 0, 1, 0] ++ [] ++ 1 :: [[0, 12, 12, 161], [0, 5, 17]].flatten) (mkPubKey 4 256 1 none (.rsa 3233 17))
  (fun rest => key_read (v := 4) (a := 1) (t := [0, 0, 1, 0]) (dd := []) (m := .rsa 3233 17) rfl (.inl rfl)
    (.cons ⟨12, [12, 161], by decide, rfl, rfl, rfl⟩ (.cons ⟨5, [17], by decide, rfl, rfl, rfl⟩ .nil)) rest rfl)
  (by decide +kernel) 254 9 (.inl rfl) (.iterated 8 [1, 2, 3, 4, 5, 6, 7, 8] 0x60) rfl 16 rfl (by decide) (List.replicate 16 7) [1, 2, 3] rfl (by decide)

/-- C87. Signatures of versions 2 and 3: version, the octet 5, type, creation time, key id, public-key algorithm, hash algorithm, two octets of the hash, integers. All
is read so but the key id, of which only the first half is kept (refuted); none is written (C25). -/
theorem C87_signature_v3_partial (v t a h : UInt8) (hv : v = 2 ∨ v = 3) (c id h2 : Bytes) (hc : c.length = 4) (hid : id.length = 8) (hh : h2.length = 2) (l : List Nat) (bs : List Bytes)
    (hb : List.Forall₂ LooseMpi l bs) :
    parseSig (v :: 5 :: t :: (c ++ id ++ a :: h :: (h2 ++ bs.flatten))) =
      .ok (.v3 v.toNat t.toNat a.toNat h.toNat (beNat c) (hexText (id.take 4)) h2 (l.map some)) := by
  generalize hdat : v :: 5 :: t :: (c ++ id ++ a :: h :: (h2 ++ bs.flatten)) = data
  have d0 : data.drop 0 = v :: 5 :: t :: (c ++ (id ++ (a :: h :: (h2 ++ bs.flatten)))) := by rw [← hdat]; simp
  have d1 := drop_succ_of_drop d0
  have d2 := drop_succ_of_drop d1
  have d3 := drop_succ_of_drop d2
  have d7 : data.drop 7 = id ++ (a :: h :: (h2 ++ bs.flatten)) := drop_add_of_drop' d3 hc.symm
  have d15 : data.drop 15 = a :: h :: (h2 ++ bs.flatten) := drop_add_of_drop' d7 hid.symm
  have d16 := drop_succ_of_drop d15
  have d17 := drop_succ_of_drop d16
  have d19 : data.drop 19 = bs.flatten := drop_add_of_drop' d17 hh.symm
  have d7' : data.drop 7 = id.take 4 ++ (id.drop 4 ++ (a :: h :: (h2 ++ bs.flatten))) := by rw [d7, ← List.append_assoc, List.take_append_drop]
  have hl4 : (id.take 4).length = 4 := by rw [List.length_take]; omega
  have hlen : l.length ≤ data.length := by
    have h1 := loose_lengths hb
    have h3 := congrArg List.length d19
    rw [List.length_drop] at h3
    omega
  have hm : mpiLoop data data.length (17 + 2) = .ok l := mpiLoop_loose hb d19 hlen
  have c3 : longToInt data 3 = .ok (beNat c) := bytesToInt_of_drop d3 hc.symm
  rw [parseSig_eq, idx_of_drop d0]
  simp only [except_bind_ok]
  rw [if_pos hv]
  simp only [parseSigV3, idx_of_drop d1, if_neg (show ¬((5 : UInt8) ≠ 5) by decide), idx_of_drop d2, c3, bytearrayToHex_of_drop d7' (show 8 = 2 * (id.take 4).length by omega),
    idx_of_drop d15, idx_of_drop d16, sigTail, hm, slice_of_drop d17 (show 17 + 2 = 15 + 1 + 1 + h2.length by omega), except_bind_ok, except_pure, hexOf_eq_hexText]

example := C87_signature_v3_partial 3 0 1 8 (.inr rfl) [0, 0, 1, 0] [1, 2, 3, 4, 5, 6, 7, 8] [9, 9] rfl rfl rfl [23] [[0, 5, 23]] (.cons ⟨5, [23], by decide, rfl, rfl, rfl⟩ .nil)

end Pgp.Props
