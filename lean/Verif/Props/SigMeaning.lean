import Verif.Lemmas.SigMeaning
import Verif.Lemmas.Text
import Verif.Model.SigLists
import Verif.Props.SigWire
import Verif.Props.KeySigs
/-
Property theorems C85 (the attributes of a received signature are those its octets state) and C86 (what the unhashed area can change), and the part of
C42 about the values of key attributes.
-/
namespace Pgp.Props
open Pgp Pgp.Spec

theorem readBool_ok {c : Bytes} {b : Bool} (h : boolIs c b) : readBool c = .ok b := by
  rcases h with ⟨rfl, rfl⟩ | ⟨rfl, rfl⟩ <;> rfl

theorem readTime_ok {c : Bytes} (h : c.length = 4) : readTime c = .ok (beNat c) := by
  have : pyAssert (c.length == 4) = .ok () := by rw [h]; rfl
  unfold readTime
  rw [this, except_bind_ok]
  unfold longToInt
  exact bytesToInt_of_drop (s := []) (by simp) h.symm

theorem readFirst_ok (x : UInt8) (t : Bytes) : readFirst (x :: t) = .ok x := by
  have : pyAssert (decide ((x :: t).length > 0)) = .ok () := by simp [pyAssert]
  unfold readFirst
  rw [this, except_bind_ok]
  rfl

theorem readUri_ok {c : Bytes} (h : c ≠ []) : readUri c = .ok (utf8DecodeReplace c) := by
  have : pyAssert (decide (c.length > 0)) = .ok () := by simp [pyAssert, List.length_pos_iff.mpr h]
  unfold readUri
  rw [this, except_bind_ok]
  rfl

/-- The subpacket that states the value is read as one that has it. -/
theorem stated_plain {f : Field} (hf : f ≠ .revocable) {c : Bytes} {v : f.Val} (h : States f c v) :
    ∃ pl, parsePlain (attrCode f) c = .ok pl ∧ f.getattr pl = .ok v := by
  cases f with
  | exportable => exact ⟨.exportable v, by simp only [attrCode, parsePlain, readBool_ok h]; rfl, rfl⟩
  | revocable => exact absurd rfl hf
  | issuerUserId => cases h; exact ⟨.userId v, by simp only [attrCode, parsePlain, utf8DecodeStrict_encode]; rfl, rfl⟩
  | prefComp => cases h; exact ⟨.prefComp _, rfl, rfl⟩
  | prefHash => cases h; exact ⟨.prefHash _, rfl, rfl⟩
  | prefSym => cases h; exact ⟨.prefSym _, rfl, rfl⟩
  | noModify =>
    obtain ⟨x, t, rfl, rfl⟩ := h
    exact ⟨.keyServerPrefs (x.toNat.testBit 7), by simp only [attrCode, parsePlain, readFirst_ok]; rfl, rfl⟩
  | prefKeyServer =>
    obtain ⟨h1, rfl⟩ := h
    exact ⟨.prefKeyServer v, by simp only [attrCode, parsePlain, readUri_ok h1, utf8DecodeReplace_encode]; rfl, rfl⟩
  | primaryUserId => exact ⟨.primaryUserId v, by simp only [attrCode, parsePlain, readBool_ok h]; rfl, rfl⟩
  | policyUri =>
    obtain ⟨h1, rfl⟩ := h
    exact ⟨.policyUri v, by simp only [attrCode, parsePlain, readUri_ok h1, utf8DecodeReplace_encode]; rfl, rfl⟩
  | mdc =>
    obtain ⟨x, t, rfl, rfl⟩ := h
    exact ⟨.features (x.toNat.testBit 0), by simp only [attrCode, parsePlain, readFirst_ok]; rfl, rfl⟩
  | flag g =>
    obtain ⟨x, t, rfl, rfl⟩ := h
    refine ⟨.keyFlags (KeyFlags.ofOctet x), by simp only [attrCode, parsePlain, readFirst_ok]; rfl, ?_⟩
    cases g <;> rfl

theorem subType_code {f : Field} (hf : f ≠ .revocable) : f.subType = attrCode f := by cases f <;> first | rfl | exact absurd rfl hf

variable {t p h : UInt8} {hashed unhashed : List RawSub} {left : Bytes} {values : List Nat} {b : Bytes} {sig : Sig} {fmt : HeaderFormat} {s : SigObj}

/-- The first subpacket of a type in the object, given the first one in the octets. -/
theorem first_plain (hr : SigRaw t p h hashed unhashed left values b) (hp : parseSig b = .ok sig) (hs : SigObj.fromPacket fmt sig = .ok s) {ty : Nat} (h32 : ty ≠ 32)
    {c : Bytes} (hc : firstContent ty (hashed ++ unhashed) = some c) : ∃ k pl l, parsePlain ty c = .ok pl ∧ s.subs ty = .plain k pl :: l := by
  obtain ⟨r, rs, h1, rfl, rfl⟩ := firstContent_some hc
  have hf := subs_raw hr hp hs r.ty
  rw [h1] at hf
  obtain ⟨x, l, hx, _, e⟩ := List.forall₂_cons_left_iff.mp hf
  rw [readRaw_plain h32] at hx
  obtain ⟨pl, hv, hx⟩ := except_bind_eq_ok.mp hx
  cases hx
  exact ⟨_, pl, l, hv, e⟩

theorem first_absent (hr : SigRaw t p h hashed unhashed left values b) (hp : parseSig b = .ok sig) (hs : SigObj.fromPacket fmt sig = .ok s) {ty : Nat}
    (hc : firstContent ty (hashed ++ unhashed) = none) : s.subs ty = [] := by
  have hf := subs_raw hr hp hs ty
  rw [firstContent_none hc] at hf
  exact List.forall₂_nil_left_iff.mp hf

/-! ### A concrete signature -/

/-- A self-signature: created at 1, key flags certify and sign, ciphers 9 and 7, by a key id. -/
def exRawH : List RawSub := [⟨2, false, [0, 0, 0, 1]⟩, ⟨27, true, [3]⟩, ⟨11, false, [9, 7]⟩, ⟨3, false, [0, 0, 1, 0]⟩]
def exRawU : List RawSub := [⟨16, false, [1, 2, 3, 4, 5, 6, 7, 0xab]⟩]
def exRawHD : Bytes := (([5] ++ [UInt8.ofNat (2 + if false then 128 else 0)] ++ [0, 0, 0, 1]) ++ (([2] ++ [UInt8.ofNat (27 + if true then 128 else 0)] ++ [3]) ++
  (([255, 0, 0, 0, 3] ++ [UInt8.ofNat (11 + if false then 128 else 0)] ++ [9, 7]) ++ (([5] ++ [UInt8.ofNat (3 + if false then 128 else 0)] ++ [0, 0, 1, 0]) ++ []))))
def exRawUD : Bytes := ([9] ++ [UInt8.ofNat (16 + if false then 128 else 0)] ++ [1, 2, 3, 4, 5, 6, 7, 0xab]) ++ []
def exRaw : Bytes := [4, 0x13, 1, 8] ++ beBytes 2 exRawHD.length ++ exRawHD ++ beBytes 2 exRawUD.length ++ exRawUD ++ [5, 6] ++ [[0, 9, 1, 1]].flatten

theorem exRaw_ok : SigRaw 0x13 1 8 exRawH exRawU [5, 6] [257] exRaw := by
  refine ⟨exRawHD, exRawUD, [[0, 9, 1, 1]], ?_, ?_, by decide, by decide, rfl, ?_, rfl⟩
  · refine .cons (r := ⟨2, false, [0, 0, 0, 1]⟩) (NewDefinite.one _ (by decide)) (by decide) ?_
    refine .cons (r := ⟨27, true, [3]⟩) (NewDefinite.one _ (by decide)) (by decide) ?_
    refine .cons (r := ⟨11, false, [9, 7]⟩) ?_ (by decide) ?_
    · exact NewDefinite.five 0 0 0 3
    refine .cons (r := ⟨3, false, [0, 0, 1, 0]⟩) (NewDefinite.one _ (by decide)) (by decide) .nil
  · exact .cons (r := ⟨16, false, [1, 2, 3, 4, 5, 6, 7, 0xab]⟩) (NewDefinite.one _ (by decide)) (by decide) .nil
  · exact .cons ⟨9, [1, 1], by decide, by decide, by decide, by decide⟩ .nil

/-- It is read. -/
theorem exRaw_read : ∃ s, parseSig exRaw = .ok s ∧ ∃ o, SigObj.fromPacket .new s = .ok o := by
  rw [parseSig_raw exRaw_ok]
  exact ⟨_, rfl, _, rfl⟩

/-- The object read from it. -/
def exRawObj : SigObj := ⟨4, 0x13, 1, 8, none, none, [.plain false (.creationTime 1), .plain true (.keyFlags (KeyFlags.ofOctet 3)), .plain false (.prefSym [9, 7]),
  .plain false (.expiration 256)], [.plain false (.issuer "01020304050607AB".toList)], [5, 6], [some 257], .new⟩

theorem exRaw_obj : ∃ s, parseSig exRaw = .ok s ∧ SigObj.fromPacket .new s = .ok exRawObj := by
  rw [parseSig_raw exRaw_ok]
  exact ⟨_, rfl, rfl⟩

/-- The same with one more subpacket in the unhashed area: preferred hash 8, or an expiry after one second. -/
def exMoreUD : Bytes := ([9] ++ [UInt8.ofNat (16 + if false then 128 else 0)] ++ [1, 2, 3, 4, 5, 6, 7, 0xab]) ++ (([2] ++ [UInt8.ofNat (21 + if false then 128 else 0)] ++ [8]) ++ [])
def exMore : Bytes := [4, 0x13, 1, 8] ++ beBytes 2 exRawHD.length ++ exRawHD ++ beBytes 2 exMoreUD.length ++ exMoreUD ++ [5, 6] ++ [[0, 9, 1, 1]].flatten

theorem exMore_ok : SigRaw 0x13 1 8 exRawH (exRawU ++ [⟨21, false, [8]⟩]) [5, 6] [257] exMore := by
  refine ⟨exRawHD, exMoreUD, [[0, 9, 1, 1]], ?_, ?_, by decide, by decide, rfl, ?_, rfl⟩
  · refine .cons (r := ⟨2, false, [0, 0, 0, 1]⟩) (NewDefinite.one _ (by decide)) (by decide) ?_
    refine .cons (r := ⟨27, true, [3]⟩) (NewDefinite.one _ (by decide)) (by decide) ?_
    refine .cons (r := ⟨11, false, [9, 7]⟩) ?_ (by decide) ?_
    · exact NewDefinite.five 0 0 0 3
    refine .cons (r := ⟨3, false, [0, 0, 1, 0]⟩) (NewDefinite.one _ (by decide)) (by decide) .nil
  · exact .cons (r := ⟨16, false, [1, 2, 3, 4, 5, 6, 7, 0xab]⟩) (NewDefinite.one _ (by decide)) (by decide)
      (.cons (r := ⟨21, false, [8]⟩) (NewDefinite.one _ (by decide)) (by decide) .nil)
  · exact .cons ⟨9, [1, 1], by decide, by decide, by decide, by decide⟩ .nil

/-- A signature created at 1 that never expires, and the same with an expiry in the unhashed area. -/
def exPlainHD : Bytes := ([5] ++ [UInt8.ofNat (2 + if false then 128 else 0)] ++ [0, 0, 0, 1]) ++ []
def exExpiryUD : Bytes := ([5] ++ [UInt8.ofNat (3 + if false then 128 else 0)] ++ [0, 0, 0, 1]) ++ []
def exForever : Bytes := [4, 0x13, 1, 8] ++ beBytes 2 exPlainHD.length ++ exPlainHD ++ beBytes 2 ([] : Bytes).length ++ [] ++ [5, 6] ++ ([] : List Bytes).flatten
def exExpires : Bytes := [4, 0x13, 1, 8] ++ beBytes 2 exPlainHD.length ++ exPlainHD ++ beBytes 2 exExpiryUD.length ++ exExpiryUD ++ [5, 6] ++ ([] : List Bytes).flatten

theorem exForever_ok : SigRaw 0x13 1 8 [⟨2, false, [0, 0, 0, 1]⟩] [] [5, 6] [] exForever :=
  ⟨exPlainHD, [], [], .cons (r := ⟨2, false, [0, 0, 0, 1]⟩) (NewDefinite.one _ (by decide)) (by decide) .nil, .nil, by decide, by decide, rfl, .nil, rfl⟩

theorem exExpires_ok : SigRaw 0x13 1 8 [⟨2, false, [0, 0, 0, 1]⟩] ([] ++ [⟨3, false, [0, 0, 0, 1]⟩]) [5, 6] [] exExpires :=
  ⟨exPlainHD, exExpiryUD, [], .cons (r := ⟨2, false, [0, 0, 0, 1]⟩) (NewDefinite.one _ (by decide)) (by decide) .nil,
    .cons (r := ⟨3, false, [0, 0, 0, 1]⟩) (NewDefinite.one _ (by decide)) (by decide) .nil, by decide, by decide, rfl, .nil, rfl⟩

theorem exForever_read : ∃ s, parseSig exForever = .ok s ∧ ∃ o, SigObj.fromPacket .new s = .ok o := by
  rw [parseSig_raw exForever_ok]
  exact ⟨_, rfl, _, rfl⟩

/-- A certification with a notation, a regular expression, an embedded signature (critical) and a revocation code. -/
def exNoteOctets : Bytes := [0x80, 0, 0, 0] ++ beBytes 2 (utf8Encode "a@b".toList).length ++ beBytes 2 (utf8Encode "v".toList).length ++ utf8Encode "a@b".toList ++ utf8Encode "v".toList
def exRichH : List RawSub := [⟨20, false, exNoteOctets⟩, ⟨6, false, "x".toList.map (fun x => UInt8.ofNat x.toNat) ++ [0]⟩, ⟨29, true, [3, 0x6f]⟩, ⟨32, true, exRaw⟩, ⟨4, false, [0]⟩, ⟨7, false, [1]⟩]
def exRichHD : Bytes := (([13] ++ [UInt8.ofNat (20 + if false then 128 else 0)] ++ exNoteOctets) ++
  (([3] ++ [UInt8.ofNat (6 + if false then 128 else 0)] ++ ("x".toList.map (fun x => UInt8.ofNat x.toNat) ++ [0])) ++
  (([3] ++ [UInt8.ofNat (29 + if true then 128 else 0)] ++ [3, 0x6f]) ++
  (([UInt8.ofNat (exRaw.length + 1)] ++ [UInt8.ofNat (32 + if true then 128 else 0)] ++ exRaw) ++
  (([2] ++ [UInt8.ofNat (4 + if false then 128 else 0)] ++ [0]) ++ (([2] ++ [UInt8.ofNat (7 + if false then 128 else 0)] ++ [1]) ++ []))))))
def exRich : Bytes := [4, 0x30, 1, 8] ++ beBytes 2 exRichHD.length ++ exRichHD ++ beBytes 2 ([] : Bytes).length ++ [] ++ [5, 6] ++ ([] : List Bytes).flatten

theorem exRich_ok : SigRaw 0x30 1 8 exRichH [] [5, 6] [] exRich := by
  refine ⟨exRichHD, [], [], ?_, .nil, by decide +kernel, by decide, rfl, .nil, rfl⟩
  have one : ∀ (x : UInt8) (n : Nat), x.toNat = n → n < 192 → NewDefinite [x] n := fun x n e hn => e ▸ NewDefinite.one x (by omega)
  refine .cons (r := ⟨20, false, exNoteOctets⟩) (one _ _ (by decide +kernel) (by decide +kernel)) (by decide) ?_
  refine .cons (r := ⟨6, false, "x".toList.map (fun x => UInt8.ofNat x.toNat) ++ [0]⟩) (one _ _ (by decide +kernel) (by decide +kernel)) (by decide) ?_
  refine .cons (r := ⟨29, true, [3, 0x6f]⟩) (one _ _ (by decide +kernel) (by decide +kernel)) (by decide) ?_
  refine .cons (r := ⟨32, true, exRaw⟩) (one _ _ (by decide +kernel) (by decide +kernel)) (by decide) ?_
  refine .cons (r := ⟨4, false, [0]⟩) (one _ _ (by decide +kernel) (by decide +kernel)) (by decide) ?_
  exact .cons (r := ⟨7, false, [1]⟩) (one _ _ (by decide +kernel) (by decide +kernel)) (by decide) .nil

theorem exRich_read : ∃ s, parseSig exRich = .ok s ∧ ∃ o, SigObj.fromPacket .new s = .ok o := by
  obtain ⟨g, hg, _⟩ := exRaw_read
  have hn : readRaw ⟨20, false, exNoteOctets⟩ = .ok (.plain false (.note "a".toList (some "b".toList) (.text "v".toList))) := by
    have e := readNote_raw (f := 0x80) (name := utf8Encode "a@b".toList) (value := utf8Encode "v".toList) (.inr rfl) (by decide +kernel) (by decide +kernel)
    rw [utf8DecodeReplace_encode, utf8DecodeReplace_encode] at e
    have e' : parsePlain 20 exNoteOctets = _ := e
    rw [readRaw_plain (show (20 : Nat) ≠ 32 by decide), e']
    rfl
  have he : readRaw ⟨32, true, exRaw⟩ = .ok (.embedded true g) := by
    rw [readRaw, readSub, if_pos rfl, hg]
    rfl
  have hm : List.mapM readRaw exRichH = .ok [.plain false (.note "a".toList (some "b".toList) (.text "v".toList)), .plain false (.regex "x".toList),
      .plain true (.revocationReason 3 "o".toList), .embedded true g, .plain false (.exportable false), .plain false (.revocable true)] := by
    have h1 : readRaw ⟨6, false, "x".toList.map (fun x => UInt8.ofNat x.toNat) ++ [0]⟩ = .ok (.plain false (.regex "x".toList)) := rfl
    have h2 : readRaw ⟨29, true, [3, 0x6f]⟩ = .ok (.plain true (.revocationReason 3 "o".toList)) := by
      have e := utf8DecodeReplace_encode "o".toList
      have e2 : utf8Encode "o".toList = [0x6f] := by decide +kernel
      rw [e2] at e
      rw [readRaw_plain (show (29 : Nat) ≠ 32 by decide)]
      simp only [parsePlain, readReason, idx, List.drop_zero, List.drop_succ_cons, except_bind_ok, except_pure, e]
      rfl
    have h3 : readRaw ⟨4, false, [0]⟩ = .ok (.plain false (.exportable false)) := rfl
    have h4 : readRaw ⟨7, false, [1]⟩ = .ok (.plain false (.revocable true)) := rfl
    simp only [exRichH, List.mapM_cons, List.mapM_nil, hn, h1, h2, he, h3, h4, except_bind_ok, except_pure]
  rw [parseSig_raw exRich_ok, hm, except_bind_ok]
  exact ⟨_, rfl, _, rfl⟩

/-! ### C85 -/

/-- C85. Type, algorithms, the left octets of the hash and the integers are those in the octets. -/
theorem C85_header (hr : SigRaw t p h hashed unhashed left values b) (hp : parseSig b = .ok sig) (hs : SigObj.fromPacket fmt sig = .ok s) :
    s.version = 4 ∧ s.sigType = t.toNat ∧ s.pubAlg = p.toNat ∧ s.hashAlg = h.toNat ∧ s.hash2 = left ∧ s.values = values.map some := by
  obtain ⟨hl, ul, _, _, rfl⟩ := object_raw hr hp hs
  exact ⟨rfl, rfl, rfl, rfl, rfl, rfl⟩

example : ∃ s o, parseSig exRaw = .ok s ∧ SigObj.fromPacket .new s = .ok o ∧ o.sigType = 0x13 :=
  let ⟨s, h1, o, h2⟩ := exRaw_read; ⟨s, o, h1, h2, (C85_header exRaw_ok h1 h2).2.1⟩

/-- C85 (all attributes but one). An attribute that is stated has the value stated by the first subpacket of its type, hashed area first; an attribute that is
not stated has no value. -/
theorem C85_attribute_stated_partial (hr : SigRaw t p h hashed unhashed left values b) (hp : parseSig b = .ok sig) (hs : SigObj.fromPacket fmt sig = .ok s)
    (f : Field) (hf : f ≠ .revocable) :
    (∀ c v, firstContent (attrCode f) (hashed ++ unhashed) = some c → States f c v → s.get f = .ok (some v)) ∧
    (firstContent (attrCode f) (hashed ++ unhashed) = none → s.get f = .ok none) := by
  have hcode := subType_code hf
  constructor
  · intro c v hc hv
    obtain ⟨pl, h1, h2⟩ := stated_plain hf hv
    obtain ⟨k, pl', l, h3, h4⟩ := first_plain hr hp hs (by cases f <;> simp [attrCode]) hc
    rw [h1] at h3
    cases h3
    rw [SigObj.get, hcode, h4]
    simp only [Field.read, h2]
    rfl
  · intro hc
    rw [SigObj.get, hcode, first_absent hr hp hs hc]

example : ∃ s o, parseSig exRaw = .ok s ∧ SigObj.fromPacket .new s = .ok o ∧ o.get (.flag .sign) = .ok (some true) ∧ o.get (.flag .encComms) = .ok (some false) ∧
    o.get .prefSym = .ok (some [9, 7]) ∧ o.get .prefHash = .ok none := by
  obtain ⟨s, h1, o, h2⟩ := exRaw_read
  refine ⟨s, o, h1, h2, ?_, ?_, ?_, ?_⟩
  · exact (C85_attribute_stated_partial exRaw_ok h1 h2 (.flag .sign) (by decide)).1 [3] true rfl ⟨3, [], rfl, by decide⟩
  · exact (C85_attribute_stated_partial exRaw_ok h1 h2 (.flag .encComms) (by decide)).1 [3] false rfl ⟨3, [], rfl, by decide⟩
  · exact (C85_attribute_stated_partial exRaw_ok h1 h2 .prefSym (by decide)).1 [9, 7] [9, 7] rfl rfl
  · exact (C85_attribute_stated_partial exRaw_ok h1 h2 .prefHash (by decide)).2 rfl

/-- C85 fails for "revocable": whatever the octets state, the answer is what they state about exportable. -/
theorem C85_revocable_refuted (hr : SigRaw t p h hashed unhashed left values b) (hp : parseSig b = .ok sig) (hs : SigObj.fromPacket fmt sig = .ok s) :
    (∀ c v, firstContent 4 (hashed ++ unhashed) = some c → boolIs c v → s.get .revocable = .ok (some v)) ∧
    (firstContent 4 (hashed ++ unhashed) = none → s.get .revocable = .ok none) := by
  have he : s.get .revocable = s.get .exportable := by
    simp only [SigObj.get, Field.subType]
    cases hl : s.subs 4 with
    | nil => rfl
    | cons x l =>
      have : Field.read .revocable x = Field.read .exportable x := by
        cases x with
        | plain c v => cases v <;> rfl
        | embedded c v => rfl
      simp only [this]
  rw [he]
  exact C85_attribute_stated_partial hr hp hs .exportable (by decide)

example : ∃ s o, parseSig exRich = .ok s ∧ SigObj.fromPacket .new s = .ok o ∧ States .revocable [1] true ∧ firstContent (attrCode .revocable) (exRichH ++ []) = some [1] ∧
    o.get .revocable = .ok (some false) := by
  obtain ⟨s, h1, o, h2⟩ := exRich_read
  exact ⟨s, o, h1, h2, .inr ⟨rfl, rfl⟩, rfl, (C85_revocable_refuted exRich_ok h1 h2).1 [0] false rfl (.inl ⟨rfl, rfl⟩)⟩

/-- C85. The creation time and the expiry. -/
theorem C85_times (hr : SigRaw t p h hashed unhashed left values b) (hp : parseSig b = .ok sig) (hs : SigObj.fromPacket fmt sig = .ok s)
    (c : Bytes) (hc : firstContent 2 (hashed ++ unhashed) = some c) :
    c.length = 4 ∧ s.creationTime = .ok (beNat c * 1000000) ∧
    (firstContent 3 (hashed ++ unhashed) = none → s.expirationTime = .ok none) ∧
    ∀ d, firstContent 3 (hashed ++ unhashed) = some d →
      d.length = 4 ∧ s.expirationTime = .ok (if beNat d = 0 then none else some ((beNat c + beNat d) * 1000000)) := by
  have hread : ∀ {ty : Nat} {c : Bytes} {mk : Nat → Plain} {pl : Plain}, (do return mk (← readTime c) : Py Plain) = .ok pl → c.length = 4 ∧ pl = mk (beNat c) := by
    intro ty c mk pl h
    obtain ⟨u, hu, h⟩ := except_bind_eq_ok.mp h
    have h4 := (time_kept hu).1
    rw [readTime_ok h4] at hu
    cases hu; cases h
    exact ⟨h4, rfl⟩
  have hv : s.version = 4 := (C85_header hr hp hs).1
  obtain ⟨k, pl, l, h1, h2⟩ := first_plain hr hp hs (by decide) hc
  obtain ⟨h4, rfl⟩ := hread (ty := 2) h1
  have hcr : s.creationTime = .ok (beNat c * 1000000) := by
    unfold SigObj.creationTime
    rw [if_neg (by omega), if_pos (by omega), h2]
    rfl
  refine ⟨h4, hcr, ?_, ?_⟩
  · intro hn
    unfold SigObj.expirationTime
    rw [first_absent hr hp hs hn]
    rfl
  · intro d hd
    obtain ⟨k', pl', l', h5, h6⟩ := first_plain hr hp hs (by decide) hd
    obtain ⟨h7, rfl⟩ := hread (ty := 3) h5
    refine ⟨h7, ?_⟩
    unfold SigObj.expirationTime
    rw [h6]
    simp only [timeOf, except_bind_ok]
    split
    · cases ‹some (beNat d) = none›
    · rename_i hz
      rw [if_pos (Option.some.inj hz)]
      rfl
    · rename_i n hne hz
      cases hz
      rw [if_neg (fun e => hne (by rw [e])), hcr]
      have e : (beNat c : Int) * 1000000 + (beNat d : Int) * 1000000 = ((beNat c : Int) + beNat d) * 1000000 := by ring
      simp only [except_bind_ok, except_pure, fromTimestamp, e]

example : ∃ s o, parseSig exRaw = .ok s ∧ SigObj.fromPacket .new s = .ok o ∧ o.creationTime = .ok 1000000 ∧ o.expirationTime = .ok (some 257000000) := by
  obtain ⟨s, h1, o, h2⟩ := exRaw_read
  obtain ⟨_, h3, _, h4⟩ := C85_times exRaw_ok h1 h2 [0, 0, 0, 1] rfl
  have e1 : ((beNat [0, 0, 0, 1] : Nat) : Int) = 1 := by decide
  have e2 : beNat [0, 0, 1, 0] = 256 := by decide
  have h5 := (h4 [0, 0, 1, 0] rfl).2
  rw [e1] at h3
  rw [e1, e2] at h5
  refine ⟨s, o, h1, h2, h3.trans (by norm_num), h5.trans (by norm_num)⟩

/-- C85. The issuers are the key ids in the issuer subpackets, in order, in upper case hexadecimal digits. -/
theorem C85_issuers (hr : SigRaw t p h hashed unhashed left values b) (hp : parseSig b = .ok sig) (hs : SigObj.fromPacket fmt sig = .ok s) :
    s.issuers = .ok ((contents 16 (hashed ++ unhashed)).map hexText) := by
  have hv : s.version = 4 := (C85_header hr hp hs).1
  have hf := subs_raw hr hp hs 16
  unfold SigObj.issuers contents
  rw [if_neg (by omega), if_pos (by omega)]
  have hty : ∀ r ∈ (hashed ++ unhashed).filter (fun r => r.ty = 16), r.ty = 16 := fun r hr => by simpa using (List.mem_filter.mp hr).2
  generalize (hashed ++ unhashed).filter (fun r => decide (r.ty = 16)) = rs at hf hty
  generalize s.subs 16 = xs at hf
  clear hv hr hp hs
  induction hf with
  | nil => rfl
  | @cons r x rs xs hrx _ ih =>
    have ht := hty r List.mem_cons_self
    rw [readRaw_plain (by omega), ht] at hrx
    obtain ⟨pl, hpl, hrx⟩ := except_bind_eq_ok.mp hrx
    cases hrx
    have hpl' : readIssuer r.content = .ok pl := hpl
    unfold readIssuer at hpl'
    obtain ⟨u, ha, hpl'⟩ := except_bind_eq_ok.mp hpl'
    have hlen : r.content.length = 8 := by simpa using pyAssert_ok ha
    rw [bytearrayToHex_of_drop (b := r.content) (s := []) (by simp) (by omega)] at hpl'
    cases hpl'
    simp only [issuerIds, ih (fun r hr => hty r (List.mem_cons_of_mem _ hr)), except_bind_ok, except_pure, List.map_cons, hexOf_eq_hexText]

example : ∃ s o, parseSig exRaw = .ok s ∧ SigObj.fromPacket .new s = .ok o ∧ o.issuers = .ok ["01020304050607AB".toList] := by
  obtain ⟨s, h1, o, h2⟩ := exRaw_read
  exact ⟨s, o, h1, h2, by rw [C85_issuers exRaw_ok h1 h2]; decide +kernel⟩

/-- C85. The notations are those in the notation subpackets, in order (none of them marked critical). -/
theorem C85_notations_partial (hr : SigRaw t p h hashed unhashed left values b) (hp : parseSig b = .ok sig) (hs : SigObj.fromPacket fmt sig = .ok s)
    (hc : ∀ r ∈ hashed ++ unhashed, r.ty = 20 → r.critical = false) (ns : List NoteObj)
    (hn : List.Forall₂ (fun c (n : NoteObj) => ∃ v, n.value = .text v ∧ NoteStated c n.name n.ns v) (contents 20 (hashed ++ unhashed)) ns) : s.notations = .ok ns := by
  refine mapM_raw (subs_raw hr hp hs 20) NoteObj.ofSub ?_ (contents_forall₂ hn)
  rintro r hrm x ⟨ns', name, value⟩ hx ⟨v, hv, n, w, hat, rfl, rfl, h1, h2, hcont⟩
  obtain ⟨hm, ht⟩ := List.mem_filter.mp hrm
  have ht' : r.ty = 20 := by simpa using ht
  simp only at hv hcont hat
  subst hv
  have hnote := readNote_raw (f := 0x80) (.inr rfl) h1 h2
  rw [← hcont, utf8DecodeReplace_encode, utf8DecodeReplace_encode] at hnote
  have hp2 : parsePlain 20 r.content = readNote r.content := rfl
  rw [readRaw_plain (by omega), ht', hp2, hnote, except_bind_ok, hc r hm ht'] at hx
  cases hx
  cases ns' with
  | none => simp only [NoteObj.ofSub, List.append_nil, splitAt_none hat]; rfl
  | some d => simp only [NoteObj.ofSub, splitAt_some hat]; rfl

example : ∃ s o, parseSig exRich = .ok s ∧ SigObj.fromPacket .new s = .ok o ∧ o.notations = .ok [⟨some "b".toList, "a".toList, .text "v".toList⟩] := by
  obtain ⟨s, h1, o, h2⟩ := exRich_read
  refine ⟨s, o, h1, h2, C85_notations_partial exRich_ok h1 h2 ?_ _ (.cons ⟨_, rfl, _, _, by decide, rfl, rfl, by decide +kernel, by decide +kernel, rfl⟩ .nil)⟩
  intro r hr ht
  simp only [exRichH, List.cons_append, List.nil_append, List.mem_cons, List.not_mem_nil, or_false] at hr
  rcases hr with rfl | rfl | rfl | rfl | rfl | rfl <;> simp at ht ⊢

/-- C85. The regular expressions are those in the subpackets, in order, whichever of them can be compiled. -/
theorem C85_regexes_partial (hr : SigRaw t p h hashed unhashed left values b) (hp : parseSig b = .ok sig) (hs : SigObj.fromPacket fmt sig = .ok s)
    (compiles : Str → Bool) (ps : List Str) (hc : ∀ x ∈ ps, compiles x = true) (hn : List.Forall₂ RegexStated (contents 6 (hashed ++ unhashed)) ps) :
    s.regexes compiles = .ok ps := by
  have : List.mapM regexOf (s.subs 6) = .ok ps := by
    refine mapM_raw (subs_raw hr hp hs 6) regexOf ?_ (contents_forall₂ hn)
    rintro r hrm x a hx ⟨ha, hcont⟩
    have ht' : r.ty = 6 := by simpa using (List.mem_filter.mp hrm).2
    have hp2 : parsePlain 6 r.content = readRegex r.content := rfl
    have henc : a.map (fun x => UInt8.ofNat x.toNat) = asciiEncodeReplace a :=
      List.map_congr_left (fun c hc => by simp only [if_pos (ha c hc)])
    have hread : readRegex r.content = .ok (.regex a) := by
      rw [hcont, henc]
      unfold readRegex
      rw [pyAssert_true (by simp), pyAssert_true (by simp)]
      simp only [except_bind_ok, except_pure, List.dropLast_concat, ascii_roundtrip a ha]
    rw [readRaw_plain (by omega), ht', hp2, hread] at hx
    cases hx
    rfl
  unfold SigObj.regexes
  rw [this, except_bind_ok, if_pos (List.all_eq_true.mpr hc)]
  rfl

example : ∃ s o, parseSig exRich = .ok s ∧ SigObj.fromPacket .new s = .ok o ∧ o.regexes (fun _ => true) = .ok ["x".toList] := by
  obtain ⟨s, h1, o, h2⟩ := exRich_read
  exact ⟨s, o, h1, h2, C85_regexes_partial exRich_ok h1 h2 _ _ (fun _ _ => rfl) (.cons ⟨by decide, rfl⟩ .nil)⟩

/-- C85. The embedded signatures are those read from the contents of the subpackets, in order, critical or not. -/
theorem C85_embedded (hr : SigRaw t p h hashed unhashed left values b) (hp : parseSig b = .ok sig) (hs : SigObj.fromPacket fmt sig = .ok s) (es : List SigObj)
    (hn : List.Forall₂ (fun c e => ∃ g, parseSig c = .ok g ∧ SigObj.fromPacket .new g = .ok e) (contents 32 (hashed ++ unhashed)) es) : s.embeddedSigs = .ok es := by
  refine mapM_raw (subs_raw hr hp hs 32) embeddedOf ?_ (contents_forall₂ hn)
  rintro r hrm x e hx ⟨g, h1, h2⟩
  have ht' : r.ty = 32 := by simpa using (List.mem_filter.mp hrm).2
  rw [readRaw, readSub, if_pos ht', h1] at hx
  cases hx
  exact h2

example : ∃ s o e, parseSig exRich = .ok s ∧ SigObj.fromPacket .new s = .ok o ∧ o.embeddedSigs = .ok [e] ∧ e.sigType = 0x13 := by
  obtain ⟨s, h1, o, h2⟩ := exRich_read
  obtain ⟨g, h3, e, h4⟩ := exRaw_read
  exact ⟨s, o, e, h1, h2, C85_embedded exRich_ok h1 h2 [e] (.cons ⟨g, h3, h4⟩ .nil), (C85_header exRaw_ok h3 h4).2.1⟩

/-- C85. The revocation code is the first octet of the reason for revocation. -/
theorem C85_revocation_code (hr : SigRaw t p h hashed unhashed left values b) (hp : parseSig b = .ok sig) (hs : SigObj.fromPacket fmt sig = .ok s) :
    (∀ x d, firstContent 29 (hashed ++ unhashed) = some (x :: d) → s.revocationCode = .ok (some x.toNat)) ∧
    (firstContent 29 (hashed ++ unhashed) = none → s.revocationCode = .ok none) := by
  constructor
  · intro x d hc
    obtain ⟨k, pl, l, h1, h2⟩ := first_plain hr hp hs (by decide) hc
    cases h1
    rw [SigObj.revocationCode, h2]
    rfl
  · intro hc
    rw [SigObj.revocationCode, first_absent hr hp hs hc]

example : ∃ s o, parseSig exRich = .ok s ∧ SigObj.fromPacket .new s = .ok o ∧ o.revocationCode = .ok (some 3) := by
  obtain ⟨s, h1, o, h2⟩ := exRich_read
  exact ⟨s, o, h1, h2, (C85_revocation_code exRich_ok h1 h2).1 3 [0x6f] rfl⟩

theorem pyAssert_ok' {b : Bool} (h : b = true) : pyAssert b = .ok () := by rw [h]; rfl

theorem mapM_readable {l : List RawSub} (h : ∀ r ∈ l, ∃ x, readRaw r = .ok x) : ∃ xs, List.mapM readRaw l = .ok xs := by
  induction l with
  | nil => exact ⟨[], rfl⟩
  | cons r l ih =>
    obtain ⟨x, hx⟩ := h r List.mem_cons_self
    obtain ⟨xs, hxs⟩ := ih (fun r hr => h r (List.mem_cons_of_mem _ hr))
    exact ⟨x :: xs, by rw [List.mapM_cons, hx, except_bind_ok, hxs]; rfl⟩

theorem contentOk_read {ty : Nat} {c : Bytes} (hc : ContentOk ty c) : ∀ k, ∃ x, readRaw ⟨ty, k, c⟩ = .ok x := by
  have lift : ∀ {ty : Nat} {c : Bytes}, ty ≠ 32 → (∃ v, parsePlain ty c = .ok v) → ∀ k, ∃ x, readRaw ⟨ty, k, c⟩ = .ok x := by
    rintro ty c h32 ⟨v, hv⟩ k
    refine ⟨.plain k v, ?_⟩
    rw [readRaw_plain h32, hv]
    rfl
  induction hc with
  | time ht h => rcases ht with rfl | rfl | rfl <;> exact lift (by decide) ⟨_, by simp only [parsePlain, readTime_ok h]; rfl⟩
  | bool ht h =>
    rcases ht with rfl | rfl | rfl <;> rcases h with rfl | rfl <;> exact lift (by decide) ⟨_, rfl⟩
  | trust => exact lift (by decide) ⟨_, rfl⟩
  | @regex q =>
    refine lift (by decide) ⟨.regex (asciiDecodeReplace q), ?_⟩
    have hp2 : parsePlain 6 (q ++ [0]) = readRegex (q ++ [0]) := rfl
    rw [hp2]
    unfold readRegex
    rw [pyAssert_true (by simp), pyAssert_true (by simp)]
    simp only [except_bind_ok, except_pure, List.dropLast_concat]
  | codes ht => rcases ht with rfl | rfl | rfl <;> exact lift (by decide) ⟨_, rfl⟩
  | @issuer c h =>
    refine lift (by decide) ?_
    simp only [parsePlain, readIssuer]
    rw [pyAssert_true (by simpa using h), except_bind_ok, bytearrayToHex_of_drop (b := c) (s := []) (by simp) (by rw [h])]
    exact ⟨_, rfl⟩
  | «notation» hf hn hv => exact lift (by decide) ⟨_, readNote_raw hf hn hv⟩
  | text ht h => rcases ht with rfl | rfl <;> exact lift (by decide) ⟨_, by simp only [parsePlain, readUri_ok h]; rfl⟩
  | @bits ty c ht h =>
    cases c with
    | nil => exact absurd rfl h
    | cons x d => rcases ht with rfl | rfl | rfl <;> exact lift (by decide) ⟨_, by simp only [parsePlain, readFirst_ok]; rfl⟩
  | userId h => cases h; exact lift (by decide) ⟨_, by simp only [parsePlain, utf8DecodeStrict_encode]; rfl⟩
  | reason => exact lift (by decide) ⟨_, rfl⟩
  | embedded hr hs ih =>
    intro k
    obtain ⟨xs, hx⟩ := mapM_readable (fun r hm => ih r (List.mem_append_left _ hm) r.critical)
    obtain ⟨ys, hy⟩ := mapM_readable (fun r hm => ih r (List.mem_append_right _ hm) r.critical)
    rw [readRaw, readSub, if_pos rfl, parseSig_raw hr, hx, except_bind_ok, hy]
    exact ⟨_, rfl⟩
  | @unknown ty c h =>
    simp only [List.mem_cons, List.not_mem_nil, or_false, not_or] at h
    refine lift (by omega) ⟨.other ty, ?_⟩
    unfold parsePlain
    split <;> first | rfl | omega

/-- C85. Every signature whose subpackets have contents of the expected form is read, signatures embedded to any depth included. -/
theorem C85_readable_partial (hr : SigRaw t p h hashed unhashed left values b) (hc : ∀ r ∈ hashed ++ unhashed, ContentOk r.ty r.content) :
    ∃ sig, parseSig b = .ok sig ∧ ∃ s, SigObj.fromPacket fmt sig = .ok s := by
  obtain ⟨xs, hx⟩ := mapM_readable (fun r hm => contentOk_read (hc r (List.mem_append_left _ hm)) r.critical)
  obtain ⟨ys, hy⟩ := mapM_readable (fun r hm => contentOk_read (hc r (List.mem_append_right _ hm)) r.critical)
  rw [parseSig_raw hr, hx, except_bind_ok, hy]
  exact ⟨_, rfl, _, rfl⟩

example : ∃ sig, parseSig exRaw = .ok sig ∧ ∃ s, SigObj.fromPacket .old sig = .ok s := by
  refine C85_readable_partial exRaw_ok ?_
  intro r hr
  simp only [exRawH, exRawU, List.cons_append, List.nil_append, List.mem_cons, List.not_mem_nil, or_false] at hr
  rcases hr with rfl | rfl | rfl | rfl | rfl
  · exact .time (by simp) rfl
  · exact .bits (by simp) (by simp)
  · exact .codes (by simp)
  · exact .time (by simp) rfl
  · exact .issuer rfl

/-- C85 fails: a signature that names a revocation key is not read at all. -/
theorem C85_revocation_key_refuted (hr : SigRaw t p h hashed unhashed left values b) (r : RawSub) (hm : r ∈ hashed ++ unhashed) (ht : r.ty = 12) : Raises (parseSig b) := by
  have hno : ∀ x, readRaw r ≠ .ok x := by
    intro x hx
    rw [readRaw_plain (by omega), ht] at hx
    obtain ⟨v, hv, _⟩ := except_bind_eq_ok.mp hx
    have hv' : readRevocationKey r.content = .ok v := hv
    unfold readRevocationKey at hv'
    obtain ⟨_, _, hv'⟩ := except_bind_eq_ok.mp hv'
    cases hv'
  have hbad : ∀ {l : List RawSub} {xs : List Sub}, r ∈ l → List.mapM readRaw l ≠ .ok xs := by
    intro l xs hl hx
    have := mapM_forall₂ hx
    clear hx hm
    induction this with
    | nil => cases hl
    | cons hrx _ ih =>
      rcases List.mem_cons.mp hl with rfl | hl
      · exact hno _ hrx
      · exact ih hl
  cases hp : parseSig b with
  | error e => exact ⟨e, rfl⟩
  | ok sig =>
    exfalso
    rw [parseSig_raw hr] at hp
    obtain ⟨xs, h1, hp⟩ := except_bind_eq_ok.mp hp
    obtain ⟨ys, h2, _⟩ := except_bind_eq_ok.mp hp
    rcases List.mem_append.mp hm with hm | hm
    · exact hbad hm h1
    · exact hbad hm h2

/-- A direct signature that names a revocation key. -/
def exRevoker : RawSub := ⟨12, false, [0x80, 1] ++ List.replicate 20 7⟩
def exRevokerHD : Bytes := ([23] ++ [UInt8.ofNat (exRevoker.ty + if exRevoker.critical then 128 else 0)] ++ exRevoker.content) ++ []

example : Raises (parseSig ([4, 0x1f, 1, 8] ++ beBytes 2 exRevokerHD.length ++ exRevokerHD ++ beBytes 2 ([] : Bytes).length ++ [] ++ [5, 6] ++ ([] : List Bytes).flatten)) :=
  C85_revocation_key_refuted (t := 0x1f) (p := 1) (h := 8) (hashed := [exRevoker]) (unhashed := []) (left := [5, 6]) (values := [])
    ⟨_, [], [], .cons (NewDefinite.one 23 (by decide)) (by decide) .nil, .nil, by decide, by decide, rfl, .nil, rfl⟩ exRevoker (by simp) rfl

/-! ### C42: values of key attributes -/

/-- C42 (values). The attributes of a key or user id are those stated by the octets of the self-signature consulted. -/
theorem C42_attributes_stated (q : Part) (hv : q.version ≥ 4) (n : Nat) (hm : q.mostRecent false = .ok (some n)) (hq : q.sigs[n]? = some s)
    (hr : SigRaw t p h hashed unhashed left values b) (hp : parseSig b = .ok sig) (hs : SigObj.fromPacket fmt sig = .ok s) :
    (∀ c, firstContent 11 (hashed ++ unhashed) = some c → q.attr .prefSym = .ok (.value (some (c.map UInt8.toNat)))) ∧
    (∀ c, firstContent 21 (hashed ++ unhashed) = some c → q.attr .prefHash = .ok (.value (some (c.map UInt8.toNat)))) ∧
    (∀ c, firstContent 22 (hashed ++ unhashed) = some c → q.attr .prefComp = .ok (.value (some (c.map UInt8.toNat)))) ∧
    (∀ x d, firstContent 23 (hashed ++ unhashed) = some (x :: d) → q.attr .noModify = .ok (.value (some (x.toNat.testBit 7)))) ∧
    (∀ c u, firstContent 24 (hashed ++ unhashed) = some c → c ≠ [] → textIs c u → q.attr .prefKeyServer = .ok (.value (some u))) ∧
    (∀ c v, firstContent 25 (hashed ++ unhashed) = some c → boolIs c v → q.attr .primaryUserId = .ok (.value (some v))) ∧
    (∀ c u, firstContent 26 (hashed ++ unhashed) = some c → c ≠ [] → textIs c u → q.attr .policyUri = .ok (.value (some u))) ∧
    (∀ x d, firstContent 27 (hashed ++ unhashed) = some (x :: d) →
      q.attr .mayCertify = .ok (.value (some (x.toNat.testBit 0))) ∧ q.attr .maySign = .ok (.value (some (x.toNat.testBit 1))) ∧
      q.attr .mayEncryptComms = .ok (.value (some (x.toNat.testBit 2))) ∧ q.attr .maySplit = .ok (.value (some (x.toNat.testBit 4))) ∧
      q.attr .mayMulti = .ok (.value (some (x.toNat.testBit 7)))) := by
  have key := fun (a : KeyAttr) (hf : a.field ≠ .revocable) c v (hc : firstContent (attrCode a.field) (hashed ++ unhashed) = some c) (hst : States a.field c v) =>
    C42_attr_of_chosen q hv a n s hm hq (some v) ((C85_attribute_stated_partial hr hp hs a.field hf).1 c v hc hst)
  refine ⟨fun c hc => ?_, fun c hc => ?_, fun c hc => ?_, fun x d hc => ?_, fun c u hc hne hu => ?_, fun c v hc hb => ?_, fun c u hc hne hu => ?_,
    fun x d hc => ⟨?_, ?_, ?_, ?_, ?_⟩⟩
  · exact key .prefSym (by decide) c _ hc rfl
  · exact key .prefHash (by decide) c _ hc rfl
  · exact key .prefComp (by decide) c _ hc rfl
  · exact key .noModify (by decide) _ _ hc ⟨x, d, rfl, rfl⟩
  · exact key .prefKeyServer (by decide) c u hc ⟨hne, hu⟩
  · exact key .primaryUserId (by decide) c v hc hb
  · exact key .policyUri (by decide) c u hc ⟨hne, hu⟩
  · exact key .mayCertify (by decide) _ _ hc ⟨x, d, rfl, rfl⟩
  · exact key .maySign (by decide) _ _ hc ⟨x, d, rfl, rfl⟩
  · exact key .mayEncryptComms (by decide) _ _ hc ⟨x, d, rfl, rfl⟩
  · exact key .maySplit (by decide) _ _ hc ⟨x, d, rfl, rfl⟩
  · exact key .mayMulti (by decide) _ _ hc ⟨x, d, rfl, rfl⟩

/-- A user id with that certification by its own key. -/
def exRawPart : Part := ⟨4, [0x10, 0x11, 0x12, 0x13], [0x30], ["01020304050607AB".toList], [exRawObj]⟩

example : exRawPart.attr .maySign = .ok (.value (some true)) ∧ exRawPart.attr .prefSym = .ok (.value (some [9, 7])) :=
  let ⟨_, h1, h2⟩ := exRaw_obj
  have h := C42_attributes_stated exRawPart (by decide) 0 (by decide +kernel) rfl exRaw_ok h1 h2
  ⟨(h.2.2.2.2.2.2.2 3 [] rfl).2.1, h.1 [9, 7] rfl⟩

/-- C42 fails for three attributes: they state another bit of the key flags. -/
theorem C42_wrong_bits_refuted (q : Part) (hv : q.version ≥ 4) (n : Nat) (hm : q.mostRecent false = .ok (some n)) (hq : q.sigs[n]? = some s)
    (hr : SigRaw t p h hashed unhashed left values b) (hp : parseSig b = .ok sig) (hs : SigObj.fromPacket fmt sig = .ok s) (x : UInt8) (d : Bytes)
    (hc : firstContent 27 (hashed ++ unhashed) = some (x :: d)) :
    q.attr .mayEncryptStorage = .ok (.value (some (x.toNat.testBit 2))) ∧ q.attr .mayAuth = .ok (.value (some (x.toNat.testBit 2))) ∧
    q.attr .supportsMdc = .ok (.value (some (x.toNat.testBit 7))) := by
  obtain ⟨_, _, h1, _, h2⟩ := (C42_attributes_stated q hv n hm hq hr hp hs).2.2.2.2.2.2.2 x d hc
  exact ⟨h1, h1, h2⟩

example : exRawPart.attr .mayAuth = .ok (.value (some false)) :=
  let ⟨_, h1, h2⟩ := exRaw_obj
  (C42_wrong_bits_refuted exRawPart (by decide) 0 (by decide +kernel) rfl exRaw_ok h1 h2 3 [] rfl).2.1

/-! ### C86: the unhashed area -/

/-- C86 (part that holds). What the signer stated in the hashed area is not changed by anything in the unhashed area, and neither are the type, the algorithms and
the hashed subpackets themselves. -/
theorem C86_hashed_wins_partial {unhashed' : List RawSub} {b' : Bytes} {sig' : Sig} {s' : SigObj} (hr : SigRaw t p h hashed unhashed left values b)
    (hp : parseSig b = .ok sig) (hs : SigObj.fromPacket fmt sig = .ok s) (hr' : SigRaw t p h hashed unhashed' left values b') (hp' : parseSig b' = .ok sig')
    (hs' : SigObj.fromPacket fmt sig' = .ok s') :
    s' = { s with unhashed := s'.unhashed } ∧ (∀ f : Field, f ≠ .revocable → (∃ c, firstContent (attrCode f) hashed = some c) → s'.get f = s.get f) ∧
    ((∃ c, firstContent 2 hashed = some c) → s'.creationTime = s.creationTime) ∧
    ((∃ c, firstContent 2 hashed = some c) → (∃ c, firstContent 3 hashed = some c) → s'.expirationTime = s.expirationTime) := by
  obtain ⟨hl, ul, h1, h2, rfl⟩ := object_raw hr hp hs
  obtain ⟨hl', ul', h3, h4, rfl⟩ := object_raw hr' hp' hs'
  rw [h1] at h3
  cases h3
  have hfirst : ∀ ty c, firstContent ty hashed = some c → ∃ x l, (hl.filter (fun x => x.type = ty)) = x :: l := by
    intro ty c hc
    obtain ⟨r, rs, e, _, _⟩ := firstContent_some hc
    have := forall₂_filter (mapM_forall₂ h1) ty
    rw [e] at this
    obtain ⟨x, l, _, _, e'⟩ := List.forall₂_cons_left_iff.mp this
    exact ⟨x, l, e'⟩
  have hcr : (∃ c, firstContent 2 hashed = some c) →
      SigObj.creationTime ⟨4, t.toNat, p.toNat, h.toNat, none, none, hl, ul', left, values.map some, fmt⟩ =
      SigObj.creationTime ⟨4, t.toNat, p.toNat, h.toNat, none, none, hl, ul, left, values.map some, fmt⟩ := by
    rintro ⟨c, hc⟩
    obtain ⟨x, l, e⟩ := hfirst _ c hc
    simp only [SigObj.creationTime, SigObj.subs, List.filter_append, e, List.cons_append]
    rw [if_neg (by decide), if_pos (by decide)]
    congr 1
    cases x with
    | plain k v => cases v <;> rfl
    | embedded k v => rfl
  refine ⟨rfl, ?_, hcr, ?_⟩
  · rintro f hf ⟨c, hc⟩
    rw [← subType_code hf] at hc
    obtain ⟨x, l, e⟩ := hfirst _ c hc
    simp only [SigObj.get, SigObj.subs, List.filter_append, e, List.cons_append]
  · intro h2c h3c
    have hc2 := hcr h2c
    obtain ⟨c, hc⟩ := h3c
    obtain ⟨x, l, e⟩ := hfirst _ c hc
    unfold SigObj.expirationTime
    rw [hc2]
    simp only [SigObj.subs, List.filter_append, e, List.cons_append]
    congr 1
    cases x with
    | plain k v => cases v <;> rfl
    | embedded k v => rfl

/-- C86 fails: what the signer did not state, anyone can: appending a subpacket to the unhashed area gives the attribute any value that can be expressed, while
everything that is signed stays the same. -/
theorem C86_unhashed_honoured_refuted {b' : Bytes} (hr : SigRaw t p h hashed unhashed left values b) (hp : parseSig b = .ok sig)
    (hs : SigObj.fromPacket fmt sig = .ok s) (f : Field) (hf : f ≠ .revocable) (k : Bool) (c : Bytes) (v : f.Val) (hc : States f c v)
    (hn : firstContent (attrCode f) (hashed ++ unhashed) = none) (hr' : SigRaw t p h hashed (unhashed ++ [⟨attrCode f, k, c⟩]) left values b') :
    s.get f = .ok none ∧ ∃ sig' s', parseSig b' = .ok sig' ∧ SigObj.fromPacket fmt sig' = .ok s' ∧ s' = { s with unhashed := s'.unhashed } ∧ s'.get f = .ok (some v) := by
  refine ⟨(C85_attribute_stated_partial hr hp hs f hf).2 hn, ?_⟩
  obtain ⟨hl, ul, h1, h2, rfl⟩ := object_raw hr hp hs
  obtain ⟨pl, h3, _⟩ := stated_plain hf hc
  have h32 : attrCode f ≠ 32 := by cases f <;> simp [attrCode]
  have hx : readRaw ⟨attrCode f, k, c⟩ = .ok (.plain k pl) := by rw [readRaw_plain h32, h3]; rfl
  have h4 : List.mapM readRaw (unhashed ++ [⟨attrCode f, k, c⟩]) = .ok (ul ++ [.plain k pl]) := by
    rw [List.mapM_append, h2, except_bind_ok, List.mapM_cons, hx]
    rfl
  have hp' : parseSig b' = .ok (.v4 4 t.toNat p.toNat h.toNat hl (ul ++ [.plain k pl]) left (values.map some)) := by
    rw [parseSig_raw hr', h1, except_bind_ok, h4]
    rfl
  refine ⟨_, _, hp', rfl, rfl, ?_⟩
  refine (C85_attribute_stated_partial hr' hp' rfl f hf).1 c v ?_ hc
  unfold firstContent contents
  rw [← List.append_assoc, List.filter_append, firstContent_none hn]
  simp

example : ∃ s o s' o', parseSig exRaw = .ok s ∧ SigObj.fromPacket .new s = .ok o ∧ parseSig exMore = .ok s' ∧ SigObj.fromPacket .new s' = .ok o' ∧
    o.get .prefHash = .ok none ∧ o'.get .prefHash = .ok (some [8]) ∧ o'.get .prefSym = o.get .prefSym := by
  obtain ⟨s, h1, o, h2⟩ := exRaw_read
  obtain ⟨h3, s', o', h4, h5, _, h6⟩ := C86_unhashed_honoured_refuted exRaw_ok h1 h2 .prefHash (by decide) false [8] [8] rfl rfl exMore_ok
  exact ⟨s, o, s', o', h1, h2, h4, h5, h3, h6, (C86_hashed_wins_partial exRaw_ok h1 h2 exMore_ok h4 h5).2.1 .prefSym (by decide) ⟨_, rfl⟩⟩

/-- C86 fails also for the creation time and the expiry: stated in the unhashed area only, they are believed. -/
theorem C86_unhashed_times_refuted {b' : Bytes} (hr : SigRaw t p h hashed unhashed left values b) (hp : parseSig b = .ok sig) (hs : SigObj.fromPacket fmt sig = .ok s)
    (c d : Bytes) (hc : firstContent 2 (hashed ++ unhashed) = some c) (hd : d.length = 4) (hpos : 0 < beNat d) (hn : firstContent 3 (hashed ++ unhashed) = none)
    (hr' : SigRaw t p h hashed (unhashed ++ [⟨3, false, d⟩]) left values b') :
    s.expirationTime = .ok none ∧ ∃ sig' s', parseSig b' = .ok sig' ∧ SigObj.fromPacket fmt sig' = .ok s' ∧ s' = { s with unhashed := s'.unhashed } ∧
      s'.expirationTime = .ok (some ((beNat c + beNat d) * 1000000)) := by
  refine ⟨(C85_times hr hp hs c hc).2.2.1 hn, ?_⟩
  obtain ⟨hl, ul, h1, h2, rfl⟩ := object_raw hr hp hs
  have hx : readRaw ⟨3, false, d⟩ = .ok (.plain false (.expiration (beNat d))) := by
    rw [readRaw_plain (show (3 : Nat) ≠ 32 by decide)]
    simp only [parsePlain, readTime_ok hd]
    rfl
  have h4 : List.mapM readRaw (unhashed ++ [⟨3, false, d⟩]) = .ok (ul ++ [.plain false (.expiration (beNat d))]) := by
    rw [List.mapM_append, h2, except_bind_ok, List.mapM_cons, hx]
    rfl
  have hp' : parseSig b' = .ok (.v4 4 t.toNat p.toNat h.toNat hl (ul ++ [.plain false (.expiration (beNat d))]) left (values.map some)) := by
    rw [parseSig_raw hr', h1, except_bind_ok, h4]
    rfl
  refine ⟨_, _, hp', rfl, rfl, ?_⟩
  have hc' : firstContent 2 (hashed ++ (unhashed ++ [⟨3, false, d⟩])) = some c := by
    rw [← hc]
    unfold firstContent contents
    rw [← List.append_assoc, List.filter_append]
    simp
  have := ((C85_times (fmt := fmt) hr' hp' rfl c hc').2.2.2 d (by
    unfold firstContent contents
    rw [← List.append_assoc, List.filter_append, firstContent_none hn]
    simp)).2
  rw [if_neg (by omega)] at this
  exact this

example : ∃ s o s' o', parseSig exForever = .ok s ∧ SigObj.fromPacket .new s = .ok o ∧ parseSig exExpires = .ok s' ∧ SigObj.fromPacket .new s' = .ok o' ∧
    o.expirationTime = .ok none ∧ ∃ e, o'.expirationTime = .ok (some e) := by
  obtain ⟨s, h1, o, h2⟩ := exForever_read
  obtain ⟨h3, s', o', h4, h5, _, h6⟩ := C86_unhashed_times_refuted exForever_ok h1 h2 [0, 0, 0, 1] [0, 0, 0, 1] rfl rfl (by decide) rfl exExpires_ok
  exact ⟨s, o, s', o', h1, h2, h4, h5, h3, _, h6⟩

/-! ### C60: the hashed area -/

/-- The type and the critical bit of a subpacket that was read. -/
def kindOf : Sub → Nat × Bool
  | .plain c v => (v.type, c)
  | .embedded c _ => (32, c)

theorem readRaw_kind {r : RawSub} {x : Sub} (h : readRaw r = .ok x) : kindOf x = (r.ty, r.critical) := by
  unfold readRaw readSub at h
  split at h
  · rename_i h32
    obtain ⟨_, _, h⟩ := except_bind_eq_ok.mp h
    cases h
    rw [h32]; rfl
  · obtain ⟨v, hv, h⟩ := except_bind_eq_ok.mp h
    cases h
    simp only [kindOf, parsePlain_type hv]

theorem readRaws_kind : ∀ {rs : List RawSub} {l : List Sub}, List.mapM readRaw rs = .ok l → l.map kindOf = rs.map (fun r => (r.ty, r.critical)) := by
  intro rs
  induction rs with
  | nil => intro l h; cases h; rfl
  | cons r rs ih =>
    intro l h
    rw [List.mapM_cons] at h
    obtain ⟨x, hx, h⟩ := except_bind_eq_ok.mp h
    obtain ⟨l', hl, h⟩ := except_bind_eq_ok.mp h
    cases h
    rw [List.map_cons, List.map_cons, readRaw_kind hx, ih hl]

/-- The hashed area of a signature, if it consists of whole subpackets, is read alone, whatever follows it. -/
theorem parseSig_area {t p h : UInt8} {hashed : List RawSub} {area rest : Bytes} {s : Sig} (ha : RawSubs hashed area) (hl : area.length < 65536)
    (hs : parseSig ([4, t, p, h] ++ beBytes 2 area.length ++ area ++ rest) = .ok s) :
    ∃ hs us left vs, List.mapM readRaw hashed = .ok hs ∧ s = .v4 4 t.toNat p.toNat h.toNat hs us left vs := by
  generalize hD : [4, t, p, h] ++ beBytes 2 area.length ++ area ++ rest = data at hs
  have d0 : data.drop 0 = 4 :: t :: p :: h :: (intTo2byte area.length ++ (area ++ rest)) := by
    rw [← hD, intTo2byte_eq]; simp only [List.append_assoc, List.drop_zero]; rfl
  have d1 := drop_succ_of_drop d0
  have d2 := drop_succ_of_drop d1
  have d3 := drop_succ_of_drop d2
  have d4 := drop_succ_of_drop d3
  have d6 := drop_add_of_drop' d4 (n := 2) rfl
  simp only [Nat.zero_add, Nat.reduceAdd] at d1 d2 d3 d4 d6
  have a4 := shortToInt_of_drop d4
  rw [Nat.mod_eq_of_lt (by norm_num; omega)] at a4
  have a5 := parseSubs_raw ha d6
  rw [parseSig_eq] at hs
  simp only [idx_of_drop d0, idx_of_drop d1, idx_of_drop d2, idx_of_drop d3, a4, a5, except_bind_ok] at hs
  rw [if_neg (by decide), if_pos trivial] at hs
  cases hm : List.mapM readRaw hashed with
  | error e => rw [hm] at hs; cases hs
  | ok l =>
    rw [hm] at hs
    simp only [except_bind_ok, except_pure] at hs
    obtain ⟨l2, _, hs⟩ := except_bind_eq_ok.mp hs
    obtain ⟨u, _, hs⟩ := except_bind_eq_ok.mp hs
    obtain ⟨v, _, hs⟩ := except_bind_eq_ok.mp hs
    cases hs
    exact ⟨_, _, _, _, rfl, rfl⟩

/-- C60 (part that holds): if the hashed area is a sequence of whole subpackets, then the hashed subpackets of the signature are these, one for one and in order, with
their types and critical bits; and nothing behind the area - the unhashed area, the hash, the integers - has any influence on them: with anything else there, the
signature is either not read, or has the same hashed subpackets. -/
theorem C60_whole_area_partial {t p h : UInt8} {hashed : List RawSub} {area rest : Bytes} {s : Sig} (ha : RawSubs hashed area) (hl : area.length < 65536)
    (hs : parseSig ([4, t, p, h] ++ beBytes 2 area.length ++ area ++ rest) = .ok s) :
    ∃ hs us left vs, s = .v4 4 t.toNat p.toNat h.toNat hs us left vs ∧ hs.map kindOf = hashed.map (fun r => (r.ty, r.critical)) ∧
      ∀ (t' p' h' : UInt8) (rest' : Bytes) (s' : Sig), parseSig ([4, t', p', h'] ++ beBytes 2 area.length ++ area ++ rest') = .ok s' →
        ∃ us' left' vs', s' = .v4 4 t'.toNat p'.toNat h'.toNat hs us' left' vs' := by
  obtain ⟨l, us, left, vs, h1, h2⟩ := parseSig_area ha hl hs
  refine ⟨l, us, left, vs, h2, ?_, ?_⟩
  · exact readRaws_kind h1
  · intro t' p' h' rest' s' hs'
    obtain ⟨l', us', left', vs', h3, h4⟩ := parseSig_area ha hl hs'
    rw [h1] at h3
    cases h3
    exact ⟨us', left', vs', h4⟩

example : ∃ s us left vs, parseSig exRaw = .ok s ∧ s = .v4 4 0x13 1 8 [.plain false (.creationTime 1), .plain true (.keyFlags (KeyFlags.ofOctet 3)),
    .plain false (.prefSym [9, 7]), .plain false (.expiration 256)] us left vs := by
  obtain ⟨s, hs, _⟩ := exRaw_read
  obtain ⟨hd, ud, vs, h1, _, h3, _, _, _, hb⟩ := exRaw_ok
  have hs' := hs
  rw [hb] at hs'
  simp only [List.append_assoc] at hs'
  rw [← List.append_assoc, ← List.append_assoc] at hs'
  obtain ⟨hs1, us, left, vs', r1, _, _⟩ := C60_whole_area_partial h1 h3 hs'
  rw [parseSig_raw exRaw_ok] at hs
  cases hs
  cases r1
  exact ⟨_, _, _, _, by rw [parseSig_raw exRaw_ok]; rfl, rfl⟩

end Pgp.Props
