import Verif.Lemmas.SigWire
import Verif.Props.SigPackets
import Verif.Props.Lengths
/-
Property theorems C82: the octets of a received signature survive reading and writing.
-/
namespace Pgp.Props
open Spec

theorem pyAssert_ok {b : Bool} {u : Unit} (h : pyAssert b = .ok u) : b = true := by
  cases b
  · cases h
  · rfl

theorem bool_kept {d : Bytes} {b : Bool} (h : readBool d = .ok b) : d = boolOctet b := by
  unfold readBool at h
  obtain ⟨_, h1, h⟩ := except_bind_eq_ok.mp h
  obtain ⟨x, h2, h⟩ := except_bind_eq_ok.mp h
  obtain ⟨_, h3, h⟩ := except_bind_eq_ok.mp h
  cases h
  have h1 := pyAssert_ok h1
  have h3 := pyAssert_ok h3
  match d, h1, h2 with
  | [y], _, h2 =>
    cases h2
    revert h3
    have : ∀ n : Fin 256, ((UInt8.ofNat n).toNat &&& 0xfe == 0) = true → [UInt8.ofNat n] = boolOctet (UInt8.ofNat n != 0) := by
      decide +kernel
    have := this ⟨x.toNat, x.toNat_lt⟩
    simpa using this

theorem time_kept {d : Bytes} {t : Nat} (h : readTime d = .ok t) : d.length = 4 ∧ intTo4byte t = d := by
  unfold readTime at h
  obtain ⟨_, h1, h⟩ := except_bind_eq_ok.mp h
  have h1 : d.length = 4 := by simpa using pyAssert_ok h1
  have h2 := (bytesToInt_ok h).2
  rw [List.drop_zero, List.take_of_length_le (by omega)] at h2
  exact ⟨h1, by rw [h2]; exact intTo4byte_beNat h1⟩

theorem first_kept {d : Bytes} {x : UInt8} (h : readFirst d = .ok x) : ∃ t, d = x :: t := by
  unfold readFirst at h
  obtain ⟨_, h1, h⟩ := except_bind_eq_ok.mp h
  cases d with
  | nil => cases h
  | cons y t => cases h; exact ⟨t, rfl⟩

theorem uri_kept {d : Bytes} {u : List Char} (h : readUri d = .ok u) : d ≠ [] := by
  unfold readUri at h
  obtain ⟨_, h1, h⟩ := except_bind_eq_ok.mp h
  rintro rfl
  cases h1

theorem note_kept {d : Bytes} {name v : List Char} {ns : Option (List Char)} {nl vl : Nat} (hc : noteContent name ns (.text v) = d)
    (h1 : shortToInt d 4 = .ok nl) (h2 : shortToInt d 6 = .ok vl) (h3 : 8 + nl + vl = d.length) (hn : '@' ∉ name) : Kept 20 d := by
  have hd : d = [0x80, 0, 0, 0] ++ (intTo2byte (noteName name ns).length ++ (intTo2byte (utf8Encode v).length ++
      (noteName name ns ++ utf8Encode v))) := by
    rw [← hc]; simp only [noteContent, List.append_assoc]
  have d0 : d.drop 0 = [0x80, 0, 0, 0] ++ (intTo2byte (noteName name ns).length ++ (intTo2byte (utf8Encode v).length ++
      (noteName name ns ++ utf8Encode v))) := hd
  have d4 := drop_add_of_drop' d0 (n := 4) rfl
  rw [Nat.zero_add] at d4
  have d6 := drop_add_of_drop' d4 (n := 2) rfl
  norm_num at d6
  rw [shortToInt_of_drop d4] at h1
  rw [shortToInt_of_drop d6] at h2
  cases h1
  cases h2
  have hlen : 8 + (noteName name ns).length + (utf8Encode v).length = d.length := by
    rw [hd]; simp only [List.length_append, intTo2byte_length, List.length_cons, List.length_nil]; omega
  have ha := Nat.mod_le (noteName name ns).length 65536
  have hb := Nat.mod_le (utf8Encode v).length 65536
  have hname : (noteName name ns).length < 65536 := by
    have : (noteName name ns).length % 65536 < 65536 := Nat.mod_lt _ (by decide)
    omega
  have hval : (utf8Encode v).length < 65536 := by
    have : (utf8Encode v).length % 65536 < 65536 := Nat.mod_lt _ (by decide)
    omega
  rw [← hc]
  simp only [noteContent, intTo2byte_eq]
  have hat := utf8_at_mem hn
  refine .notation hname hval ?_ ⟨v, rfl⟩ ?_
  · unfold noteName
    split
    · rename_i c s
      exact ⟨name ++ '@' :: c :: s, by rw [utf8Encode_append, show '@' :: c :: s = ['@'] ++ (c :: s) from rfl, utf8Encode_append, List.append_assoc]; rfl⟩
    · exact ⟨name, rfl⟩
  · intro p hp
    unfold noteName at hp
    split at hp
    · rename_i c s
      have hne : utf8Encode (c :: s) ≠ [] := fun e => by cases utf8Encode_eq_nil.mp e
      have := congrArg List.dropLast hp
      rw [List.dropLast_append_of_ne_nil hne, List.dropLast_concat] at this
      rw [← this]
      simp
    · exact absurd (show (0x40 : UInt8) ∈ utf8Encode name by rw [hp]; simp) hat

/-- What reading accepted and writing gives back is content that is kept. -/
theorem kept_of {ty : Nat} {d : Bytes} {v : Plain} (hty : ty < 128) (h10 : ty ≠ 10) (h32 : ty ≠ 32) (h : parsePlain ty d = .ok v) (hc : v.content = .ok d) : Kept ty d := by
  unfold parsePlain at h
  split at h
  · obtain ⟨t, h1, h⟩ := except_bind_eq_ok.mp h; exact .time (by decide) (time_kept h1).1
  · obtain ⟨t, h1, h⟩ := except_bind_eq_ok.mp h; exact .time (by decide) (time_kept h1).1
  · obtain ⟨b, h1, h⟩ := except_bind_eq_ok.mp h; refine .bool (by decide) ?_; rw [bool_kept h1]; cases b <;> decide
  · unfold readTrust at h
    obtain ⟨_, h1, h⟩ := except_bind_eq_ok.mp h
    exact .trust (by simpa using pyAssert_ok h1)
  · unfold readRegex at h
    obtain ⟨_, h1, h⟩ := except_bind_eq_ok.mp h
    obtain ⟨_, h2, h⟩ := except_bind_eq_ok.mp h
    cases h
    simp only [Plain.content, Except.ok.injEq] at hc
    have := congrArg List.length hc
    have h1 : d.length > 0 := by simpa using pyAssert_ok h1
    simp [asciiEncodeReplace, asciiDecodeReplace] at this
    omega
  · obtain ⟨b, h1, h⟩ := except_bind_eq_ok.mp h; refine .bool (by decide) ?_; rw [bool_kept h1]; cases b <;> decide
  · obtain ⟨t, h1, h⟩ := except_bind_eq_ok.mp h; exact .time (by decide) (time_kept h1).1
  · exact absurd rfl h10
  · exact .codes d (by decide)
  · unfold readRevocationKey at h
    obtain ⟨_, h1, h⟩ := except_bind_eq_ok.mp h
    cases h
  · unfold readIssuer at h
    obtain ⟨_, h1, h⟩ := except_bind_eq_ok.mp h
    exact .issuer (by simpa using pyAssert_ok h1)
  · unfold readNote at h
    obtain ⟨_, _, h⟩ := except_bind_eq_ok.mp h
    obtain ⟨_, _, h⟩ := except_bind_eq_ok.mp h
    obtain ⟨_, _, h⟩ := except_bind_eq_ok.mp h
    obtain ⟨_, _, h⟩ := except_bind_eq_ok.mp h
    obtain ⟨nl, h1, h⟩ := except_bind_eq_ok.mp h
    obtain ⟨vl, h2, h⟩ := except_bind_eq_ok.mp h
    dsimp only at h
    obtain ⟨_, h3, h⟩ := except_bind_eq_ok.mp h
    have h3 := pyAssert_ok h3
    rw [beq_iff_eq] at h3
    cases h
    simp only [Plain.content, Except.ok.injEq] at hc
    exact note_kept hc h1 h2 h3 (splitAt_spec _).1
  · exact .codes d (by decide)
  · exact .codes d (by decide)
  · obtain ⟨x, h1, h⟩ := except_bind_eq_ok.mp h
    cases h
    simp only [Plain.content, Except.ok.injEq] at hc
    rw [← hc]
    exact .serverPrefs (by split <;> simp)
  · obtain ⟨u, h1, h⟩ := except_bind_eq_ok.mp h
    cases h
    simp only [Plain.content, Except.ok.injEq] at hc
    exact .uri (by decide) (uri_kept h1) ⟨_, hc⟩
  · obtain ⟨b, h1, h⟩ := except_bind_eq_ok.mp h; refine .bool (by decide) ?_; rw [bool_kept h1]; cases b <;> decide
  · obtain ⟨u, h1, h⟩ := except_bind_eq_ok.mp h
    cases h
    simp only [Plain.content, Except.ok.injEq] at hc
    exact .uri (by decide) (uri_kept h1) ⟨_, hc⟩
  · obtain ⟨x, h1, h⟩ := except_bind_eq_ok.mp h
    cases h
    simp only [Plain.content] at hc
    obtain ⟨y, h2, hc⟩ := except_bind_eq_ok.mp hc
    cases hc
    refine .flags ?_
    rw [byteOf_lt (keyFlags_write _).1] at h2
    cases h2
    rw [toNat_ofNat_lt (keyFlags_write _).1]
    generalize KeyFlags.ofOctet x = f
    obtain ⟨a, b, c, d, e, g, h⟩ := f
    revert a b c d e g h; decide +kernel
  · obtain ⟨s, h1, h⟩ := except_bind_eq_ok.mp h
    exact .userId ⟨s, utf8Encode_strict h1⟩
  · unfold readReason at h
    obtain ⟨c, h1, h⟩ := except_bind_eq_ok.mp h
    cases h
    simp only [Plain.content, byteOf_toNat, except_bind_ok, except_pure, Except.ok.injEq] at hc
    rw [← hc]
    exact .reason ⟨_, rfl⟩
  · obtain ⟨x, h1, h⟩ := except_bind_eq_ok.mp h
    cases h
    simp only [Plain.content, Except.ok.injEq] at hc
    rw [← hc]
    exact .features (by split <;> simp)
  · exfalso
    unfold readTarget at h
    iterate 5 obtain ⟨_, _, h⟩ := except_bind_eq_ok.mp h
    cases h
    simp only [Plain.content] at hc
    obtain ⟨_, _, hc⟩ := except_bind_eq_ok.mp hc
    cases hc
  · cases h
    cases hc
    exact .other hty (by simp only [knownTypes, List.mem_cons, List.not_mem_nil, or_false]; tauto)

/-- C82: exactly which contents survive: if a subpacket (of any type but the embedded signature and the additional recipient request) is
accepted, the value read is written with the same octets precisely when the specification says that they are kept. -/
theorem C82_kept_iff (ty : Nat) (hty : ty < 128) (h10 : ty ≠ 10) (h32 : ty ≠ 32) (d : Bytes) (v : Plain) (h : parsePlain ty d = .ok v) :
    v.content = .ok d ↔ Kept ty d := by
  refine ⟨kept_of hty h10 h32 h, fun hk => ?_⟩
  obtain ⟨w, h1, h2, h3⟩ := kept_plain hk
  obtain ⟨c, h4, h5, _⟩ := plain_roundtrip h1
  rw [h3] at h4
  cases h4
  rw [h2, h] at h5
  cases h5
  exact h3

example : ∃ v, parsePlain 27 [3] = .ok v ∧ v.content = .ok [3] :=
  ⟨_, rfl, (C82_kept_iff 27 (by decide) (by decide) (by decide) [3] _ rfl).mpr (.flags (by decide))⟩

/-- C82: the types for which whatever is accepted is written back octet for octet: times, booleans, trust, algorithm preferences,
issuers, signer's user ids. -/
theorem C82_strict_types (ty : Nat) (hty : ty ∈ [2, 3, 4, 5, 7, 9, 11, 16, 21, 22, 25, 28]) (d : Bytes) (v : Plain)
    (h : parsePlain ty d = .ok v) : v.content = .ok d := by
  have hlt : ty < 128 ∧ ty ≠ 10 ∧ ty ≠ 32 := by
    revert hty; simp only [List.mem_cons, List.not_mem_nil, or_false]; omega
  refine (C82_kept_iff ty hlt.1 hlt.2.1 hlt.2.2 d v h).mpr ?_
  simp only [List.mem_cons, List.not_mem_nil, or_false] at hty
  rcases hty with rfl | rfl | rfl | rfl | rfl | rfl | rfl | rfl | rfl | rfl | rfl | rfl
  · obtain ⟨t, h1, h⟩ := except_bind_eq_ok.mp h; exact .time (by decide) (time_kept h1).1
  · obtain ⟨t, h1, h⟩ := except_bind_eq_ok.mp h; exact .time (by decide) (time_kept h1).1
  · obtain ⟨b, h1, h⟩ := except_bind_eq_ok.mp h; refine .bool (by decide) ?_; rw [bool_kept h1]; cases b <;> decide
  · obtain ⟨_, h1, h⟩ := except_bind_eq_ok.mp h
    exact .trust (by simpa using pyAssert_ok h1)
  · obtain ⟨b, h1, h⟩ := except_bind_eq_ok.mp h; refine .bool (by decide) ?_; rw [bool_kept h1]; cases b <;> decide
  · obtain ⟨t, h1, h⟩ := except_bind_eq_ok.mp h; exact .time (by decide) (time_kept h1).1
  · exact .codes d (by decide)
  · obtain ⟨_, h1, h⟩ := except_bind_eq_ok.mp h
    exact .issuer (by simpa using pyAssert_ok h1)
  · exact .codes d (by decide)
  · exact .codes d (by decide)
  · obtain ⟨b, h1, h⟩ := except_bind_eq_ok.mp h; refine .bool (by decide) ?_; rw [bool_kept h1]; cases b <;> decide
  · obtain ⟨s, h1, h⟩ := except_bind_eq_ok.mp h
    exact .userId ⟨s, utf8Encode_strict h1⟩

example : ∃ v, parsePlain 25 [1] = .ok v ∧ v.content = .ok [1] := ⟨_, rfl, C82_strict_types 25 (by decide) [1] _ rfl⟩

/-- C82 (refuted): key flags beyond the first octet, or the bit without a meaning, are accepted and lost. -/
theorem C82_flags_lost_refuted (x : UInt8) (rest : Bytes) (h : x.toNat.testBit 6 = true ∨ rest ≠ []) :
    ∃ v, parsePlain 27 (x :: rest) = .ok v ∧ v.content ≠ .ok (x :: rest) := by
  refine ⟨_, rfl, fun hc => ?_⟩
  have := (C82_kept_iff 27 (by decide) (by decide) (by decide) (x :: rest) _ rfl).mp hc
  cases this with
  | flags h0 =>
    rcases h with h | h
    · rw [h0] at h; exact absurd h (by decide)
    · exact h rfl
  | time ht => omega
  | bool ht => omega
  | codes _ ht => omega
  | uri ht => omega

example := C82_flags_lost_refuted 3 [1] (.inr (by decide))

/-- C82 (refuted): the same for features: only the first octet's lowest bit is remembered. -/
theorem C82_features_lost_refuted (x : UInt8) (rest : Bytes) (h : 1 < x.toNat ∨ rest ≠ []) :
    ∃ v, parsePlain 30 (x :: rest) = .ok v ∧ v.content ≠ .ok (x :: rest) := by
  refine ⟨_, rfl, fun hc => ?_⟩
  have := (C82_kept_iff 30 (by decide) (by decide) (by decide) (x :: rest) _ rfl).mp hc
  cases this with
  | features h0 =>
    rcases h0 with h0 | h0 <;> cases h0 <;> rcases h with h | h <;> first | exact h rfl | (revert h; decide)
  | time ht => omega
  | bool ht => omega
  | codes _ ht => omega
  | uri ht => omega

example := C82_features_lost_refuted 7 [] (.inl (by decide))

/-- C82 (refuted): a URL (preferred key server, policy) that is not UTF-8 is accepted and written with other octets. -/
theorem C82_malformed_text_refuted (ty : Nat) (ht : ty = 24 ∨ ty = 26) (d : Bytes) (hd : d ≠ []) (hu : ¬Utf8 d) :
    ∃ v c, parsePlain ty d = .ok v ∧ v.content = .ok c ∧ c ≠ d := by
  have hr : readUri d = .ok (utf8DecodeReplace d) := by
    unfold readUri
    rw [pyAssert_true (by simpa using List.length_pos_iff.mpr hd)]; rfl
  rcases ht with rfl | rfl
  · exact ⟨.prefKeyServer (utf8DecodeReplace d), _, by simp only [parsePlain, hr]; rfl, rfl, fun e => hu ⟨_, e⟩⟩
  · exact ⟨.policyUri (utf8DecodeReplace d), _, by simp only [parsePlain, hr]; rfl, rfl, fun e => hu ⟨_, e⟩⟩

example := C82_malformed_text_refuted 26 (.inr rfl) [0xff] (by decide) (fun ⟨s, hs⟩ => by
  have := utf8Units_encode s
  rw [hs, utf8Units, if_neg (by decide), show utf8Lead 0xff = none by decide] at this
  cases s <;> simp at this)

/-- C82 (refuted): a subpacket whose length is not written in the shortest form is accepted and written with fewer octets. -/
theorem C82_longer_length_refuted (fl : Nat → Nat) (critical : Bool) (ty : Nat) (l d : Bytes) (h : Kept ty d)
    (hl : NewDefinite l (d.length + 1)) (hs : ¬Shortest l (d.length + 1)) :
    ∃ s e, parseSubs (l ++ [UInt8.ofNat (ty + if critical then 128 else 0)] ++ d) 0
          (l ++ [UInt8.ofNat (ty + if critical then 128 else 0)] ++ d).length =
        .ok ([s], (l ++ [UInt8.ofNat (ty + if critical then 128 else 0)] ++ d).length) ∧
      subsBytes fl [s] = .ok e ∧ e.length < (l ++ [UInt8.ofNat (ty + if critical then 128 else 0)] ++ d).length := by
  obtain ⟨v, h1, h2, h3⟩ := kept_plain h
  obtain ⟨c, h4, h5, h6, h7⟩ := plain_roundtrip h1
  rw [h3] at h4
  cases h4
  rw [h2] at h5 h6 h7
  have hn : d.length + 1 ≤ 4294967295 := by
    generalize hm : d.length + 1 = m at hl
    cases hl with
    | one a h => omega
    | two a b h h' => have := uint8_lt b; omega
    | five a b c d => have := beNat_lt [a, b, c, d]; simp at this; omega
  obtain ⟨m, hm1, hm2, _⟩ := newPacketLengthToBytes_definite hn false
  have hmin : ∀ l', NewDefinite l' (d.length + 1) → m.length ≤ l'.length := by
    obtain ⟨e, he1, _, he3⟩ := C06_new_length_shortest (d.length + 1) hn false
    rw [hm1] at he1
    cases he1
    exact he3
  have hlt : m.length < l.length := by
    apply Nat.lt_of_le_of_ne (hmin l hl)
    intro e
    exact hs ⟨hl, fun l' hl' => e ▸ hmin l' hl'⟩
  have hh := subHeader_write (data := l ++ [UInt8.ofNat (ty + if critical then 0x80 else 0)] ++ d) (s := []) (off := 0) (ty := ty)
    (critical := critical) h6 hl (by simp)
  refine ⟨.plain critical v, m ++ [UInt8.ofNat (ty + if critical then 128 else 0)] ++ d, ?_, ?_, ?_⟩
  · rw [parseSubs_eq, if_pos (by simp), hh]
    simp only [readSub, if_neg h7, h5, except_bind_ok, except_pure, Nat.zero_add]
    rw [parseSubs_eq, if_neg (by omega)]
    rfl
  · rw [subsBytes, subsBytes, Sub.toBytes, h3, h2]
    simp only [subBytes, hm1, byteOf_lt (show (ty + if critical then 0x80 else 0) < 256 by split <;> omega), except_bind_ok, except_pure, List.append_nil]
  · simp only [List.length_append]; omega

example := C82_longer_length_refuted Nat.log2 false 25 [255, 0, 0, 0, 2] [1] (.bool (by decide) (by decide)) (.five 0 0 0 2)
  (fun h => absurd (h.2 [2] (.one 2 (by decide))) (by decide))

/-- C82 (part that holds): a version 4 signature packet that is written with shortest lengths and exact bit counts and contains only
content that is kept - however many subpackets it has and however deeply signatures are embedded - is read, and the value read is
written with exactly the octets that came in. -/
theorem C82_signature_octets_kept_partial (fl : Nat → Nat) (good : Nat → Prop)
    (hg : ∀ i, good i → LogRoom fl i ∧ (0 < i → fl i = Nat.log2 i)) (data : Bytes) (h : SigWire good data) :
    ∃ sig, parseSig data = .ok sig ∧ Sig.content fl sig = .ok data := by
  obtain ⟨sig, h1, h2⟩ := sigWire_ok hg h
  obtain ⟨e, h3, h4⟩ := sigOk_write h1
  rw [h2] at h3
  cases h3
  exact ⟨sig, h4, h2⟩

/-- A signature with a creation time, key flags and an embedded signature. -/
def exSigOctets (t p h x y : UInt8) (hashed unhashed : Bytes) (values : List Nat) : Bytes :=
  [4, t, p, h] ++ beBytes 2 hashed.length ++ hashed ++ beBytes 2 unhashed.length ++ unhashed ++ [x, y] ++ (values.map mpi).flatten
def exInner : Bytes := exSigOctets 0x19 1 8 5 6 [] [] [7]
def exSub (critical : Bool) (ty : Nat) (n : UInt8) (d : Bytes) : Bytes := [n] ++ [UInt8.ofNat (ty + if critical then 128 else 0)] ++ d
def exHashed : Bytes := exSub false 2 5 [1, 2, 3, 4] ++ (exSub true 27 2 [3] ++ (exSub false 32 14 exInner ++ []))
def exWire : Bytes := exSigOctets 0x18 1 8 7 8 exHashed [] [257]

theorem shortest_one {n : UInt8} {k : Nat} (hk : n.toNat = k) (h : k < 192) : Shortest [n] k := by
  subst hk
  refine ⟨.one n h, fun l' hl' => ?_⟩
  generalize n.toNat = m at hl'
  cases hl' <;> simp

theorem exWire_ok : SigWire (· < 1000) exWire := by
  have inner : SigWire (· < 1000) exInner := .mk (values := [7]) .nil .nil (by decide) (by decide) (by simp)
  have h1 : SubWire (· < 1000) (exSub false 2 5 [1, 2, 3, 4]) := .plain (shortest_one rfl (by decide)) (.time (by decide) rfl)
  have h2 : SubWire (· < 1000) (exSub true 27 2 [3]) := .plain (shortest_one rfl (by decide)) (.flags (by decide))
  have h3 : SubWire (· < 1000) (exSub false 32 14 exInner) := .embedded (shortest_one (by decide) (by decide)) inner
  have hs : SubsWire (· < 1000) exHashed := .cons h1 (.cons h2 (.cons h3 .nil))
  exact .mk (values := [257]) hs .nil (by decide) (by decide) (by simp)

example := C82_signature_octets_kept_partial Nat.log2 (· < 1000)
  (fun i hi => ⟨logRoom_of_exact rfl (Nat.lt_of_lt_of_le (show i < 2 ^ 10 by omega) (Nat.pow_le_pow_right (by decide) (by decide))), fun _ => rfl⟩) exWire exWire_ok

end Pgp.Props
