import Verif.Props.SigPackets
import Verif.Lemmas.Hashing
import Verif.Props.S2k
/-
Property theorems C27 (what is hashed determines what was signed) and C28 (what is signed verifies).
-/
namespace Pgp.Props
open Spec

/-- What the call is about. -/
def callAbout (c : HashCall) : Signed := about c.sigType c.targetType c.target (c.pub.getD [])

/-- The digest algorithms the library has. -/
def digests : List Nat := [1, 2, 3, 8, 9, 10, 11]

theorem getHashInstance_ok {a : Nat} : getHashInstance a = .ok () ↔ a ∈ digests := by
  unfold getHashInstance digests
  constructor
  · intro h; split at h
    · simpa using by assumption
    · cases h
  · intro h; rw [if_pos (by simpa using h)]

theorem needPub_ok {o : Option Bytes} {p : Bytes} (h : needPub o = .ok p) : o = some p := by
  cases o <;> simp_all [needPub]

theorem hashUserData_eq (tt : Nat) (k d : Bytes) (v : Nat) (hv : 4 ≤ v) (t : Nat) (ht : t ∈ [0x10, 0x11, 0x12, 0x13, 0x30]) :
    hashKeyInput k ++ hashUserData tt d v = (about t tt d k).octets := by
  have h1 : about t tt d k = if tt = 13 then .userId k d else if tt = 17 then .userAttribute k d else .key k := by
    unfold about
    rw [if_neg (by rintro (rfl | rfl) <;> simp at ht), if_pos ht]
  rw [h1]
  unfold hashUserData
  rw [hashKeyInput_eq, intTo4byte_eq]
  split
  · simp [Signed.octets, if_pos hv]
  · split
    · simp [Signed.octets, if_pos hv]
    · simp [Signed.octets]

theorem hashUserData_eq3 (tt : Nat) (k d : Bytes) (v : Nat) (hv : v < 4) (t : Nat) (ht : t ∈ [0x10, 0x11, 0x12, 0x13, 0x30]) :
    hashKeyInput k ++ hashUserData tt d v = (about t tt d k).octets3 := by
  have h1 : about t tt d k = if tt = 13 then .userId k d else if tt = 17 then .userAttribute k d else .key k := by
    unfold about
    rw [if_neg (by rintro (rfl | rfl) <;> simp at ht), if_pos ht]
  rw [h1]
  unfold hashUserData
  rw [hashKeyInput_eq]
  split
  · simp [Signed.octets3, if_neg (Nat.not_le.mpr hv)]
  · split
    · simp [Signed.octets3, if_neg (Nat.not_le.mpr hv)]
    · simp [Signed.octets3, Signed.octets]

/-- The part of the octets that depends on the target, when no one-octet length is involved. -/
theorem hashTarget_eq (c : HashCall) (hs : c.sigType ≠ 0x40 ∧ c.sigType ≠ 0x50)
    (hp : c.sigType ∈ keyTypes → c.pub.isSome) :
    hashTarget c = .ok (if c.version ≥ 4 then (callAbout c).octets else (callAbout c).octets3) := by
  unfold hashTarget callAbout
  have hpub : c.sigType ∈ keyTypes → needPub c.pub = .ok (c.pub.getD []) := by
    intro h; obtain ⟨p, h⟩ := Option.isSome_iff_exists.mp (hp h); rw [h]; rfl
  by_cases h1 : c.sigType = 0x1f ∨ c.sigType = 0x20
  · rw [if_pos h1, hpub (by rcases h1 with h1 | h1 <;> rw [h1] <;> decide)]
    have : about c.sigType c.targetType c.target (c.pub.getD []) = .key (c.pub.getD []) := by
      rcases h1 with h1 | h1 <;> rw [h1] <;> rfl
    rw [this, except_bind_ok, hashKeyInput_eq]; simp [Signed.octets, Signed.octets3]
  · rw [if_neg h1]
    by_cases h2 : c.sigType = 0x18 ∨ c.sigType = 0x19 ∨ c.sigType = 0x28
    · rw [if_pos h2, hpub (by rcases h2 with h2 | h2 | h2 <;> rw [h2] <;> decide)]
      have : about c.sigType c.targetType c.target (c.pub.getD []) = .keyPair (c.pub.getD []) c.target := by
        rcases h2 with h2 | h2 | h2 <;> rw [h2] <;> rfl
      rw [this, except_bind_ok, hashKeyInput_eq, hashKeyInput_eq]; simp [Signed.octets, Signed.octets3]
    · rw [if_neg h2, if_neg hs.2]
      by_cases h3 : c.sigType = 0 ∨ c.sigType = 1
      · rw [if_pos h3]
        have : about c.sigType c.targetType c.target (c.pub.getD []) = .document c.target := by
          rcases h3 with h3 | h3 <;> rw [h3] <;> rfl
        rw [this]; simp [Signed.octets, Signed.octets3]
      · rw [if_neg h3]
        by_cases h4 : c.sigType = 2
        · rw [if_pos h4]
          have : about c.sigType c.targetType c.target (c.pub.getD []) = .nothing := by rw [h4]; rfl
          rw [this]; simp [Signed.octets, Signed.octets3]
        · rw [if_neg h4]
          by_cases h5 : c.sigType = 0x10 ∨ c.sigType = 0x12 ∨ c.sigType = 0x11 ∨ c.sigType = 0x13 ∨ c.sigType = 0x30
          · have hm : c.sigType ∈ [0x10, 0x11, 0x12, 0x13, 0x30] := by
              rcases h5 with h5 | h5 | h5 | h5 | h5 <;> rw [h5] <;> decide
            rw [if_pos h5, hpub (by rcases h5 with h5 | h5 | h5 | h5 | h5 <;> rw [h5] <;> decide)]
            simp only [except_bind_ok]
            split
            · rw [hashUserData_eq _ _ _ _ (by assumption) _ hm]; rfl
            · rw [hashUserData_eq3 _ _ _ _ (by omega) _ hm]; rfl
          · rw [if_neg h5, if_neg hs.1]
            have : about c.sigType c.targetType c.target (c.pub.getD []) = .nothing := by
              unfold about
              rw [if_neg h3, if_neg (by simp; omega), if_neg (by simp; omega), if_neg (by simp; omega), if_neg (by simp; omega)]
            rw [this]; simp [Signed.octets, Signed.octets3]

/-- C27: for a version 4 (or later) signature of any type other than 0x40 and 0x50, the octets fed to the hash are those of
RFC 4880 section 5.2.4: the octets of what the signature is about and the trailer, which contains the hashed subpackets. Nothing
else (no unhashed subpacket, no creation time argument) enters. -/
theorem C27_hashed_octets (c : HashCall) (hashed : Bytes) (hv : 4 ≤ c.version) (hv' : c.version < 256)
    (ht : c.sigType < 256) (hpa : c.pubAlg < 256) (hh : c.hashAlg ∈ digests) (hfake : c.fakeHash = none)
    (hhd : c.hashed = some hashed) (hs : c.sigType ≠ 0x40 ∧ c.sigType ≠ 0x50) (hp : c.sigType ∈ keyTypes → c.pub.isSome) :
    hashPacketForSignature c = .ok ((callAbout c).octets ++
      trailer4 (UInt8.ofNat c.version) (UInt8.ofNat c.sigType) (UInt8.ofNat c.pubAlg) (UInt8.ofNat c.hashAlg) hashed) := by
  have h256 : c.hashAlg < 256 := by
    have : ∀ a ∈ digests, a < 256 := by decide
    exact this _ hh
  unfold hashPacketForSignature
  rw [getHashInstance_ok.mpr hh, except_bind_ok, hashTarget_eq c hs hp, except_bind_ok, if_pos hv]
  unfold hashTrailer
  rw [if_pos hv, hhd, hfake]
  dsimp only [orElseNat]
  rw [trailerV4_eq hv' ht hpa h256, except_bind_ok]; rfl

example := C27_hashed_octets ⟨13, [65, 66], some [4, 1, 2], 0x13, 4, 8, 0, 1, some [5, 2, 0, 0, 0, 9], none⟩ [5, 2, 0, 0, 0, 9] (by decide)
  (by decide) (by decide) (by decide) (by decide) rfl rfl (by decide) (fun _ => rfl)

/-- The hash algorithm that the hashed octets name: the one given as a pretence, if it is given and not zero, or else the one used. -/
def namedHash (c : HashCall) : Nat :=
  match c.fakeHash with
  | none => c.hashAlg
  | some f => if f = 0 then c.hashAlg else f

theorem orElse_named (c : HashCall) : orElseNat c.fakeHash c.hashAlg = namedHash c := by
  unfold namedHash orElseNat
  cases c.fakeHash with
  | none => rfl
  | some f => cases f with
    | zero => rfl
    | succ n => simp

/-- C27: the same with another hash algorithm named in the octets than the one used (the parameter `fake_hash_algorithm_type`). -/
theorem C27_named_hash (c : HashCall) (hashed : Bytes) (hv : 4 ≤ c.version) (hv' : c.version < 256)
    (ht : c.sigType < 256) (hpa : c.pubAlg < 256) (hh : c.hashAlg ∈ digests) (hfake : namedHash c < 256)
    (hhd : c.hashed = some hashed) (hs : c.sigType ≠ 0x40 ∧ c.sigType ≠ 0x50) (hp : c.sigType ∈ keyTypes → c.pub.isSome) :
    hashPacketForSignature c = .ok ((callAbout c).octets ++
      trailer4 (UInt8.ofNat c.version) (UInt8.ofNat c.sigType) (UInt8.ofNat c.pubAlg) (UInt8.ofNat (namedHash c)) hashed) := by
  unfold hashPacketForSignature
  rw [getHashInstance_ok.mpr hh, except_bind_ok, hashTarget_eq c hs hp, except_bind_ok, if_pos hv]
  unfold hashTrailer
  rw [if_pos hv, hhd, orElse_named]
  dsimp only
  rw [trailerV4_eq hv' ht hpa hfake, except_bind_ok]; rfl

example := C27_named_hash ⟨13, [65, 66], some [4, 1, 2], 0x13, 4, 8, 0, 1, some [5, 2, 0, 0, 0, 9], some 2⟩ [5, 2, 0, 0, 0, 9] (by decide)
  (by decide) (by decide) (by decide) (by decide) (by decide) rfl (by decide) (fun _ => rfl)

/-- C27: version 3 signatures hash the type and creation time instead, and do not frame user ids. -/
theorem C27_hashed_octets_v3 (c : HashCall) (hv : c.version < 4) (ht : c.sigType < 256) (hh : c.hashAlg ∈ digests)
    (hs : c.sigType ≠ 0x40 ∧ c.sigType ≠ 0x50) (hp : c.sigType ∈ keyTypes → c.pub.isSome) :
    hashPacketForSignature c = .ok ((callAbout c).octets3 ++ trailer3 (UInt8.ofNat c.sigType) c.time) := by
  unfold hashPacketForSignature
  rw [getHashInstance_ok.mpr hh, except_bind_ok, hashTarget_eq c hs hp, except_bind_ok, if_neg (by omega)]
  unfold hashTrailer
  rw [if_neg (by omega), byteOf_lt ht]
  unfold trailer3
  rw [intTo4byte_eq]; rfl

example := C27_hashed_octets_v3 ⟨6, [1], some [3, 1], 0x28, 3, 1, 77, 1, none, none⟩ (by decide) (by decide) (by decide) (by decide)
  (fun _ => rfl)

/-- What a successful call must have been like. -/
theorem hashPacket_ok {c : HashCall} {o : Bytes} (h : hashPacketForSignature c = .ok o) :
    ∃ a b, c.hashAlg ∈ digests ∧ hashTarget c = .ok a ∧ hashTrailer c = .ok b ∧ o = a ++ b := by
  unfold hashPacketForSignature at h
  obtain ⟨_, h1, h⟩ := except_bind_eq_ok.mp h
  obtain ⟨a, h2, h⟩ := except_bind_eq_ok.mp h
  obtain ⟨b, h3, h⟩ := except_bind_eq_ok.mp h
  cases h
  exact ⟨a, b, getHashInstance_ok.mp h1, h2, h3, rfl⟩

theorem hashTrailer_ok4 {c : HashCall} {b : Bytes} (hv : 4 ≤ c.version) (h : hashTrailer c = .ok b) :
    ∃ hd, c.hashed = some hd ∧ c.version < 256 ∧ c.sigType < 256 ∧ c.pubAlg < 256 ∧ orElseNat c.fakeHash c.hashAlg < 256 ∧
      b = trailer4 (UInt8.ofNat c.version) (UInt8.ofNat c.sigType) (UInt8.ofNat c.pubAlg)
        (UInt8.ofNat (orElseNat c.fakeHash c.hashAlg)) hd := by
  unfold hashTrailer at h
  rw [if_pos hv] at h
  cases hc : c.hashed with
  | none =>
    rw [hc] at h
    dsimp only at h
    obtain ⟨_, _, h⟩ := except_bind_eq_ok.mp h
    obtain ⟨_, _, h⟩ := except_bind_eq_ok.mp h
    obtain ⟨_, _, h⟩ := except_bind_eq_ok.mp h
    obtain ⟨_, _, h⟩ := except_bind_eq_ok.mp h
    cases h
  | some hd =>
    rw [hc] at h
    obtain ⟨h1, h2, h3, h4, h5⟩ := trailerV4_ok h
    exact ⟨hd, rfl, h1, h2, h3, h4, h5⟩

theorem hashTrailer_ok3 {c : HashCall} {b : Bytes} (hv : c.version < 4) (h : hashTrailer c = .ok b) :
    c.sigType < 256 ∧ b = trailer3 (UInt8.ofNat c.sigType) c.time := by
  unfold hashTrailer at h
  rw [if_neg (by omega)] at h
  obtain ⟨t, h1, h⟩ := except_bind_eq_ok.mp h
  obtain ⟨h2, rfl⟩ := byteOf_ok h1
  cases h
  refine ⟨h2, ?_⟩
  unfold trailer3; rw [intTo4byte_eq]

/-- The key was there if the signature type concerns one. -/
theorem hashTarget_pub {c : HashCall} {a : Bytes} (h : hashTarget c = .ok a) : c.sigType ∈ keyTypes → c.pub.isSome := by
  intro hk
  unfold hashTarget at h
  simp only [keyTypes, List.mem_cons, List.not_mem_nil, or_false] at hk
  split at h
  · obtain ⟨p, h1, _⟩ := except_bind_eq_ok.mp h; rw [needPub_ok h1]; rfl
  · split at h
    · obtain ⟨p, h1, _⟩ := except_bind_eq_ok.mp h; rw [needPub_ok h1]; rfl
    · split at h
      · omega
      · split at h
        · omega
        · split at h
          · omega
          · split at h
            · obtain ⟨p, h1, _⟩ := except_bind_eq_ok.mp h; rw [needPub_ok h1]; rfl
            · omega

/-- The target part of a 0x40 or 0x50 signature. -/
theorem hashTarget_sig {c : HashCall} (hs : c.sigType = 0x40 ∨ c.sigType = 0x50) :
    hashTarget c = (do let l ← byteOf c.target.length; return [0x88, l] ++ c.target) := by
  unfold hashTarget
  rcases hs with hs | hs <;> rw [hs] <;> rfl

theorem hashTarget_sig_ok {c : HashCall} {a : Bytes} (hs : c.sigType = 0x40 ∨ c.sigType = 0x50) (h : hashTarget c = .ok a) :
    ∃ l, a = [0x88, l] ++ c.target ∧ callAbout c = .signature c.target := by
  rw [hashTarget_sig hs] at h
  obtain ⟨l, _, h⟩ := except_bind_eq_ok.mp h
  cases h
  refine ⟨l, rfl, ?_⟩
  unfold callAbout
  rcases hs with hs | hs <;> rw [hs] <;> rfl

/-- For a given type, the specification's octets determine what the signature is about. -/
theorem about_inj {t tt tt' : Nat} {d p d' p' : Bytes} (hf : (about t tt d p).fits) (hf' : (about t tt' d' p').fits)
    (hs : t ≠ 0x40 ∧ t ≠ 0x50) (h : (about t tt d p).octets = (about t tt' d' p').octets) : about t tt d p = about t tt' d' p' := by
  unfold about at *
  split at hf
  · rename_i h0
    simp only [h0, if_true] at *
    simpa [Signed.octets] using h
  · rename_i h0
    simp only [h0, if_false] at *
    split at hf
    · rename_i h1
      simp only [h1, if_true] at *
      by_cases a1 : tt = 13 <;> by_cases a2 : tt' = 13 <;> by_cases a3 : tt = 17 <;> by_cases a4 : tt' = 17 <;>
        (try omega) <;> simp only [a1, a2, a3, a4, if_true, if_false, Signed.octets, Signed.fits] at h hf hf' ⊢ <;>
        try simp only [show ¬ (13 = 17) by decide, show ¬ (17 = 13) by decide, if_false, if_true] at h hf hf' ⊢
      all_goals
        first
        | (have e := keyOctets_inj hf.1 hf'.1 h
           obtain ⟨rfl, e⟩ := e
           have e2 := (List.append_inj' (s₁ := [0xb4] ++ beBytes 4 d.length) (s₂ := [0xb4] ++ beBytes 4 d'.length)
             (by simpa using e) (by
               simp only [List.cons_append, List.nil_append, List.cons.injEq, true_and] at e
               have := beBytes_inj (by norm_num; omega) (by norm_num; omega) (List.append_inj e (by simp [beBytes_length])).1
               exact this)).2
           rw [e2])
        | skip
      all_goals
        first
        | (have e := keyOctets_inj hf.1 hf'.1 h
           obtain ⟨rfl, e⟩ := e
           simp only [List.append_assoc, List.cons_append, List.nil_append, List.cons.injEq, true_and] at e
           have e2 := (List.append_inj e (by simp [beBytes_length])).2
           rw [e2])
        | (have e := (keyOctets_inj hf.1 hf'.1 h).2
           simp at e)
        | (have e := (keyOctets_inj (s' := []) hf.1 hf' (by simpa using h)).2
           simp at e)
        | (have e := (keyOctets_inj (s := []) hf hf'.1 (by simpa using h)).2
           simp at e)
        | rw [keyOctets_inj' h]
    · rename_i h1
      simp only [h1, if_false] at *
      split at hf
      · rename_i h2
        simp only [h2, if_true, Signed.octets, Signed.fits] at *
        obtain ⟨rfl, e⟩ := keyOctets_inj hf.1 hf'.1 h
        rw [keyOctets_inj' e]
      · rename_i h2
        simp only [h2, if_false] at *
        split at hf
        · rename_i h3
          simp only [h3, if_true, Signed.octets, Signed.fits] at *
          rw [keyOctets_inj' h]
        · rename_i h3
          simp only [h3, if_false] at *
          rw [if_neg (by simp; omega), if_neg (by simp; omega)]

/-- C27: for signatures of version 4 and later, the hashed octets determine the version, type, algorithms, hashed subpacket
octets and what the signature is about. -/
theorem C27_octets_determine_signed_partial (c c' : HashCall) (o : Bytes) (hv : 4 ≤ c.version) (hv' : 4 ≤ c'.version)
    (h : hashPacketForSignature c = .ok o) (h' : hashPacketForSignature c' = .ok o)
    (hf : (callAbout c).fits) (hf' : (callAbout c').fits)
    (hl : ∀ hd, c.hashed = some hd → hd.length < 65536) (hl' : ∀ hd, c'.hashed = some hd → hd.length < 65536) :
    c.version = c'.version ∧ c.sigType = c'.sigType ∧ c.pubAlg = c'.pubAlg ∧ c.hashed = c'.hashed ∧
    namedHash c = namedHash c' ∧ callAbout c = callAbout c' := by
  rw [← orElse_named, ← orElse_named]
  obtain ⟨a, b, _, ha, hb, rfl⟩ := hashPacket_ok h
  obtain ⟨a', b', _, ha', hb', heq⟩ := hashPacket_ok h'
  obtain ⟨hd, e1, e2, e3, e4, e5, rfl⟩ := hashTrailer_ok4 hv hb
  obtain ⟨hd', f1, f2, f3, f4, f5, rfl⟩ := hashTrailer_ok4 hv' hb'
  have := hl _ e1
  have := hl' _ f1
  obtain ⟨g0, g1, g2, g3, g4, rfl⟩ := trailer_inj (by omega) (by omega) heq
  have ht := ofNat_inj e3 f3 g2
  refine ⟨ofNat_inj e2 f2 g1, ht, ofNat_inj e4 f4 g3, by rw [e1, f1], ofNat_inj e5 f5 g4, ?_⟩
  subst g0
  by_cases hs : c.sigType = 0x40 ∨ c.sigType = 0x50
  · obtain ⟨l, r1, r2⟩ := hashTarget_sig_ok hs ha
    obtain ⟨l', r1', r2'⟩ := hashTarget_sig_ok (ht ▸ hs) ha'
    rw [r2, r2']
    rw [r1] at r1'
    simp only [List.cons_append, List.nil_append, List.cons.injEq, true_and] at r1'
    rw [r1'.2]
  · have hs1 : c.sigType ≠ 0x40 ∧ c.sigType ≠ 0x50 := by omega
    rw [hashTarget_eq c hs1 (hashTarget_pub ha), if_pos hv] at ha
    rw [hashTarget_eq c' (ht ▸ hs1) (hashTarget_pub ha'), if_pos hv'] at ha'
    unfold callAbout at *
    rw [← ht] at ha' hf' ⊢
    exact about_inj hf hf' hs1 ((Except.ok.inj ha).trans (Except.ok.inj ha').symm)

/-- A call that meets the hypotheses. -/
example : ∃ o, hashPacketForSignature ⟨13, [65, 66], some [4, 1, 2], 0x13, 4, 8, 0, 1, some [5, 2, 0, 0, 0, 9], none⟩ = .ok o ∧
    (callAbout ⟨13, [65, 66], some [4, 1, 2], 0x13, 4, 8, 0, 1, some [5, 2, 0, 0, 0, 9], none⟩).fits :=
  ⟨_, rfl, ⟨by decide, by decide⟩⟩

/-- C27: a version 3 signature and a version 4 signature never hash the same octets (unless the version 3 type is 255). -/
theorem C27_versions_separated (c c' : HashCall) (o : Bytes) (hv : c.version < 4) (hv' : 4 ≤ c'.version) (h255 : c.sigType ≠ 255)
    (h : hashPacketForSignature c = .ok o) : hashPacketForSignature c' ≠ .ok o := by
  intro h'
  obtain ⟨a, b, _, ha, hb, rfl⟩ := hashPacket_ok h
  obtain ⟨a', b', _, ha', hb', heq⟩ := hashPacket_ok h'
  obtain ⟨e1, rfl⟩ := hashTrailer_ok3 hv hb
  obtain ⟨hd', f1, f2, f3, f4, f5, rfl⟩ := hashTrailer_ok4 hv' hb'
  unfold trailer3 trailer4 at heq
  have heq' : (a ++ [UInt8.ofNat c.sigType]) ++ beBytes 4 c.time = (a' ++ ([UInt8.ofNat c'.version, UInt8.ofNat c'.sigType,
      UInt8.ofNat c'.pubAlg, UInt8.ofNat (orElseNat c'.fakeHash c'.hashAlg)] ++ beBytes 2 hd'.length ++ hd' ++
      [UInt8.ofNat c'.version]) ++ [255]) ++ beBytes 4 (hd'.length + 6) := by
    simpa only [List.append_assoc, List.cons_append, List.nil_append] using heq
  have h1 := (List.append_inj' heq' (by simp [beBytes_length])).1
  have h2 := (List.append_inj' h1 (by simp)).2
  simp only [List.cons.injEq, and_true] at h2
  exact h255 (ofNat_inj e1 (by decide) h2)

example := C27_versions_separated ⟨6, [1], some [3, 1], 0x28, 3, 1, 77, 1, none, none⟩
  ⟨6, [1], some [3, 1], 0x28, 4, 1, 77, 1, some [], none⟩ _ (by decide) (by decide) (by decide) rfl

/-- C27: version 3 signatures of one and the same type determine the type, the time and (for everything but user ids and
attributes) what they are about. -/
theorem C27_v3_octets_determine_signed (c c' : HashCall) (o : Bytes) (hv : c.version < 4) (hv' : c'.version < 4)
    (h : hashPacketForSignature c = .ok o) (h' : hashPacketForSignature c' = .ok o)
    (ht : c.time < 2 ^ 32) (ht' : c'.time < 2 ^ 32) (hf : (callAbout c).fits) (hf' : (callAbout c').fits)
    (hk : c.sigType ∉ [0x10, 0x11, 0x12, 0x13, 0x30]) :
    c.sigType = c'.sigType ∧ c.time = c'.time ∧ callAbout c = callAbout c' := by
  obtain ⟨a, b, _, ha, hb, rfl⟩ := hashPacket_ok h
  obtain ⟨a', b', _, ha', hb', heq⟩ := hashPacket_ok h'
  obtain ⟨e1, rfl⟩ := hashTrailer_ok3 hv hb
  obtain ⟨f1, rfl⟩ := hashTrailer_ok3 hv' hb'
  obtain ⟨g0, g1⟩ := List.append_inj' heq (by simp [trailer3, beBytes_length])
  simp only [trailer3, List.cons_append, List.nil_append, List.cons.injEq] at g1
  have hty := ofNat_inj e1 f1 g1.1
  refine ⟨hty, beBytes_inj (by norm_num; omega) (by norm_num; omega) g1.2, ?_⟩
  subst g0
  by_cases hs : c.sigType = 0x40 ∨ c.sigType = 0x50
  · obtain ⟨l, r1, r2⟩ := hashTarget_sig_ok hs ha
    obtain ⟨l', r1', r2'⟩ := hashTarget_sig_ok (hty ▸ hs) ha'
    rw [r2, r2']
    rw [r1] at r1'
    simp only [List.cons_append, List.nil_append, List.cons.injEq, true_and] at r1'
    rw [r1'.2]
  · have hs1 : c.sigType ≠ 0x40 ∧ c.sigType ≠ 0x50 := by omega
    rw [hashTarget_eq c hs1 (hashTarget_pub ha), if_neg (by omega)] at ha
    rw [hashTarget_eq c' (hty ▸ hs1) (hashTarget_pub ha'), if_neg (by omega)] at ha'
    have hno : ∀ tt d p, (about c.sigType tt d p).octets3 = (about c.sigType tt d p).octets := by
      intro tt d p
      unfold about
      rw [if_neg hk]
      split
      · rfl
      · split
        · rfl
        · split
          · rfl
          · split <;> rfl
    unfold callAbout at *
    rw [← hty] at ha' hf' ⊢
    rw [hno] at ha ha'
    exact about_inj hf hf' hs1 ((Except.ok.inj ha).trans (Except.ok.inj ha').symm)

example : ∃ o, hashPacketForSignature ⟨6, [1], some [3, 1], 0x28, 3, 1, 77, 1, none, none⟩ = .ok o ∧
    (callAbout ⟨6, [1], some [3, 1], 0x28, 3, 1, 77, 1, none, none⟩).fits ∧ 0x28 ∉ [0x10, 0x11, 0x12, 0x13, 0x30] :=
  ⟨_, rfl, ⟨by decide, by decide⟩, by decide⟩

/-- C27 does not extend to version 3 certifications: a user id and a user attribute with the same octets are certified alike. -/
theorem C27_v3_attribute_confused (c : HashCall) (hv : c.version < 4) (ht : c.targetType = 13)
    (hs : c.sigType ∈ [0x10, 0x11, 0x12, 0x13, 0x30]) (hp : c.pub.isSome) :
    hashPacketForSignature { c with targetType := 17 } = hashPacketForSignature c ∧
    callAbout { c with targetType := 17 } ≠ callAbout c := by
  have hk : c.sigType ∈ keyTypes := by
    have : ∀ t ∈ [0x10, 0x11, 0x12, 0x13, 0x30], t ∈ keyTypes := by decide
    exact this _ hs
  have h2 : c.sigType ≠ 0x40 ∧ c.sigType ≠ 0x50 := by
    constructor <;> intro h <;> rw [h] at hs <;> simp at hs
  have h01 : ¬ (c.sigType = 0 ∨ c.sigType = 1) := by rintro (h | h) <;> rw [h] at hs <;> simp at hs
  have e1 : callAbout { c with targetType := 17 } = .userAttribute (c.pub.getD []) c.target := by
    unfold callAbout about; dsimp only; rw [if_neg h01, if_pos hs, if_neg (by decide), if_pos rfl]
  have e2 : callAbout c = .userId (c.pub.getD []) c.target := by
    unfold callAbout about; rw [if_neg h01, if_pos hs, if_pos ht]
  constructor
  · unfold hashPacketForSignature
    rw [hashTarget_eq c h2 (fun _ => hp), hashTarget_eq { c with targetType := 17 } h2 (fun _ => hp)]
    dsimp only
    rw [if_neg (by omega), if_neg (by omega), e1, e2]; rfl
  · rw [e1, e2]; simp

example := C27_v3_attribute_confused ⟨13, [65], some [3, 1], 0x13, 3, 1, 77, 1, none, none⟩ (by decide) rfl (by decide) rfl

/-- C27: for signatures on signatures the length is a single octet where RFC 4880 has four, so that the octets never agree with the
specification's, and signature packets of 256 octets or more cannot be confirmed at all. -/
theorem C27_confirmation_deviates (c : HashCall) (hs : c.sigType = 0x40 ∨ c.sigType = 0x50) (hh : c.hashAlg ∈ digests) :
    (256 ≤ c.target.length → hashPacketForSignature c = .error .valueError) ∧
    (∀ o, hashPacketForSignature c = .ok o → ∀ v t p h hd, 4 ≤ c.version → c.hashed = some hd → hd.length < 65536 →
      o ≠ (callAbout c).octets ++ trailer4 v t p h hd) := by
  constructor
  · intro hl
    unfold hashPacketForSignature
    rw [getHashInstance_ok.mpr hh, except_bind_ok, hashTarget_sig hs, byteOf_ge hl]; rfl
  · intro o ho v t p h hd hv hhd hl heq
    obtain ⟨a, b, _, ha, hb, rfl⟩ := hashPacket_ok ho
    obtain ⟨l, r1, r2⟩ := hashTarget_sig_ok hs ha
    obtain ⟨hd', e1, _, _, _, _, rfl⟩ := hashTrailer_ok4 hv hb
    rw [hhd] at e1; cases e1
    rw [r1, r2] at heq
    have := congrArg List.length heq
    simp [Signed.octets, trailer4_length, beBytes_length] at this
    omega

example := C27_confirmation_deviates ⟨2, [4, 0], none, 0x50, 4, 2, 0, 1, some [], none⟩ (.inr rfl) (by decide)

/-- C27: a standalone signature covers nothing but itself, whatever target is passed. -/
theorem C27_standalone (c : HashCall) (hs : c.sigType = 0x02) (t : Bytes) (tt : Nat) :
    hashPacketForSignature { c with target := t, targetType := tt } = hashPacketForSignature c := by
  have h0 : ∀ c : HashCall, c.sigType = 0x02 → hashTarget c = .ok [] := by
    intro c hs
    unfold hashTarget
    simp [hs]
  unfold hashPacketForSignature
  rw [h0 c hs, h0 { c with target := t, targetType := tt } hs]; rfl

example : ∃ o, hashPacketForSignature ⟨13, [65, 66], some [4, 1, 2], 0x13, 4, 8, 0, 1, some [5, 2, 0, 0, 0, 9], none⟩ = .ok o ∧
    (callAbout ⟨13, [65, 66], some [4, 1, 2], 0x13, 4, 8, 0, 1, some [5, 2, 0, 0, 0, 9], none⟩).fits ∧
    callAbout ⟨13, [65, 66], some [4, 1, 2], 0x13, 4, 8, 0, 1, some [5, 2, 0, 0, 0, 9], none⟩ = .userId [4, 1, 2] [65, 66] :=
  ⟨_, rfl, ⟨by decide, by decide⟩, rfl⟩

example : ∃ o, hashPacketForSignature ⟨6, [1], some [3, 1], 0x28, 3, 1, 77, 1, none, none⟩ = .ok o :=
  ⟨_, rfl⟩

/-! ### Signing and verifying objects -/

/-- What an item handed to `sign` is. -/
def itemAbout : Item → Signed
  | .raw b => .document b
  | .document d => .document d
  | .key k => .key k
  | .subkey p k => .keyPair p k
  | .secretSubkey p k => .keyPair p k
  | .userId p u => .userId p u
  | .userAttribute p a => .userAttribute p a

/-- C27: when signing and verifying objects, the octets fed to the hash for a document, key, public subkey, user id or attribute are
the specification's. -/
theorem C27_item_octets (i : Item) (v : Nat) (hv : 4 ≤ v) (hi : ∀ b, i ≠ .raw b) (hs : ∀ p k, i ≠ .secretSubkey p k) :
    i.signable v = .ok (itemAbout i).octets := by
  cases i with
  | raw b => exact absurd rfl (hi b)
  | secretSubkey p k => exact absurd rfl (hs p k)
  | document d => rfl
  | key k => simp [Item.signable, itemAbout, Signed.octets, hashKeyInput_eq]
  | subkey p k => simp [Item.signable, itemAbout, Signed.octets, hashKeyInput_eq]
  | userId p u => simp [Item.signable, itemAbout, Signed.octets, hashKeyInput_eq, hv, intTo4byte_eq]
  | userAttribute p a => simp [Item.signable, itemAbout, Signed.octets, hashKeyInput_eq, hv, intTo4byte_eq]

example := C27_item_octets (.subkey [4, 1] [4, 2]) 4 (by decide) (by intro _ h; cases h) (by intro _ _ h; cases h)

/-- C27: so the object route and the packet route hash the same octets for the same subject. -/
theorem C27_routes_agree (c : HashCall) (i : Item) (hashed : List Sub) (unhashed : List Sub) (hash2 : Bytes)
    (values : List (Option Nat)) (fl : Nat → Nat) (hd b : Bytes) (hv : 4 ≤ c.version)
    (hi : ∀ b, i ≠ .raw b) (hsk : ∀ p k, i ≠ .secretSubkey p k) (hh : c.hashAlg ∈ digests) (hfake : c.fakeHash = none)
    (hsub : subsBytes fl hashed = .ok hd) (hhd : c.hashed = some hd)
    (hb : sigSignable fl (.v4 c.version c.sigType c.pubAlg c.hashAlg hashed unhashed hash2 values) = .ok b)
    (hs : c.sigType ≠ 0x40 ∧ c.sigType ≠ 0x50) (hp : c.sigType ∈ keyTypes → c.pub.isSome) (habout : callAbout c = itemAbout i) :
    ∃ a, i.signable c.version = .ok a ∧ hashPacketForSignature c = .ok (a ++ b) := by
  refine ⟨_, C27_item_octets i c.version hv hi hsk, ?_⟩
  unfold sigSignable at hb
  dsimp only at hb
  rw [hsub, except_bind_ok] at hb
  obtain ⟨h1, h2, h3, h4, rfl⟩ := trailerV4_ok hb
  rw [C27_hashed_octets c hd hv h1 h2 h3 hh hfake hhd hs hp, habout]

example := C27_routes_agree ⟨13, [65, 66], some [4, 1, 2], 0x13, 4, 8, 0, 1, some [5, 2, 0, 0, 0, 9], none⟩ (.userId [4, 1, 2] [65, 66])
  [.plain false (.creationTime 9)] [] [1, 2] [some 3] Nat.log2 [5, 2, 0, 0, 0, 9] _ (by decide) (by intro _ h; cases h)
  (by intro _ _ h; cases h) (by decide) rfl rfl rfl rfl (by decide) (fun _ => rfl) rfl

/-- C27 fails for secret subkeys: the primary key is hashed twice, so the octets are never those of the public form of the same
subkey. -/
theorem C27_secret_subkey_differs (p k : Bytes) (v : Nat) (a b : Bytes) (ha : (Item.subkey p k).signable v = .ok a)
    (hb : (Item.secretSubkey p k).signable v = .ok b) : ∀ t t' : Bytes, t.length = t'.length → a ++ t ≠ b ++ t' := by
  cases ha; cases hb
  intro t t' ht h
  have := congrArg List.length h
  simp [hashKeyInput, ht] at this
  omega

example := C27_secret_subkey_differs [4, 1] [4, 2] 4 _ _ rfl rfl

/-- The trailer of a signature depends on nothing in the unhashed area, the stored hash prefix or the signature integers. -/
theorem C27_unhashed_not_covered (fl : Nat → Nat) (v t p h : Nat) (hashed u u' : List Sub) (h2 h2' : Bytes)
    (vs vs' : List (Option Nat)) :
    sigSignable fl (.v4 v t p h hashed u h2 vs) = sigSignable fl (.v4 v t p h hashed u' h2' vs') := rfl

/-! ### C28 -/

/-- The primitives of a key pair verify what they sign, when given a digest made with the hash algorithm `h`. (Digests of other
lengths need not fit the key.) -/
def PrimsCorrect (H : Digest) (h : Nat) (P : SigPrims) : Prop :=
  (∀ x, P.rsaVerify h (H h x) (P.rsaSign h (H h x)) = true) ∧
  (∀ m, P.elgVerify m [(P.elgSign m).1, (P.elgSign m).2] = true) ∧
  (∀ m, P.dsaVerify m [(P.dsaSign m).1, (P.dsaSign m).2] = true)

/-- A signature string is accepted only if it is as long as the modulus (PKCS#1 v1.5 verification, step 1). -/
def RsaLength (P : SigPrims) : Prop := ∀ a d s, P.rsaVerify a d s = true → s.length = P.modLen

/-- A toy key pair: the signature of a digest is the digest itself behind a non-zero octet. -/
def toyPrims : SigPrims where
  modLen := 33
  rsaSign _ d := 1 :: (d ++ List.replicate (32 - d.length) 0)
  rsaVerify _ d s := s == 1 :: (d ++ List.replicate (32 - d.length) 0) && s.length == 33
  emsa _ d := d
  elgSign m := (beNat m, m.length)
  elgVerify m v := v == [beNat m, m.length]
  dsaQ := 2 ^ 160 - 47
  dsaSign m := (m, m + 1)
  dsaVerify m v := v == [m, m + 1]

/-- A digest of the right lengths. -/
def toyHash : Digest := fun a d => d.take ((digestOctets a).getD 0) ++ List.replicate ((digestOctets a).getD 0 - d.length) 0

theorem toyHash_ok : DigestOk toyHash := by
  intro a n hn d
  simp only [toyHash, hn, Option.getD_some, List.length_append, List.length_take, List.length_replicate]
  omega

theorem toyPrims_correct : PrimsCorrect toyHash 2 toyPrims := by
  refine ⟨fun x => ?_, fun _ => beq_self_eq_true _, fun _ => beq_self_eq_true _⟩
  have := toyHash_ok 2 20 rfl x
  simp [toyPrims, this]

example : RsaLength toyPrims := by
  intro a d s h
  simp only [toyPrims, Bool.and_eq_true, beq_iff_eq] at h
  exact h.2

theorem osToInt_eq (b : Bytes) : osToInt b = beNat b := rfl

/-- The verifier hands the primitive the integer/encoding the signer signed; for RSA, the signature string without leading zeros. -/
theorem verify_sign (fl : Nat → Nat) (P : SigPrims) (H : Digest) (h : Nat) (hP : PrimsCorrect H h P) (alg : Nat) (x0 : Bytes) (digest : Bytes) (hx0 : digest = H h x0) (values : List Nat)
    (hd : digest ≠ []) (hs : signHash fl P alg h digest = .ok values)
    (hrsa : alg = 1 ∨ alg = 3 → ∃ x r, P.rsaSign h digest = x :: r ∧ x ≠ 0) :
    verifyHash fl P alg h digest values = .ok true := by
  obtain ⟨p1, p2, p3⟩ := hP
  unfold signHash at hs
  unfold verifyHash
  split at hs
  · rename_i ha
    rw [if_pos ha]
    cases hs
    obtain ⟨x, r, h1, h2⟩ := hrsa ha
    dsimp only
    rw [osToInt_eq, h1, longToBytes_beNat h2, ← h1, hx0, p1]
  · rename_i ha
    rw [if_neg ha]
    split at hs
    · rename_i hb
      rw [if_pos hb]
      cases hs
      rw [p2]
    · rename_i hb
      rw [if_neg hb]
      split at hs
      · rename_i hc
        rw [if_pos hc]
        cases hs
        obtain ⟨x, r, rfl⟩ := List.exists_cons_of_ne_nil hd
        rw [show idx (x :: r) 0 = .ok x from rfl, except_bind_ok, p3]; rfl
      · cases hs

/-- C28: signing and verifying agree on which algorithms are supported: RSA (1, 3), DSA (17), ElGamal (20); all others raise. -/
theorem C28_algorithms (fl : Nat → Nat) (P : SigPrims) (alg h : Nat) (digest : Bytes) (values : List Nat) :
    ((∃ v, signHash fl P alg h digest = .ok v) ↔ alg ∈ [1, 3, 17, 20]) ∧
    (alg ∉ [1, 3, 17, 20] → signHash fl P alg h digest = .error .valueError ∧
      verifyHash fl P alg h digest values = .error .valueError) := by
  unfold signHash verifyHash
  constructor
  · constructor
    · rintro ⟨v, h⟩
      split at h
      · rename_i h1; rcases h1 with h1 | h1 <;> rw [h1] <;> decide
      · split at h
        · rename_i h1; rw [h1]; decide
        · split at h
          · rename_i h1; rw [h1]; decide
          · cases h
    · intro h
      simp only [List.mem_cons, List.not_mem_nil, or_false] at h
      by_cases h1 : alg = 1 ∨ alg = 3
      · rw [if_pos h1]; exact ⟨_, rfl⟩
      · rw [if_neg h1]
        by_cases h2 : alg = 20
        · rw [if_pos h2]; exact ⟨_, rfl⟩
        · rw [if_neg h2, if_pos (by omega)]; exact ⟨_, rfl⟩
  · intro h
    simp only [List.mem_cons, List.not_mem_nil, or_false, not_or] at h
    rw [if_neg (by omega), if_neg (by omega), if_neg (by omega), if_neg (by omega), if_neg (by omega), if_neg (by omega)]
    exact ⟨rfl, rfl⟩

theorem sigSignable_v4_ok {fl : Nat → Nat} {v t p h : Nat} {hashed u : List Sub} {h2 : Bytes} {vs : List (Option Nat)} {b : Bytes}
    (hb : sigSignable fl (.v4 v t p h hashed u h2 vs) = .ok b) : ∃ hd, subsBytes fl hashed = .ok hd ∧ v < 256 ∧ t < 256 ∧ p < 256 ∧
      h < 256 ∧ b = trailer4 (UInt8.ofNat v) (UInt8.ofNat t) (UInt8.ofNat p) (UInt8.ofNat h) hd := by
  unfold sigSignable at hb
  obtain ⟨hd, h1, hb⟩ := except_bind_eq_ok.mp hb
  exact ⟨hd, h1, trailerV4_ok hb⟩

theorem filterMap_some (l : List Nat) : (l.map some).filterMap id = l := by
  induction l with
  | nil => rfl
  | cons a l ih => simp only [List.map_cons, List.filterMap_cons, id_eq]; rw [ih]

/-- The shape of a signature made by `sign`. -/
theorem sign_shape {fl : Nat → Nat} {H : Digest} {K : SignKey} {i : Item} {v t h : Nat} {subs : List Sub} {now : Nat} {sig : Sig}
    (hs : signItem fl H K i v t h subs now = .ok sig) :
    K.locked = false ∧ keyObj K.alg = .ok () ∧ getHashInstance h = .ok () ∧ 4 ≤ v ∧
    ∃ a b values hashed, i.signInput v = .ok a ∧ weakref i = .ok () ∧
      hashed = (if v = 4 then Sub.plain false (.issuer K.keyId) :: Sub.plain false (.creationTime now) :: subs else subs) ∧
      sigSignable fl (.v4 v t K.alg h hashed [] [] []) = .ok b ∧
      signHash fl K.prims K.alg h (H h (a ++ b)) = .ok values ∧
      sig = .v4 v t K.alg h hashed [] ((H h (a ++ b)).take 2) (values.map some) := by
  unfold signItem at hs
  split at hs
  · cases hs
  · rename_i hl
    obtain ⟨_, e1, hs⟩ := except_bind_eq_ok.mp hs
    obtain ⟨_, e2, hs⟩ := except_bind_eq_ok.mp hs
    obtain ⟨a, e3, hs⟩ := except_bind_eq_ok.mp hs
    obtain ⟨_, e4, hs⟩ := except_bind_eq_ok.mp hs
    split at hs
    · obtain ⟨_, _, hs⟩ := except_bind_eq_ok.mp hs
      cases hs
    · split at hs
      · cases hs
      · rename_i hv
        obtain ⟨b, e5, hs⟩ := except_bind_eq_ok.mp hs
        obtain ⟨values, e6, hs⟩ := except_bind_eq_ok.mp hs
        cases hs
        exact ⟨by simpa using hl, e1, e2, by omega, a, b, values, _, e3, e4, rfl, e5, e6, rfl⟩

/-- The RSA signature string of the digest that `sign` makes for this item does not begin with a zero octet. -/
def FullLength (fl : Nat → Nat) (H : Digest) (K : SignKey) (i : Item) (t h : Nat) (subs : List Sub) (now : Nat) : Prop :=
  ∀ a b, i.signable 4 = .ok a →
    sigSignable fl (.v4 4 t K.alg h (Sub.plain false (.issuer K.keyId) :: Sub.plain false (.creationTime now) :: subs) [] [] []) = .ok b →
    ∃ x r, K.prims.rsaSign h (H h (a ++ b)) = x :: r ∧ x ≠ 0

/-- C28: whatever `sign` returns for an item, `verify` accepts for the same item under the same key, provided the primitives verify
what they sign and, for RSA, the signature string does not start with a zero octet. -/
theorem C28_sign_verify_partial (fl : Nat → Nat) (H : Digest) (hH : DigestOk H) (K : SignKey) (h : Nat) (hP : PrimsCorrect H h K.prims)
    (i : Item) (hi : ∀ b, i ≠ .raw b) (t : Nat) (subs : List Sub) (now : Nat) (sig : Sig)
    (hrsa : K.alg = 1 ∨ K.alg = 3 → FullLength fl H K i t h subs now)
    (hs : signItem fl H K i 4 t h subs now = .ok sig) : verifyItem fl H K i sig = .ok true := by
  obtain ⟨_, e1, e2, hv, a, b, values, hashed, e3, _, hh, e5, e6, rfl⟩ := sign_shape hs
  rw [if_pos rfl] at hh
  have e7 : i.signable 4 = .ok a := by
    cases i with
    | raw b => exact absurd rfl (hi b)
    | _ => exact e3
  have hd : H h (a ++ b) ≠ [] := by
    have hm := getHashInstance_ok.mp e2
    have : ∀ a ∈ digests, digestOctets a ≠ none ∧ digestOctets a ≠ some 0 := by decide
    obtain ⟨n, hn⟩ : ∃ n, digestOctets h = some (n + 1) := by
      cases hc : digestOctets h with
      | none => exact absurd hc (this _ hm).1
      | some n => cases n with
        | zero => exact absurd hc (this _ hm).2
        | succ n => exact ⟨n, rfl⟩
    intro h0
    have := hH h (n + 1) hn (a ++ b)
    rw [h0] at this; simp at this
  unfold verifyItem
  dsimp only
  rw [if_neg (by simp [issuersOf, hh]), if_neg (by simp)]
  rw [e1, except_bind_ok, e2, except_bind_ok, e7, except_bind_ok]
  rw [C27_unhashed_not_covered fl 4 t K.alg h _ _ [] _ [] _ [], e5, except_bind_ok]
  rw [if_neg (by simp), filterMap_some,
    verify_sign fl K.prims H h hP K.alg _ _ rfl values hd e6 (fun hr => hrsa hr a b e7 (by rw [← hh]; exact e5))]
  rfl

/-- A DSA key, and an RSA key whose signature string is of full length. -/
example : ∃ sig, signItem Nat.log2 toyHash ⟨"0123456789ABCDEF".toList, 17, false, toyPrims⟩ (.userId [4, 1] [65]) 4 0x13 2 [] 1000 = .ok sig ∧
    verifyItem Nat.log2 toyHash ⟨"0123456789ABCDEF".toList, 17, false, toyPrims⟩ (.userId [4, 1] [65]) sig = .ok true :=
  ⟨_, rfl, C28_sign_verify_partial Nat.log2 toyHash toyHash_ok ⟨"0123456789ABCDEF".toList, 17, false, toyPrims⟩ 2 toyPrims_correct
    (.userId [4, 1] [65]) (by intro _ h; cases h) 0x13 [] 1000 _ (by rintro (h | h) <;> cases h) rfl⟩

example : ∃ sig, signItem Nat.log2 toyHash ⟨"0123456789ABCDEF".toList, 1, false, toyPrims⟩ (.document [65]) 4 0 2 [] 1000 = .ok sig ∧
    verifyItem Nat.log2 toyHash ⟨"0123456789ABCDEF".toList, 1, false, toyPrims⟩ (.document [65]) sig = .ok true :=
  ⟨_, rfl, C28_sign_verify_partial Nat.log2 toyHash toyHash_ok ⟨"0123456789ABCDEF".toList, 1, false, toyPrims⟩ 2 toyPrims_correct
    (.document [65]) (by intro _ h; cases h) 0 [] 1000 _ (fun _ _ _ _ _ => ⟨_, _, rfl, by decide⟩) rfl⟩

/-- C28, the missing part: an RSA signature string that begins with a zero octet (1 in 256) is stored as a shorter integer and the
verifier, which must be given a string as long as the modulus, refuses it. -/
theorem C28_rsa_leading_zero_refused (fl : Nat → Nat) (P : SigPrims) (hL : RsaLength P) (alg h : Nat) (ha : alg = 1 ∨ alg = 3)
    (digest : Bytes) (values : List Nat) (r : Bytes) (hz : P.rsaSign h digest = 0 :: r)
    (hlen : (0 :: r).length = P.modLen) (hr : r ≠ [])
    (hs : signHash fl P alg h digest = .ok values) : verifyHash fl P alg h digest values = .ok false := by
  unfold signHash at hs
  rw [if_pos ha] at hs
  cases hs
  unfold verifyHash
  rw [if_pos ha]
  dsimp only
  congr 1
  by_contra hc
  have hc : P.rsaVerify h digest (longToBytes (osToInt (P.rsaSign h digest))) = true := by simpa using hc
  have h1 := hL _ _ _ hc
  have h2 := hlen
  rw [hz] at h1
  rw [osToInt_eq, beNat_cons] at h1
  simp only [UInt8.toNat_zero, Nat.zero_mul, Nat.zero_add] at h1
  have h3 : 0 < r.length := List.length_pos_iff.mpr hr
  unfold longToBytes at h1
  split at h1
  · simp at h1 h2; omega
  · rename_i h0
    rw [octetsDown_length] at h1
    have h4 := beNat_lt r
    have h5 : Nat.log2 (beNat r) < 8 * r.length := by
      rw [Nat.log2_lt h0]
      rwa [show (256 : Nat) = 2 ^ 8 by norm_num, ← pow_mul] at h4
    simp only [List.length_cons] at h2
    omega

/-- A key whose signatures all begin with a zero octet. -/
example := C28_rsa_leading_zero_refused Nat.log2
  { toyPrims with rsaSign := fun _ _ => [0, 7], rsaVerify := fun _ _ s => s == [0, 7], modLen := 2 }
  (by intro a d s h; simp only [beq_iff_eq] at h; rw [h]; rfl) 1 2 (.inl rfl) [9] _ [7] rfl rfl (by decide) rfl

/-- C28, soundness: `verify` accepts only if the key's id is among the signature's issuers, the algorithms agree, the hash prefix
matches, and the primitive accepted the digest of exactly the specification's octets. -/
theorem C28_verify_sound (fl : Nat → Nat) (H : Digest) (K : SignKey) (i : Item) (hsk : ∀ p k, i ≠ .secretSubkey p k)
    (v t p h : Nat) (hv : 4 ≤ v) (hashed unhashed : List Sub) (hash2 : Bytes) (values : List (Option Nat)) (r : Bool)
    (ho : verifyItem fl H K i (.v4 v t p h hashed unhashed hash2 values) = .ok r) :
    r = true ∧ K.alg = p ∧ K.keyId ∈ issuersOf (hashed ++ unhashed) ∧ ∃ hd, subsBytes fl hashed = .ok hd ∧
      (H h ((itemAbout i).octets ++ trailer4 (UInt8.ofNat v) (UInt8.ofNat t) (UInt8.ofNat p) (UInt8.ofNat h) hd)).take 2 = hash2 ∧
      verifyHash fl K.prims p h
        (H h ((itemAbout i).octets ++ trailer4 (UInt8.ofNat v) (UInt8.ofNat t) (UInt8.ofNat p) (UInt8.ofNat h) hd))
        (values.filterMap id) = .ok true := by
  unfold verifyItem at ho
  dsimp only at ho
  split at ho
  · cases ho
  · rename_i h1
    split at ho
    · cases ho
    · rename_i h2
      obtain ⟨_, _, ho⟩ := except_bind_eq_ok.mp ho
      obtain ⟨_, _, ho⟩ := except_bind_eq_ok.mp ho
      obtain ⟨a, e1, ho⟩ := except_bind_eq_ok.mp ho
      obtain ⟨b, e2, ho⟩ := except_bind_eq_ok.mp ho
      have hraw : ∀ b, i ≠ .raw b := by rintro b rfl; cases e1
      rw [C27_item_octets i v hv hraw hsk] at e1
      cases e1
      obtain ⟨hd, e3, _, _, _, _, rfl⟩ := sigSignable_v4_ok e2
      split at ho
      · cases ho
      · rename_i h3
        obtain ⟨ok, e4, ho⟩ := except_bind_eq_ok.mp ho
        split at ho
        · rename_i h5
          cases ho
          rw [h5] at e4
          exact ⟨rfl, by simpa using h2, by simpa using h1, hd, e3, by simpa using h3, e4⟩
        · cases ho

example : ∃ v t p h hashed unhashed hash2 values, 4 ≤ v ∧
    verifyItem Nat.log2 toyHash ⟨"0123456789ABCDEF".toList, 17, false, toyPrims⟩ (.userId [4, 1] [65])
      (.v4 v t p h hashed unhashed hash2 values) = .ok true :=
  ⟨4, 0x13, 17, 2, _, _, _, _, by decide,
    C28_sign_verify_partial Nat.log2 toyHash toyHash_ok ⟨"0123456789ABCDEF".toList, 17, false, toyPrims⟩ 2 toyPrims_correct
    (.userId [4, 1] [65]) (by intro _ h; cases h) 0x13 [] 1000 _ (by rintro (h | h) <;> cases h) rfl⟩

/-- C28: a signature that has been written to a packet and parsed again verifies exactly as the original does. -/
theorem C28_transport (fl : Nat → Nat) (H : Digest) (K : SignKey) (i : Item) (sig : Sig) (hok : SigOk fl sig) :
    ∃ e sig', Sig.content fl sig = .ok e ∧ parseSig e = .ok sig' ∧ verifyItem fl H K i sig' = verifyItem fl H K i sig := by
  obtain ⟨e, h1, h2⟩ := sigOk_write hok
  exact ⟨e, sig, h1, h2, rfl⟩

example := C28_transport Nat.log2 toyHash ⟨"0123456789ABCDEF".toList, 17, false, toyPrims⟩ (.userId [4, 1] [65]) exFit exFit_ok

/-- A version 4 signature made by `sign` with a regular key id, time and subpackets can be written. -/
theorem signed_sigOk {fl : Nat → Nat} {H : Digest} (hH : DigestOk H) {K : SignKey} {i : Item} {t h : Nat} {subs : List Sub} {now : Nat} {sig : Sig}
    (hs : signItem fl H K i 4 t h subs now = .ok sig)
    (hk : K.keyId.length = 16 ∧ UpperHex K.keyId) (hnow : now < 2 ^ 32) (hsubs : ∀ s ∈ subs, SubOk fl s)
    (harea : ∀ e, subsBytes fl subs = .ok e → e.length < 60000)
    (hroom : ∀ d values, signHash fl K.prims K.alg h d = .ok values → ∀ n ∈ values, LogRoom fl n) : SigOk fl sig := by
  obtain ⟨_, e1, e2, hv, a, b, values, hashed, e3, _, hh, e5, e6, rfl⟩ := sign_shape hs
  rw [if_pos rfl] at hh
  obtain ⟨hd, s1, _, ht, hp, h256, rfl⟩ := sigSignable_v4_ok e5
  have hl : hd.length < 65536 := by
    rw [hh] at s1
    rw [subsBytes] at s1
    obtain ⟨x, x1, s1⟩ := except_bind_eq_ok.mp s1
    obtain ⟨y, y1, s1⟩ := except_bind_eq_ok.mp s1
    cases s1
    rw [subsBytes] at y1
    obtain ⟨z, z1, y1⟩ := except_bind_eq_ok.mp y1
    obtain ⟨w, w1, y1⟩ := except_bind_eq_ok.mp y1
    cases y1
    have hw := harea _ w1
    have hlen : ∀ (ty : Nat) (c e : Bytes), ty < 128 → c.length < 10 → subBytes ty false c = .ok e → e.length < 300 := by
      intro ty c e hty hc he
      obtain ⟨l, h1, rfl⟩ := subBytes_ok hty he
      have : l.length ≤ 5 := by
        generalize c.length + 1 = n at h1
        cases h1 <;> simp
      simp only [List.length_append, List.length_singleton]; omega
    have hx : x.length < 300 := by
      rw [Sub.toBytes] at x1
      obtain ⟨c, c1, x1⟩ := except_bind_eq_ok.mp x1
      obtain ⟨b, hb, hbt⟩ := upperHex_is_hexOf 8 K.keyId hk.2 hk.1
      rw [Plain.content, hbt, hexToBytes_hexOf hb] at c1
      cases c1
      exact hlen 16 _ _ (by decide) (by omega) x1
    have hz : z.length < 300 := by
      rw [Sub.toBytes] at z1
      obtain ⟨c, c1, z1⟩ := except_bind_eq_ok.mp z1
      cases c1
      exact hlen 2 _ _ (by decide) (by simp [intTo4byte_length]) z1
    simp only [List.length_append]; omega
  have h2 : ((H h (a ++ trailer4 (UInt8.ofNat 4) (UInt8.ofNat t) (UInt8.ofNat K.alg) (UInt8.ofNat h) hd)).take 2).length = 2 := by
    have hm := getHashInstance_ok.mp e2
    have : ∀ a ∈ digests, ∀ n, digestOctets a = some n → 2 ≤ n := by
      intro a ha n hn
      simp only [digests, List.mem_cons, List.not_mem_nil, or_false] at ha
      rcases ha with rfl | rfl | rfl | rfl | rfl | rfl | rfl <;> cases hn <;> decide
    have h0 : ∀ a ∈ digests, digestOctets a ≠ none := by decide
    obtain ⟨n, hn⟩ := Option.ne_none_iff_exists'.mp (h0 _ hm)
    rw [List.length_take, hH h n hn]
    exact Nat.min_eq_left (this _ hm n hn)
  refine .v4 ht hp h256 ?_ (by simp) ⟨hd, s1, hl⟩ ⟨[], by rw [subsBytes], by simp⟩ h2 (hroom _ _ e6)
  intro s hs
  rw [hh] at hs
  rcases List.mem_cons.mp hs with rfl | hs
  · exact .plain hk
  · rcases List.mem_cons.mp hs with rfl | hs
    · exact .plain hnow
    · exact hsubs _ hs

/-- C28: a signature made by `sign`, written to a packet and parsed again, verifies. -/
theorem C28_sign_transport_verify_partial (fl : Nat → Nat) (H : Digest) (hH : DigestOk H) (K : SignKey) (h : Nat) (hP : PrimsCorrect H h K.prims)
    (i : Item) (hi : ∀ b, i ≠ .raw b) (t : Nat) (subs : List Sub) (now : Nat) (sig : Sig)
    (hrsa : K.alg = 1 ∨ K.alg = 3 → FullLength fl H K i t h subs now)
    (hs : signItem fl H K i 4 t h subs now = .ok sig)
    (hk : K.keyId.length = 16 ∧ UpperHex K.keyId) (hnow : now < 2 ^ 32) (hsubs : ∀ s ∈ subs, SubOk fl s)
    (harea : ∀ e, subsBytes fl subs = .ok e → e.length < 60000)
    (hroom : ∀ d values, signHash fl K.prims K.alg h d = .ok values → ∀ n ∈ values, LogRoom fl n) :
    ∃ e sig', Sig.content fl sig = .ok e ∧ parseSig e = .ok sig' ∧ verifyItem fl H K i sig' = .ok true := by
  have hver := C28_sign_verify_partial fl H hH K h hP i hi t subs now sig hrsa hs
  obtain ⟨e, h1, h2⟩ := sigOk_write (signed_sigOk hH hs hk hnow hsubs harea hroom)
  exact ⟨e, _, h1, h2, hver⟩

example := C28_sign_transport_verify_partial Nat.log2 toyHash toyHash_ok ⟨"0123456789ABCDEF".toList, 17, false, toyPrims⟩ 2 toyPrims_correct
  (.userId [4, 1] [65]) (by intro _ h; cases h) 0x13 [] 1000 _ (by rintro (h | h) <;> cases h) rfl ⟨rfl, by unfold UpperHex; decide⟩ (by decide) (by simp)
  (fun e he => by cases he; decide) (fun d values h n hn => by
    have hb := beNat_lt (d.take 20)
    cases h
    have hv : beNat (d.take 20) < 2 ^ 160 := Nat.lt_of_lt_of_le hb (by
      rw [show (2 : Nat) ^ 160 = 256 ^ 20 by decide +kernel]
      exact Nat.pow_le_pow_right (by decide) (by simp))
    refine logRoom_of_exact rfl (Nat.lt_of_lt_of_le (show n < 2 ^ 161 from ?_) (Nat.pow_le_pow_right (by decide) (by decide)))
    have hq : qBytes Nat.log2 (2 ^ 160 - 47) = 20 := by decide +kernel
    simp only [toyPrims, hq, osToInt_eq, List.mem_cons, List.not_mem_nil, or_false] at hn
    omega)

/-- C28: strings and octet strings cannot be signed (an object reference to them cannot be taken) nor verified; version 3 signatures
can be neither made nor verified; a locked key does not sign. -/
theorem C28_unsupported (fl : Nat → Nat) (H : Digest) (K : SignKey) (v t h now : Nat) (subs : List Sub) (sig : Sig) :
    (∀ b, b ≠ [] → ∀ s, signItem fl H K (.raw b) v t h subs now ≠ .ok s) ∧
    (∀ b r, verifyItem fl H K (.raw b) sig ≠ .ok r) ∧
    (v < 4 → ∀ i s, signItem fl H K i v t h subs now ≠ .ok s) ∧
    (∀ i a b c d e f g j, verifyItem fl H K i (.v3 a b c d e f g j) = .error .attributeError) ∧
    (K.locked = true → ∀ i, signItem fl H K i v t h subs now = .error .runtimeError) := by
  refine ⟨?_, ?_, ?_, ?_, ?_⟩
  · intro b hb s hs
    obtain ⟨_, _, _, _, _, _, _, _, _, hw, _⟩ := sign_shape hs
    obtain ⟨x, r, rfl⟩ := List.exists_cons_of_ne_nil hb
    cases hw
  · intro b r hr
    cases sig with
    | v3 => cases hr
    | v4 =>
      unfold verifyItem at hr
      dsimp only at hr
      split at hr
      · cases hr
      · split at hr
        · cases hr
        · obtain ⟨_, _, hr⟩ := except_bind_eq_ok.mp hr
          obtain ⟨_, _, hr⟩ := except_bind_eq_ok.mp hr
          cases hr
  · intro hv i s hs
    obtain ⟨_, _, _, h4, _⟩ := sign_shape hs
    omega
  · intros; rfl
  · intro hl i; unfold signItem; rw [if_pos hl]

/-- C28: a signature made over a secret subkey is over other octets than the verifier of the public subkey hashes: if the verifier
accepts it, then the signature made for the digest of the longer text (in which the primary key occurs twice) was accepted for the
digest of the specification's text — a hash collision or a forgery between these two texts. -/
theorem C28_secret_subkey_not_verifiable (fl : Nat → Nat) (H : Digest) (K : SignKey) (p k : Bytes) (t h now : Nat) (subs : List Sub)
    (sig : Sig) (hs : signItem fl H K (.secretSubkey p k) 4 t h subs now = .ok sig) (r : Bool)
    (hr : verifyItem fl H K (.subkey p k) sig = .ok r) :
    ∃ trailer values, signHash fl K.prims K.alg h (H h ((Signed.key p).octets ++ (Signed.keyPair p k).octets ++ trailer)) = .ok values ∧
      verifyHash fl K.prims K.alg h (H h ((Signed.keyPair p k).octets ++ trailer)) values = .ok true := by
  obtain ⟨_, e1, e2, hv, a, b, values, hashed, e3, _, rfl, e5, e6, rfl⟩ := sign_shape hs
  obtain ⟨hd, s1, _, _, _, _, rfl⟩ := sigSignable_v4_ok e5
  obtain ⟨_, _, _, hd', f1, f2, f3⟩ := C28_verify_sound fl H K (.subkey p k) (by intro _ _ h; cases h) 4 t K.alg h (by decide) _ _ _ _ r hr
  rw [s1] at f1; cases f1
  rw [filterMap_some] at f3
  cases e3
  refine ⟨_, values, ?_, f3⟩
  rw [← e6]
  simp only [Signed.octets, hashKeyInput_eq, List.append_assoc]

end Pgp.Props
