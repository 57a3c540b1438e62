import Verif.Lemmas.SigPackets
import Verif.Lemmas.SecretKey
import Verif.Spec.SigWire
/-
C82: the octets of a signature survive reading and writing.
-/
namespace Pgp
open Spec

theorem intTo4byte_beNat {b : Bytes} (h : b.length = 4) : intTo4byte (beNat b) = b := by
  rw [intTo4byte_eq, ← h, beBytes_beNat]

theorem extendInts_octets (d : Bytes) : extendInts (d.map UInt8.toNat) = .ok d := by
  induction d with
  | nil => rfl
  | cons x d ih =>
    unfold extendInts at ih ⊢
    rw [List.map_cons, List.mapM_cons, ih, byteOf_toNat]; rfl

theorem utf8_at_mem {s : List Char} (h : '@' ∉ s) : (0x40 : UInt8) ∉ utf8Encode s := by
  induction s with
  | nil => simp [utf8Encode]
  | cons c s ih =>
    simp only [List.mem_cons, not_or] at h
    rw [show utf8Encode (c :: s) = utf8Char c ++ utf8Encode s from rfl, List.mem_append]
    rintro (hc | hc)
    · have hv := char_valid c
      have hne : c.toNat ≠ 0x40 := fun e => h.1 (by rw [← ofNat_toNat_char c, e])
      have key : ∀ n : Nat, n < 256 → n ≠ 0x40 → (0x40 : UInt8) ≠ UInt8.ofNat n := by
        intro n hn h40 e
        have := congrArg UInt8.toNat e
        rw [toNat_ofNat_lt hn] at this
        exact h40 this.symm
      have keyc : ∀ n, (0x40 : UInt8) ≠ contOctet n := fun n => key _ (by omega) (by omega)
      unfold utf8Char at hc
      dsimp only at hc
      split at hc
      · rw [List.mem_singleton] at hc
        exact key _ (by omega) hne hc
      split at hc
      · simp only [List.mem_cons, List.not_mem_nil, or_false] at hc
        rcases hc with hc | hc
        · exact key _ (by omega) (by omega) hc
        · exact keyc _ hc
      split at hc
      · simp only [List.mem_cons, List.not_mem_nil, or_false] at hc
        rcases hc with hc | hc | hc
        · exact key _ (by omega) (by omega) hc
        · exact keyc _ hc
        · exact keyc _ hc
      · simp only [List.mem_cons, List.not_mem_nil, or_false] at hc
        rcases hc with hc | hc | hc | hc
        · exact key _ (by omega) (by omega) hc
        · exact keyc _ hc
        · exact keyc _ hc
        · exact keyc _ hc
    · exact ih h.2 hc

theorem splitAt_spec (s : List Char) : '@' ∉ (splitAt s).1 ∧ s = (splitAt s).1 ++ ((splitAt s).2.map ('@' :: ·)).getD [] := by
  induction s with
  | nil => simp [splitAt]
  | cons c s ih =>
    unfold splitAt
    split
    · rename_i h; subst h; simp
    · rename_i h
      refine ⟨by simp only [List.mem_cons, not_or]; exact ⟨fun e => h e.symm, ih.1⟩, ?_⟩
      simp only [List.cons_append, List.cons.injEq, true_and]
      exact ih.2

theorem flags_octet (x : UInt8) (h : x.toNat.testBit 6 = false) : (KeyFlags.ofOctet x).octet = x.toNat := by
  revert x
  have : ∀ n : Fin 256, (UInt8.ofNat n).toNat.testBit 6 = false → (KeyFlags.ofOctet (UInt8.ofNat n)).octet = (UInt8.ofNat n).toNat := by
    decide +kernel
  intro x h
  have := this ⟨x.toNat, x.toNat_lt⟩
  simp only [UInt8.ofNat_toNat] at this
  exact this h

/-- Content that is kept is the content of a value that fits. -/
theorem kept_plain {ty : Nat} {d : Bytes} (h : Kept ty d) : ∃ v : Plain, PlainOk v ∧ v.type = ty ∧ v.content = .ok d := by
  cases h with
  | time ht h =>
    have hb : beNat d < 2 ^ 32 := by have := beNat_lt d; rw [h] at this; exact this
    rcases ht with rfl | rfl | rfl
    · exact ⟨.creationTime (beNat d), hb, rfl, congrArg Except.ok (intTo4byte_beNat h)⟩
    · exact ⟨.expiration (beNat d), hb, rfl, congrArg Except.ok (intTo4byte_beNat h)⟩
    · exact ⟨.keyExpiration (beNat d), hb, rfl, congrArg Except.ok (intTo4byte_beNat h)⟩
  | bool ht h =>
    obtain ⟨b, rfl⟩ : ∃ b, boolOctet b = d := by rcases h with rfl | rfl; exacts [⟨false, rfl⟩, ⟨true, rfl⟩]
    rcases ht with rfl | rfl | rfl
    · exact ⟨.exportable b, trivial, rfl, rfl⟩
    · exact ⟨.revocable b, trivial, rfl, rfl⟩
    · exact ⟨.primaryUserId b, trivial, rfl, rfl⟩
  | trust h =>
    match d, h with
    | [x, y], _ =>
      refine ⟨.trust x.toNat y.toNat, ⟨uint8_lt x, uint8_lt y⟩, rfl, ?_⟩
      simp only [Plain.content, byteOf_toNat, except_bind_ok, except_pure]
  | codes d ht =>
    have hd : ∀ x ∈ d.map UInt8.toNat, x < 256 := by
      intro x hx
      obtain ⟨y, _, rfl⟩ := List.mem_map.mp hx
      exact uint8_lt y
    rcases ht with rfl | rfl | rfl
    · exact ⟨.prefSym (d.map UInt8.toNat), hd, rfl, extendInts_octets d⟩
    · exact ⟨.prefHash (d.map UInt8.toNat), hd, rfl, extendInts_octets d⟩
    · exact ⟨.prefComp (d.map UInt8.toNat), hd, rfl, extendInts_octets d⟩
  | issuer h => exact ⟨.issuer (hexOf d), ⟨by rw [hexOf_length]; omega, hexOf_upper d⟩, rfl, hexToBytes_hexOf h⟩
  | @«notation» name value hn hv un uv h =>
    obtain ⟨n, rfl⟩ := un
    obtain ⟨v, rfl⟩ := uv
    obtain ⟨h1, h2⟩ := splitAt_spec n
    have hns : (splitAt n).2 ≠ some [] := by
      intro e
      rw [e] at h2
      refine utf8_at_mem h1 (h (utf8Encode (splitAt n).1) ?_)
      conv_lhs => rw [h2]
      rw [utf8Encode_append]; rfl
    refine ⟨.note (splitAt n).1 (splitAt n).2 (.text v), ⟨h1, hns, hv, by rw [← h2]; exact hn⟩, rfl, ?_⟩
    simp only [Plain.content, noteContent, noteName_encode _ _ hns, ← h2, intTo2byte_eq]
  | serverPrefs h => rcases h with rfl | rfl; exacts [⟨.keyServerPrefs false, trivial, rfl, rfl⟩, ⟨.keyServerPrefs true, trivial, rfl, rfl⟩]
  | uri ht h u =>
    obtain ⟨s, rfl⟩ := u
    have hs : s ≠ [] := fun e => h (utf8Encode_eq_nil.mpr e)
    rcases ht with rfl | rfl
    · exact ⟨.prefKeyServer s, hs, rfl, rfl⟩
    · exact ⟨.policyUri s, hs, rfl, rfl⟩
  | @flags x h =>
    refine ⟨.keyFlags (KeyFlags.ofOctet x), trivial, rfl, ?_⟩
    simp only [Plain.content, flags_octet x h, byteOf_toNat, except_bind_ok, except_pure]
  | userId u => obtain ⟨s, rfl⟩ := u; exact ⟨.userId s, trivial, rfl, rfl⟩
  | @reason c d u =>
    obtain ⟨s, rfl⟩ := u
    refine ⟨.revocationReason c.toNat s, uint8_lt c, rfl, ?_⟩
    simp only [Plain.content, byteOf_toNat, except_bind_ok, except_pure]; rfl
  | features h => rcases h with rfl | rfl; exacts [⟨.features false, trivial, rfl, rfl⟩, ⟨.features true, trivial, rfl, rfl⟩]
  | other h hk => exact ⟨.other ty, ⟨h, hk⟩, rfl, rfl⟩

theorem newDefinite_unique {a b : Bytes} {n m : Nat} (ha : NewDefinite a n) (hb : NewDefinite b m) (h : n = m)
    (hl : a.length = b.length) : a = b := by
  cases ha with
  | one x hx =>
    cases hb with
    | one y hy => rw [UInt8.toNat_inj.mp h]
    | _ => simp at hl
  | two x y hx hx' =>
    cases hb with
    | two z w hz hz' =>
      have := uint8_lt y
      have := uint8_lt w
      rw [UInt8.toNat_inj.mp (show x.toNat = z.toNat by omega), UInt8.toNat_inj.mp (show y.toNat = w.toNat by omega)]
    | _ => simp at hl
  | five x y z w =>
    cases hb with
    | five x' y' z' w' => exact congrArg (List.cons 255) (beNat_inj (a := [x, y, z, w]) (b := [x', y', z', w']) rfl h)
    | _ => simp at hl

theorem shortest_written {l : Bytes} {n : Nat} (h : Shortest l n) : newPacketLengthToBytes n false = .ok (l, 0) := by
  have hn : n ≤ 4294967295 := by
    cases h.1 with
    | one a h => omega
    | two a b h h' => have := uint8_lt b; omega
    | five a b c d => have := beNat_lt [a, b, c, d]; simp at this; omega
  obtain ⟨e, h1, h2, h3⟩ := newPacketLengthToBytes_definite hn false
  have hlen : l.length = e.length := by
    apply Nat.le_antisymm (h.2 e h2)
    rw [h3]
    cases h.1 with
    | one a ha => simp [ha]
    | two a b ha hb =>
      have := uint8_lt b
      have h5 : (a.toNat - 192) * 256 + b.toNat + 192 < 8384 := by omega
      simp only [h5, if_true, List.length_cons, List.length_nil]
      split <;> omega
    | five a b c d => simp only [List.length_cons, List.length_nil]; split <;> (try split) <;> omega
  rw [h1]
  suffices e = l by rw [this]
  exact (newDefinite_unique h.1 h2 rfl hlen).symm

theorem subBytes_shortest {ty : Nat} {critical : Bool} {l d : Bytes} (hty : ty < 128) (hl : Shortest l (d.length + 1)) :
    subBytes ty critical d = .ok (l ++ [UInt8.ofNat (ty + if critical then 128 else 0)] ++ d) := by
  unfold subBytes
  rw [shortest_written hl, byteOf_lt (by split <;> omega)]
  rfl

theorem sigValues_mpis {fl : Nat → Nat} {l : List Nat} (h : ∀ i ∈ l, 0 < i → fl i = Nat.log2 i) :
    sigValues fl (l.map some) = .ok (l.map mpi).flatten := by
  induction l with
  | nil => rfl
  | cons i l ih =>
    have hi : intToMpi fl i = .ok (mpi i) := by
      by_cases h0 : i = 0
      · subst h0; rw [intToMpi_zero]; rfl
      · rw [intToMpi_pos fl (Nat.pos_of_ne_zero h0), h i (by simp) (Nat.pos_of_ne_zero h0), intTo2byte_eq, octetsDown_eq_beBytes]
        unfold mpi
        simp only [bitLen, h0, if_false]; rfl
    rw [List.map_cons, sigValues, hi, ih fun j hj => h j (by simp [hj])]
    rfl

mutual
theorem subWire_ok {fl : Nat → Nat} {good : Nat → Prop} (hg : ∀ i, good i → LogRoom fl i ∧ (0 < i → fl i = Nat.log2 i)) :
    ∀ {e : Bytes}, SubWire good e → ∃ s, SubOk fl s ∧ Sub.toBytes fl s = .ok e
  | _, .plain (critical := critical) hl h => by
    obtain ⟨v, h1, h2, h3⟩ := kept_plain h
    obtain ⟨c, h4, _, h6, _⟩ := plain_roundtrip h1
    rw [h2] at h6
    refine ⟨.plain critical v, .plain h1, ?_⟩
    rw [Sub.toBytes, h3, h2]
    exact subBytes_shortest h6 hl
  | _, .embedded (critical := critical) hl h => by
    obtain ⟨sig, h1, h2⟩ := sigWire_ok hg h
    refine ⟨.embedded critical sig, .embedded h1, ?_⟩
    rw [Sub.toBytes, h2]
    exact subBytes_shortest (by decide) hl

theorem subsWire_ok {fl : Nat → Nat} {good : Nat → Prop} (hg : ∀ i, good i → LogRoom fl i ∧ (0 < i → fl i = Nat.log2 i)) :
    ∀ {e : Bytes}, SubsWire good e → ∃ l, (∀ s ∈ l, SubOk fl s) ∧ subsBytes fl l = .ok e
  | _, .nil => ⟨[], by simp, by rw [subsBytes]⟩
  | _, .cons h hs => by
    obtain ⟨s, h1, h2⟩ := subWire_ok hg h
    obtain ⟨l, h3, h4⟩ := subsWire_ok hg hs
    refine ⟨s :: l, ?_, by rw [subsBytes, h2, h4]; rfl⟩
    intro x hx
    rcases List.mem_cons.mp hx with rfl | hx
    exacts [h1, h3 x hx]

/-- Octets of a signature in the specified form are those of a signature that fits. -/
theorem sigWire_ok {fl : Nat → Nat} {good : Nat → Prop} (hg : ∀ i, good i → LogRoom fl i ∧ (0 < i → fl i = Nat.log2 i)) :
    ∀ {e : Bytes}, SigWire good e → ∃ sig, SigOk fl sig ∧ Sig.content fl sig = .ok e
  | _, .mk (t := t) (p := p) (h := h) (x := x) (y := y) (values := values) hh hu lh lu hv => by
    obtain ⟨hs, h1, h2⟩ := subsWire_ok hg hh
    obtain ⟨us, h3, h4⟩ := subsWire_ok hg hu
    refine ⟨.v4 4 t.toNat p.toNat h.toNat hs us [x, y] (values.map some),
      .v4 (uint8_lt t) (uint8_lt p) (uint8_lt h) h1 h3 ⟨_, h2, lh⟩ ⟨_, h4, lu⟩ rfl fun i hi => (hg i (hv i hi)).1, ?_⟩
    rw [Sig.content, byteOf_lt (show 4 < 256 by decide), h2, h4, sigValues_mpis fun i hi => (hg i (hv i hi)).2]
    simp only [byteOf_toNat, except_bind_ok, except_pure, intTo2byte_eq]
    rfl
end

end Pgp
