import Verif.Model.Hashing
import Verif.Spec.Hashing
import Verif.Lemmas.SessionKey
import Verif.Lemmas.SigPackets
/-
Helper lemmas about what is hashed for signatures.
-/
namespace Pgp
open Spec

theorem hashKeyInput_eq (k : Bytes) : hashKeyInput k = keyOctets k := by
  unfold hashKeyInput keyOctets; rw [intTo2byte_eq]

theorem byteOf_ok {n : Nat} {x : UInt8} (h : byteOf n = .ok x) : n < 256 ∧ x = UInt8.ofNat n := by
  unfold byteOf at h
  split at h
  · cases h; exact ⟨by assumption, rfl⟩
  · cases h

theorem ofNat_inj {a b : Nat} (ha : a < 256) (hb : b < 256) (h : UInt8.ofNat a = UInt8.ofNat b) : a = b := by
  have := congrArg UInt8.toNat h
  rwa [toNat_ofNat_lt ha, toNat_ofNat_lt hb] at this

/-- The trailer is the specification's, whenever it is produced. -/
theorem trailerV4_ok {v t p h : Nat} {hd b : Bytes} (hb : trailerV4 v t p h hd = .ok b) :
    v < 256 ∧ t < 256 ∧ p < 256 ∧ h < 256 ∧
    b = trailer4 (UInt8.ofNat v) (UInt8.ofNat t) (UInt8.ofNat p) (UInt8.ofNat h) hd := by
  unfold trailerV4 at hb
  obtain ⟨v', h1, hb⟩ := except_bind_eq_ok.mp hb
  obtain ⟨t', h2, hb⟩ := except_bind_eq_ok.mp hb
  obtain ⟨p', h3, hb⟩ := except_bind_eq_ok.mp hb
  obtain ⟨h', h4, hb⟩ := except_bind_eq_ok.mp hb
  obtain ⟨a1, rfl⟩ := byteOf_ok h1
  obtain ⟨a2, rfl⟩ := byteOf_ok h2
  obtain ⟨a3, rfl⟩ := byteOf_ok h3
  obtain ⟨a4, rfl⟩ := byteOf_ok h4
  cases hb
  refine ⟨a1, a2, a3, a4, ?_⟩
  unfold trailer4
  rw [intTo2byte_eq, intTo4byte_eq]
  simp only [List.append_assoc]

theorem trailerV4_eq {v t p h : Nat} {hd : Bytes} (hv : v < 256) (ht : t < 256) (hp : p < 256) (hh : h < 256) :
    trailerV4 v t p h hd = .ok (trailer4 (UInt8.ofNat v) (UInt8.ofNat t) (UInt8.ofNat p) (UInt8.ofNat h) hd) := by
  unfold trailerV4 trailer4
  rw [byteOf_lt hv, byteOf_lt ht, byteOf_lt hp, byteOf_lt hh, intTo2byte_eq, intTo4byte_eq]
  simp only [except_bind_ok, except_pure, List.append_assoc]

theorem beBytes_inj {n a b : Nat} (ha : a < 256 ^ n) (hb : b < 256 ^ n) (h : beBytes n a = beBytes n b) : a = b := by
  have := congrArg beNat h
  rwa [beNat_beBytes, beNat_beBytes, Nat.mod_eq_of_lt ha, Nat.mod_eq_of_lt hb] at this

theorem trailer4_length (v t p h : UInt8) (hd : Bytes) : (trailer4 v t p h hd).length = hd.length + 12 := by
  unfold trailer4; simp [beBytes_length]; omega

/-- The trailer can be read off the end of the hashed octets. -/
theorem trailer_inj {a a' hd hd' : Bytes} {v t p h v' t' p' h' : UInt8}
    (hl : hd.length < 2 ^ 32 - 6) (hl' : hd'.length < 2 ^ 32 - 6)
    (heq : a ++ trailer4 v t p h hd = a' ++ trailer4 v' t' p' h' hd') :
    a = a' ∧ v = v' ∧ t = t' ∧ p = p' ∧ h = h' ∧ hd = hd' := by
  have h1 : beBytes 4 (hd.length + 6) = beBytes 4 (hd'.length + 6) := by
    unfold trailer4 at heq
    simp only [← List.append_assoc] at heq
    exact (List.append_inj' heq (by simp [beBytes_length])).2
  have h2 := beBytes_inj (by norm_num; omega) (by norm_num; omega) h1
  have h3 : hd.length = hd'.length := by omega
  obtain ⟨ha, ht⟩ := List.append_inj' heq (by rw [trailer4_length, trailer4_length, h3])
  unfold trailer4 at ht
  simp only [List.append_assoc, List.cons_append, List.nil_append, List.cons.injEq] at ht
  obtain ⟨e1, e2, e3, e4, ht⟩ := ht
  have ht := (List.append_inj ht (by simp [beBytes_length])).2
  exact ⟨ha, e1, e2, e3, e4, (List.append_inj ht h3).1⟩

/-- A framed key is a prefix code. -/
theorem keyOctets_inj {k k' s s' : Bytes} (hk : k.length < 65536) (hk' : k'.length < 65536)
    (h : keyOctets k ++ s = keyOctets k' ++ s') : k = k' ∧ s = s' := by
  unfold keyOctets at h
  simp only [List.append_assoc, List.cons_append, List.nil_append, List.cons.injEq, true_and] at h
  obtain ⟨h1, h2⟩ := List.append_inj h (by simp [beBytes_length])
  have h3 := beBytes_inj (by norm_num; omega) (by norm_num; omega) h1
  exact List.append_inj h2 h3

theorem keyOctets_inj' {k k' : Bytes} (h : keyOctets k = keyOctets k') : k = k' := by
  unfold keyOctets at h
  simp only [List.append_assoc, List.cons_append, List.nil_append, List.cons.injEq, true_and] at h
  exact (List.append_inj h (by simp [beBytes_length])).2

end Pgp
