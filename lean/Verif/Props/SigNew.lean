import Verif.Model.Signature
import Verif.Lemmas.SigPackets
import Verif.Spec.SigMeaning
/-
Property theorems C125: signature objects made from their parts.
-/
namespace Pgp.Props
open Spec

/-- C125 (part that holds): a version 4 signature made from parts that fit, without a time and an issuer, is made; its packet has exactly these parts; and what is written
for it is read as a signature object with the same parts. -/
theorem C125_parts_partial (fl : Nat → Nat) {t p h : Nat} {hash2 : Bytes} {values : List Nat} {hashed unhashed : List Sub}
    (hok : SigOk fl (.v4 4 t p h hashed unhashed hash2 (values.map some))) :
    ∃ o data, SigObj.new 4 t p h hash2 (values.map some) none none hashed unhashed = .ok o ∧
      o.toPacket = .ok (.v4 4 t p h hashed unhashed hash2 (values.map some)) ∧
      (do let q ← o.toPacket; Sig.content fl q) = .ok data ∧ (do let q ← parseSig data; SigObj.fromPacket .new q) = .ok o ∧
      (o.version, o.sigType, o.pubAlg, o.hashAlg, o.hash2, o.values) = (4, t, p, h, hash2, values.map some) ∧ o.hashed = hashed ∧ o.unhashed = unhashed := by
  obtain ⟨data, h1, h2⟩ := sigOk_write hok
  refine ⟨⟨4, t, p, h, none, none, hashed, unhashed, hash2, values.map some, .new⟩, data, rfl, rfl, ?_, ?_, rfl, rfl, rfl⟩
  · simp only [SigObj.toPacket, show 4 ≥ 4 from Nat.le_refl 4, if_true, except_bind_ok]
    exact h1
  · rw [h2]; rfl

example := C125_parts_partial Nat.log2 (t := 0x13) (p := 1) (h := 8) (hash2 := [1, 2]) (values := [257]) (hashed := [.plain false (.creationTime 5)]) (unhashed := [])
  (.v4 (by decide) (by decide) (by decide) (by intro s hs; rw [List.mem_singleton] at hs; subst hs; exact .plain (by simp [PlainOk])) (by simp)
    ⟨[5, 2, 0, 0, 0, 5], by decide +kernel, by decide⟩ ⟨[], rfl, by decide⟩ rfl (by
      intro i hi
      rw [List.mem_singleton] at hi
      subst hi
      exact logRoom_of_exact rfl (Nat.lt_of_lt_of_le (show 257 < 2 ^ 9 by decide) (Nat.pow_le_pow_right (by decide) (by decide)))))

/-- C125 (refuted): with an issuer no version 4 signature can be made: AttributeError. -/
theorem C125_issuer_refuted (v t p h : Nat) (hv : 4 ≤ v) (hash2 : Bytes) (values : List (Option Nat)) (created : Option Int) (id : Str) (hashed unhashed : List Sub) :
    SigObj.new v t p h hash2 values created (some id) hashed unhashed = .error .attributeError := by
  unfold SigObj.new
  rw [if_neg (by omega), if_pos hv, if_pos (by simp)]

example := C125_issuer_refuted 4 0x13 1 8 (by decide) [1, 2] [some 257] none "0102030405060708".toList [] []

/-- C125 (refuted): the creation time given for a version 4 signature is lost: the packet is the same for all times, and asking for the time raises TypeError, unless
the subpackets state a time, and then that time is the answer. -/
theorem C125_time_refuted (v t p h : Nat) (hv : 4 ≤ v) (hash2 : Bytes) (values : List (Option Nat)) (created : Int) (hashed unhashed : List Sub) :
    ∃ o o', SigObj.new v t p h hash2 values (some created) none hashed unhashed = .ok o ∧ SigObj.new v t p h hash2 values none none hashed unhashed = .ok o' ∧
      o.toPacket = o'.toPacket ∧ o.creationTime = o'.creationTime ∧
      ((∀ s ∈ hashed ++ unhashed, s.type ≠ 2) → o.creationTime = .error .typeError) := by
  have h2 : ¬ (v = 2 ∨ v = 3) := by omega
  refine ⟨⟨v, t, p, h, some created, none, hashed, unhashed, hash2, values, .new⟩, ⟨v, t, p, h, none, none, hashed, unhashed, hash2, values, .new⟩, ?_, ?_, ?_, ?_, ?_⟩
  · unfold SigObj.new
    rw [if_neg h2, if_pos hv, if_neg (by simp)]
  · unfold SigObj.new
    rw [if_neg h2, if_pos hv, if_neg (by simp)]
  · unfold SigObj.toPacket
    rw [if_pos hv, if_pos hv]
  · unfold SigObj.creationTime
    rw [if_neg h2, if_pos hv, if_neg h2, if_pos hv]
    rfl
  · intro hn
    unfold SigObj.creationTime
    rw [if_neg h2, if_pos hv]
    have : SigObj.subs ⟨v, t, p, h, some created, none, hashed, unhashed, hash2, values, .new⟩ 2 = [] := by
      unfold SigObj.subs
      rw [List.filter_eq_nil_iff]
      intro s hs
      simpa using hn s (by simpa using hs)
    rw [this]
    rfl

example := C125_time_refuted 4 0x13 1 8 (by decide) [1, 2] [some 257] 1400000000000000 [.plain false (.prefSym [9])] []

/-- C125 (refuted): a version 2 or 3 signature is made with any time and issuer, but neither can be had from it, and it has no packet. -/
theorem C125_version_3_refuted (v t p h : Nat) (hv : v = 2 ∨ v = 3) (hash2 : Bytes) (values : List (Option Nat)) (created : Option Int) (id : Option Str) (hashed unhashed : List Sub) :
    ∃ o, SigObj.new v t p h hash2 values created id hashed unhashed = .ok o ∧ o.creationTime = .error .typeError ∧ o.issuers = .error .attributeError ∧
      o.toPacket = .error .typeError := by
  refine ⟨⟨v, t, p, h, created, id, hashed, unhashed, hash2, values, .new⟩, ?_, ?_, ?_, ?_⟩
  · unfold SigObj.new
    rw [if_pos hv]
  · unfold SigObj.creationTime
    rw [if_pos hv]
  · unfold SigObj.issuers
    rw [if_pos hv]
  · unfold SigObj.toPacket SigObj.creationTime
    rw [if_neg (by show ¬ v ≥ 4; omega), if_pos hv, if_pos hv]
    rfl

example := C125_version_3_refuted 3 0x10 1 2 (.inr rfl) [1, 2] [some 257] (some 1400000000000000) (some "0102030405060708".toList) [] []

end Pgp.Props
