import Verif.Model.PublicKey
import Verif.Spec.PublicKey
import Verif.Lemmas.Mpi
import Verif.Lemmas.Lengths
/-
Helper lemmas for public key packets.
-/
namespace Pgp
open Spec

/-- The packet attributes of a key with the given parts. -/
def mkPubKey (version created alg : Nat) (days : Option Nat) (m : KeyMaterial) : PubKey :=
  match m with
  | .rsa n e => { version := version, creationTime := created, algorithm := alg, expirationDays := days
                  modulus := some n, exponent := some e }
  | .elgamal p g y => { version := version, creationTime := created, algorithm := alg, expirationDays := days
                        prime := some p, groupGenerator := some g, keyValue := some y }
  | .dsa p q g y => { version := version, creationTime := created, algorithm := alg, expirationDays := days
                      prime := some p, groupOrder := some q, groupGenerator := some g, keyValue := some y }

theorem ofNat_eq_iff {a b : Nat} (ha : a < 256) (hb : b < 256) : UInt8.ofNat a = UInt8.ofNat b ↔ a = b := by
  constructor
  · intro h
    have := congrArg UInt8.toNat h
    rwa [toNat_ofNat_lt ha, toNat_ofNat_lt hb] at this
  · rintro rfl; rfl

theorem pubKey_roundtrip {fl : Nat → Nat} {version created alg : Nat} {days : Option Nat} {m : KeyMaterial}
    (hv : versionFits version days) (hc : created < 2 ^ 32) (ha : m.fits alg) (hm : ∀ i ∈ m.ints, LogRoom fl i) :
    ∃ e, (mkPubKey version created alg days m).publicContent fl = .ok e ∧
      ∀ rest, parsePubKey (e ++ rest) = .ok (e.length, mkPubKey version created alg days m) := by
  have hv256 : version < 256 := by rcases hv with ⟨h | h, -⟩ | h <;> omega
  have ha256 : alg < 256 := by cases m <;> simp only [KeyMaterial.fits] at ha <;> omega
  -- the head
  obtain ⟨hd, hdays, hlen, hparse⟩ : ∃ hd : Bytes, daysBytes version days = .ok hd ∧ hd.length ≤ 2 ∧
      ∀ (data s : Bytes), data.drop 5 = hd ++ s →
      readDays data (UInt8.ofNat version) = .ok (days, 5 + hd.length) := by
    unfold daysBytes readDays
    rcases hv with ⟨h, d, hd, rfl⟩ | ⟨h1, h2, rfl⟩
    · refine ⟨intTo2byte d, by rw [if_pos h], by simp [intTo2byte], ?_⟩
      intro data s hdata
      have : UInt8.ofNat version = 2 ∨ UInt8.ofNat version = 3 := by rcases h with rfl | rfl <;> simp
      rw [if_pos this, shortToInt_of_drop hdata, Nat.mod_eq_of_lt (by simpa using hd)]
      simp [intTo2byte]
    · refine ⟨[], by rw [if_neg (by omega)], by simp, ?_⟩
      intro data s hdata
      have n1 : ¬ (UInt8.ofNat version = 2 ∨ UInt8.ofNat version = 3) := by
        rw [show (2 : UInt8) = UInt8.ofNat 2 from rfl, show (3 : UInt8) = UInt8.ofNat 3 from rfl,
          ofNat_eq_iff h2 (by omega), ofNat_eq_iff h2 (by omega)]; omega
      have n2 : UInt8.ofNat version ≥ 4 := by
        rw [ge_iff_le, UInt8.le_iff_toNat_le, toNat_ofNat_lt h2]; exact h1
      rw [if_neg n1, if_pos n2]; rfl
  have body : ∀ tail rest : Bytes,
      let data := [UInt8.ofNat version] ++ intTo4byte created ++ hd ++ [UInt8.ofNat alg] ++ tail ++ rest
      idx data 0 = .ok (UInt8.ofNat version) ∧ longToInt data 1 = .ok created ∧
      data.drop 5 = hd ++ (UInt8.ofNat alg :: (tail ++ rest)) ∧ idx data (5 + hd.length) = .ok (UInt8.ofNat alg) ∧
      data.drop (5 + hd.length + 1) = tail ++ rest ∧
      ([UInt8.ofNat version] ++ intTo4byte created ++ hd ++ [UInt8.ofNat alg] ++ tail).length
        = 5 + hd.length + 1 + tail.length := by
    intro tail rest data
    have d0 : data.drop 0 = UInt8.ofNat version :: (intTo4byte created ++ (hd ++ (UInt8.ofNat alg :: (tail ++ rest)))) := by
      simp [data]
    have d1 := drop_succ_of_drop d0
    have d5 := drop_add_of_drop' d1 (n := 4) rfl
    have d6 := drop_add_of_drop d5
    have d7 := drop_succ_of_drop d6
    refine ⟨idx_of_drop d0, ?_, d5, idx_of_drop d6, d7, ?_⟩
    · rw [longToInt_of_drop d1, Nat.mod_eq_of_lt (by simpa using hc)]
    · simp [intTo4byte]; omega
  have bv := byteOf_lt hv256
  have ba := byteOf_lt ha256
  cases m with
  | rsa n e =>
    simp only [KeyMaterial.ints, List.mem_cons, List.not_mem_nil, or_false, forall_eq_or_imp, forall_eq] at hm
    simp only [KeyMaterial.fits] at ha
    obtain ⟨en, h1, -, r1⟩ := mpi_roundtrip hm.1
    obtain ⟨ee, h2, -, r2⟩ := mpi_roundtrip hm.2
    refine ⟨[UInt8.ofNat version] ++ intTo4byte created ++ hd ++ [UInt8.ofNat alg] ++ (en ++ ee), ?_, ?_⟩
    · simp only [PubKey.publicContent, mkPubKey, bv, ba, hdays, except_bind_ok, if_pos ha, mpiOpt, h1, h2, except_pure,
        List.append_assoc]
    · intro rest
      obtain ⟨b0, b1, b5, b6, b7, bl⟩ := body (en ++ ee) rest
      have p1 := r1 (b7.trans (List.append_assoc ..))
      have p2 := r2 (drop_add_of_drop (b7.trans (List.append_assoc ..)))
      have ha' : UInt8.ofNat alg = 1 ∨ UInt8.ofNat alg = 2 ∨ UInt8.ofNat alg = 3 := by
        rcases ha with rfl | rfl | rfl <;> simp
      rw [bl]
      simp only [parsePubKey, b0, b1, except_bind_ok, hparse _ _ b5, b6, if_pos ha', p1, p2, except_pure,
        toNat_ofNat_lt hv256, toNat_ofNat_lt ha256, mkPubKey]
      simp only [List.length_append, Nat.add_assoc]
  | elgamal p g y =>
    simp only [KeyMaterial.ints, List.mem_cons, List.not_mem_nil, or_false, forall_eq_or_imp, forall_eq] at hm
    simp only [KeyMaterial.fits] at ha
    obtain ⟨e1, h1, -, r1⟩ := mpi_roundtrip hm.1
    obtain ⟨e2, h2, -, r2⟩ := mpi_roundtrip hm.2.1
    obtain ⟨e3, h3, -, r3⟩ := mpi_roundtrip hm.2.2
    have hna : ¬ (alg = 1 ∨ alg = 2 ∨ alg = 3) := by omega
    refine ⟨[UInt8.ofNat version] ++ intTo4byte created ++ hd ++ [UInt8.ofNat alg] ++ (e1 ++ (e2 ++ e3)), ?_, ?_⟩
    · simp only [PubKey.publicContent, mkPubKey, bv, ba, hdays, except_bind_ok, if_neg hna, if_pos ha, mpiOpt, h1, h2, h3,
        except_pure, List.append_assoc]
    · intro rest
      obtain ⟨b0, b1, b5, b6, b7, bl⟩ := body (e1 ++ (e2 ++ e3)) rest
      have q1 := b7.trans (List.append_assoc ..)
      have p1 := r1 q1
      have q2 := (drop_add_of_drop q1).trans (List.append_assoc ..)
      have p2 := r2 q2
      have p3 := r3 (drop_add_of_drop q2)
      have ha' : UInt8.ofNat alg = 16 ∨ UInt8.ofNat alg = 20 := by
        rcases ha with rfl | rfl <;> simp
      have hna' : ¬ (UInt8.ofNat alg = 1 ∨ UInt8.ofNat alg = 2 ∨ UInt8.ofNat alg = 3) := by
        rcases ha with rfl | rfl <;> decide
      rw [bl]
      simp only [parsePubKey, b0, b1, except_bind_ok, hparse _ _ b5, b6, if_neg hna', if_pos ha', p1, p2, p3, except_pure,
        toNat_ofNat_lt hv256, toNat_ofNat_lt ha256, mkPubKey]
      simp only [List.length_append, Nat.add_assoc]
  | dsa p q g y =>
    simp only [KeyMaterial.ints, List.mem_cons, List.not_mem_nil, or_false, forall_eq_or_imp, forall_eq] at hm
    simp only [KeyMaterial.fits] at ha
    subst ha
    obtain ⟨e1, h1, -, r1⟩ := mpi_roundtrip hm.1
    obtain ⟨e2, h2, -, r2⟩ := mpi_roundtrip hm.2.1
    obtain ⟨e3, h3, -, r3⟩ := mpi_roundtrip hm.2.2.1
    obtain ⟨e4, h4, -, r4⟩ := mpi_roundtrip hm.2.2.2
    refine ⟨[UInt8.ofNat version] ++ intTo4byte created ++ hd ++ [UInt8.ofNat 17] ++ (e1 ++ (e2 ++ (e3 ++ e4))), ?_, ?_⟩
    · simp only [PubKey.publicContent, mkPubKey, bv, ba, hdays, except_bind_ok, mpiOpt, h1, h2, h3, h4,
        except_pure, List.append_assoc]
      rfl
    · intro rest
      obtain ⟨b0, b1, b5, b6, b7, bl⟩ := body (e1 ++ (e2 ++ (e3 ++ e4))) rest
      have q1 := b7.trans (List.append_assoc ..)
      have p1 := r1 q1
      have q2 := (drop_add_of_drop q1).trans (List.append_assoc ..)
      have p2 := r2 q2
      have q3 := (drop_add_of_drop q2).trans (List.append_assoc ..)
      have p3 := r3 q3
      have p4 := r4 (drop_add_of_drop q3)
      have ha' : ¬ (UInt8.ofNat 17 = 16 ∨ UInt8.ofNat 17 = 20) := by decide
      have hna' : ¬ (UInt8.ofNat 17 = 1 ∨ UInt8.ofNat 17 = 2 ∨ UInt8.ofNat 17 = 3) := by decide
      have h17 : UInt8.ofNat 17 = 17 := rfl
      rw [bl]
      simp only [parsePubKey, b0, b1, except_bind_ok, hparse _ _ b5, b6, if_neg hna', if_neg ha', if_pos h17, p1, p2, p3, p4,
        except_pure, toNat_ofNat_lt hv256, toNat_ofNat_lt ha256, mkPubKey]
      simp only [List.length_append, Nat.add_assoc]

theorem hexOfByte_inj {x y : UInt8} (h : hexOfByte x = hexOfByte y) : x = y := by
  have tab : ∀ m n : Fin 16, hexDigit m.val = hexDigit n.val → m = n := by decide +kernel
  have hx := x.toNat_lt
  have hy := y.toNat_lt
  simp only [hexOfByte, List.cons.injEq, and_true] at h
  have h1 := tab ⟨x.toNat / 16, by omega⟩ ⟨y.toNat / 16, by omega⟩ h.1
  have h2 := tab ⟨x.toNat % 16, by omega⟩ ⟨y.toNat % 16, by omega⟩ h.2
  simp only [Fin.mk.injEq] at h1 h2
  exact UInt8.toNat_inj.mp (by omega)

theorem hexOf_inj {a b : Bytes} (h : hexOf a = hexOf b) : a = b := by
  induction a generalizing b with
  | nil => cases b with
    | nil => rfl
    | cons y b => simp [hexOf, hexOfByte] at h
  | cons x a ih => cases b with
    | nil => simp [hexOf, hexOfByte] at h
    | cons y b =>
      have : hexOf (x :: a) = hexOfByte x ++ hexOf a := rfl
      rw [this, show hexOf (y :: b) = hexOfByte y ++ hexOf b from rfl] at h
      obtain ⟨h1, h2⟩ := List.append_inj h rfl
      rw [hexOfByte_inj h1, ih h2]

theorem hexOf_length (a : Bytes) : (hexOf a).length = 2 * a.length := by
  induction a with
  | nil => rfl
  | cons x a ih =>
    rw [show hexOf (x :: a) = hexOfByte x ++ hexOf a from rfl, List.length_append, ih, List.length_cons]
    simp [hexOfByte]; omega

theorem hashKeyInput_inj {a b : Bytes} (h : hashKeyInput a = hashKeyInput b) : a = b := by
  unfold hashKeyInput at h
  simp only [List.append_assoc] at h
  have h1 := (List.append_inj h rfl).2
  exact (List.append_inj h1 rfl).2

end Pgp
