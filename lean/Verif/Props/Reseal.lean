import Verif.Model.Reseal
import Verif.Props.SecretKey
/-
C50: private values given as numbers.
-/
namespace Pgp.Props
open Pgp.Spec

/-- Whatever cipher is used, the values of a key are not encrypted with a checksum or a hash behind them. -/
theorem encryptKeyValues_raises (fl : FloorLog2) (sha : Bytes → Bytes) (cipher : Py (Bytes → Py Bytes)) (version : Nat) (values : List (Option Nat)) (hv : values ≠ []) (checksum hash : Bool)
    (h : checksum = true ∨ hash = true) : Raises (encryptKeyValues fl sha cipher version values checksum hash) := by
  unfold encryptKeyValues
  cases cipher with
  | error e => exact ⟨e, rfl⟩
  | ok enc =>
    simp only [except_bind_ok]
    cases plainValues fl values with
    | error e => exact ⟨e, rfl⟩
    | ok plain =>
      simp only [except_bind_ok]
      split
      · cases enc plain with
        | error e => exact ⟨e, rfl⟩
        | ok e =>
          simp only [except_bind_ok]
          rw [if_pos (by rcases h with rfl | rfl <;> simp)]
          exact ⟨_, rfl⟩
      · split
        · cases values with
          | nil => exact absurd rfl hv
          | cons v l =>
            cases v with
            | none => exact ⟨_, rfl⟩
            | some v => cases v <;> exact ⟨_, rfl⟩
        · exact ⟨_, rfl⟩

/-- C50 fails: a secret key packet made from its private numbers and a passphrase is never written, whatever the numbers, the passphrase, the specifier and the cipher's implementation. -/
theorem C50_numbers_never_written (fl : FloorLog2) (H : Digest) (mk : Nat → Bytes → Bytes → Py (Bytes → Py Bytes)) (k : SecKey) (he : k.enc = []) (a : PrivateArgs) :
    Raises (k.content fl (k.reseal fl H mk a)) := by
  have hr : Raises (k.reseal fl H mk a) := by
    unfold SecKey.reseal
    cases hvs : privateValues k.pub.algorithm a with
    | error e => exact ⟨e, rfl⟩
    | ok vs =>
      have hne : vs ≠ [] := by
        unfold privateValues at hvs
        split at hvs
        · cases hvs; simp
        · split at hvs
          · cases hvs; simp
          · cases hvs
      simp only [except_bind_ok]
      cases a.pass with
      | none => exact ⟨_, rfl⟩
      | some pass =>
        simp only
        cases k.s2k.toKey H pass with
        | error e => exact ⟨e, rfl⟩
        | ok key =>
          simp only [except_bind_ok]
          cases key with
          | none => exact ⟨_, rfl⟩
          | some key => exact encryptKeyValues_raises _ _ _ _ _ hne _ _ (by cases k.checksum <;> simp)
  obtain ⟨e, hr⟩ := hr
  unfold SecKey.content
  cases k.pub.publicContent fl with
  | error e => exact ⟨e, rfl⟩
  | ok p =>
    simp only [except_bind_ok]
    cases k.protection fl with
    | error e => exact ⟨e, rfl⟩
    | ok q =>
      simp only [except_bind_ok, he, ne_eq, not_true_eq_false, if_false, hr]
      exact ⟨e, rfl⟩

example (H : Digest) := C50_numbers_never_written Nat.log2 H (fun _ _ _ => .ok .ok) { exSec with enc := [] } rfl
  ⟨some [115], some 2753, some 61, some 53, some 38, none⟩

/-- The same values are encrypted if neither a checksum nor a hash is asked for, so it is these that fail. -/
theorem C50_numbers_without_check (fl : FloorLog2) (sha : Bytes → Bytes) (enc : Bytes → Py Bytes) (version : Nat) (h4 : 4 ≤ version) (v : Nat) :
    encryptKeyValues fl sha (.ok enc) version [some v] false false = (intToMpi fl v >>= enc) := by
  unfold encryptKeyValues plainValues plainValues
  simp only [except_bind_ok, except_pure, ge_iff_le, if_pos h4]
  cases intToMpi fl v with
  | error e => rfl
  | ok m =>
    simp only [except_bind_ok, List.append_nil]
    cases enc m <;> rfl

example := C50_numbers_without_check Nat.log2 (fun _ => []) .ok 4 (by decide) 2753

end Pgp.Props
