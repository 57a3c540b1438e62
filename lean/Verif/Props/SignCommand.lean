import Verif.Model.SignCommand
import Verif.Props.SignMsg
import Verif.Props.Options
/-
Property theorem C126: what the sign commands of the command line do to the files.
-/
namespace Pgp.Props
open Spec

/-- The name of the output for a file: the extension `asc` if it is to be armored, else `gpg`. -/
def signedName (armor : Bool) (f : Str) : Str := f ++ (if armor then ".asc".toList else ".gpg".toList)

theorem outputName_signed (armor : Bool) (f : Str) : outputName armor (some f) = some (signedName armor f) := by
  cases armor <;> rfl

theorem literal_ok {files : CmdFiles} {name : Option Str} {f : Str} {d : Bytes} {t : Nat} (h : files f = some (d, t)) :
    ∃ n, literalOfFile files name (some f) = .ok (.literal false (.octets d) n t) := by
  unfold literalOfFile
  simp only [h]
  split
  · exact ⟨_, rfl⟩
  · exact ⟨_, rfl⟩

/-- C126 (part that holds): whatever the command, the options, the key and the files, all files but the one named after the file signed are as they were, the file
that is signed among them. -/
theorem C126_other_files_partial (fl : Nat → Nat) (H : Digest) (o : SignOptions) (kind : SignKind) (now : Nat) (files : CmdFiles) (f : Option Str) (n : Str)
    (hn : ∀ g, f = some g → n ≠ signedName o.armor g) : (signRun fl H o kind now files f).2 n = files n := by
  unfold signRun
  split
  · rfl
  split
  · rfl
  split
  · rfl
  split
  · rfl
  split
  · rfl
  · rename_i x hx
    cases f with
    | none => cases hx
    | some g =>
      rw [outputName_signed] at hx
      cases hx
      simp only [openForWriting, if_neg (hn g rfl)]

/-- C126 (part that holds): if the file is missing, there is no key, or the key cannot sign the content of the file, then no file is changed, and the exception is the one
that says so. -/
theorem C126_failed_signing_partial (fl : Nat → Nat) (H : Digest) (o : SignOptions) (kind : SignKind) (now : Nat) (files : CmdFiles) (f : Str) :
    (files f = none → signRun fl H o kind now files (some f) = (.error (.pgp "OSError"), files)) ∧
    (∀ d t, files f = some (d, t) → o.key = none → signRun fl H o kind now files (some f) = (.error .attributeError, files)) ∧
    ∀ d t K e, files f = some (d, t) → o.key = some K →
      (∀ n, (Msg.literal false (.octets d) n t).sign fl H K o.prefs (if o.forceV3 then 3 else 4) (if kind = .clearsign then 1 else 0) o.algo.digest true now = .error e) →
      signRun fl H o kind now files (some f) = (.error e, files) := by
  refine ⟨?_, ?_, ?_⟩
  · intro h
    simp only [signRun, literalOfFile, h]
  · intro d t h hk
    obtain ⟨n, hm⟩ := literal_ok (name := messageName o.name o.forYourEyesOnly) h
    simp only [signRun, hm, signCall, hk]
  · intro d t K e h hk hs
    obtain ⟨n, hm⟩ := literal_ok (name := messageName o.name o.forYourEyesOnly) h
    simp only [signRun, hm, signCall, hk, hs n]
    rfl

/-- C126 fails: no command ever succeeds, and whatever is found in a file afterwards was there before or is nothing at all: no signature or signed message is ever
written. -/
theorem C126_never_written_refuted (fl : Nat → Nat) (H : Digest) (o : SignOptions) (kind : SignKind) (now : Nat) (files : CmdFiles) (f : Option Str) :
    Raises (signRun fl H o kind now files f).1 ∧
      ∀ n, (signRun fl H o kind now files f).2 n = files n ∨ (signRun fl H o kind now files f).2 n = some ([], now) := by
  unfold signRun
  split
  · exact ⟨⟨_, rfl⟩, fun _ => .inl rfl⟩
  split
  · exact ⟨⟨_, rfl⟩, fun _ => .inl rfl⟩
  split
  · exact ⟨⟨_, rfl⟩, fun _ => .inl rfl⟩
  split
  · exact ⟨⟨_, rfl⟩, fun _ => .inl rfl⟩
  split
  · exact ⟨⟨_, rfl⟩, fun _ => .inl rfl⟩
  · rename_i x hx
    refine ⟨⟨_, rfl⟩, fun n => ?_⟩
    by_cases h : n = x
    · exact .inr (by simp only [openForWriting, if_pos h])
    · exact .inl (by simp only [openForWriting, if_neg h])

/-- C126 fails: standard input cannot be signed at all. -/
theorem C126_stdin_refuted (fl : Nat → Nat) (H : Digest) (o : SignOptions) (kind : SignKind) (now : Nat) (files : CmdFiles) :
    signRun fl H o kind now files none = (.error .attributeError, files) := rfl

/-- When the call of `sign` succeeds: an unlocked key of an algorithm that signs, and one of the digests. -/
theorem signCall_ok (fl : Nat → Nat) (H : Digest) (o : SignOptions) (kind : SignKind) (now : Nat) (K : SignKey) (hk : o.key = some K) (hlock : K.locked = false)
    (ha : K.alg ∈ [1, 3, 17, 20]) (hid : K.keyId.length = 16 ∧ UpperHex K.keyId) (h : Nat) (hh : h ∈ digests) (hd : o.algo.digest = some h) (hv : o.forceV3 = false)
    (d : Bytes) (n : Str) (t : Nat) : signCall fl H o kind now (.literal false (.octets d) n t) = .ok () := by
  have hl : LiteralData (.literal false (.octets d) n t) d := .binary d n t
  obtain ⟨s, hs⟩ := C95_signs fl H _ d hl K hlock ha hid o.prefs (if kind = .clearsign then 1 else 0) h now (by split <;> decide) hh true
  simp only [signCall, hk, hv, hd, hs, Bool.false_eq_true, if_false]
  rfl

/-- C126 fails: clear-signing a file, with any key that can sign, raises `AttributeError` and leaves the output file empty - whatever was in it is lost.  So does signing it
without compression. -/
theorem C126_output_emptied_refuted (fl : Nat → Nat) (H : Digest) (o : SignOptions) (kind : SignKind) (now : Nat) (files : CmdFiles) (f : Str) (d : Bytes) (t : Nat)
    (hf : files f = some (d, t)) (K : SignKey) (hk : o.key = some K) (hlock : K.locked = false)
    (ha : K.alg ∈ [1, 3, 17, 20]) (hid : K.keyId.length = 16 ∧ UpperHex K.keyId) (h : Nat) (hh : h ∈ digests) (hd : o.algo.digest = some h) (hv : o.forceV3 = false)
    (hkind : kind = .clearsign ∨ kind = .sign ∧ o.algo.compression = 0) :
    (signRun fl H o kind now files (some f)).1 = .error .attributeError ∧ (signRun fl H o kind now files (some f)).2 (signedName o.armor f) = some ([], now) := by
  obtain ⟨n, hm⟩ := literal_ok (name := messageName o.name o.forYourEyesOnly) hf
  have hs := signCall_ok fl H o kind now K hk hlock ha hid h hh hd hv d n t
  have h1 : ¬(kind ≠ .clearsign ∧ o.algo.compression ≠ 0) := by
    rintro ⟨a, b⟩
    rcases hkind with e | ⟨_, e⟩
    · exact a e
    · exact b e
  have h2 : kind ≠ .detach := by rcases hkind with rfl | ⟨rfl, _⟩ <;> decide
  unfold signRun
  simp only [hm, hs, if_neg h1, if_neg h2, outputName_signed, openForWriting, if_true]
  exact ⟨trivial, trivial⟩

/-- C126 fails: signing with compression, which is the default, and making a detached signature raise `AttributeError`, but leave all files as they were. -/
theorem C126_nothing_written_refuted (fl : Nat → Nat) (H : Digest) (o : SignOptions) (kind : SignKind) (now : Nat) (files : CmdFiles) (f : Str) (d : Bytes) (t : Nat)
    (hf : files f = some (d, t)) (K : SignKey) (hk : o.key = some K) (hlock : K.locked = false)
    (ha : K.alg ∈ [1, 3, 17, 20]) (hid : K.keyId.length = 16 ∧ UpperHex K.keyId) (h : Nat) (hh : h ∈ digests) (hd : o.algo.digest = some h) (hv : o.forceV3 = false)
    (hkind : kind = .detach ∨ kind = .sign ∧ o.algo.compression ≠ 0) : signRun fl H o kind now files (some f) = (.error .attributeError, files) := by
  obtain ⟨n, hm⟩ := literal_ok (name := messageName o.name o.forYourEyesOnly) hf
  have hs := signCall_ok fl H o kind now K hk hlock ha hid h hh hd hv d n t
  unfold signRun
  simp only [hm, hs]
  rcases hkind with rfl | ⟨rfl, hc⟩
  · split
    · rfl
    · rfl
  · rw [if_pos ⟨by decide, hc⟩]

/-! ### The hypotheses are met -/

def exSignOptions : SignOptions :=
  { key := some exSigner, prefs := .ok .default, algo := ⟨none, none, none, none, none, none, none⟩, forceV3 := false, armor := true, name := none,
    forYourEyesOnly := false }

def exCmdFiles : CmdFiles := fun n => if n = "a".toList then some ([1, 2, 3], 5) else if n = "a.asc".toList then some ([7, 7, 7], 6) else none

/-- The old signature of the file is lost when the file is clear-signed anew. -/
example : (signRun Nat.log2 (fun _ _ => []) exSignOptions .clearsign 9 exCmdFiles (some "a".toList)).2 "a.asc".toList = some ([], 9) :=
  (C126_output_emptied_refuted Nat.log2 (fun _ _ => []) exSignOptions .clearsign 9 exCmdFiles "a".toList [1, 2, 3] 5 (by decide +kernel) _ rfl rfl (by decide)
    ⟨rfl, by unfold UpperHex; decide⟩ 10 (by decide +kernel) (by decide +kernel) rfl (.inl rfl)).2

example := C126_nothing_written_refuted Nat.log2 (fun _ _ => []) exSignOptions .sign 9 exCmdFiles "a".toList [1, 2, 3] 5 (by decide +kernel) _ rfl rfl (by decide)
    ⟨rfl, by unfold UpperHex; decide⟩ 10 (by decide +kernel) (by decide +kernel) rfl (.inr ⟨rfl, by decide +kernel⟩)

example := C126_other_files_partial Nat.log2 (fun _ _ => []) exSignOptions .clearsign 9 exCmdFiles (some "a".toList) "a".toList (by rintro g ⟨⟩; decide +kernel)
example := (C126_failed_signing_partial Nat.log2 (fun _ _ => []) exSignOptions .sign 9 exCmdFiles "b".toList).1 (by decide +kernel)

end Pgp.Props
