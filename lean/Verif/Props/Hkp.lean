import Verif.Lemmas.Hkp
/-
Property theorems C57 (keyserver listings).
-/
namespace Pgp.Props
open Spec

/-- C57: any listing of keys — an optional information line, then for each key its line and its user ids' lines, with unknown lines in
between, trailing empty fields left off or not, user ids percent-encoded in any way, LF or CR LF line ends — is read back as exactly
those keys, in order, each with its own user ids in order and all fields. `ft`/`ts` is the conversion to local time,
which must be defined for the times of the listing. -/
theorem C57_listing_partial {T : Type} (ft : Int → Py T) (ts : Nat → T) (es : List KeyEntry)
    (hft : ∀ e ∈ es, ∀ n ∈ e.times, ft (n : Nat) = .ok (ts n))
    (first : Str) (ls : List Str) (hf : FirstLine first) (h : KeyLines es ls) (eol : Str) (he : eol = ['\n'] ∨ eol = ['\r', '\n']) :
    readMr ft (textOf eol (first :: ls)) = .ok (es.map (·.result ts)) := by
  have h1 : OneLine first := by
    rcases hf with ⟨v, c, hv, hc, rfl⟩ | ⟨ho, -⟩
    · rw [oneLine_append, oneLine_append, oneLine_cons]
      exact ⟨⟨by unfold OneLine; decide, hv.2⟩, by decide, hc.2⟩
    · exact ho.1
  have hall : ∀ l ∈ first :: ls, OneLine l := by
    intro l hl
    rcases List.mem_cons.mp hl with rfl | hl
    · exact h1
    · exact keyLines_oneLine h l hl
  unfold readMr
  rw [splitlines_textOf_nil he _ hall]
  have hno : ¬ "pub".toList <+: first ∧ ¬ "uid".toList <+: first := by
    rcases hf with ⟨v, c, hv, hc, rfl⟩ | ⟨ho, -⟩
    · constructor <;> (rintro ⟨t, ht⟩; simp at ht)
    · exact ho.2
  simp only
  rw [if_neg]
  · rw [readMrLoop, if_neg (by rw [startsWith_iff]; exact hno.1), if_neg (by rw [startsWith_iff]; exact hno.2)]
    exact readMrLoop_start hft h []
  · rintro ⟨hi, hl⟩
    rcases hf with ⟨v, c, hv, hc, rfl⟩ | ⟨-, hni⟩
    · apply hl
      have e : "info:".toList ++ v ++ ':' :: c = pyJoin [':'] ["info".toList, v, c] := by simp [pyJoin]
      rw [e, pySplit_pyJoin _ (by
        intro w hw
        simp only [List.mem_cons, List.not_mem_nil, or_false] at hw
        rcases hw with rfl | rfl | rfl
        · decide
        · exact hv.1
        · exact hc.1) (by simp)]
      rfl
    · exact hni ((startsWith_iff _ _).mp hi)

/-- The hypotheses are met by a real listing. -/
example : readMr (fun n => Except.ok n) (textOf ['\n'] ["info:1:1".toList, "pub:DEADBEEF:1:2048:1400000000".toList,
    "uid:Al%20%3Ca%40b%3E:1400000000::r".toList]) = .ok [⟨"DEADBEEF".toList, 1, 2048, 1400000000, none, false, false, false,
      [⟨"Al <a@b>".toList, 1400000000, none, true, false, false⟩]⟩] := by decide +kernel

/-- C57: whatever the listing, if it is read at all there is exactly one result per line starting with `pub`. -/
theorem C57_one_result_per_key {T : Type} (ft : Int → Py T) (data : Str) (rs : List (HkpResult T)) (h : readMr ft data = .ok rs) :
    rs.length = ((splitlines data).filter (fun l => "pub".toList.isPrefixOf l)).length := by
  unfold readMr at h
  split at h
  · cases h
  · rename_i info rest he
    split at h
    · cases h
    · have := readMrLoop_count ft _ _ _ _ _ h
      rw [he, this]
      have e : (fun l : Str => startsWith l "pub".toList) = (fun l : Str => "pub".toList.isPrefixOf l) := by
        funext l
        rw [Bool.eq_iff_iff, startsWith_iff, List.isPrefixOf_iff_prefix]
      rw [e]
      simp

example := C57_one_result_per_key (fun n => Except.ok n) (textOf ['\n'] ["info:1:1".toList, "pub:DEADBEEF:1:2048:1400000000".toList])
  [⟨"DEADBEEF".toList, 1, 2048, 1400000000, none, false, false, false, []⟩] (by decide +kernel)

/-- C57: percent-encoding of user ids is undone, for every text and every choice of which octets are encoded and which characters
outside ASCII are left as they are. -/
theorem C57_unquote (safe : UInt8 → Bool) (raw : Char → Bool) (s : List Char) : unquote (pctEncode safe raw s) = s :=
  unquote_pctEncode safe raw s

/-- C57 refuted: user id lines without a creation date — allowed by the format, and what servers send — make the search fail: the line
raises ValueError, and with it the whole listing, however many good keys it has. -/
theorem C57_no_creation_date_refuted {T : Type} (ft : Int → Py T) (uid expires flags bad : Str) (hu : ':' ∉ uid) (he : ':' ∉ expires)
    (hf : ':' ∉ flags) (hl : LineOf ["uid".toList, uid, [], expires, flags] bad) (pre post : List Str)
    (hp : ∃ l ∈ pre, "pub".toList <+: l) (eol : Str) (hel : eol = ['\n'] ∨ eol = ['\r', '\n'])
    (hone : ∀ l ∈ pre ++ bad :: post, OneLine l) :
    parseUidLine ft bad = .error .valueError ∧ Raises (readMr ft (textOf eol (pre ++ bad :: post))) := by
  have h1 : parseUidLine ft bad = .error .valueError := by
    have := split_lineOf hl (by
      intro w hw
      simp only [List.mem_cons, List.not_mem_nil, or_false] at hw
      rcases hw with rfl | rfl | rfl | rfl | rfl
      · decide
      · exact hu
      · simp
      · exact he
      · exact hf)
    unfold parseUidLine
    rw [show (4 : Nat) = ["uid".toList, uid, [], expires, flags].length - 1 from rfl, this]
    simp only [pyInt_nil]
    rfl
  refine ⟨h1, ?_⟩
  unfold readMr
  rw [splitlines_textOf_nil hel _ hone]
  split
  · exact ⟨_, rfl⟩
  · rename_i info rest e
    split
    · exact ⟨_, rfl⟩
    · rw [← e]
      obtain ⟨l, hl', hpl⟩ := hp
      exact readMrLoop_bad_uid ft bad ⟨_, h1⟩ (lineOf_prefix hl (by decide)) post pre _ _ _
        (Or.inr ⟨l, hl', (startsWith_iff _ _).mpr hpl⟩)

example : LineOf ["uid".toList, "bob".toList, [], [], []] "uid:bob".toList :=
  ⟨["uid".toList, "bob".toList], 3, by decide, rfl, by decide⟩

/-- C57: an empty reply raises IndexError. -/
theorem C57_empty {T : Type} (ft : Int → Py T) : readMr ft [] = .error .indexError := rfl

end Pgp.Props
