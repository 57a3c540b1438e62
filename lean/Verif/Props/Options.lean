import Verif.Model.Options
import Verif.Spec.Options
import Verif.Props.SignMsg
/-
Property theorems C104 (digests and compression named by options), C105 (lines beginning with From), C107 (output file names).
-/
namespace Pgp.Props
open Spec

/-! ### C104 -/

/-- C104: the digest a message is signed with is the one of that name in RFC 4880, for exactly the seven names. -/
theorem C104_digest_names (o : AlgoOptions) (c : Nat) :
    o.digest = some c ↔ (nameThatCounts o.digestAlgo (o.personalDigests.getD []) "sha512", c) ∈ digestNames := by
  have hn : o.digestName = nameThatCounts o.digestAlgo (o.personalDigests.getD []) "sha512" := by
    unfold AlgoOptions.digestName firstName nameThatCounts
    cases o.digestAlgo with
    | some n => rfl
    | none =>
      cases o.personalDigests with
      | none => rfl
      | some l => cases l <;> rfl
  unfold AlgoOptions.digest
  rw [hn]
  generalize nameThatCounts o.digestAlgo (o.personalDigests.getD []) "sha512" = n
  unfold digestCode digestNames
  by_cases h1 : n = "md5"
  · subst h1; simp [eq_comm]
  by_cases h2 : n = "sha1"
  · subst h2; simp [eq_comm]
  by_cases h3 : n = "ripemd160"
  · subst h3; simp [eq_comm]
  by_cases h4 : n = "sha256"
  · subst h4; simp [eq_comm]
  by_cases h5 : n = "sha384"
  · subst h5; simp [eq_comm]
  by_cases h6 : n = "sha512"
  · subst h6; simp [eq_comm]
  by_cases h7 : n = "sha224"
  · subst h7; simp [eq_comm]
  simp [h1, h2, h3, h4, h5, h6, h7]

/-- C104 (refuted): any other name, such as SHA1 or sha-256, is not refused: the message is signed as if no digest had been named, so with the
key's first preference, or with MD5 (1) if it has none. -/
theorem C104_unknown_digest_refuted (fl : Nat → Nat) (H : Digest) (K : SignKey) (o : AlgoOptions) (v3 : Bool) (now : Nat) (m : Msg) (n : String)
    (hn : o.digestAlgo = some n) (hu : ∀ c, (n, c) ∉ digestNames) :
    (∀ h l, signMessage fl H K (.ok (.value (some (h :: l)))) o v3 now m = m.sign fl H K (.ok .default) (if v3 then 3 else 4) 0 (some h) true now) ∧
    signMessage fl H K (.ok .default) o v3 now m = m.sign fl H K (.ok .default) (if v3 then 3 else 4) 0 (some 1) true now := by
  have hd : o.digest = none := by
    cases h : o.digest with
    | none => rfl
    | some c =>
      have := (C104_digest_names o c).mp h
      rw [hn] at this
      exact absurd this (hu c)
  unfold signMessage
  rw [hd]
  exact ⟨fun _ _ => rfl, rfl⟩

/-- `--digest-algo SHA256`. -/
example (fl : Nat → Nat) (H : Digest) (K : SignKey) (now : Nat) (m : Msg) :
    signMessage fl H K (.ok .default) ⟨none, none, none, none, none, some "SHA256", none⟩ false now m =
      m.sign fl H K (.ok .default) 4 0 (some 1) true now :=
  (C104_unknown_digest_refuted fl H K ⟨none, none, none, none, none, some "SHA256", none⟩ false now m "SHA256" rfl (by
    intro c hc
    simp [digestNames] at hc)).2

/-- C104: without an option the default digest is SHA-512, and a digest named first in the preferences is used. -/
example : (⟨none, none, none, none, none, none, none⟩ : AlgoOptions).digest = some 10 :=
  (C104_digest_names _ _).mpr (by simp [nameThatCounts, digestNames])
example : (⟨none, none, none, some ["sha256", "sha1"], none, none, none⟩ : AlgoOptions).digest = some 8 :=
  (C104_digest_names _ _).mpr (by simp [nameThatCounts, digestNames])

theorem compress_code (o : AlgoOptions) : o.compression = compressCode (nameThatCounts o.compressAlgo (o.personalCompression.getD []) "zip") := by
  have hn : o.compressName = nameThatCounts o.compressAlgo (o.personalCompression.getD []) "zip" := by
    unfold AlgoOptions.compressName firstName nameThatCounts
    cases o.compressAlgo with
    | some n => rfl
    | none =>
      cases o.personalCompression with
      | none => rfl
      | some l => cases l <;> rfl
  unfold AlgoOptions.compression
  rw [hn]

/-- C104: with `zip` or `zlib` a signed message is compressed with the algorithm of that number, at the level of `-z` or else of
`--compress-level`. -/
theorem C104_compression_partial (Z : Zlib) (B : Bz2) (fl : Nat → Nat) (p : Nat → Py Bytes) (o : AlgoOptions) (m : Msg) (c : Nat)
    (hc : (nameThatCounts o.compressAlgo (o.personalCompression.getD []) "zip", c) ∈ compressionNames) (hb : c ≠ 3) :
    signPostprocess Z B fl p o m = m.compress Z B fl p c (o.level.or o.zLevel) := by
  have hcode : o.compression = c ∧ (c = 1 ∨ c = 2) := by
    rw [compress_code]
    generalize nameThatCounts o.compressAlgo (o.personalCompression.getD []) "zip" = n at hc
    simp only [compressionNames, List.mem_cons, Prod.mk.injEq, List.not_mem_nil, or_false] at hc
    rcases hc with ⟨rfl, rfl⟩ | ⟨rfl, rfl⟩ | ⟨rfl, rfl⟩
    · exact ⟨rfl, .inl rfl⟩
    · exact ⟨rfl, .inr rfl⟩
    · exact absurd rfl hb
  obtain ⟨h1, h2⟩ := hcode
  have hlev : o.compressionLevel = o.level.or o.zLevel := by
    unfold AlgoOptions.compressionLevel
    simp only [h1]
    rw [if_neg (by omega), if_pos h2]
    cases o.level with
    | none => rfl
    | some l => rfl
  unfold signPostprocess
  rw [h1, if_pos (by omega), hlev]

example (Z : Zlib) (B : Bz2) (fl : Nat → Nat) (p : Nat → Py Bytes) (m : Msg) :
    signPostprocess Z B fl p ⟨some 6, some 6, some 9, none, none, none, some "zlib"⟩ m = m.compress Z B fl p 2 (some 9) :=
  C104_compression_partial Z B fl p ⟨some 6, some 6, some 9, none, none, none, some "zlib"⟩ m 2 (by simp [nameThatCounts, compressionNames]) (by decide)

/-- C104: the name under which bzip2 is known is `bz2`; it is then used at the level of `-z` or else of `--bzip2-compress-level`. (The options
accept only `bzip2` for `--compress-algo`; a personal preference may be any text.) -/
theorem C104_bz2 (Z : Zlib) (B : Bz2) (fl : Nat → Nat) (p : Nat → Py Bytes) (o : AlgoOptions) (m : Msg)
    (hn : nameThatCounts o.compressAlgo (o.personalCompression.getD []) "zip" = "bz2") :
    signPostprocess Z B fl p o m = m.compress Z B fl p 3 (o.level.or o.bzLevel) := by
  have h1 : o.compression = 3 := by rw [compress_code, hn]; rfl
  have hlev : o.compressionLevel = o.level.or o.bzLevel := by
    unfold AlgoOptions.compressionLevel
    simp only [h1]
    rw [if_neg (by omega), if_neg (by omega), if_pos trivial]
    cases o.level with
    | none => rfl
    | some l => rfl
  unfold signPostprocess
  rw [h1, if_pos (by omega), hlev]

example (Z : Zlib) (B : Bz2) (fl : Nat → Nat) (p : Nat → Py Bytes) (m : Msg) :
    signPostprocess Z B fl p ⟨some 6, some 7, none, none, some ["bz2", "zip"], none, none⟩ m = m.compress Z B fl p 3 (some 7) :=
  C104_bz2 Z B fl p ⟨some 6, some 7, none, none, some ["bz2", "zip"], none, none⟩ m rfl

/-- C104 (refuted): with `bzip2`, as with every name but zip, zlib and bz2, nothing is compressed, silently. -/
theorem C104_bzip2_refuted (Z : Zlib) (B : Bz2) (fl : Nat → Nat) (p : Nat → Py Bytes) (o : AlgoOptions) (m : Msg)
    (hn : nameThatCounts o.compressAlgo (o.personalCompression.getD []) "zip" ∉ ["zip", "zlib", "bz2"]) :
    signPostprocess Z B fl p o m = .ok m := by
  have : o.compression = 0 := by
    rw [compress_code]
    generalize nameThatCounts o.compressAlgo (o.personalCompression.getD []) "zip" = n at hn
    simp only [List.mem_cons, List.not_mem_nil, or_false, not_or] at hn
    unfold compressCode
    rw [if_neg hn.1, if_neg hn.2.1, if_neg hn.2.2]
  unfold signPostprocess
  rw [this]
  rfl

example (Z : Zlib) (B : Bz2) (fl : Nat → Nat) (p : Nat → Py Bytes) (m : Msg) :
    signPostprocess Z B fl p ⟨some 6, some 6, none, none, none, none, some "bzip2"⟩ m = .ok m :=
  C104_bzip2_refuted Z B fl p ⟨some 6, some 6, none, none, none, none, some "bzip2"⟩ m (by simp [nameThatCounts])

/-- C104 (refuted): `-z 0` does not disable compression: the message becomes a compressed message all the same. -/
theorem C104_level_zero_refuted (Z : Zlib) (B : Bz2) (fl : Nat → Nat) (p : Nat → Py Bytes) (o : AlgoOptions) (m r : Msg) (hl : o.level = some 0)
    (hc : nameThatCounts o.compressAlgo (o.personalCompression.getD []) "zip" ∈ ["zip", "zlib"])
    (hr : signPostprocess Z B fl p o m = .ok r) : ∃ alg d, r = .compressed alg d := by
  simp only [List.mem_cons, List.not_mem_nil, or_false] at hc
  have : ∃ c, c ≠ 3 ∧ (nameThatCounts o.compressAlgo (o.personalCompression.getD []) "zip", c) ∈ compressionNames := by
    rcases hc with h | h <;> rw [h]
    · exact ⟨1, by decide, by simp [compressionNames]⟩
    · exact ⟨2, by decide, by simp [compressionNames]⟩
  obtain ⟨c, h1, h2⟩ := this
  rw [C104_compression_partial Z B fl p o m c h2 h1] at hr
  unfold Msg.compress at hr
  obtain ⟨ps, _, hr⟩ := except_bind_eq_ok.mp hr
  obtain ⟨rs, _, hr⟩ := except_bind_eq_ok.mp hr
  obtain ⟨d, _, hr⟩ := except_bind_eq_ok.mp hr
  cases hr
  exact ⟨c, d, rfl⟩

/-- The text message with `-z 0` and the toy zlib. -/
example (B : Bz2) : ∃ r, signPostprocess toyZlib B Nat.log2 (fun _ => .ok []) ⟨some 6, some 6, some 0, none, none, none, none⟩ exText = .ok r ∧
    ∃ alg d, r = .compressed alg d := by
  obtain ⟨z, h1, _⟩ := C96_compress_opens_partial toyZlib B toyZlib_works Nat.log2 (fun _ _ _ => rfl) (fun _ => .ok []) (fun _ => .ok ()) 1 (by decide) (some 0)
    false rfl exText (.single _ (.text _ _ _ (by decide) (by decide) (by decide))) (exText_expressible _)
  have h2 : signPostprocess toyZlib B Nat.log2 (fun _ => .ok []) ⟨some 6, some 6, some 0, none, none, none, none⟩ exText = .ok (.compressed 1 z) := by
    rw [C104_compression_partial toyZlib B Nat.log2 _ _ exText 1 (by simp [nameThatCounts, compressionNames]) (by decide)]
    exact h1
  exact ⟨_, h2, C104_level_zero_refuted toyZlib B Nat.log2 _ _ exText _ rfl (by simp [nameThatCounts]) h2⟩

/-! ### C105 -/

theorem fromLine_iff (s : List Char) : s.take 5 = "From ".toList ↔ FromLine s := by
  constructor
  · intro h
    exact ⟨s.drop 5, by rw [← h, List.take_append_drop]⟩
  · rintro ⟨rest, rfl⟩
    rfl

theorem textLines_exist : ∀ s : List Char, ∃ ls, TextLines s ls
  | [] => ⟨[[]], .one (by simp)⟩
  | c :: s => by
    obtain ⟨ls, h⟩ := textLines_exist s
    by_cases hc : c = '\n'
    · subst hc
      exact ⟨[] :: ls, TextLines.cons (l := []) (by simp) h⟩
    · cases h with
      | one hl => exact ⟨_, .one (l := c :: s) (by simp [hl, Ne.symm hc])⟩
      | @cons l s' ls' hl h' => exact ⟨_, TextLines.cons (l := c :: l) (by simp [hl, Ne.symm hc]) h'⟩

theorem split_first {a b s t : List Char} (ha : '\n' ∉ a) (hb : '\n' ∉ b) (h : a ++ '\n' :: s = b ++ '\n' :: t) : a = b ∧ s = t := by
  induction a generalizing b with
  | nil =>
    cases b with
    | nil => simp at h; exact ⟨rfl, h⟩
    | cons c b => simp at h; exact absurd (List.mem_cons.mpr (.inl h.1)) hb
  | cons c a ih =>
    cases b with
    | nil => simp at h; exact absurd (List.mem_cons.mpr (.inl h.1.symm)) ha
    | cons d b =>
      simp only [List.cons_append, List.cons.injEq] at h
      obtain ⟨rfl, h⟩ := h
      obtain ⟨rfl, rfl⟩ := ih (fun x => ha (by simp [x])) (fun x => hb (by simp [x])) h
      exact ⟨rfl, rfl⟩

/-- A text has its lines in one way. -/
theorem textLines_unique {s : List Char} {ls ks : List (List Char)} (h : TextLines s ls) (h' : TextLines s ks) : ls = ks := by
  induction h generalizing ks with
  | @one l hl =>
    generalize hs : l = s at h'
    cases h' with
    | one => rfl
    | cons => exact absurd (by rw [hs]; simp) hl
  | @cons l s ls hl _ ih =>
    generalize hs : l ++ '\n' :: s = s' at h'
    cases h' with
    | one hl' => exact absurd (by rw [← hs]; simp) hl'
    | cons hl' h'' =>
      obtain ⟨rfl, rfl⟩ := split_first hl hl' hs
      rw [ih h'']

/-- C105: what is signed is the text with its first line escaped and the others as they are; without the option the text itself. -/
theorem C105_first_line (s first : List Char) (rest : List (List Char)) (h : TextLines s (first :: rest)) :
    escapeFrom false s = s ∧ ∃ line, EscapedLine first line ∧ TextLines (escapeFrom true s) (line :: rest) := by
  refine ⟨rfl, ?_⟩
  have hfirst : s.take 5 = "From ".toList ↔ FromLine first := by
    rw [fromLine_iff]
    cases h with
    | one => rfl
    | @cons l t ls hl ht =>
      constructor
      · rintro ⟨r, hr⟩
        have h5 : (first ++ '\n' :: t).take 5 = "From ".toList := (fromLine_iff _).mpr ⟨r, hr⟩
        by_cases hlen : 5 ≤ first.length
        · rw [List.take_append_of_le_length hlen] at h5
          exact (fromLine_iff _).mp h5
        · exfalso
          have : '\n' ∈ (first ++ '\n' :: t).take 5 := by
            rw [List.take_append, show 5 - first.length = (4 - first.length) + 1 by omega]
            simp
          rw [h5] at this
          revert this
          decide
      · rintro ⟨r, rfl⟩
        exact ⟨r ++ '\n' :: t, by simp⟩
  unfold escapeFrom
  rw [if_pos rfl]
  by_cases hf : FromLine first
  · rw [if_pos (hfirst.mpr hf)]
    refine ⟨_, .escaped hf, ?_⟩
    have hs : "- From ".toList ++ s.drop 5 = "- ".toList ++ s := by
      have h5 := hfirst.mpr hf
      conv_rhs => rw [← List.take_append_drop 5 s, h5]
      rfl
    rw [hs]
    cases h with
    | one hl => exact .one (by simpa using hl)
    | cons hl ht => exact TextLines.cons (l := "- ".toList ++ first) (by simpa using hl) ht
  · rw [if_neg (fun x => hf (hfirst.mp x))]
    exact ⟨_, .kept hf, h⟩

example := C105_first_line "From me\nFrom you".toList "From me".toList ["From you".toList] (.cons (l := "From me".toList) (by decide) (.one (by decide)))

theorem escapedLine_ne {l k : List Char} (h : EscapedLine l k) (hk : k = l) : ¬ FromLine l := by
  cases h with
  | escaped _ =>
    have := congrArg List.length hk
    simp at this
    omega
  | kept hn => exact hn

theorem escapedLine_self {l : List Char} (h : EscapedLine l l) : ¬ FromLine l := escapedLine_ne h rfl

/-- C105: the text is escaped as it should be exactly if no line but the first begins with "From ". -/
theorem C105_escaped_iff_partial (s first : List Char) (rest : List (List Char)) (h : TextLines s (first :: rest)) :
    EscapedText s (escapeFrom true s) ↔ ∀ l ∈ rest, ¬ FromLine l := by
  obtain ⟨_, line, h1, h2⟩ := C105_first_line s first rest h
  constructor
  · rintro ⟨ls, ks, g1, g2, g3⟩
    cases textLines_unique g1 h
    cases textLines_unique g2 h2
    cases g3 with
    | cons _ g =>
      intro l hl hf
      clear h h1 h2 g1 g2
      induction rest with
      | nil => cases hl
      | cons r rest ih =>
        cases g with
        | cons g' g =>
          rcases List.mem_cons.mp hl with rfl | hl
          · exact escapedLine_self g' hf
          · exact ih g hl
  · intro hn
    refine ⟨_, _, h, h2, .cons h1 ?_⟩
    clear h h1 h2
    induction rest with
    | nil => exact .nil
    | cons r rest ih => exact .cons (.kept (hn r (by simp))) (ih fun l hl => hn l (by simp [hl]))

/-- C105 (refuted): a later line beginning with "From " is not escaped. -/
theorem C105_later_lines_refuted (pre post : List Char) : ¬ EscapedText (pre ++ '\n' :: "From ".toList ++ post) (escapeFrom true (pre ++ '\n' :: "From ".toList ++ post)) := by
  have main : ∀ pre : List Char, ∃ first rest, TextLines (pre ++ '\n' :: "From ".toList ++ post) (first :: rest) ∧ ∃ l ∈ rest, FromLine l := by
    intro pre
    obtain ⟨ls, h⟩ := textLines_exist pre
    induction h with
    | @one l hl =>
      obtain ⟨ks, hk⟩ := textLines_exist post
      cases hk with
      | one hp =>
        refine ⟨l, ["From ".toList ++ post], ?_, _, List.mem_singleton.mpr rfl, post, rfl⟩
        have := TextLines.cons hl (.one (l := "From ".toList ++ post) (by simpa using hp))
        simpa using this
      | @cons m s ms hm hs =>
        refine ⟨l, ("From ".toList ++ m) :: ms, ?_, _, by simp, m, rfl⟩
        have := TextLines.cons hl (TextLines.cons (l := "From ".toList ++ m) (by simpa using hm) hs)
        simpa using this
    | @cons l s ls hl _ ih =>
      obtain ⟨first, rest, h1, x, hx, hf⟩ := ih
      refine ⟨l, first :: rest, ?_, x, by simp [hx], hf⟩
      have := TextLines.cons hl h1
      simpa using this
  obtain ⟨first, rest, h1, x, hx, hf⟩ := main pre
  intro he
  exact (C105_escaped_iff_partial _ first rest h1).mp he x hx hf

/-- C105 (refuted): the escaping cannot be undone: a line "- From me" and a line "From me" are signed as the same text. -/
theorem C105_not_reversible_refuted (rest : List Char) :
    escapeFrom true ("From ".toList ++ rest) = escapeFrom true ("- From ".toList ++ rest) := rfl

/-! ### C107 -/

/-- C107: the output for a named file goes to a file of another name, that of the input with `.asc` (armored) or `.gpg` added; different inputs
have different outputs, and armored and binary output do not share a file. Without an input file there is no such name. -/
theorem C107_output_name (armor : Bool) (n : List Char) :
    outputName armor (some n) = some (n ++ (if armor then ".asc" else ".gpg").toList) ∧ outputName armor (some n) ≠ some n ∧
    (∀ n', outputName armor (some n) = outputName armor (some n') → n = n') ∧ (∀ n', outputName true (some n) ≠ outputName false (some n')) ∧
    outputName armor none = none := by
  have h1 : outputName armor (some n) = some (n ++ (if armor then ".asc" else ".gpg").toList) := by
    cases armor <;> rfl
  refine ⟨h1, ?_, ?_, ?_, rfl⟩
  · rw [h1]
    intro h
    have := congrArg List.length (Option.some.inj h)
    cases armor <;> simp at this
  · intro n' h
    have h2 : outputName armor (some n') = some (n' ++ (if armor then ".asc" else ".gpg").toList) := by
      cases armor <;> rfl
    rw [h1, h2] at h
    exact List.append_cancel_right (Option.some.inj h)
  · intro n' h
    have h2 : n ++ ".asc".toList = n' ++ ".gpg".toList := Option.some.inj h
    have := congrArg List.getLast? h2
    simp at this

example : outputName true (some "a.txt".toList) = some "a.txt.asc".toList := (C107_output_name true "a.txt".toList).1

end Pgp.Props
