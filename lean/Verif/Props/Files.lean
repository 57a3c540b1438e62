import Verif.Model.Files
import Verif.Props.Shortcuts
import Verif.Props.KeyFile
import Verif.Lemmas.Canon
import Verif.Lemmas.Hashing
/-
C88: keys and messages are read alike from text, octets and files, armored or not.
-/
namespace Pgp.Props
open Pgp.Spec

/-- ASCII text. -/
def Ascii (s : Str) : Prop := ∀ c ∈ s, c.toNat < 128

theorem utf8_ascii {s : Str} (h : Ascii s) : utf8Encode s = s.map fun c => UInt8.ofNat c.toNat := by
  induction s with
  | nil => rfl
  | cons c s ih =>
    rw [utf8Encode_ascii_cons c s (h c (by simp)), ih fun x hx => h x (by simp [hx]), List.map_cons]

theorem ascii_decode {s : Str} (h : Ascii s) : asciiDecodeStrict (utf8Encode s) = .ok s := by
  rw [utf8_ascii h]
  unfold asciiDecodeStrict
  rw [if_pos]
  · rw [List.map_map]
    conv_rhs => rw [← List.map_id s]
    congr 1
    apply List.map_congr_left
    intro c hc
    have := h c hc
    simp only [Function.comp, id]
    rw [toNat_ofNat_lt (by omega)]; simp
  · rw [List.all_eq_true]
    intro x hx
    obtain ⟨c, hc, rfl⟩ := List.mem_map.mp hx
    have := h c hc
    rw [decide_eq_true_eq, UInt8.lt_iff_toNat_lt, toNat_ofNat_lt (by omega)]
    exact this

theorem isArmorBytes_iff (b : Bytes) : isArmorBytes b = true ↔ b.take 5 = [45, 45, 45, 45, 45] := by
  unfold isArmorBytes
  have e5 : DASHES.length = 5 := rfl
  rw [e5]
  dsimp only
  constructor
  · intro h
    split at h
    · rw [decide_eq_true_eq] at h
      have hl : (b.take 5).length = 5 := by
        have := congrArg List.length h; rwa [List.length_map, e5] at this
      generalize b.take 5 = l at *
      match l, hl with
      | [x1, x2, x3, x4, x5], _ =>
        have hc : ∀ x : UInt8, Char.ofNat x.toNat = '-' → x = 45 := by
          intro x hx
          have h2 : (Char.ofNat x.toNat).toNat = x.toNat := toNat_char (.inl (by have := x.toNat_lt; omega))
          rw [hx] at h2
          exact (UInt8.toNat_inj.mp h2.symm)
        have hd : DASHES = ['-', '-', '-', '-', '-'] := by decide +kernel
        rw [hd] at h
        simp only [List.map_cons, List.map_nil, List.cons.injEq, and_true] at h
        obtain ⟨h1, h2, h3, h4, h5⟩ := h
        rw [hc _ h1, hc _ h2, hc _ h3, hc _ h4, hc _ h5]
    · cases h
  · intro h
    rw [h]; decide +kernel

/-- The header values are ASCII text. -/
structure AsciiHeaders (a : Armor) : Prop where
  version : ∀ v, a.version = some v → Ascii v
  comment : ∀ v, a.comment = some v → Ascii v
  messageId : ∀ v, a.messageId = some v → Ascii v
  hashAlgorithms : ∀ v, a.hashAlgorithms = some v → Ascii v
  charset : ∀ v, a.charset = some v → Ascii v
  extra : ∀ l, a.extraHeaders = .pairs l → ∀ kv ∈ l, Ascii kv.1 ∧ Ascii kv.2

theorem ascii_append {a b : Str} : Ascii (a ++ b) ↔ Ascii a ∧ Ascii b := by
  unfold Ascii
  constructor
  · intro h; exact ⟨fun c hc => h c (by simp [hc]), fun c hc => h c (by simp [hc])⟩
  · rintro ⟨h1, h2⟩ c hc
    rcases List.mem_append.mp hc with hc | hc
    · exact h1 c hc
    · exact h2 c hc

theorem ascii_lit (s : Str) (h : s.all (fun c => decide (c.toNat < 128)) = true) : Ascii s := by
  intro c hc
  exact of_decide_eq_true (List.all_eq_true.mp h c hc)

theorem b64Char_ascii (n : Nat) : (b64Char n).toNat < 128 := by
  have e : ∀ m, m < 128 → (Char.ofNat m).toNat < 128 := fun m hm => by rw [toNat_char (.inl (by omega))]; exact hm
  unfold b64Char
  split
  · exact e _ (by omega)
  · split
    · exact e _ (by omega)
    · split
      · exact e _ (by omega)
      · split <;> decide

theorem b64_ascii (d : Bytes) : Ascii (b64encode d) := by
  have key : ∀ n (d : Bytes), d.length ≤ n → Ascii (b64encode d) := by
    intro n
    induction n with
    | zero => intro d hd; rw [List.length_eq_zero_iff.mp (Nat.le_zero.mp hd)]; exact nofun
    | succ n ih =>
      intro d hd
      match d, hd with
      | [], _ => exact nofun
      | [a], _ =>
        intro c hc
        simp only [b64encode, List.mem_cons, List.not_mem_nil, or_false] at hc
        rcases hc with rfl | rfl | rfl | rfl
        · exact b64Char_ascii _
        · exact b64Char_ascii _
        · decide
        · decide
      | [a, b], _ =>
        intro c hc
        simp only [b64encode, List.mem_cons, List.not_mem_nil, or_false] at hc
        rcases hc with rfl | rfl | rfl | rfl
        · exact b64Char_ascii _
        · exact b64Char_ascii _
        · exact b64Char_ascii _
        · decide
      | a :: b :: c :: t, hd =>
        intro x hx
        simp only [b64encode, List.mem_cons] at hx
        rcases hx with rfl | rfl | rfl | rfl | hx
        · exact b64Char_ascii _
        · exact b64Char_ascii _
        · exact b64Char_ascii _
        · exact b64Char_ascii _
        · exact ih t (by simp only [List.length_cons] at hd; omega) x hx
  exact key d.length d le_rfl

theorem decRev_ascii (n : Nat) : Ascii (decRev n) := by
  induction n using Nat.strongRecOn with
  | ind n ih =>
    have e : ∀ m, m < 128 → (Char.ofNat m).toNat < 128 := fun m hm => by rw [toNat_char (.inl (by omega))]; exact hm
    rw [decRev]
    split
    · intro c hc
      rw [List.mem_singleton.mp hc]; exact e _ (by omega)
    · intro c hc
      rcases List.mem_cons.mp hc with rfl | hc
      · exact e _ (by omega)
      · exact ih (n / 10) (by omega) c hc

theorem decimal_ascii (n : Nat) : Ascii (decimal n) := fun c hc => decRev_ascii n c (List.mem_reverse.mp hc)

theorem headerLine_ascii (a : Armor) : Ascii a.headerLine := by
  unfold Armor.headerLine
  refine ascii_append.mpr ⟨ascii_append.mpr ⟨ascii_append.mpr ⟨ascii_append.mpr ⟨ascii_lit _ (by decide +kernel), ascii_lit _ (by decide +kernel)⟩, ?_⟩, ?_⟩,
    ascii_lit _ (by decide +kernel)⟩
  · cases a.dataType <;> exact ascii_lit _ (by decide +kernel)
  · split
    · split
      · exact ascii_append.mpr ⟨ascii_append.mpr ⟨ascii_append.mpr ⟨ascii_lit _ (by decide +kernel), decimal_ascii _⟩, ascii_lit _ (by decide +kernel)⟩, decimal_ascii _⟩
      · exact ascii_append.mpr ⟨ascii_lit _ (by decide +kernel), decimal_ascii _⟩
      · exact nofun
    · exact nofun

theorem replaceBeginEnd_ascii (s : Str) (h : Ascii s) : Ascii (replaceBeginEnd s) := by
  have key : ∀ n (s : Str), s.length ≤ n → Ascii s → Ascii (replaceBeginEnd s) := by
    intro n
    induction n with
    | zero => intro s hs _; rw [List.length_eq_zero_iff.mp (Nat.le_zero.mp hs)]; exact nofun
    | succ n ih =>
      intro s hs h
      unfold replaceBeginEnd
      split
      · exact nofun
      · rename_i t
        have ht := ih t (by simp only [List.length_cons] at hs; omega) fun c hc => h c (by simp [hc])
        intro c hc
        simp only [List.mem_cons] at hc
        rcases hc with rfl | rfl | rfl | hc
        · decide
        · decide
        · decide
        · exact ht c hc
      · rename_i c t _
        have ht := ih t (by simp only [List.length_cons] at hs; omega) fun c hc => h c (by simp [hc])
        intro x hx
        rcases List.mem_cons.mp hx with rfl | hx
        · exact h _ (by simp)
        · exact ht x hx
  exact key s.length s le_rfl h

theorem headerField_ascii (k : String) (hk : Ascii k.toList) (v : Option Str) (h : ∀ w, v = some w → Ascii w) : ∀ l ∈ headerField k v, Ascii l := by
  cases v with
  | none => exact nofun
  | some v =>
    intro l hl
    rw [List.mem_singleton.mp hl]
    exact ascii_append.mpr ⟨ascii_append.mpr ⟨hk, ascii_lit _ (by decide +kernel)⟩, h v rfl⟩

theorem toStr_ascii (a : Armor) (hs : Storable a) (h : AsciiHeaders a) (text : Str) (ht : a.toStr = .ok text) : Ascii text := by
  obtain ⟨l, hl, _⟩ := hs.extra
  have hextra : extraLines a.extraHeaders = .ok (l.map fun kv => kv.1 ++ ": ".toList ++ kv.2) := by
    rcases hl with hl | ⟨rfl, hl⟩ <;> rw [hl] <;> rfl
  have hal : ∀ kv ∈ l, Ascii kv.1 ∧ Ascii kv.2 := by
    rcases hl with hl | ⟨rfl, _⟩
    · exact h.extra l hl
    · exact nofun
  unfold Armor.toStr Armor.toLines at ht
  rw [hextra] at ht
  simp only [except_bind_ok, except_pure, Except.ok.injEq] at ht
  subst ht
  have key : ∀ ls : List Str, (∀ x ∈ ls, Ascii x) → Ascii (joinLines ls) := by
    intro ls hls c hc
    obtain ⟨x, hx, hc⟩ := List.mem_flatMap.mp hc
    rcases List.mem_append.mp hc with hc | hc
    · exact hls x hx c hc
    · rw [List.mem_singleton.mp hc]; decide
  apply key
  intro x hx
  simp only [List.mem_append] at hx
  rcases hx with ((((((((((hx | hx) | hx) | hx) | hx) | hx) | hx) | hx) | hx) | hx) | hx)
  · rw [List.mem_singleton.mp hx]; exact headerLine_ascii a
  · exact headerField_ascii "Version" (ascii_lit _ (by decide +kernel)) _ h.version x hx
  · exact headerField_ascii "Comment" (ascii_lit _ (by decide +kernel)) _ h.comment x hx
  · exact headerField_ascii "MessageID" (ascii_lit _ (by decide +kernel)) _ h.messageId x hx
  · exact headerField_ascii "Hash" (ascii_lit _ (by decide +kernel)) _ h.hashAlgorithms x hx
  · exact headerField_ascii "Charset" (ascii_lit _ (by decide +kernel)) _ h.charset x hx
  · obtain ⟨kv, hkv, rfl⟩ := List.mem_map.mp hx
    exact ascii_append.mpr ⟨ascii_append.mpr ⟨(hal kv hkv).1, ascii_lit _ (by decide +kernel)⟩, (hal kv hkv).2⟩
  · rw [List.mem_singleton.mp hx]; exact nofun
  · intro c hc
    have : c ∈ (wrap72 (b64encode a.data)).flatten := List.mem_flatten.mpr ⟨x, hx, hc⟩
    rw [wrap72_flatten] at this
    exact b64_ascii _ c this
  · rw [List.mem_singleton.mp hx]
    intro c hc
    rcases List.mem_cons.mp hc with rfl | hc
    · decide
    · exact b64_ascii _ c hc
  · rw [List.mem_singleton.mp hx]; exact replaceBeginEnd_ascii _ (headerLine_ascii a)

theorem isArmor_octets {s : Str} (h : isArmor s = true) : isArmorBytes (utf8Encode s) = true := by
  rw [isArmorBytes_iff]
  unfold isArmor at h
  rw [decide_eq_true_eq] at h
  have e : s = DASHES ++ s.drop 5 := by
    conv_lhs => rw [← List.take_append_drop 5 s]
    rw [show (5 : Nat) = DASHES.length from rfl, h]
  rw [e]
  unfold utf8Encode
  rw [List.flatMap_append, show DASHES.flatMap utf8Char = [45, 45, 45, 45, 45] by decide +kernel]
  rfl

/-- C88: octets whose first is that of a packet header (the highest bit is set) are never taken for armor: they are read as they are. -/
theorem C88_binary_kept (x : UInt8) (rest : Bytes) (hx : 128 ≤ x.toNat) : inputOctets false (.octets (x :: rest)) = .ok (x :: rest) := by
  have hn : ¬ isArmorBytes (x :: rest) = true := by
    rw [isArmorBytes_iff]
    intro h
    rw [List.take_succ_cons] at h
    have := (List.cons.inj h).1
    subst this
    exact absurd hx (by decide)
  simp only [inputOctets, if_neg hn, Bool.false_eq_true, if_false]

example := C88_binary_kept 0x99 [1, 0] (by decide)

/-- C88 (part that holds): the text form of armored data is read as the data, as text or (ASCII headers) as octets, whether or not the caller says it is armored. -/
theorem C88_armor_partial (a : Armor) (h : Storable a) :
    ∃ text, a.toStr = .ok text ∧ ∀ flag, inputOctets flag (.text text) = .ok a.data ∧
      (AsciiHeaders a → inputOctets flag (.octets (utf8Encode text)) = .ok a.data) := by
  obtain ⟨text, h1, h2⟩ := C17_armor_roundtrip a h
  have hi := C17_is_armor a text h1
  refine ⟨text, h1, fun flag => ⟨?_, fun ha => ?_⟩⟩
  · simp only [inputOctets, hi, Bool.true_or, if_true, h2, except_bind_ok, except_pure]
  · simp only [inputOctets, isArmor_octets hi, if_true, ascii_decode (toStr_ascii a h ha text h1), h2, except_bind_ok, except_pure]

example := C88_armor_partial { dataType := .publicKey, data := exFile .old, version := some keyVersion } (keyArmor_storable _ _ _ (.inr rfl))

/-- C88 fails: with a header that is not ASCII the same text as octets (UTF-8) is refused. -/
theorem C88_non_ascii_raises (text : Str) (h : isArmor text = true) (hn : ¬ Ascii text) (flag : Bool) :
    inputOctets flag (.octets (utf8Encode text)) = .error .unicodeError := by
  have : asciiDecodeStrict (utf8Encode text) = .error .unicodeError := by
    unfold asciiDecodeStrict
    rw [if_neg]
    intro hall
    apply hn
    intro c hc
    by_contra hge
    rw [List.all_eq_true] at hall
    have hmem : ∃ x ∈ utf8Char c, 128 ≤ x.toNat := by
      have hlt : c.toNat < 0x110000 := by rcases char_valid c with h | h <;> omega
      unfold utf8Char
      dsimp only
      rw [if_neg hge]
      split
      · exact ⟨_, List.mem_cons_self, by rw [toNat_ofNat_lt (by omega)]; omega⟩
      · split
        · exact ⟨_, List.mem_cons_self, by rw [toNat_ofNat_lt (by omega)]; omega⟩
        · exact ⟨_, List.mem_cons_self, by rw [toNat_ofNat_lt (by omega)]; omega⟩
    obtain ⟨x, hx, hx2⟩ := hmem
    have := of_decide_eq_true (hall x (List.mem_flatMap.mpr ⟨c, hc, hx⟩))
    rw [UInt8.lt_iff_toNat_lt] at this
    exact absurd hx2 (by simpa using this)
  simp only [inputOctets, isArmor_octets h, if_true, this]
  rfl

example (flag : Bool) := C88_non_ascii_raises "-----BEGIN PGP MESSAGE-----\nComment: café".toList (by decide +kernel)
  (fun h => absurd (h 'é' (by decide +kernel)) (by decide)) flag

/-! ### Keys and messages -/

theorem serializeLoop_head {data : Bytes} {ap : Bool} : ∀ (fuel : Nat) {rem off : Nat} {t : UInt8} {r out : Bytes},
    serializeLoop data ap fuel rem off (t :: r) = .ok out → ∃ o, out = t :: o := by
  intro fuel
  induction fuel with
  | zero =>
    intro rem off t r out h
    unfold serializeLoop at h
    split at h
    · cases h; exact ⟨_, rfl⟩
    · cases h
  | succ fuel ih =>
    intro rem off t r out h
    unfold serializeLoop at h
    split at h
    · cases h; exact ⟨_, rfl⟩
    · obtain ⟨⟨l, rm⟩, _, h⟩ := except_bind_eq_ok.mp h
      exact ih h

theorem toBytes_head {p : RawPacket} {b : Bytes} (h : Packet.toBytes 1 p = .ok b) : ∃ x rest, b = x :: rest ∧ 128 ≤ x.toNat := by
  unfold Packet.toBytes at h
  cases hf : p.fmt with
  | new =>
    rw [hf] at h
    obtain ⟨t, ht, h⟩ := except_bind_eq_ok.mp h
    obtain ⟨h1, rfl⟩ := byteOf_ok ht
    obtain ⟨o, rfl⟩ := serializeLoop_head _ h
    exact ⟨_, _, rfl, by rw [toNat_ofNat_lt h1]; omega⟩
  | old =>
    rw [hf] at h
    dsimp only at h
    obtain ⟨t, ht, h⟩ := except_bind_eq_ok.mp h
    obtain ⟨lb, _, h⟩ := except_bind_eq_ok.mp h
    obtain ⟨h1, rfl⟩ := byteOf_ok ht
    cases h
    exact ⟨_, _, rfl, by rw [toNat_ofNat_lt h1]; omega⟩

theorem joined_kept {ps : List RawPacket} {w : Bytes} (h : joinPackets ps = .ok w) : inputOctets false (.octets w) = .ok w := by
  unfold joinPackets at h
  obtain ⟨es, hes, h⟩ := except_bind_eq_ok.mp h
  cases h
  cases ps with
  | nil =>
    rw [List.mapM_nil] at hes
    cases hes
    rfl
  | cons p ps =>
    rw [List.mapM_cons] at hes
    obtain ⟨b, hb, hes⟩ := except_bind_eq_ok.mp hes
    obtain ⟨bs, _, hes⟩ := except_bind_eq_ok.mp hes
    cases hes
    obtain ⟨x, rest, rfl, hx⟩ := toBytes_head hb
    exact C88_binary_kept x (rest ++ bs.flatten) hx

theorem newlines_char {c : Char} (h : c ∉ lineTerminators) (t : Str) : universalNewlines (c :: t) = c :: universalNewlines t := by
  have hr : c ≠ '\r' := by rintro rfl; exact h (by decide)
  rw [universalNewlines]
  · intro t' h'; exact absurd h' hr
  · intro h'; exact absurd h' hr

theorem newlines_lf (t : Str) : universalNewlines ('\n' :: t) = '\n' :: universalNewlines t := by
  rw [universalNewlines]
  · intro t' h'; exact absurd h' (by decide)
  · intro h'; exact absurd h' (by decide)

theorem newlines_line {l : Str} (h : OneLine l) (t : Str) : universalNewlines (l ++ t) = l ++ universalNewlines t := by
  induction l with
  | nil => rfl
  | cons c l ih =>
    rw [oneLine_cons] at h
    rw [List.cons_append, newlines_char h.1, ih h.2, List.cons_append]

/-- Reading a text file turns either line end into LF. -/
theorem newlines_text {eol : Str} (he : eol = ['\n'] ∨ eol = ['\r', '\n']) {ls : List Str} (h : ∀ l ∈ ls, OneLine l) :
    universalNewlines (textOf eol ls) = textOf ['\n'] ls := by
  induction ls with
  | nil => rfl
  | cons l ls ih =>
    unfold textOf at ih ⊢
    rw [List.flatMap_cons, List.flatMap_cons, List.append_assoc, newlines_line (h l (by simp)), List.append_assoc]
    congr 1
    rcases he with rfl | rfl
    · rw [List.singleton_append, newlines_lf, ih fun x hx => h x (by simp [hx])]
    · rw [List.singleton_append, ← ih fun x hx => h x (by simp [hx])]
      show universalNewlines ('\r' :: '\n' :: _) = _
      rw [universalNewlines]
      rfl

theorem isArmor_eol {ls : List Str} {eol : Str} (h : ∀ l ∈ ls, OneLine l) (ha : isArmor (textOf ['\n'] ls) = true) :
    isArmor (textOf eol ls) = true := by
  unfold isArmor at *
  rw [decide_eq_true_eq] at *
  cases ls with
  | nil => exact absurd ha (by decide)
  | cons l ls =>
    have e5 : DASHES.length = 5 := rfl
    rw [e5] at ha ⊢
    have hl : 5 ≤ l.length := by
      by_contra hlt
      have : '\n' ∈ DASHES := by
        rw [← ha]
        unfold textOf
        rw [List.flatMap_cons, List.append_assoc, List.take_append]
        apply List.mem_append_right
        obtain ⟨k, hk⟩ : ∃ k, 5 - l.length = k + 1 := ⟨4 - l.length, by omega⟩
        rw [hk]; simp
      exact absurd this (by decide)
    unfold textOf at ha ⊢
    rw [List.flatMap_cons, List.append_assoc, List.take_append_of_le_length hl] at ha ⊢
    exact ha

theorem ascii_lines {ls : List Str} {eol : Str} (he : eol = ['\n'] ∨ eol = ['\r', '\n']) (h : Ascii (textOf ['\n'] ls)) : Ascii (textOf eol ls) := by
  intro c hc
  obtain ⟨l, hl, hc⟩ := List.mem_flatMap.mp hc
  rcases List.mem_append.mp hc with hc | hc
  · exact h c (List.mem_flatMap.mpr ⟨l, hl, List.mem_append_left _ hc⟩)
  · have key : ∀ x ∈ ['\r', '\n'], x.toNat < 128 := by decide
    rcases he with rfl | rfl
    · exact key c (by simp at hc; simp [hc])
    · exact key c hc

/-- C88 (part that holds): a file with the text form of armored data, with either line end, is read as the data, whether or not the caller says it is armored. -/
theorem C88_armored_file_partial (a : Armor) (h : Storable a) (ha : AsciiHeaders a) :
    ∃ lines, a.toStr = .ok (textOf ['\n'] lines) ∧ ∀ eol, eol = ['\n'] ∨ eol = ['\r', '\n'] → ∀ flag,
      ∃ d, readFileAs flag (utf8Encode (textOf eol lines)) = .ok d ∧ inputOctets flag d = .ok a.data := by
  obtain ⟨ls, h1, h2, h3⟩ := fromLines_toLines a h
  have h4 : a.toStr = .ok (textOf ['\n'] ls) := by unfold Armor.toStr; rw [h1]; rfl
  have hi := C17_is_armor a _ h4
  have hr : ∀ eol, eol = ['\n'] ∨ eol = ['\r', '\n'] → fromAscii (textOf eol ls) = .ok { a with extraHeaders := .none } := by
    intro eol he
    have := splitlines_textOf_nil he ls h2
    unfold fromAscii
    rw [this]
    simpa using h3 []
  refine ⟨ls, h4, fun eol he flag => ?_⟩
  cases flag with
  | true =>
    refine ⟨.text (textOf ['\n'] ls), ?_, ?_⟩
    · simp only [readFileAs, if_true, utf8DecodeStrict_encode, except_bind_ok, except_pure, newlines_text he h2]
    · simp only [inputOctets, hi, Bool.true_or, if_true, hr _ (.inl rfl), except_bind_ok, except_pure]
  | false =>
    refine ⟨.octets (utf8Encode (textOf eol ls)), rfl, ?_⟩
    simp only [inputOctets, isArmor_octets (isArmor_eol (eol := eol) h2 hi), if_true, ascii_decode (ascii_lines he (toStr_ascii a h ha _ h4)), hr eol he,
      except_bind_ok, except_pure]

theorem newlines_cr {ls : List Str} (h : ∀ l ∈ ls, OneLine l) : universalNewlines (textOf ['\r'] ls) = textOf ['\n'] ls := by
  have hnot : ∀ ls : List Str, (∀ l ∈ ls, OneLine l) → ∀ t, textOf ['\r'] ls ≠ '\n' :: t := by
    intro ls h t he
    cases ls with
    | nil => cases he
    | cons l ls =>
      unfold textOf at he
      rw [List.flatMap_cons, List.append_assoc] at he
      cases l with
      | nil => exact absurd (List.cons.inj he).1 (by decide)
      | cons c l =>
        have hc := (List.cons.inj he).1
        subst hc
        exact absurd (List.mem_cons_self ..) (fun hm => h ('\n' :: l) (by simp) '\n' hm (by decide))
  induction ls with
  | nil => rfl
  | cons l ls ih =>
    have ih' := ih fun x hx => h x (by simp [hx])
    have hn := hnot ls fun x hx => h x (by simp [hx])
    unfold textOf at ih' hn ⊢
    rw [List.flatMap_cons, List.flatMap_cons, List.append_assoc, newlines_line (h l (by simp)), List.append_assoc, ← ih']
    congr 1
    generalize (ls.flatMap fun l => l ++ ['\r']) = t at hn
    show universalNewlines ('\r' :: t) = '\n' :: universalNewlines t
    rw [universalNewlines]
    intro t' ht
    exact hn t' ht

/-- C88 (part that holds): a text file whose lines end in CR alone is read as the same data by a caller who says it is armored. -/
theorem C88_cr_file_partial (a : Armor) (h : Storable a) :
    ∃ lines, a.toStr = .ok (textOf ['\n'] lines) ∧
      ∃ d, readFileAs true (utf8Encode (textOf ['\r'] lines)) = .ok d ∧ inputOctets true d = .ok a.data := by
  obtain ⟨ls, h1, h2, h3⟩ := fromLines_toLines a h
  have h4 : a.toStr = .ok (textOf ['\n'] ls) := by unfold Armor.toStr; rw [h1]; rfl
  have hr : fromAscii (textOf ['\n'] ls) = .ok { a with extraHeaders := .none } := by
    unfold fromAscii
    rw [splitlines_textOf_nil (.inl rfl) ls h2]
    simpa using h3 []
  refine ⟨ls, h4, .text (textOf ['\n'] ls), ?_, ?_⟩
  · simp only [readFileAs, if_true, utf8DecodeStrict_encode, except_bind_ok, except_pure, newlines_cr h2]
  · simp only [inputOctets, C17_is_armor a _ h4, Bool.true_or, if_true, hr, except_bind_ok, except_pure]

example := C88_cr_file_partial { dataType := .publicKey, data := exFile .old, version := some keyVersion } (keyArmor_storable _ _ _ (.inr rfl))

theorem keyArmor_ascii (ty : ArmorType) (data : Bytes) : AsciiHeaders { dataType := ty, data := data, version := some keyVersion } :=
  ⟨fun v hv => by cases hv; exact ascii_lit _ (by decide +kernel), nofun, nofun, nofun, nofun, nofun⟩

example := C88_armored_file_partial { dataType := .publicKey, data := exFile .old, version := some keyVersion } (keyArmor_storable _ _ _ (.inr rfl)) (keyArmor_ascii _ _)

/-- C88 (part that holds): a key that can be written to a file can be written armored too; the armored file is read exactly as the binary one is (to the same key or
the same exception), whether or not the reader is told it is armored, and also after its line ends became CRLF. -/
theorem C88_key_file_partial (magic : Bytes → Str) (fl : Nat → Nat) (k : TKey) (w : Bytes) (h : writeKeyFile fl false k = .ok w) :
    readKeyFile magic false w = readKey magic w ∧
    ∃ lines, writeKeyFile fl true k = .ok (utf8Encode (textOf ['\n'] lines)) ∧
      ∀ eol, eol = ['\n'] ∨ eol = ['\r', '\n'] → ∀ flag, readKeyFile magic flag (utf8Encode (textOf eol lines)) = readKey magic w := by
  have hw : serializeKey fl none k = .ok w := h
  have hj : ∃ ps, joinPackets ps = .ok w := by
    unfold serializeKey TKey.octets at hw
    obtain ⟨_, _, hw⟩ := except_bind_eq_ok.mp hw
    obtain ⟨rs, _, hw⟩ := except_bind_eq_ok.mp hw
    exact ⟨rs, hw⟩
  obtain ⟨ps, hj⟩ := hj
  refine ⟨?_, ?_⟩
  · simp only [readKeyFile, readFileAs, Bool.false_eq_true, if_false, except_bind_ok, readKeyAny, joined_kept hj]
  · have hty : armorTypeOf k.keyClass = .ok .publicKey := by cases k.keyClass <;> rfl
    obtain ⟨lines, h1, h2⟩ := C88_armored_file_partial { dataType := .publicKey, data := w, version := some keyVersion }
      (keyArmor_storable _ _ _ (.inr rfl)) (keyArmor_ascii _ _)
    refine ⟨lines, ?_, fun eol he flag => ?_⟩
    · simp only [writeKeyFile, if_true, serializeKeyArmored, hw, hty, except_bind_ok, h1, except_pure]
    · obtain ⟨d, h3, h4⟩ := h2 eol he flag
      simp only [readKeyFile, h3, except_bind_ok, readKeyAny, h4]

example (magic : Bytes → Str) : ∃ k, writeKeyFile Nat.log2 false k = .ok (exFile .old) := by
  obtain ⟨k, _, _, h⟩ := C83_serialize_key_partial magic Nat.log2 (· < 4096) exGood .old (exFile .old) (exFile_ok magic .old)
  exact ⟨k, h rfl⟩

/-- C88 (part that holds): a received key file (RFC 4880 11.1, as in C83, with old packet headers) is read, written in either form, and every form is read as the same key. -/
theorem C88_key_files_agree_partial (magic : Bytes → Str) (fl : Nat → Nat) (good : Nat → Prop) (hg : ∀ i, good i → LogRoom fl i ∧ (0 < i → fl i = Nat.log2 i))
    (data : Bytes) (h : PublicKeyFile magic (· = .old) good data) :
    ∃ k armored, readKeyFile magic false data = .ok k ∧ writeKeyFile fl false k = .ok data ∧ writeKeyFile fl true k = .ok armored ∧
      ∀ flag, readKeyFile magic flag armored = .ok k := by
  obtain ⟨k, h1, _, h2⟩ := C83_serialize_key_partial magic fl good hg .old data h
  have hw : writeKeyFile fl false k = .ok data := h2 rfl
  obtain ⟨h3, lines, h4, h5⟩ := C88_key_file_partial magic fl k data hw
  exact ⟨k, _, h3.trans h1, hw, h4, fun flag => (h5 _ (.inl rfl) flag).trans h1⟩

example (magic : Bytes → Str) := C88_key_files_agree_partial magic Nat.log2 (· < 4096) exGood (exFile .old) (exFile_ok magic .old)

/-- C88 (part that holds): the octets of a message are read alike as they are and in armor of any kind with ASCII headers, as text, octets or file. -/
theorem C88_message_partial (accept : RawPacket → Py Unit) (fl : Nat → Nat) (o : Nat → Py Bytes) (m : Msg) (w : Bytes) (h : m.bytes fl o = .ok w)
    (a : Armor) (ha : Storable a) (hh : AsciiHeaders a) (hd : a.data = w) :
    readMessageFile accept false w = readMessage accept w ∧ readMessageAny accept false (.octets w) = readMessage accept w ∧
    ∃ text, a.toStr = .ok text ∧ ∀ flag, readMessageAny accept flag (.text text) = readMessage accept w ∧
      readMessageAny accept flag (.octets (utf8Encode text)) = readMessage accept w ∧ readMessageFile accept flag (utf8Encode text) = readMessage accept w := by
  have hj : ∃ ps, joinPackets ps = .ok w := by
    unfold Msg.bytes at h
    obtain ⟨_, _, h⟩ := except_bind_eq_ok.mp h
    obtain ⟨rs, _, h⟩ := except_bind_eq_ok.mp h
    exact ⟨rs, h⟩
  obtain ⟨ps, hj⟩ := hj
  have hb : readMessageAny accept false (.octets w) = readMessage accept w := by
    simp only [readMessageAny, joined_kept hj, except_bind_ok]
  refine ⟨?_, hb, ?_⟩
  · simp only [readMessageFile, readFileAs, Bool.false_eq_true, if_false, except_bind_ok, hb]
  · obtain ⟨text, h1, h2⟩ := C88_armor_partial a ha
    obtain ⟨lines, h3, h4⟩ := C88_armored_file_partial a ha hh
    obtain rfl : text = textOf ['\n'] lines := by rw [h1] at h3; cases h3; rfl
    refine ⟨_, h1, fun flag => ⟨?_, ?_, ?_⟩⟩
    · simp only [readMessageAny, (h2 flag).1, except_bind_ok, hd]
    · simp only [readMessageAny, (h2 flag).2 hh, except_bind_ok, hd]
    · obtain ⟨d, h5, h6⟩ := h4 _ (.inl rfl) flag
      simp only [readMessageFile, h5, except_bind_ok, readMessageAny, h6, hd]

theorem exLiteral_written (o : Nat → Py Bytes) : (Msg.literal false (.octets [1, 2]) ['a'] 7).bytes Nat.log2 o = .ok [0xcb, 9, 98, 1, 97, 0, 0, 0, 7, 1, 2] := by rfl

example (accept : RawPacket → Py Unit) (o : Nat → Py Bytes) := C88_message_partial accept Nat.log2 o _ _ (exLiteral_written o)
  { dataType := .message, data := _, version := some keyVersion } (keyArmor_storable _ _ _ (.inr rfl)) (keyArmor_ascii _ _) rfl

/-! ### What fails -/

/-- C88 fails: saying that data is armored when it is octets that do not begin with the armor's dashes raises (text patterns meet octets), even if armor follows a blank line:
IndexError if there is nothing but white space, TypeError otherwise. -/
theorem C88_flagged_octets_raise (b : Bytes) (h : b.take 5 ≠ [45, 45, 45, 45, 45]) :
    ((∀ x ∈ b, x.toNat ∈ [9, 10, 11, 12, 13, 32]) → inputOctets true (.octets b) = .error .indexError) ∧
    ((∃ x ∈ b, x.toNat ∉ [9, 10, 11, 12, 13, 32]) → inputOctets true (.octets b) = .error .typeError) := by
  have hn : ¬ isArmorBytes b = true := by rw [isArmorBytes_iff]; exact h
  have hs : ∀ x : UInt8, isByteSpace x = true ↔ x.toNat ∈ [9, 10, 11, 12, 13, 32] := by
    intro x
    have : ∀ n : Fin 256, isByteSpace (UInt8.ofNat n.val) = true ↔ (UInt8.ofNat n.val).toNat ∈ [9, 10, 11, 12, 13, 32] := by decide +kernel
    simpa using this ⟨x.toNat, uint8_lt x⟩
  simp only [inputOctets, if_neg hn, if_true]
  refine ⟨fun hb => ?_, fun ⟨x, hx, hb⟩ => ?_⟩
  · rw [if_pos (List.all_eq_true.mpr fun x hx => (hs x).mpr (hb x hx))]
  · rw [if_neg fun hall => hb ((hs x).mp (List.all_eq_true.mp hall x hx))]

example := C88_flagged_octets_raise [10, 45, 45, 45, 45, 45] (by decide)

/-- C88 fails: a binary key or message file whose first packet has an old format header, such as the library writes for every key, cannot be read with `armored=True`:
the file is opened as text and the decoding raises. -/
theorem C88_binary_flagged_raises (x : UInt8) (rest : Bytes) (h1 : 0x80 ≤ x.toNat) (h2 : x.toNat < 0xc2) :
    readFileAs true (x :: rest) = .error .unicodeError := by
  have hl : utf8Lead x = none := by
    unfold utf8Lead
    dsimp only
    rw [if_neg (by omega), if_neg (by omega), if_neg (by omega), if_neg (by omega), if_neg (by omega), if_neg (by omega), if_neg (by omega)]
  have hu : utf8Units (x :: rest) = none :: utf8Units rest := by
    rw [utf8Units, if_neg (by omega), hl]
  simp only [readFileAs, if_true, utf8DecodeStrict, hu, List.mapM_cons]
  rfl

example := C88_binary_flagged_raises 0x98 [13, 4] (by decide) (by decide)

/-- C88 fails: one blank line in front of the armor of a key makes the outcome depend on the flag: the file is read with `armored=True` and refused without. -/
theorem C88_blank_line_refuted (magic : Bytes → Str) (a : Armor) (h : Storable a) :
    ∃ text, a.toStr = .ok text ∧ readKeyFile magic true (utf8Encode ('\n' :: text)) = readKey magic a.data ∧
      Raises (readKeyFile magic false (utf8Encode ('\n' :: text))) := by
  obtain ⟨ls, h1, h2, h3⟩ := fromLines_toLines a h
  have h4 : a.toStr = .ok (textOf ['\n'] ls) := by unfold Armor.toStr; rw [h1]; rfl
  refine ⟨_, h4, ?_, ?_⟩
  · have hc := C17_armor_in_context a h ['\n'] (.inl rfl) [[]] (by intro l hl; rw [List.mem_singleton.mp hl]; exact nofun) []
    obtain ⟨ls', h5, h6⟩ := hc
    obtain he : textOf ['\n'] ls = textOf ['\n'] ls' := by rw [h4] at h5; exact Except.ok.inj h5
    have hn : universalNewlines ('\n' :: textOf ['\n'] ls) = '\n' :: textOf ['\n'] ls' := by
      have : universalNewlines ('\n' :: textOf ['\n'] ls) = '\n' :: universalNewlines (textOf ['\n'] ls) := newlines_lf _
      rw [this, newlines_text (.inl rfl) h2, he]
    rw [List.append_nil] at h6
    have h7 : fromAscii ('\n' :: textOf ['\n'] ls') = .ok { a with extraHeaders := .none } := h6
    simp only [readKeyFile, readFileAs, if_true, utf8DecodeStrict_encode, except_bind_ok, except_pure, hn, readKeyAny, inputOctets, Bool.or_true, h7]
  · rw [utf8Encode_ascii_cons _ _ (by decide)]
    generalize utf8Encode (textOf ['\n'] ls) = b
    have hn : ¬ isArmorBytes (UInt8.ofNat '\n'.toNat :: b) = true := by
      rw [isArmorBytes_iff]
      intro h
      rw [List.take_succ_cons] at h
      exact absurd (List.cons.inj h).1 (by decide)
    simp only [readKeyFile, readFileAs, Bool.false_eq_true, if_false, except_bind_ok, readKeyAny, inputOctets, if_neg hn]
    cases hk : readKey magic (UInt8.ofNat '\n'.toNat :: b) with
    | error e => exact ⟨e, rfl⟩
    | ok k =>
      exfalso
      unfold readKey at hk
      obtain ⟨rs, hrs, hk⟩ := except_bind_eq_ok.mp hk
      obtain ⟨qs, _, hk⟩ := except_bind_eq_ok.mp hk
      obtain ⟨cl, hcl, hk⟩ := except_bind_eq_ok.mp hk
      unfold parseBinaryPacketData at hrs
      rw [List.length_cons] at hrs
      unfold parseLoop at hrs
      rw [if_pos (by simp)] at hrs
      obtain ⟨⟨o, p⟩, hp, hrs⟩ := except_bind_eq_ok.mp hrs
      obtain ⟨r, _, hrs⟩ := except_bind_eq_ok.mp hrs
      cases hrs
      have ht : p.type = 2 := packetFromData_type (t := 2) (f := .old) (o := 0) rfl (by decide) hp
      simp [classOf, ht] at hcl

example (magic : Bytes → Str) := C88_blank_line_refuted magic { dataType := .publicKey, data := exFile .old, version := some keyVersion } (keyArmor_storable _ _ _ (.inr rfl))

/-- C88 fails: the same text read as text needs the flag as soon as a blank line comes first. -/
theorem C88_blank_text_refuted (a : Armor) (h : Storable a) :
    ∃ text, a.toStr = .ok text ∧ inputOctets true (.text ('\n' :: text)) = .ok a.data ∧ inputOctets false (.text ('\n' :: text)) = .error .typeError := by
  obtain ⟨ls, h4, h6⟩ := C17_armor_in_context a h ['\n'] (.inl rfl) [[]] (by intro l hl; rw [List.mem_singleton.mp hl]; exact nofun) []
  rw [List.append_nil] at h6
  have h7 : fromAscii ('\n' :: textOf ['\n'] ls) = .ok { a with extraHeaders := .none } := h6
  have hn : isArmor ('\n' :: textOf ['\n'] ls) = false := by
    unfold isArmor
    rw [decide_eq_false_iff_not, show DASHES = ['-', '-', '-', '-', '-'] by decide +kernel]
    intro h
    exact absurd (List.cons.inj h).1 (by decide)
  refine ⟨_, h4, ?_, ?_⟩
  · simp only [inputOctets, Bool.or_true, if_true, h7, except_bind_ok, except_pure]
  · simp only [inputOctets, hn, Bool.or_self, Bool.false_eq_true, if_false, reduceCtorEq]

example := C88_blank_text_refuted { dataType := .publicKey, data := exFile .old, version := some keyVersion } (keyArmor_storable _ _ _ (.inr rfl))

end Pgp.Props
