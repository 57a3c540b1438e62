import Verif.Spec.ArmorText
import Verif.Props.Armor
import Mathlib.Data.Nat.Digits.Defs
/-
Property theorems C113: armored text has the form of RFC 4880, and every text of that form is read.
-/
namespace Pgp.Props
open Spec

theorem alphabet_table : ∀ n : Fin 64, base64Alphabet[n.val]? = some (b64Char n.val) := by decide +kernel

theorem sixBits_iff {i : Nat} {c : Char} : SixBits i c ↔ i < 64 ∧ c = b64Char i := by
  unfold SixBits
  constructor
  · intro h
    have hi : i < 64 := by
      obtain ⟨hl, _⟩ := List.getElem?_eq_some_iff.mp h
      exact hl
    rw [alphabet_table ⟨i, hi⟩] at h
    exact ⟨hi, (Option.some.inj h).symm⟩
  · rintro ⟨hi, rfl⟩
    exact alphabet_table ⟨i, hi⟩

theorem base64_encode (d : Bytes) : Base64 d (b64encode d) := by
  fun_induction b64encode d with
  | case1 => exact .nil
  | case2 a =>
    refine .one (sixBits_iff.mpr ⟨?_, rfl⟩) (sixBits_iff.mpr ⟨?_, rfl⟩) ?_
    · have := a.toNat_lt; omega
    · omega
    · simp only [beNat_cons, beNat_nil, List.length_nil, pow_zero]; omega
  | case3 a b =>
    refine .two (sixBits_iff.mpr ⟨?_, rfl⟩) (sixBits_iff.mpr ⟨?_, rfl⟩) (sixBits_iff.mpr ⟨?_, rfl⟩) ?_
    · have := a.toNat_lt; omega
    · have := b.toNat_lt; omega
    · omega
    · simp only [beNat_cons, beNat_nil, List.length_nil, List.length_cons, pow_zero]; omega
  | case4 a b c t ih =>
    refine .three (sixBits_iff.mpr ⟨?_, rfl⟩) (sixBits_iff.mpr ⟨?_, rfl⟩) (sixBits_iff.mpr ⟨?_, rfl⟩) (sixBits_iff.mpr ⟨?_, rfl⟩) ?_ ih
    · have := a.toNat_lt; omega
    · have := b.toNat_lt; omega
    · have := c.toNat_lt; omega
    · omega
    · simp only [beNat_cons, beNat_nil, List.length_nil, List.length_cons, pow_zero]; omega

/-- The base64 of octets is one text. -/
theorem base64_unique {d : Bytes} {s : Str} (h : Base64 d s) : s = b64encode d := by
  induction h with
  | nil => rfl
  | @one a i j x y h1 h2 h3 =>
    obtain ⟨b1, rfl⟩ := sixBits_iff.mp h1
    obtain ⟨b2, rfl⟩ := sixBits_iff.mp h2
    simp only [beNat_cons, beNat_nil, List.length_nil, pow_zero] at h3
    have e1 : i = a.toNat / 4 := by omega
    have e2 : j = a.toNat % 4 * 16 := by omega
    rw [b64encode, e1, e2]
  | @two a b i j k x y z h1 h2 h3 h4 =>
    obtain ⟨b1, rfl⟩ := sixBits_iff.mp h1
    obtain ⟨b2, rfl⟩ := sixBits_iff.mp h2
    obtain ⟨b3, rfl⟩ := sixBits_iff.mp h3
    have := b.toNat_lt
    simp only [beNat_cons, beNat_nil, List.length_nil, List.length_cons, pow_zero] at h4
    have e1 : i = a.toNat / 4 := by omega
    have e2 : j = a.toNat % 4 * 16 + b.toNat / 16 := by omega
    have e3 : k = b.toNat % 16 * 4 := by omega
    rw [b64encode, e1, e2, e3]
  | @three a b c i j k l x y z w d s h1 h2 h3 h4 h5 _ ih =>
    obtain ⟨b1, rfl⟩ := sixBits_iff.mp h1
    obtain ⟨b2, rfl⟩ := sixBits_iff.mp h2
    obtain ⟨b3, rfl⟩ := sixBits_iff.mp h3
    obtain ⟨b4, rfl⟩ := sixBits_iff.mp h4
    have := b.toNat_lt
    have := c.toNat_lt
    simp only [beNat_cons, beNat_nil, List.length_nil, List.length_cons, pow_zero] at h5
    have e1 : i = a.toNat / 4 := by omega
    have e2 : j = a.toNat % 4 * 16 + b.toNat / 16 := by omega
    have e3 : k = b.toNat % 16 * 4 + c.toNat / 64 := by omega
    have e4 : l = c.toNat % 64 := by omega
    rw [b64encode, e1, e2, e3, e4, ih]

theorem decimal_digits (n : Nat) : decimal n = Nat.toDigits 10 n := by
  have tab : ∀ d : Fin 10, Nat.digitChar d.val = Char.ofNat (48 + d.val) := by decide +kernel
  induction n using Nat.strong_induction_on with
  | _ n ih =>
    by_cases h : n < 10
    · rw [decimal_small n h, Nat.toDigits_of_lt_base h, tab ⟨n, h⟩]
    · rw [decimal_step n h, Nat.toDigits_of_base_le (by omega) (by omega), ih (n / 10) (by omega), tab ⟨n % 10, by omega⟩]

theorem sum_bytes (v : Nat) : [lowByte (v >>> 16), lowByte (v >>> 8), lowByte v] = beBytes 3 v := by
  simp only [beBytes, lowByte, Nat.shiftRight_eq_div_pow, Nat.div_div_eq_div_mul]
  rfl

theorem replace_skip {s : Str} (h : 'B' ∉ s) (t : Str) : replaceBeginEnd (s ++ t) = s ++ replaceBeginEnd t := by
  induction s with
  | nil => rfl
  | cons c s ih =>
    simp only [List.mem_cons, not_or] at h
    rw [List.cons_append, replaceBeginEnd, ih h.2, List.cons_append]
    intro t' he
    exact absurd he.symm h.1

theorem digits_noB (n : Nat) : 'B' ∉ Nat.toDigits 10 n := by
  rw [← decimal_digits]
  intro h
  have := (decimal_facts n).2.1 _ h
  revert this; decide

theorem lit_append (a b : String) (t : Str) : (a ++ b).toList ++ t = a.toList ++ (b.toList ++ t) := by
  rw [String.toList_append, List.append_assoc]

/-- The numbers of the parts in the header line. -/
def partText : Option Nat → Option Nat → Str
  | some p, some q => ", PART ".toList ++ decimal p ++ "/".toList ++ decimal q
  | some p, none => ", PART ".toList ++ decimal p
  | none, _ => []

theorem headerLine_is (a : Armor) : a.headerLine = DASHES ++ "BEGIN ".toList ++ a.dataType.name ++ (if a.dataType = .message then partText a.part a.totalParts else []) ++ DASHES := by
  unfold Armor.headerLine partText
  rfl

theorem part_one (x : Nat) : partText (some x) none = ", PART ".toList ++ Nat.toDigits 10 x := by
  rw [← decimal_digits]; rfl

theorem part_two (x y : Nat) : partText (some x) (some y) = ", PART ".toList ++ Nat.toDigits 10 x ++ '/' :: Nat.toDigits 10 y := by
  have sl : "/".toList = ['/'] := by decide +kernel
  have e : partText (some x) (some y) = ", PART ".toList ++ decimal x ++ "/".toList ++ decimal y := rfl
  rw [e, sl, decimal_digits x, decimal_digits y]
  generalize ", PART ".toList = a
  rw [List.append_assoc, List.singleton_append]

/-- A label, by the writer's terms. -/
theorem label_is {ty : ArmorType} {p q : Option Nat} {label : Str} (h : ArmorLabel ty p q label) :
    label = ty.name ++ (if ty = .message then partText p q else []) ∧ (ty ≠ .message → p = none) ∧ (∀ n, p = some n → 0 < n) ∧ (p = none → q = none) ∧ (∀ n, q = some n → 0 < n) := by
  have m : ("PGP MESSAGE, PART ".toList : Str) = ArmorType.name .message ++ ", PART ".toList := by decide +kernel
  induction h with
  | publicKey => exact ⟨by decide +kernel, fun _ => rfl, nofun, fun _ => rfl, nofun⟩
  | privateKey => exact ⟨by decide +kernel, fun _ => rfl, nofun, fun _ => rfl, nofun⟩
  | signature => exact ⟨by decide +kernel, fun _ => rfl, nofun, fun _ => rfl, nofun⟩
  | message => exact ⟨by decide +kernel, fun _ => rfl, nofun, fun _ => rfl, nofun⟩
  | part x hx =>
    have e := part_one x
    refine ⟨?_, fun h => absurd rfl h, fun n hn => (Option.some.inj hn) ▸ hx, fun h => Option.noConfusion rfl (heq_of_eq h), fun n hn => Option.noConfusion rfl (heq_of_eq hn)⟩
    rw [m, if_pos rfl, e, List.append_assoc]
  | partOf x y hx hy =>
    have e := part_two x y
    refine ⟨?_, fun h => absurd rfl h, fun n hn => (Option.some.inj hn) ▸ hx, fun h => Option.noConfusion rfl (heq_of_eq h), fun n hn => (Option.some.inj hn) ▸ hy⟩
    rw [m, if_pos rfl, e]
    simp only [List.append_assoc]

theorem label_noBegin {ty : ArmorType} {p q : Option Nat} {label : Str} (h : ArmorLabel ty p q label) : replaceBeginEnd (label ++ DASHES) = label ++ DASHES := by
  have d1 : replaceBeginEnd DASHES = DASHES := by decide +kernel
  induction h with
  | publicKey => decide +kernel
  | privateKey => decide +kernel
  | signature => decide +kernel
  | message => decide +kernel
  | part x hx => rw [List.append_assoc, replace_skip (by decide +kernel), replace_skip (digits_noB x), d1]
  | partOf x y hx hy =>
    have e : ('/' :: Nat.toDigits 10 y : Str) = ['/'] ++ Nat.toDigits 10 y := rfl
    rw [e, List.append_assoc, List.append_assoc, List.append_assoc, replace_skip (by decide +kernel), replace_skip (digits_noB x), replace_skip (by decide +kernel), replace_skip (digits_noB y), d1]

theorem begin_end (t : Str) : replaceBeginEnd ("-----BEGIN ".toList ++ t) = "-----END ".toList ++ replaceBeginEnd t := by
  have x1 : ("-----BEGIN ".toList : Str) = DASHES ++ ['B', 'E', 'G', 'I', 'N'] ++ [' '] := by decide +kernel
  have x2 : ("-----END ".toList : Str) = DASHES ++ ['E', 'N', 'D'] ++ [' '] := by decide +kernel
  have x3 : ∀ t : Str, replaceBeginEnd (['B', 'E', 'G', 'I', 'N'] ++ t) = ['E', 'N', 'D'] ++ replaceBeginEnd t := fun t => rfl
  rw [x1, x2, List.append_assoc, List.append_assoc, replace_skip (by decide +kernel), x3, replace_skip (by decide), List.append_assoc, List.append_assoc]

theorem plain_storable {ty : ArmorType} {p q : Option Nat} (h2 : ty ≠ .message → p = none) (h3 : ∀ n, p = some n → 0 < n) (h4 : p = none → q = none) (h5 : ∀ n, q = some n → 0 < n) :
    Storable { dataType := ty, data := [], part := p, totalParts := q } := by
  have no : ∀ v : Str, (none : Option Str) = some v → OneLine v := fun v h => by cases h
  exact ⟨no, no, no, no, no, h2, h3, h4, h5, [], .inr ⟨rfl, rfl⟩, fun kv h => by cases h⟩

/-- The header line for a label, what it is read as, and the tail line. -/
theorem label_lines {ty : ArmorType} {p q : Option Nat} {label : Str} (h : ArmorLabel ty p q label) :
    (∀ a : Armor, a.dataType = ty → a.part = p → a.totalParts = q → a.headerLine = "-----BEGIN ".toList ++ label ++ "-----".toList) ∧
    matchHeader ("-----BEGIN ".toList ++ label ++ "-----".toList) = some (ty, p, q) ∧
    replaceBeginEnd ("-----BEGIN ".toList ++ label ++ "-----".toList) = "-----END ".toList ++ label ++ "-----".toList := by
  obtain ⟨h1, h2, h3, h4, h5⟩ := label_is h
  have x : ("-----BEGIN ".toList : Str) = DASHES ++ "BEGIN ".toList := by decide +kernel
  have dd : ("-----".toList : Str) = DASHES := rfl
  have e1 : ∀ a : Armor, a.dataType = ty → a.part = p → a.totalParts = q → a.headerLine = "-----BEGIN ".toList ++ label ++ "-----".toList := by
    rintro a rfl rfl rfl
    rw [headerLine_is, x, h1, dd]
    simp only [List.append_assoc]
  refine ⟨e1, ?_, ?_⟩
  · rw [← e1 { dataType := ty, data := [], part := p, totalParts := q } rfl rfl rfl]
    rw [Armor.matchHeader_headerLine _ (plain_storable h2 h3 h4 h5)]
  · rw [List.append_assoc, begin_end, dd, label_noBegin h, List.append_assoc]

/-! ### Headers -/

theorem headerLoop_all (hs : List (Str × Str)) (h : ∀ kv ∈ hs, ':' ∉ kv.1) (ls : List Str) (hd : ArmorHeaders) :
    headerLoop (hs.map (fun kv => kv.1 ++ ": ".toList ++ kv.2) ++ ls) hd = headerLoop ls (hs.foldl (fun H kv => H.add kv.1 kv.2) hd) := by
  induction hs generalizing hd with
  | nil => rfl
  | cons kv hs ih =>
    rw [List.map_cons, List.cons_append, headerLoop_field _ _ (h kv (by simp)), ih (fun x hx => h x (by simp [hx]))]
    rfl

theorem lastHeader_fold (get : ArmorHeaders → Option Str) (key : Str) (hget : ∀ H k v, get (H.add k v) = if k = key then some v else get H)
    (hs : List (Str × Str)) (H : ArmorHeaders) : get (hs.foldl (fun H kv => H.add kv.1 kv.2) H) = (lastHeader key hs).or (get H) := by
  induction hs generalizing H with
  | nil => rfl
  | cons kv hs ih =>
    rw [List.foldl_cons, ih, hget]
    unfold lastHeader
    by_cases h : kv.1 = key
    · rw [if_pos h, List.filter_cons_of_pos (by simpa using h), List.getLast?_cons]
      cases (List.filter (fun x => decide (x.1 = key)) hs).getLast? <;> rfl
    · rw [if_neg h, List.filter_cons_of_neg (by simpa using h)]

theorem header_add (H : ArmorHeaders) (k v : Str) : (H.add k v).version = (if k = "Version".toList then some v else H.version) ∧
    (H.add k v).comment = (if k = "Comment".toList then some v else H.comment) ∧
    (H.add k v).messageId = (if k = "MessageID".toList then some v else H.messageId) ∧
    (H.add k v).hashAlgorithms = (if k = "Hash".toList then some v else H.hashAlgorithms) ∧
    (H.add k v).charset = (if k = "Charset".toList then some v else H.charset) := by
  unfold ArmorHeaders.add
  have d0 : "Comment".toList ≠ "Version".toList := by decide +kernel
  have d1 : "MessageID".toList ≠ "Version".toList := by decide +kernel
  have d2 : "MessageID".toList ≠ "Comment".toList := by decide +kernel
  have d3 : "Hash".toList ≠ "Version".toList := by decide +kernel
  have d4 : "Hash".toList ≠ "Comment".toList := by decide +kernel
  have d5 : "Hash".toList ≠ "MessageID".toList := by decide +kernel
  have d6 : "Charset".toList ≠ "Version".toList := by decide +kernel
  have d7 : "Charset".toList ≠ "Comment".toList := by decide +kernel
  have d8 : "Charset".toList ≠ "MessageID".toList := by decide +kernel
  have d9 : "Charset".toList ≠ "Hash".toList := by decide +kernel
  have s0 := d0.symm
  have s1 := d1.symm
  have s2 := d2.symm
  have s3 := d3.symm
  have s4 := d4.symm
  have s5 := d5.symm
  have s6 := d6.symm
  have s7 := d7.symm
  have s8 := d8.symm
  have s9 := d9.symm
  generalize "Version".toList = a at *
  generalize "Comment".toList = b at *
  generalize "MessageID".toList = c at *
  generalize "Hash".toList = d at *
  generalize "Charset".toList = e at *
  by_cases h1 : k = a
  · subst h1; refine ⟨?_, ?_, ?_, ?_, ?_⟩ <;> simp_all
  by_cases h2 : k = b
  · subst h2; refine ⟨?_, ?_, ?_, ?_, ?_⟩ <;> simp_all
  by_cases h3 : k = c
  · subst h3; refine ⟨?_, ?_, ?_, ?_, ?_⟩ <;> simp_all
  by_cases h4 : k = d
  · subst h4; refine ⟨?_, ?_, ?_, ?_, ?_⟩ <;> simp_all
  by_cases h5 : k = e
  · subst h5; refine ⟨?_, ?_, ?_, ?_, ?_⟩ <;> simp_all
  simp only [if_neg h1, if_neg h2, if_neg h3, if_neg h4, if_neg h5, and_self]

theorem headers_read (hs : List (Str × Str)) : (hs.foldl (fun (H : ArmorHeaders) (kv : Str × Str) => H.add kv.1 kv.2) ({} : ArmorHeaders)).version = lastHeader "Version".toList hs ∧
    (hs.foldl (fun (H : ArmorHeaders) (kv : Str × Str) => H.add kv.1 kv.2) ({} : ArmorHeaders)).comment = lastHeader "Comment".toList hs ∧
    (hs.foldl (fun (H : ArmorHeaders) (kv : Str × Str) => H.add kv.1 kv.2) ({} : ArmorHeaders)).messageId = lastHeader "MessageID".toList hs ∧
    (hs.foldl (fun (H : ArmorHeaders) (kv : Str × Str) => H.add kv.1 kv.2) ({} : ArmorHeaders)).hashAlgorithms = lastHeader "Hash".toList hs ∧
    (hs.foldl (fun (H : ArmorHeaders) (kv : Str × Str) => H.add kv.1 kv.2) ({} : ArmorHeaders)).charset = lastHeader "Charset".toList hs := by
  refine ⟨?_, ?_, ?_, ?_, ?_⟩
  · rw [lastHeader_fold ArmorHeaders.version "Version".toList (fun H k v => (header_add H k v).1)]
    exact Option.or_none
  · rw [lastHeader_fold ArmorHeaders.comment "Comment".toList (fun H k v => (header_add H k v).2.1)]
    exact Option.or_none
  · rw [lastHeader_fold ArmorHeaders.messageId "MessageID".toList (fun H k v => (header_add H k v).2.2.1)]
    exact Option.or_none
  · rw [lastHeader_fold ArmorHeaders.hashAlgorithms "Hash".toList (fun H k v => (header_add H k v).2.2.2.1)]
    exact Option.or_none
  · rw [lastHeader_fold ArmorHeaders.charset "Charset".toList (fun H k v => (header_add H k v).2.2.2.2)]
    exact Option.or_none

theorem wrap72_full (s : Str) : (∀ l ∈ wrap72 s, 0 < l.length ∧ l.length ≤ 72) ∧ ∀ l ∈ (wrap72 s).dropLast, l.length = 72 := by
  have len : ∀ n, (slice s (n * 72) (n * 72 + 72)).length = min 72 (s.length - n * 72) := by
    intro n
    simp only [slice, List.length_drop, List.length_take]
    omega
  constructor
  · intro l hl
    obtain ⟨n, hn, rfl⟩ := List.mem_map.mp hl
    rw [List.mem_range] at hn
    rw [len]; omega
  · intro l hl
    unfold wrap72 at hl
    rw [List.dropLast_eq_take, List.length_map, List.length_range, ← List.map_take, List.take_range] at hl
    obtain ⟨n, hn, rfl⟩ := List.mem_map.mp hl
    rw [List.mem_range] at hn
    rw [len]; omega

/-- C113: what is written is armored text as the RFC has it: the line for the kind of data (and the part of a message), the headers that were given, the data in base64, in lines of
72 characters but for the last, and the CRC of the data in base64. (Extra headers have to be given as pairs.) -/
theorem C113_written_partial (a : Armor) (label : Str) (hl : ArmorLabel a.dataType a.part a.totalParts label) (extra : List (Str × Str))
    (hx : a.extraHeaders = .pairs extra ∨ (extra = [] ∧ a.extraHeaders = .none)) :
    ∃ body sum, a.toStr = .ok (textOf ['\n'] (armorLines label (givenHeaders a.version a.comment a.messageId a.hashAlgorithms a.charset ++ extra) body sum)) ∧
      Base64 a.data body.flatten ∧ Base64 (beBytes 3 (rfcCrc24 a.data)) sum ∧ (∀ l ∈ body, 0 < l.length ∧ l.length ≤ 72) ∧ ∀ l ∈ body.dropLast, l.length = 72 := by
  obtain ⟨h1, h2, h3⟩ := label_lines hl
  have h1 := h1 a rfl rfl rfl
  refine ⟨wrap72 (b64encode a.data), _, ?_, by rw [wrap72_flatten]; exact base64_encode _, base64_encode _, wrap72_full _⟩
  have hextra : extraLines a.extraHeaders = .ok (extra.map fun kv => kv.1 ++ ": ".toList ++ kv.2) := by
    rcases hx with hx | ⟨rfl, hx⟩ <;> rw [hx] <;> rfl
  have hf : headerField "Version" a.version ++ headerField "Comment" a.comment ++ headerField "MessageID" a.messageId ++ headerField "Hash" a.hashAlgorithms ++ headerField "Charset" a.charset =
      (givenHeaders a.version a.comment a.messageId a.hashAlgorithms a.charset).map (fun h => h.1 ++ ": ".toList ++ h.2) := by
    have one : ∀ (k : String) (v : Option Str) (l : List (Str × Option Str)),
        headerField k v ++ (l.filterMap fun h => h.2.map fun v => (h.1, v)).map (fun h => h.1 ++ ": ".toList ++ h.2) =
          (((k.toList, v) :: l).filterMap fun h => h.2.map fun v => (h.1, v)).map (fun h => h.1 ++ ": ".toList ++ h.2) := by
      intro k v l
      cases v <;> rfl
    unfold givenHeaders
    rw [← one, ← one, ← one, ← one, ← one]
    simp only [List.append_assoc, List.filterMap_nil, List.map_nil, List.append_nil]
  unfold Armor.toStr Armor.toLines
  rw [hextra]
  simp only [except_bind_ok, except_pure]
  rw [h1, h3, sum_bytes, C15_crc24_is_rfc]
  congr 1
  show textOf ['\n'] _ = _
  congr 1
  unfold armorLines
  rw [List.map_append, ← hf]
  simp only [List.append_assoc]

/-- C113: every armored text is read: blank lines before it, line ends LF or CR LF, any of the kinds of data, headers in any order (of several with the same key the last
counts; those with unknown keys are ignored), the data in lines of any length, text after it. (A line of the data may not begin with an equals sign.) -/
theorem C113_read_partial (ty : ArmorType) (p q : Option Nat) (label : Str) (hl : ArmorLabel ty p q label) (headers : List (Str × Str))
    (hh : ∀ h ∈ headers, OneLine h.1 ∧ OneLine h.2 ∧ ':' ∉ h.1) (data : Bytes) (body : List Str) (hb : Base64 data body.flatten) (hbe : ∀ l ∈ body, l.head? ≠ some '=')
    (sum : Str) (hs : Base64 (beBytes 3 (rfcCrc24 data)) sum) (eol : Str) (he : eol = ['\n'] ∨ eol = ['\r', '\n']) (blank : List Str) (hw : ∀ l ∈ blank, White l) (after : Str) :
    fromAscii (textOf eol blank ++ textOf eol (armorLines label headers body sum) ++ after) =
      .ok { dataType := ty, data := data, part := p, totalParts := q, version := lastHeader "Version".toList headers, comment := lastHeader "Comment".toList headers,
            messageId := lastHeader "MessageID".toList headers, hashAlgorithms := lastHeader "Hash".toList headers, charset := lastHeader "Charset".toList headers } := by
  obtain ⟨h1, h2, h3⟩ := label_lines hl
  have h1' := h1 { dataType := ty, data := data, part := p, totalParts := q } rfl rfl rfl
  have n1 : isBlank ("-----BEGIN ".toList ++ label ++ "-----".toList) = false := by rw [← h1']; exact Armor.headerLine_notBlank _
  have o1 : OneLine ("-----BEGIN ".toList ++ label ++ "-----".toList) := by rw [← h1']; exact Armor.headerLine_oneLine _
  have o2 : OneLine ("-----END ".toList ++ label ++ "-----".toList) := by rw [← h3]; exact Armor.replace_oneLine _ o1
  have eb := base64_unique hb
  have es := base64_unique hs
  have hbl : ∀ l ∈ blank, OneLine l := by
    intro l hl c hc; rcases hw l hl c hc with rfl | rfl <;> decide
  have hcol : OneLine ": ".toList := by intro c hc; revert c hc; decide
  have hol : ∀ l ∈ armorLines label headers body sum, OneLine l := by
    intro l hl
    simp only [armorLines, List.mem_append, List.mem_singleton, List.mem_map] at hl
    rcases hl with ((((rfl | ⟨h, hm, rfl⟩) | rfl) | hl) | rfl) | rfl
    · exact o1
    · obtain ⟨g1, g2, _⟩ := hh h hm
      simp only [oneLine_append]
      exact ⟨⟨g1, hcol⟩, g2⟩
    · intro c hc; cases hc
    · intro c hc
      refine (b64encode_chars data c ?_).2
      rw [← eb]
      exact List.mem_flatten.mpr ⟨l, hl, hc⟩
    · rw [oneLine_cons]
      refine ⟨by decide, fun c hc => (b64encode_chars (beBytes 3 (rfcCrc24 data)) c ?_).2⟩
      rw [← es]; exact hc
    · exact o2
  unfold fromAscii
  rw [List.append_assoc, splitlines_textOf he _ hbl, splitlines_textOf he _ hol, armorFromLines_blank _ hw]
  generalize splitlines after = rest
  have hloop : headerLoop (headers.map (fun h => h.1 ++ ": ".toList ++ h.2) ++ ([] :: (body ++ ('=' :: sum) :: ("-----END ".toList ++ label ++ "-----".toList) :: rest))) {} =
      .ok (headers.foldl (fun H kv => H.add kv.1 kv.2) {}, body ++ ('=' :: sum) :: ("-----END ".toList ++ label ++ "-----".toList) :: rest) := by
    rw [headerLoop_all _ (fun kv hkv => (hh kv hkv).2.2), headerLoop, if_pos (by decide)]
  have hd := dataLoop_ok body ('=' :: sum) (("-----END ".toList ++ label ++ "-----".toList) :: rest) (by
    intro l hl' hc
    refine hbe l hl' ?_
    cases l with
    | nil => cases hc
    | cons c l => rw [List.take_succ_cons, List.take_zero] at hc; injection hc with hc; rw [hc]; rfl) rfl
  have hb1 : rfcCrc24 data < 2 ^ 24 := by rw [← C15_crc24_is_rfc]; exact C15_crc24_bound _
  have hsum := sum_octets (rfcCrc24 data) hb1
  have hlines : armorLines label headers body sum ++ rest =
      ("-----BEGIN ".toList ++ label ++ "-----".toList) :: (headers.map (fun h => h.1 ++ ": ".toList ++ h.2) ++ ([] :: (body ++ ('=' :: sum) :: ("-----END ".toList ++ label ++ "-----".toList) :: rest))) := by
    simp only [armorLines, List.append_assoc, List.singleton_append, List.cons_append, List.nil_append]
  rw [hlines]
  generalize hH : headers.foldl (fun (H : ArmorHeaders) (kv : Str × Str) => H.add kv.1 kv.2) ({} : ArmorHeaders) = H at hloop
  obtain ⟨g1, g2, g3, g4, g5⟩ := headers_read headers
  rw [hH] at g1 g2 g3 g4 g5
  clear hH
  generalize ("-----BEGIN ".toList ++ label ++ "-----".toList) = hdr at *
  generalize ("-----END ".toList ++ label ++ "-----".toList) = tail at *
  rw [← sum_bytes] at es
  subst es
  simp only [armorFromLines, skipBlank, n1, Bool.false_eq_true, if_false, except_bind_ok, h2, hloop, hd, eb, b64_roundtrip, List.drop_succ_cons, List.drop_zero, idx,
    C15_crc24_is_rfc, hsum, h3, ne_eq, not_true_eq_false, g1, g2, g3, g4, g5]
  rfl

/-! Two texts that are not written by this library are read: a private key block with headers in another order and a body of short lines between other text, and a part of a
message with CR LF line ends. -/
example := C113_read_partial .privateKey none none _ .privateKey [("Hash".toList, "SHA1".toList), ("X-Mailer".toList, "m".toList), ("Version".toList, "1: 2".toList), ("Hash".toList, "MD5".toList)]
  (by
    intro h hm
    simp only [List.mem_cons, List.not_mem_nil, or_false] at hm
    rcases hm with rfl | rfl | rfl | rfl <;> refine ⟨?_, ?_, ?_⟩ <;> first | (intro c hc; revert c hc; decide +kernel) | decide +kernel)
  [1, 2, 3, 4] ["AQ".toList, "IDBA==".toList] (by
    have h := base64_encode [1, 2, 3, 4]
    have e : b64encode [1, 2, 3, 4] = ["AQ".toList, "IDBA==".toList].flatten := by decide +kernel
    rw [e] at h; exact h)
  (by intro l hl; simp only [List.mem_cons, List.not_mem_nil, or_false] at hl; rcases hl with rfl | rfl <;> decide)
  _ (base64_encode _) ['\n'] (Or.inl rfl) ["  ".toList] (by
    intro l hl c hc
    simp only [List.mem_cons, List.not_mem_nil, or_false] at hl
    subst hl
    have : ∀ c ∈ "  ".toList, c = ' ' := by decide
    exact Or.inl (this c hc)) "Yours\n".toList

example := C113_read_partial .message (some 2) (some 13) _ (.partOf 2 13 (by decide) (by decide)) [] (by intro h hm; cases hm) [] [] .nil (by intro l hl; cases hl) _ (base64_encode _)
  ['\r', '\n'] (Or.inr rfl) [] (by intro l hl; cases hl) []

example := C113_written_partial { dataType := .message, data := [1, 2, 3], part := some 2, totalParts := some 13, comment := some "c".toList, extraHeaders := .pairs [("X".toList, "y".toList)] } _
  (.partOf 2 13 (by decide) (by decide)) _ (Or.inl rfl)

/-! ### Texts the RFC allows that are not read -/

theorem dataLoop_none (ls : List Str) (h : ∀ l ∈ ls, l.head? ≠ some '=') : dataLoop ls = .error .indexError := by
  induction ls with
  | nil => rfl
  | cons l ls ih =>
    have h0 := h l (by simp)
    have hne : ¬ l.take 1 = ['='] := by
      intro hc
      refine h0 ?_
      cases l with
      | nil => cases hc
      | cons c l => rw [List.take_succ_cons, List.take_zero] at hc; injection hc with hc; rw [hc]; rfl
    rw [dataLoop, if_neg hne, ih (fun x hx => h x (by simp [hx]))]
    rfl

/-- C113 refuted: the checksum is optional in the RFC, but a text without it is an `IndexError`. -/
theorem C113_no_checksum_refuted (ty : ArmorType) (p q : Option Nat) (label : Str) (hl : ArmorLabel ty p q label) (headers : List (Str × Str))
    (hh : ∀ h ∈ headers, OneLine h.1 ∧ OneLine h.2 ∧ ':' ∉ h.1) (data : Bytes) (body : List Str) (hb : Base64 data body.flatten) (hbe : ∀ l ∈ body, l.head? ≠ some '=')
    (eol : Str) (he : eol = ['\n'] ∨ eol = ['\r', '\n']) :
    fromAscii (textOf eol (["-----BEGIN ".toList ++ label ++ "-----".toList] ++ headers.map (fun h => h.1 ++ ": ".toList ++ h.2) ++ [[]] ++ body ++
      ["-----END ".toList ++ label ++ "-----".toList])) = .error .indexError := by
  obtain ⟨h1, h2, h3⟩ := label_lines hl
  have h1' := h1 { dataType := ty, data := data, part := p, totalParts := q } rfl rfl rfl
  have n1 : isBlank ("-----BEGIN ".toList ++ label ++ "-----".toList) = false := by rw [← h1']; exact Armor.headerLine_notBlank _
  have o1 : OneLine ("-----BEGIN ".toList ++ label ++ "-----".toList) := by rw [← h1']; exact Armor.headerLine_oneLine _
  have o2 : OneLine ("-----END ".toList ++ label ++ "-----".toList) := by rw [← h3]; exact Armor.replace_oneLine _ o1
  have eb := base64_unique hb
  have hcol : OneLine ": ".toList := by intro c hc; revert c hc; decide
  have e3 : ("-----END ".toList ++ label ++ "-----".toList).head? ≠ some '=' := by
    have : ∃ r, ("-----END ".toList : Str) = '-' :: r := ⟨_, rfl⟩
    obtain ⟨r, hr⟩ := this
    rw [hr, List.cons_append, List.cons_append]
    simp
  generalize ("-----BEGIN ".toList ++ label ++ "-----".toList) = hdr at *
  generalize ("-----END ".toList ++ label ++ "-----".toList) = tail at *
  have hol : ∀ l ∈ [hdr] ++ headers.map (fun h => h.1 ++ ": ".toList ++ h.2) ++ [[]] ++ body ++ [tail], OneLine l := by
    intro l hl
    simp only [List.mem_append, List.mem_singleton, List.mem_map] at hl
    rcases hl with (((rfl | ⟨h, hm, rfl⟩) | rfl) | hl) | rfl
    · exact o1
    · obtain ⟨g1, g2, _⟩ := hh h hm
      simp only [oneLine_append]
      exact ⟨⟨g1, hcol⟩, g2⟩
    · intro c hc; cases hc
    · intro c hc
      refine (b64encode_chars data c ?_).2
      rw [← eb]
      exact List.mem_flatten.mpr ⟨l, hl, hc⟩
    · exact o2
  unfold fromAscii
  rw [splitlines_textOf_nil he _ hol]
  have hlines : [hdr] ++ headers.map (fun h => h.1 ++ ": ".toList ++ h.2) ++ [[]] ++ body ++ [tail] =
      hdr :: (headers.map (fun h => h.1 ++ ": ".toList ++ h.2) ++ ([] :: (body ++ [tail]))) := by
    simp only [List.append_assoc, List.cons_append, List.nil_append]
  have hloop : headerLoop (headers.map (fun h => h.1 ++ ": ".toList ++ h.2) ++ ([] :: (body ++ [tail]))) {} =
      .ok (headers.foldl (fun (H : ArmorHeaders) (kv : Str × Str) => H.add kv.1 kv.2) ({} : ArmorHeaders), body ++ [tail]) := by
    rw [headerLoop_all _ (fun kv hkv => (hh kv hkv).2.2), headerLoop, if_pos (by decide)]
  have hd := dataLoop_none (body ++ [tail]) (by
    intro l hl
    rcases List.mem_append.mp hl with hl | hl
    · exact hbe l hl
    · rw [List.mem_singleton] at hl; subst hl; exact e3)
  rw [hlines]
  simp only [armorFromLines, skipBlank, n1, Bool.false_eq_true, if_false, except_bind_ok, h2, hloop, hd]
  rfl

example := C113_no_checksum_refuted .signature none none _ .signature [] (by intro h hm; cases hm) [] [] .nil (by intro l hl; cases hl) ['\n'] (Or.inl rfl)

theorem dropPrefix_inv {p s t : Str} (h : dropPrefix p s = some t) : s = p ++ t := by
  unfold dropPrefix at h
  split at h
  · rename_i hp
    obtain ⟨r, rfl⟩ := List.isPrefixOf_iff_prefix.mp hp
    injection h with h
    rw [← h, List.drop_left]
  · cases h

theorem matchNumber_inv {s t : Str} {n : Nat} (h : matchNumber s = some (n, t)) : ∃ r, s = r ++ t := by
  unfold matchNumber at h
  split at h
  · split at h
    · injection h with h
      rw [Prod.mk.injEq] at h
      rw [← h.2]
      exact ⟨_, List.takeWhile_append_dropWhile.symm⟩
    · cases h
  · cases h

theorem matchHeader_dashes {line : Str} {r : ArmorType × Option Nat × Option Nat} (h : matchHeader line = some r) : DASHES <:+ line := by
  have tail : ∀ s x, matchMessageTail s = some x → DASHES <:+ s := by
    intro s x h
    unfold matchMessageTail at h
    split at h
    · rename_i hs; rw [hs]; exact List.suffix_refl _
    · obtain ⟨s1, h1, h⟩ := Option.bind_eq_some_iff.mp h
      obtain ⟨⟨n, s2⟩, h2, h⟩ := Option.bind_eq_some_iff.mp h
      obtain ⟨r2, e2⟩ := matchNumber_inv h2
      have e1 : s1 <:+ s := by rw [dropPrefix_inv h1]; exact List.suffix_append _ _
      have e2 : s2 <:+ s := List.IsSuffix.trans ⟨r2, e2.symm⟩ e1
      by_cases hs : s2 = DASHES
      · rw [← hs]; exact e2
      · simp only [if_neg hs] at h
        obtain ⟨s3, h3, h⟩ := Option.bind_eq_some_iff.mp h
        obtain ⟨⟨m, s4⟩, h4, h⟩ := Option.bind_eq_some_iff.mp h
        obtain ⟨r4, e4⟩ := matchNumber_inv h4
        have e3 : s3 <:+ s := List.IsSuffix.trans (by rw [dropPrefix_inv h3]; exact List.suffix_append _ _) e2
        have e4 : s4 <:+ s := List.IsSuffix.trans ⟨r4, e4.symm⟩ e3
        by_cases hs : s4 = DASHES
        · rw [← hs]; exact e4
        · simp only [if_neg hs] at h
          cases h
  unfold matchHeader at h
  obtain ⟨s, hs, h⟩ := Option.bind_eq_some_iff.mp h
  have e0 : s <:+ line := by rw [dropPrefix_inv hs]; exact List.suffix_append _ _
  refine List.IsSuffix.trans ?_ e0
  cases h1 : dropPrefix ArmorType.message.name s with
  | some s1 =>
    simp only [h1] at h
    obtain ⟨⟨p, q⟩, h2, h⟩ := Option.bind_eq_some_iff.mp h
    refine List.IsSuffix.trans (tail _ _ h2) ?_
    rw [dropPrefix_inv h1]; exact List.suffix_append _ _
  | none =>
    simp only [h1] at h
    split at h
    · rename_i hs; rw [hs]; exact List.suffix_append _ _
    · split at h
      · rename_i hs; rw [hs]; exact List.suffix_append _ _
      · split at h
        · rename_i hs; rw [hs]; exact List.suffix_append _ _
        · cases h

/-- C113 refuted: the RFC allows white space after the header line (it is trimmed), but it makes the text a `ValueError`, whatever the kind of data and whatever follows. -/
theorem C113_trailing_space_refuted (ty : ArmorType) (p q : Option Nat) (label : Str) (hl : ArmorLabel ty p q label) (space : Str) (hs : space ≠ []) (hw : White space)
    (eol : Str) (he : eol = ['\n'] ∨ eol = ['\r', '\n']) (after : Str) :
    fromAscii ("-----BEGIN ".toList ++ label ++ "-----".toList ++ space ++ eol ++ after) = .error .valueError := by
  obtain ⟨h1, h2, h3⟩ := label_lines hl
  have h1' := h1 { dataType := ty, data := [], part := p, totalParts := q } rfl rfl rfl
  have n1 : isBlank ("-----BEGIN ".toList ++ label ++ "-----".toList) = false := by rw [← h1']; exact Armor.headerLine_notBlank _
  have o1 : OneLine ("-----BEGIN ".toList ++ label ++ "-----".toList) := by rw [← h1']; exact Armor.headerLine_oneLine _
  generalize ("-----BEGIN ".toList ++ label ++ "-----".toList) = hdr at *
  have o2 : OneLine (hdr ++ space) := by
    rw [oneLine_append]
    refine ⟨o1, ?_⟩
    intro c hc
    rcases hw c hc with rfl | rfl <;> decide
  have n2 : isBlank (hdr ++ space) = false := by
    unfold isBlank at n1 ⊢
    rw [List.all_append, n1, Bool.false_and]
  have hm : matchHeader (hdr ++ space) = none := by
    cases hmm : matchHeader (hdr ++ space) with
    | none => rfl
    | some r =>
      exfalso
      obtain ⟨pre, hp⟩ := matchHeader_dashes hmm
      have hlast := congrArg List.getLast? hp.symm
      have e : DASHES = "----".toList ++ ['-'] := by decide
      rw [e, ← List.append_assoc, List.getLast?_concat, List.getLast?_append, List.getLast?_eq_some_getLast hs] at hlast
      simp only [Option.some_or, Option.some.injEq] at hlast
      rcases hw _ (List.getLast_mem hs) with h | h <;> rw [hlast] at h <;> revert h <;> decide
  have ht : textOf eol [hdr ++ space] = hdr ++ space ++ eol := by simp [textOf]
  unfold fromAscii
  rw [← ht, splitlines_textOf he _ (by intro l hl; rw [List.mem_singleton] at hl; subst hl; exact o2)]
  simp only [List.singleton_append, armorFromLines, skipBlank, n2, Bool.false_eq_true, if_false, except_bind_ok, hm]

example := C113_trailing_space_refuted .publicKey none none _ .publicKey [' '] (by decide) (by intro c hc; rw [List.mem_singleton] at hc; exact Or.inl hc) ['\n'] (Or.inl rfl) []

end Pgp.Props
