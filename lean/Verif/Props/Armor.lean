import Verif.Lemmas.Armor
import Verif.Props.Crc24
/-
Property theorems C17, C18: ASCII armor.
-/
namespace Pgp
open Spec

/-- The armor objects whose text form is faithful: header values on one line, part numbers only on messages and positive,
a total only with a part, extra headers (given as pairs) with unknown colon-free one-line keys. -/
structure Storable (a : Armor) : Prop where
  version : ∀ v, a.version = some v → OneLine v
  comment : ∀ v, a.comment = some v → OneLine v
  messageId : ∀ v, a.messageId = some v → OneLine v
  hashAlgorithms : ∀ v, a.hashAlgorithms = some v → OneLine v
  charset : ∀ v, a.charset = some v → OneLine v
  partMessage : a.dataType ≠ .message → a.part = none
  partPos : ∀ n, a.part = some n → 0 < n
  total : a.part = none → a.totalParts = none
  totalPos : ∀ n, a.totalParts = some n → 0 < n
  extra : ∃ l, (a.extraHeaders = .pairs l ∨ (l = [] ∧ a.extraHeaders = .none)) ∧
    ∀ kv ∈ l, OneLine kv.1 ∧ OneLine kv.2 ∧ ':' ∉ kv.1 ∧ kv.1 ∉ knownKeys

namespace Armor

theorem headerLine_oneLine (a : Armor) : OneLine a.headerLine := by
  unfold headerLine
  simp only [oneLine_append]
  refine ⟨⟨⟨⟨?_, ?_⟩, ?_⟩, ?_⟩, ?_⟩
  · intro c hc; revert c hc; decide
  · intro c hc; revert c hc; decide
  · cases a.dataType <;> (intro c hc; revert c hc; decide)
  · have h1 : OneLine ", PART ".toList := by intro c hc; revert c hc; decide
    have h2 : OneLine "/".toList := by intro c hc; revert c hc; decide
    have h3 : OneLine [] := by intro c hc; simp at hc
    split
    · split
      · simp only [oneLine_append]; exact ⟨⟨⟨h1, (decimal_facts _).2.2.1⟩, h2⟩, (decimal_facts _).2.2.1⟩
      · simp only [oneLine_append]; exact ⟨h1, (decimal_facts _).2.2.1⟩
      · exact h3
    · exact h3
  · intro c hc; revert c hc; decide

theorem headerLine_notBlank (a : Armor) : isBlank a.headerLine = false := by
  have : ∃ t, a.headerLine = '-' :: t := ⟨_, by simp only [headerLine, DASHES, List.append_assoc]; rfl⟩
  obtain ⟨t, ht⟩ := this
  rw [ht]; simp [isBlank]; intro hc; exact absurd hc (by decide)

theorem replace_oneLine (s : Str) (h : OneLine s) : OneLine (replaceBeginEnd s) := by
  fun_induction replaceBeginEnd s with
  | case1 => exact h
  | case2 t ih =>
    have h' : OneLine t := fun c hc => h c (by simp [hc])
    intro c hc; simp only [List.mem_cons] at hc
    rcases hc with rfl | rfl | rfl | hc
    · decide
    · decide
    · decide
    · exact ih h' c hc
  | case3 c t hne ih =>
    rw [oneLine_cons] at h ⊢
    exact ⟨h.1, ih h.2⟩

theorem matchHeader_headerLine (a : Armor) (h : Storable a) :
    matchHeader a.headerLine = some (a.dataType, a.part, a.totalParts) := by
  have hp := h.partMessage
  have ht := h.total
  have hpp := h.partPos
  have htp := h.totalPos
  obtain ⟨dt, data, part, total, _, _, _, _, _, _⟩ := a
  simp only at hp ht hpp htp
  have key : ∀ s : Str, matchHeader (DASHES ++ "BEGIN ".toList ++ ArmorType.message.name ++ s) =
      (matchMessageTail s).map fun pq => (.message, pq.1, pq.2) := by
    intro s
    unfold matchHeader
    rw [List.append_assoc, dropPrefix_append]
    simp only [Option.bind_eq_bind, Option.bind_some]
    rw [dropPrefix_append]
    simp only [Option.bind_eq_bind]
    cases matchMessageTail s <;> rfl
  cases dt
  case message =>
    simp only [headerLine, if_true]
    rw [List.append_assoc, key]
    match part, total with
    | none, none => rfl
    | none, some t => exact absurd (ht rfl) (by simp)
    | some p, none =>
      have hp := hpp p rfl
      have : matchMessageTail (", PART ".toList ++ decimal p ++ DASHES) = some (some p, none) := by
        unfold matchMessageTail
        have hn : ", PART ".toList ++ decimal p ++ DASHES ≠ DASHES := by
          intro hc; exact absurd (congrArg List.head? hc) (by simp [DASHES])
        rw [if_neg hn, List.append_assoc, dropPrefix_append]
        simp only [Option.bind_eq_bind, Option.bind_some]
        rw [show DASHES = '-' :: "----".toList from rfl, matchNumber_decimal p hp _ _ (by decide)]
        rfl
      simp only
      rw [this]; rfl
    | some p, some q =>
      have hp := hpp p rfl
      have hq := htp q rfl
      have : matchMessageTail (", PART ".toList ++ decimal p ++ "/".toList ++ decimal q ++ DASHES)
          = some (some p, some q) := by
        unfold matchMessageTail
        have hn : ", PART ".toList ++ decimal p ++ "/".toList ++ decimal q ++ DASHES ≠ DASHES := by
          intro hc; exact absurd (congrArg List.head? hc) (by simp [DASHES])
        have e : ", PART ".toList ++ decimal p ++ "/".toList ++ decimal q ++ DASHES =
          ", PART ".toList ++ (decimal p ++ ('/' :: (decimal q ++ DASHES))) := by
          simp only [List.append_assoc]; rfl
        rw [if_neg hn, e, dropPrefix_append]
        simp only [Option.bind_eq_bind, Option.bind_some]
        rw [matchNumber_decimal p hp _ _ (by decide)]
        simp only [Option.bind_some]
        have hn2 : ¬ ('/' :: (decimal q ++ DASHES) = DASHES) := by
          intro hc; exact absurd (congrArg List.head? hc) (by simp [DASHES])
        rw [if_neg hn2]
        have := dropPrefix_append "/".toList (decimal q ++ DASHES)
        rw [show "/".toList ++ (decimal q ++ DASHES) = '/' :: (decimal q ++ DASHES) from rfl] at this
        simp only [this, Option.bind_some]
        rw [show DASHES = '-' :: "----".toList from rfl, matchNumber_decimal q hq _ _ (by decide)]
        rfl
      simp only
      rw [this]; rfl
  all_goals
    have := hp (by decide)
    subst this
    have := ht rfl
    subst this
    rfl

end Armor

/-! ### header fields -/

theorem splitColon_ok (k v : Str) (h : ':' ∉ k) : splitColon (k ++ ": ".toList ++ v) = .ok (k, v) := by
  induction k with
  | nil => rfl
  | cons c k ih =>
    simp only [List.mem_cons, not_or] at h
    rw [List.cons_append, List.cons_append, splitColon, ih h.2]
    · rfl
    · intro t hc; exact absurd hc.symm h.1

theorem field_notBlank (k v : Str) : isBlank (k ++ ": ".toList ++ v) = false := by
  simp [isBlank, isPySpace]

theorem headerLoop_field (k v : Str) (h : ':' ∉ k) (ls : List Str) (hd : ArmorHeaders) :
    headerLoop ((k ++ ": ".toList ++ v) :: ls) hd = headerLoop ls (hd.add k v) := by
  rw [headerLoop, field_notBlank, splitColon_ok k v h]; rfl

def ArmorHeaders.optAdd (hd : ArmorHeaders) (k : String) : Option Str → ArmorHeaders
  | none => hd
  | some v => hd.add k.toList v

theorem headerLoop_headerField (k : String) (v : Option Str) (h : ':' ∉ k.toList) (ls : List Str) (hd : ArmorHeaders) :
    headerLoop (headerField k v ++ ls) hd = headerLoop ls (hd.optAdd k v) := by
  cases v with
  | none => rfl
  | some v => exact headerLoop_field _ _ h ls hd

theorem headerLoop_extra (l : List (Str × Str)) (h : ∀ kv ∈ l, ':' ∉ kv.1 ∧ kv.1 ∉ knownKeys) (ls : List Str)
    (hd : ArmorHeaders) :
    headerLoop (l.map (fun kv => kv.1 ++ ": ".toList ++ kv.2) ++ ls) hd
      = headerLoop ls { hd with extra := hd.extra ++ l } := by
  induction l generalizing hd with
  | nil => simp
  | cons kv l ih =>
    obtain ⟨h1, h2⟩ := h kv (by simp)
    rw [List.map_cons, List.cons_append, headerLoop_field _ _ h1, ih (fun x hx => h x (by simp [hx]))]
    have : hd.add kv.1 kv.2 = { hd with extra := hd.extra ++ [kv] } := by
      simp only [knownKeys, List.mem_cons, not_or] at h2
      simp only [ArmorHeaders.add, h2, if_false]
    rw [this]; simp

theorem sum_octets (v : Nat) (h : v < 2 ^ 24) :
    (((lowByte (v >>> 16)).toNat <<< 16) + ((lowByte (v >>> 8)).toNat <<< 8)) + (lowByte v).toNat = v := by
  simp only [lowByte, UInt8.toNat_ofNat', Nat.shiftRight_eq_div_pow, Nat.shiftLeft_eq]
  omega

theorem armorFromLines_blank (b : List Str) (hb : ∀ l ∈ b, White l) (ls : List Str) :
    armorFromLines (b ++ ls) = armorFromLines ls := by
  have : skipBlank (b ++ ls) = skipBlank ls := by
    induction b with
    | nil => rfl
    | cons l b ih =>
      rw [List.cons_append, skipBlank, if_pos]
      · exact ih (fun x hx => hb x (by simp [hx]))
      · rw [isBlank, List.all_eq_true]
        intro c hc
        rcases hb l (by simp) c hc with rfl | rfl <;> decide
  unfold armorFromLines
  rw [this]

theorem fromLines_toLines (a : Armor) (h : Storable a) : ∃ ls, a.toLines = .ok ls ∧ (∀ l ∈ ls, OneLine l) ∧
    ∀ rest, armorFromLines (ls ++ rest) = .ok { a with extraHeaders := .none } := by
  obtain ⟨l, hl, hx⟩ := h.extra
  have hextra : extraLines a.extraHeaders = .ok (l.map fun kv => kv.1 ++ ": ".toList ++ kv.2) := by
    rcases hl with hl | ⟨rfl, hl⟩ <;> rw [hl] <;> rfl
  refine ⟨_, by unfold Armor.toLines; rw [hextra]; rfl, ?_, ?_⟩
  · intro x hx'
    have hf : ∀ (k : String) (v : Option Str), OneLine k.toList → (∀ w, v = some w → OneLine w) →
        ∀ y ∈ headerField k v, OneLine y := by
      intro k v hk hv y hy
      cases v with
      | none => simp [headerField] at hy
      | some w =>
        simp only [headerField, List.mem_singleton] at hy
        subst hy
        simp only [oneLine_append]
        exact ⟨⟨hk, by intro c hc; revert c hc; decide⟩, hv w rfl⟩
    simp only [List.mem_append, List.mem_singleton] at hx'
    rcases hx' with ((((((((((rfl | hx') | hx') | hx') | hx') | hx') | hx') | rfl) | hx') | rfl) | rfl)
    · exact a.headerLine_oneLine
    · exact hf _ _ (by intro c hc; revert c hc; decide) h.version x hx'
    · exact hf _ _ (by intro c hc; revert c hc; decide) h.comment x hx'
    · exact hf _ _ (by intro c hc; revert c hc; decide) h.messageId x hx'
    · exact hf _ _ (by intro c hc; revert c hc; decide) h.hashAlgorithms x hx'
    · exact hf _ _ (by intro c hc; revert c hc; decide) h.charset x hx'
    · simp only [List.mem_map] at hx'
      obtain ⟨kv, hkv, rfl⟩ := hx'
      obtain ⟨g1, g2, -, -⟩ := hx kv hkv
      simp only [oneLine_append]
      exact ⟨⟨g1, by intro c hc; revert c hc; decide⟩, g2⟩
    · intro c hc; simp at hc
    · intro c hc; exact (b64encode_chars _ c (wrap72_mem _ _ hx' c hc)).2
    · rw [oneLine_cons]; exact ⟨by decide, fun c hc => (b64encode_chars _ c hc).2⟩
    · exact Armor.replace_oneLine _ a.headerLine_oneLine
  · intro rest
    have hh : headerLoop (headerField "Version" a.version ++ (headerField "Comment" a.comment ++
        (headerField "MessageID" a.messageId ++ (headerField "Hash" a.hashAlgorithms ++
        (headerField "Charset" a.charset ++ ((l.map fun kv => kv.1 ++ ": ".toList ++ kv.2) ++
        ([] :: (wrap72 (b64encode a.data) ++ ('=' :: b64encode [lowByte (crc24 a.data >>> 16),
          lowByte (crc24 a.data >>> 8), lowByte (crc24 a.data)]) :: replaceBeginEnd a.headerLine :: rest))))))))
        {} = .ok (⟨a.version, a.comment, a.messageId, a.hashAlgorithms, a.charset, l⟩,
          wrap72 (b64encode a.data) ++ ('=' :: b64encode [lowByte (crc24 a.data >>> 16),
          lowByte (crc24 a.data >>> 8), lowByte (crc24 a.data)]) :: replaceBeginEnd a.headerLine :: rest) := by
      rw [headerLoop_headerField _ _ (by decide), headerLoop_headerField _ _ (by decide),
        headerLoop_headerField _ _ (by decide), headerLoop_headerField _ _ (by decide),
        headerLoop_headerField _ _ (by decide), headerLoop_extra l (fun kv hkv => (hx kv hkv).2.2), headerLoop,
        if_pos (by decide)]
      cases a.version <;> cases a.comment <;> cases a.messageId <;> cases a.hashAlgorithms <;> cases a.charset <;> rfl
    have hd := dataLoop_ok (wrap72 (b64encode a.data)) ('=' :: b64encode [lowByte (crc24 a.data >>> 16),
          lowByte (crc24 a.data >>> 8), lowByte (crc24 a.data)]) (replaceBeginEnd a.headerLine :: rest)
          (wrap72_head a.data) rfl
    have hs := sum_octets (crc24 a.data) (Props.C15_crc24_bound _)
    simp only [List.append_assoc, List.singleton_append, List.cons_append, List.nil_append] at hh ⊢
    simp only [armorFromLines, skipBlank, a.headerLine_notBlank, Bool.false_eq_true, if_false, except_bind_ok,
      a.matchHeader_headerLine h, hh, hd, wrap72_flatten, b64_roundtrip, List.drop_succ_cons, List.drop_zero, idx, hs,
      ne_eq, not_true_eq_false]
    rfl

theorem skipBlank_split {L ls : List Str} {hl : Str} (h : skipBlank L = .ok (hl, ls)) : ∃ b, L = b ++ hl :: ls := by
  induction L with
  | nil => cases h
  | cons x L ih =>
    rw [skipBlank] at h
    split at h
    · obtain ⟨b, hb⟩ := ih h; exact ⟨x :: b, by rw [hb]; rfl⟩
    · cases h; exact ⟨[], rfl⟩

theorem headerLoop_split {L ls : List Str} {H hd : ArmorHeaders} (h : headerLoop L H = .ok (hd, ls)) :
    ∃ b, L = b ++ ls := by
  induction L generalizing H with
  | nil => cases h
  | cons x L ih =>
    rw [headerLoop] at h
    split at h
    · cases h; exact ⟨[x], rfl⟩
    · obtain ⟨⟨k, v⟩, -, h⟩ := except_bind_eq_ok.mp h
      obtain ⟨b, hb⟩ := ih h; exact ⟨x :: b, by rw [hb]; rfl⟩

theorem dataLoop_split {L dl ls : List Str} {cl : Str} (h : dataLoop L = .ok (dl, cl, ls)) :
    L = dl ++ cl :: ls ∧ cl.take 1 = ['='] := by
  induction L generalizing dl cl ls with
  | nil => cases h
  | cons x L ih =>
    rw [dataLoop] at h
    split at h
    · rename_i hx; cases h; exact ⟨rfl, hx⟩
    · obtain ⟨⟨k, v, w⟩, hx, h⟩ := except_bind_eq_ok.mp h
      cases h
      obtain ⟨e1, e2⟩ := ih hx
      exact ⟨by rw [e1]; rfl, e2⟩

namespace Props

/-- C17: armoring and dearmoring returns the same type, data, part numbers and known headers, for every octet string and
all one-line header values, with LF or CRLF line ends, after any blank lines and before any further text. Headers outside
the five known ones are the only thing lost. -/
theorem C17_armor_roundtrip (a : Armor) (h : Storable a) :
    ∃ text, a.toStr = .ok text ∧ fromAscii text = .ok { a with extraHeaders := .none } := by
  obtain ⟨ls, h1, h2, h3⟩ := fromLines_toLines a h
  refine ⟨joinLines ls, by unfold Armor.toStr; rw [h1]; rfl, ?_⟩
  have := splitlines_textOf_nil (.inl rfl : EolOk ['\n']) ls h2
  unfold fromAscii
  rw [show joinLines ls = textOf ['\n'] ls from rfl, this]
  simpa using h3 []

example := C17_armor_roundtrip { dataType := .publicKey, data := [1, 2] }
  ⟨nofun, nofun, nofun, nofun, nofun, fun _ => rfl, nofun, fun _ => rfl, nofun, [], .inr ⟨rfl, rfl⟩, nofun⟩

/-- C17: the same with the text's line ends converted to CRLF, blank lines inserted in front and arbitrary text after. -/
theorem C17_armor_in_context (a : Armor) (h : Storable a) (eol : Str) (he : eol = ['\n'] ∨ eol = ['\r', '\n'])
    (blank : List Str) (hb : ∀ l ∈ blank, White l) (after : Str) :
    ∃ lines, a.toStr = .ok (textOf ['\n'] lines) ∧
      fromAscii (textOf eol blank ++ textOf eol lines ++ after) = .ok { a with extraHeaders := .none } := by
  obtain ⟨ls, h1, h2, h3⟩ := fromLines_toLines a h
  refine ⟨ls, by unfold Armor.toStr; rw [h1]; rfl, ?_⟩
  have hbl : ∀ l ∈ blank, OneLine l := by
    intro l hl c hc; rcases hb l hl c hc with rfl | rfl <;> decide
  unfold fromAscii
  rw [List.append_assoc, splitlines_textOf he _ hbl, splitlines_textOf he _ h2, armorFromLines_blank _ hb, h3]

example := C17_armor_in_context { dataType := .publicKey, data := [1, 2] }
  ⟨nofun, nofun, nofun, nofun, nofun, fun _ => rfl, nofun, fun _ => rfl, nofun, [], .inr ⟨rfl, rfl⟩, nofun⟩
  ['\r', '\n'] (.inr rfl) [" ".toList, []] (by intro l hl c hc; revert l hl c hc; decide) "-- \n".toList

/-- C17: the text written is recognised as armor. -/
theorem C17_is_armor (a : Armor) (text : Str) (h : a.toStr = .ok text) : isArmor text = true := by
  unfold Armor.toStr Armor.toLines at h
  cases he : extraLines a.extraHeaders with
  | error e => rw [he] at h; cases h
  | ok x =>
    rw [he] at h
    simp only [except_bind_ok, except_pure, Except.ok.injEq] at h
    subst h
    simp [isArmor, joinLines, Armor.headerLine, DASHES]

example : ∃ text, ({ dataType := .publicKey, data := [1, 2] } : Armor).toStr = .ok text ∧ isArmor text = true := by
  obtain ⟨t, ht, -⟩ := C17_armor_roundtrip { dataType := .publicKey, data := [1, 2] }
    ⟨nofun, nofun, nofun, nofun, nofun, fun _ => rfl, nofun, fun _ => rfl, nofun, [], .inr ⟨rfl, rfl⟩, nofun⟩
  exact ⟨t, ht, C17_is_armor _ t ht⟩

/-- C17: every data line is at most 72 characters and their concatenation is the base64 of the data. -/
theorem C17_wrapping (d : Bytes) :
    (wrap72 (b64encode d)).flatten = b64encode d ∧ ∀ l ∈ wrap72 (b64encode d), l.length ≤ 72 :=
  ⟨wrap72_flatten _, wrap72_length _⟩

/-- C17 (limit): a dict of extra headers whose first key is not exactly two characters long makes writing raise
`ValueError`. -/
theorem C17_dict_extra_headers_raise (a : Armor) (k v : Str) (rest : List (Str × Str))
    (hx : a.extraHeaders = .dict ((k, v) :: rest)) (hk : k.length ≠ 2) : a.toStr = .error .valueError := by
  unfold Armor.toStr Armor.toLines
  rw [hx]
  have : extraLines (.dict ((k, v) :: rest)) = .error .valueError := by
    match k, hk with
    | [], _ => rfl
    | [_], _ => rfl
    | [_, _], hk => simp at hk
    | _ :: _ :: _ :: _, _ => rfl
  rw [this]; rfl

/-- C17 refuted for dicts of extra headers with keys of two characters: the two characters are written as key and value, and the value is lost. -/
theorem C17_dict_short_keys_refuted (a b : Char) (v : Str) (d : Bytes) (text : Str)
    (h : ({ dataType := .signature, data := d, extraHeaders := .dict [([a, b], v)] } : Armor).toStr = .ok text) :
    ∃ rest, text = "-----BEGIN PGP SIGNATURE-----\n".toList ++ [a, ':', ' ', b, '\n', '\n'] ++ rest := by
  have hx : extraLines (.dict [([a, b], v)]) = .ok [[a, ':', ' ', b]] := rfl
  unfold Armor.toStr Armor.toLines at h
  simp only [hx, except_bind_ok, except_pure, Except.ok.injEq] at h
  subst h
  have hl : ({ dataType := .signature, data := d, extraHeaders := .dict [([a, b], v)] } : Armor).headerLine = "-----BEGIN PGP SIGNATURE-----".toList := by
    unfold Armor.headerLine
    rw [if_neg (by intro h; cases h)]
    show DASHES ++ "BEGIN ".toList ++ ArmorType.signature.name ++ [] ++ DASHES = "-----BEGIN PGP SIGNATURE-----".toList
    decide +kernel
  rw [hl, show "-----BEGIN PGP SIGNATURE-----\n".toList = "-----BEGIN PGP SIGNATURE-----".toList ++ ['\n'] from by decide +kernel]
  generalize "-----BEGIN PGP SIGNATURE-----".toList = hd
  simp only [joinLines, headerField, List.flatMap_append, List.flatMap_cons, List.flatMap_nil, List.append_assoc, List.append_nil, List.nil_append, List.cons_append]
  exact ⟨_, rfl⟩

example : ∃ text, ({ dataType := .signature, data := [1], extraHeaders := .dict [("ab".toList, "c".toList)] } : Armor).toStr = .ok text := ⟨_, rfl⟩

example : Storable {
    dataType := .message, data := [1, 2, 3], part := some 2, totalParts := some 13
    version := some "GnuPG v2".toList, comment := some "".toList
    extraHeaders := .pairs [("X".toList, "y".toList)] } where
  version := by intro v h; cases h; intro c hc; revert c hc; decide
  comment := by intro v h; cases h; intro c hc; revert c hc; decide
  messageId := by intro v h; cases h
  hashAlgorithms := by intro v h; cases h
  charset := by intro v h; cases h
  partMessage := by intro h; exact absurd rfl h
  partPos := by intro n h; cases h; decide
  total := by intro h; cases h
  totalPos := by intro n h; cases h; decide
  extra := ⟨_, .inl rfl, by
    intro kv hkv; simp at hkv; subst hkv
    exact ⟨by intro c hc; revert c hc; decide, by intro c hc; revert c hc; decide, by decide, by decide⟩⟩

/-- C18: if dearmoring accepts a text then its lines contain a header line for the returned type, later the data lines, a
checksum line `=...` and the matching tail line; the returned data are the decoded data lines, and the first three
decoded checksum octets are the RFC 4880 CRC-24 of the returned data. -/
theorem C18_accepted_checksum (text : Str) (a : Armor) (h : fromAscii text = .ok a) :
    ∃ (pre fields dataLines after : List Str) (hdr sumText : Str) (c0 c1 c2 : UInt8) (more : Bytes),
      splitlines text = pre ++ [hdr] ++ fields ++ dataLines ++ ['=' :: sumText] ++ [replaceBeginEnd hdr] ++ after ∧
      matchHeader hdr = some (a.dataType, a.part, a.totalParts) ∧
      b64decode dataLines.flatten = .ok a.data ∧
      b64decode sumText = .ok (c0 :: c1 :: c2 :: more) ∧
      rfcCrc24 a.data = beNat [c0, c1, c2] := by
  unfold fromAscii armorFromLines at h
  obtain ⟨⟨hl, ls⟩, h1, h⟩ := except_bind_eq_ok.mp h
  dsimp only at h
  split at h
  · cases h
  · rename_i dt p q hm
    obtain ⟨⟨hd, ls2⟩, h2, h⟩ := except_bind_eq_ok.mp h
    obtain ⟨⟨dl, cl, ls3⟩, h3, h⟩ := except_bind_eq_ok.mp h
    obtain ⟨data, h4, h⟩ := except_bind_eq_ok.mp h
    obtain ⟨cd, h5, h⟩ := except_bind_eq_ok.mp h
    obtain ⟨c0, h6, h⟩ := except_bind_eq_ok.mp h
    obtain ⟨c1, h7, h⟩ := except_bind_eq_ok.mp h
    obtain ⟨c2, h8, h⟩ := except_bind_eq_ok.mp h
    dsimp only at h
    split at h
    · cases h
    · rename_i hcrc
      have hdata : a.data = data ∧ (∃ after, ls3 = replaceBeginEnd hl :: after) ∧
          dt = a.dataType ∧ p = a.part ∧ q = a.totalParts := by
        split at h
        · cases h
        · split at h
          · cases h
          · rename_i hh; cases h; simp only [ne_eq, not_not] at hh; subst hh; exact ⟨rfl, ⟨_, rfl⟩, rfl, rfl, rfl⟩
      obtain ⟨hdata, ⟨after, rfl⟩, rfl, rfl, rfl⟩ := hdata
      obtain ⟨b1, hb1⟩ := skipBlank_split h1
      obtain ⟨b2, hb2⟩ := headerLoop_split h2
      obtain ⟨hb3, hcl⟩ := dataLoop_split h3
      dsimp only at hb3 h5 h4
      have hcl' : cl = '=' :: cl.drop 1 := by
        cases cl with
        | nil => cases hcl
        | cons x t => simp at hcl; subst hcl; rfl
      obtain ⟨s0, e0⟩ := idx_ok h6
      obtain ⟨s1, e1⟩ := idx_ok h7
      obtain ⟨s2, e2⟩ := idx_ok h8
      have hcd : cd = c0 :: c1 :: c2 :: s2 := by
        have f1 := drop_succ_of_drop e0
        rw [Nat.zero_add, e1] at f1
        have f2 := drop_succ_of_drop e1
        rw [show 1 + 1 = 2 from rfl, e2] at f2
        rw [show cd = List.drop 0 cd from rfl, e0, ← f1, ← f2]
      refine ⟨b1, b2, dl, after, hl, cl.drop 1, c0, c1, c2, s2, ?_, hm, ?_, ?_, ?_⟩
      · rw [hb1, hb2, hb3, ← hcl']; simp
      · rw [hdata]; exact h4
      · rw [h5, hcd]
      · rw [← C15_crc24_is_rfc, hdata]
        simp only [ne_eq, not_not] at hcrc
        rw [hcrc]
        simp [beNat, Nat.shiftLeft_eq]
        ring

example : ∃ text a, fromAscii text = .ok a ∧ a.data = [1, 2] ∧ rfcCrc24 a.data = 0x16b785 := by
  obtain ⟨t, -, ht⟩ := C17_armor_roundtrip { dataType := .publicKey, data := [1, 2] }
    ⟨nofun, nofun, nofun, nofun, nofun, fun _ => rfl, nofun, fun _ => rfl, nofun, [], .inr ⟨rfl, rfl⟩, nofun⟩
  exact ⟨t, _, ht, rfl, by decide +kernel⟩

/-- C18: take the armor of any data and replace the data lines by lines that decode to something else, with a different
checksum: dearmoring raises `ValueError`. -/
theorem C18_tampered_rejected (hdr : Str) (fields dataLines after : List Str) (sumText : Str) (d d' : Bytes)
    (hh : isBlank hdr = false) (hm : matchHeader hdr ≠ none)
    (hf : ∀ f ∈ fields, ∃ k v : Str, ':' ∉ k ∧ f = k ++ ": ".toList ++ v)
    (hdl : ∀ l ∈ dataLines, l.take 1 ≠ ['=']) (hdec : b64decode dataLines.flatten = .ok d')
    (hsum : b64decode sumText = .ok [lowByte (rfcCrc24 d >>> 16), lowByte (rfcCrc24 d >>> 8), lowByte (rfcCrc24 d)])
    (hne : rfcCrc24 d ≠ rfcCrc24 d') :
    armorFromLines ([hdr] ++ fields ++ [[]] ++ dataLines ++ ['=' :: sumText] ++ after) = .error .valueError := by
  have hfl : ∀ (H : ArmorHeaders) (ls : List Str), ∃ H', headerLoop (fields ++ [] :: ls) H = .ok (H', ls) := by
    induction fields with
    | nil => intro H ls; exact ⟨H, rfl⟩
    | cons f fs ih =>
      intro H ls
      obtain ⟨k, v, hk, rfl⟩ := hf f (by simp)
      rw [List.cons_append, headerLoop_field _ _ hk]
      exact ih (fun x hx => hf x (by simp [hx])) _ ls
  obtain ⟨H', hH⟩ := hfl {} (dataLines ++ ('=' :: sumText) :: after)
  have hd := dataLoop_ok dataLines ('=' :: sumText) after hdl rfl
  obtain ⟨⟨dt, p, q⟩, hm⟩ := Option.ne_none_iff_exists'.mp hm
  have hs := sum_octets (rfcCrc24 d) (by rw [← C15_crc24_is_rfc]; exact C15_crc24_bound _)
  rw [← C15_crc24_is_rfc d'] at hne
  simp only [List.append_assoc, List.singleton_append, List.cons_append, List.nil_append]
  simp only [armorFromLines, skipBlank, hh, Bool.false_eq_true, if_false, except_bind_ok, hm, hH, hd, hdec, hsum,
    List.drop_succ_cons, List.drop_zero, idx, hs]
  rw [if_pos (Ne.symm hne)]

/-- The armor of `[1, 2]` with the data line of `[1, 3]`. -/
example := C18_tampered_rejected "-----BEGIN PGP MESSAGE-----".toList ["Version: x".toList] ["AQM=".toList] [] "FreF".toList [1, 2] [1, 3]
  (by decide +kernel) (by decide +kernel)
  (by intro f hf; rw [List.mem_singleton] at hf; subst hf; exact ⟨"Version".toList, "x".toList, by decide, by decide⟩)
  (by decide) (by decide +kernel) (by decide +kernel) (by decide +kernel)

/-- C18: in particular an error burst of at most 24 bits inside the armored data is always detected. -/
theorem C18_burst_rejected (a : Armor) (h : Storable a) (hx : a.extraHeaders = .none) (d' : Bytes)
    (p u v s : List Bool) (ha : msgBits a.data = p ++ u ++ s) (hb : msgBits d' = p ++ v ++ s)
    (hl : u.length = v.length) (h24 : u.length ≤ 24) (hne : u ≠ v) :
    ∃ pre post : List Str,
      a.toLines = .ok (pre ++ wrap72 (b64encode a.data) ++ post) ∧
      armorFromLines (pre ++ wrap72 (b64encode d') ++ post) = .error .valueError := by
  refine ⟨_, _, by unfold Armor.toLines; rw [hx]; simp only [extraLines, except_bind_ok, except_pure]
                   rw [List.append_assoc (_ ++ _) ([_] : List Str)], ?_⟩
  have hc := C16_burst_detected a.data d' p u v s ha hb hl h24 hne
  have := C18_tampered_rejected a.headerLine
    (headerField "Version" a.version ++ headerField "Comment" a.comment ++
    headerField "MessageID" a.messageId ++ headerField "Hash" a.hashAlgorithms ++ headerField "Charset" a.charset)
    (wrap72 (b64encode d')) [replaceBeginEnd a.headerLine]
    (b64encode [lowByte (rfcCrc24 a.data >>> 16), lowByte (rfcCrc24 a.data >>> 8), lowByte (rfcCrc24 a.data)])
    a.data d' a.headerLine_notBlank (by rw [a.matchHeader_headerLine h]; simp) ?_ (wrap72_head d')
    (by rw [wrap72_flatten, b64_roundtrip]) (b64_roundtrip _)
    (by rw [← C15_crc24_is_rfc, ← C15_crc24_is_rfc]; exact hc)
  · rw [← C15_crc24_is_rfc] at this
    simpa only [List.append_assoc, List.singleton_append, List.cons_append, List.nil_append, List.append_nil] using this
  · intro f hf
    have hF : ∀ (k : String) (v : Option Str), ':' ∉ k.toList → f ∈ headerField k v →
        ∃ k v : Str, ':' ∉ k ∧ f = k ++ ": ".toList ++ v := by
      intro k v hk hy
      cases v with
      | none => simp [headerField] at hy
      | some w => simp only [headerField, List.mem_singleton] at hy; exact ⟨_, _, hk, hy⟩
    simp only [List.mem_append] at hf
    rcases hf with ((((hf | hf) | hf) | hf) | hf)
    · exact hF _ _ (by decide) hf
    · exact hF _ _ (by decide) hf
    · exact hF _ _ (by decide) hf
    · exact hF _ _ (by decide) hf
    · exact hF _ _ (by decide) hf

example : ∃ text a, fromAscii text = .ok a ∧ a.data = [1, 2] := by
  obtain ⟨t, -, ht⟩ := C17_armor_roundtrip { dataType := .publicKey, data := [1, 2] }
    ⟨nofun, nofun, nofun, nofun, nofun, fun _ => rfl, nofun, fun _ => rfl, nofun, [], .inr ⟨rfl, rfl⟩, nofun⟩
  exact ⟨t, _, ht, rfl⟩

example : Storable { dataType := .publicKey, data := [1, 2] } ∧
    ∃ p u v s : List Bool, msgBits [1, 2] = p ++ u ++ s ∧ msgBits [1, 6] = p ++ v ++ s ∧ u ≠ v ∧
      u.length = v.length ∧ u.length ≤ 24 :=
  ⟨⟨nofun, nofun, nofun, nofun, nofun, fun _ => rfl, nofun, fun _ => rfl, nofun, [], .inr ⟨rfl, rfl⟩, nofun⟩,
    (msgBits [1, 2]).take 12, [false, false], [false, true], [true, false], by decide, by decide, by decide, rfl,
    by decide⟩

end Props
end Pgp
