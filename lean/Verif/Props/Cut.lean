import Verif.Props.Armor
import Verif.Props.Streams
import Verif.Props.PacketEq
import Verif.Props.Files
import Verif.Props.Shortcuts
import Verif.Props.KeyFile
import Verif.Props.Message
import Verif.Props.SignMsg
import Verif.Spec.Cut
/-
Property theorems C115: data of which the end is missing.
-/
namespace Pgp.Props
open Pgp.Spec

/-! ### armored text -/

/-- The lines left of the lines `L` when a text is cut before the end of its last line. -/
inductive ShortLines : List Str → List Str → Prop
  | none (l : Str) (ls : List Str) : ShortLines (l :: ls) []
  | some (l : Str) (ls : List Str) (p : Str) : (ls = [] → p ≠ l) → ShortLines (l :: ls) [p]
  | cons (l : Str) (ls P : List Str) : ShortLines ls P → ShortLines (l :: ls) (l :: P)

theorem splitlines_line {l : Str} (h : OneLine l) : splitlines l = if l = [] then [] else [l] := by
  have := splitlinesAux_line l h [] []
  rw [List.append_nil] at this
  unfold splitlines
  rw [this]
  cases l <;> simp [splitlinesAux]

theorem oneLine_take {l : Str} (h : OneLine l) (n : Nat) : OneLine (l.take n) := fun c hc => h c (List.mem_of_mem_take hc)

theorem splitlines_cr {l : Str} (h : OneLine l) : splitlines (l ++ ['\r']) = [l] := by
  unfold splitlines
  rw [splitlinesAux_line l h, splitlinesAux]
  · simp [isLineBreak, splitlinesAux]
  · intro t hc; simp

theorem cut_lines {eol : Str} (he : EolOk eol) (ls : List Str) (h : ∀ l ∈ ls, OneLine l) (n : Nat) (hn : n + eol.length < (textOf eol ls).length) :
    ShortLines ls (splitlines ((textOf eol ls).take n)) := by
  induction ls generalizing n with
  | nil => simp [textOf] at hn
  | cons l ls ih =>
    have h1 := h l (by simp)
    have e : textOf eol (l :: ls) = l ++ (eol ++ textOf eol ls) := by simp [textOf]
    have hlen : eol.length = 1 ∨ eol.length = 2 := by rcases he with rfl | rfl <;> simp
    rw [e] at hn ⊢
    simp only [List.length_append] at hn
    by_cases c1 : n < l.length
    · rw [List.take_append_of_le_length (by omega), splitlines_line (oneLine_take h1 n)]
      split
      · exact .none _ _
      · refine .some _ _ _ (fun _ hc => ?_)
        have := congrArg List.length hc
        rw [List.length_take] at this
        omega
    · by_cases c2 : n < l.length + eol.length
      · have hne : ls ≠ [] := by rintro rfl; simp [textOf] at hn; omega
        rw [List.take_append, List.take_of_length_le (by omega), List.take_append_of_le_length (by omega)]
        by_cases c3 : n = l.length
        · rw [c3, Nat.sub_self, List.take_zero, List.append_nil, splitlines_line h1]
          split
          · exact .none _ _
          · exact .some _ _ _ (fun hc => absurd hc hne)
        · rcases he with rfl | rfl
          · simp at c2; omega
          · have : n - l.length = 1 := by simp at c2; omega
            rw [this, show ['\r', '\n'].take 1 = ['\r'] from rfl, splitlines_cr h1]
            exact .some _ _ _ (fun hc => absurd hc hne)
      · have : (l ++ (eol ++ textOf eol ls)).take n = textOf eol [l] ++ (textOf eol ls).take (n - l.length - eol.length) := by
          rw [List.take_append, List.take_of_length_le (by omega), List.take_append, List.take_of_length_le (l := eol) (by omega)]
          simp [textOf]
        rw [this, splitlines_textOf he [l] (by simpa using h1)]
        exact .cons _ _ _ (ih (fun x hx => h x (by simp [hx])) _ (by omega))

theorem uncut_lines {eol : Str} (he : EolOk eol) (ls : List Str) (l : Str) (hl : l ≠ []) (h : ∀ x ∈ ls ++ [l], OneLine x) (n : Nat)
    (hn : (textOf eol (ls ++ [l])).length ≤ n + eol.length) : splitlines ((textOf eol (ls ++ [l])).take n) = ls ++ [l] := by
  have e : textOf eol (ls ++ [l]) = textOf eol ls ++ (l ++ eol) := by simp [textOf]
  have hlen : eol.length = 1 ∨ eol.length = 2 := by rcases he with rfl | rfl <;> simp
  have h1 := h l (by simp)
  rw [e] at hn ⊢
  simp only [List.length_append] at hn
  rw [List.take_append, List.take_of_length_le (by omega), splitlines_textOf he ls (fun x hx => h x (by simp [hx])),
    List.take_append, List.take_of_length_le (by omega)]
  congr 1
  have : ∀ m, splitlines (l ++ eol.take m) = [l] := by
    intro m
    by_cases h0 : m = 0
    · rw [h0, List.take_zero, List.append_nil, splitlines_line h1, if_neg hl]
    · have full : splitlines (l ++ eol) = [l] := by
        have := splitlines_textOf_nil he [l] (by simpa using h1)
        simpa [textOf] using this
      rcases he with rfl | rfl
      · rw [List.take_of_length_le (by simp; omega)]; exact full
      · by_cases h2 : m = 1
        · rw [h2]; exact splitlines_cr h1
        · rw [List.take_of_length_le (by simp; omega)]; exact full
  exact this _

theorem short_append {A B P : List Str} (h : ShortLines (A ++ B) P) (hB : B ≠ []) :
    (∃ A' x P0, A' ++ [x] <+: A ∧ P = A' ++ P0 ∧ P0.length ≤ 1) ∨ ∃ P', ShortLines B P' ∧ P = A ++ P' := by
  induction A generalizing P with
  | nil => exact .inr ⟨P, h, rfl⟩
  | cons a A ih =>
    rw [List.cons_append] at h
    cases h with
    | none => exact .inl ⟨[], a, [], ⟨A, rfl⟩, rfl, by simp⟩
    | some _ _ p _ => exact .inl ⟨[], a, [p], ⟨A, rfl⟩, rfl, by simp⟩
    | cons _ _ P h =>
      rcases ih h with ⟨A', x, P0, h1, rfl, h3⟩ | ⟨P', h1, rfl⟩
      · exact .inl ⟨a :: A', x, P0, by simpa using h1, rfl, h3⟩
      · exact .inr ⟨P', h1, rfl⟩

theorem headerLoop_short (F P0 : List Str) (hF : ∀ l ∈ F, isBlank l = false) (h0 : P0.length ≤ 1) (H hd : ArmorHeaders) (ls : List Str)
    (h : headerLoop (F ++ P0) H = .ok (hd, ls)) : ls = [] := by
  induction F generalizing H with
  | nil =>
    match P0, h0 with
    | [], _ => cases h
    | [p], _ =>
      rw [List.nil_append, headerLoop] at h
      split at h
      · cases h; rfl
      · obtain ⟨⟨k, v⟩, -, h⟩ := except_bind_eq_ok.mp h
        cases h
  | cons l F ih =>
    rw [List.cons_append, headerLoop, if_neg (by simp [hF l (by simp)])] at h
    obtain ⟨⟨k, v⟩, -, h⟩ := except_bind_eq_ok.mp h
    exact ih (fun x hx => hF x (by simp [hx])) _ h

theorem headerLoop_pass (F X : List Str) (hF : ∀ l ∈ F, isBlank l = false) (H hd : ArmorHeaders) (ls : List Str)
    (h : headerLoop (F ++ [] :: X) H = .ok (hd, ls)) : ls = X := by
  induction F generalizing H with
  | nil =>
    rw [List.nil_append, headerLoop, if_pos (by decide)] at h
    cases h; rfl
  | cons l F ih =>
    rw [List.cons_append, headerLoop, if_neg (by simp [hF l (by simp)])] at h
    obtain ⟨⟨k, v⟩, -, h⟩ := except_bind_eq_ok.mp h
    exact ih (fun x hx => hF x (by simp [hx])) _ h

theorem dataLoop_short (D P0 : List Str) (hD : ∀ l ∈ D, l.take 1 ≠ ['=']) (h0 : P0.length ≤ 1) (dl ls : List Str) (cl : Str)
    (h : dataLoop (D ++ P0) = .ok (dl, cl, ls)) : ls = [] := by
  induction D generalizing dl with
  | nil =>
    match P0, h0 with
    | [], _ => cases h
    | [p], _ =>
      rw [List.nil_append, dataLoop] at h
      split at h
      · cases h; rfl
      · obtain ⟨⟨k, v, w⟩, hx, h⟩ := except_bind_eq_ok.mp h
        cases hx
  | cons l D ih =>
    rw [List.cons_append, dataLoop, if_neg (hD l (by simp))] at h
    obtain ⟨⟨k, v, w⟩, hx, h⟩ := except_bind_eq_ok.mp h
    cases h
    exact ih (fun x hx => hD x (by simp [hx])) _ hx

/-- What is read has a line with the name of the end, behind the line of the checksum, behind the header. -/
theorem armor_ok_lines {P : List Str} {r : Armor} (h : armorFromLines P = .ok r) : ∃ b hl ls hd ls2 dl cl t rest,
    skipBlank P = .ok (hl, ls) ∧ P = b ++ hl :: ls ∧ headerLoop ls {} = .ok (hd, ls2) ∧ dataLoop ls2 = .ok (dl, cl, t :: rest) ∧ t = replaceBeginEnd hl := by
  unfold armorFromLines at h
  obtain ⟨⟨hl, ls⟩, h1, h⟩ := except_bind_eq_ok.mp h
  obtain ⟨b, hb⟩ := skipBlank_split h1
  simp only at h
  split at h
  · cases h
  · obtain ⟨⟨hd, ls2⟩, h2, h⟩ := except_bind_eq_ok.mp h
    obtain ⟨⟨dl, cl, ls3⟩, h3, h⟩ := except_bind_eq_ok.mp h
    obtain ⟨d, -, h⟩ := except_bind_eq_ok.mp h
    obtain ⟨s, -, h⟩ := except_bind_eq_ok.mp h
    obtain ⟨c0, -, h⟩ := except_bind_eq_ok.mp h
    obtain ⟨c1, -, h⟩ := except_bind_eq_ok.mp h
    obtain ⟨c2, -, h⟩ := except_bind_eq_ok.mp h
    split at h
    · cases h
    · cases ls3 with
      | nil => cases h
      | cons t rest =>
        simp only at h
        split at h
        · cases h
        · rename_i hc
          exact ⟨b, hl, ls, hd, ls2, dl, cl, t, rest, h1, hb, h2, h3, by simpa using hc⟩

theorem armor_short {hl sum tail : Str} {F D P : List Str} (hhl : isBlank hl = false) (hF : ∀ l ∈ F, isBlank l = false) (hD : ∀ l ∈ D, l.take 1 ≠ ['='])
    (hsum : sum.take 1 = ['=']) (htail : tail = replaceBeginEnd hl) (h : ShortLines (hl :: (F ++ [] :: (D ++ [sum, tail]))) P) (r : Armor) : armorFromLines P ≠ .ok r := by
  intro hr
  obtain ⟨b, hl', ls, hd, ls2, dl, cl, t, rest, e1, -, e3, e4, e5⟩ := armor_ok_lines hr
  have short1 : P.length ≤ 1 → False := by
    intro hP
    match P, hP with
    | [], _ => cases e1
    | [p], _ =>
      rw [skipBlank] at e1
      split at e1
      · cases e1
      · cases e1; cases e3
  cases h with
  | none => exact short1 (by simp)
  | some => exact short1 (by simp)
  | cons _ _ P h =>
    rw [skipBlank, if_neg (by simp [hhl])] at e1
    cases e1
    rw [show F ++ [] :: (D ++ [sum, tail]) = (F ++ [[]]) ++ (D ++ [sum, tail]) by simp] at h
    rcases short_append h (by simp) with ⟨A', x, P0, h1, rfl, h3⟩ | ⟨P', h1, rfl⟩
    · have hA : ∀ l ∈ A', isBlank l = false := by
        obtain ⟨z, hz⟩ := h1
        intro l hl
        refine hF l ?_
        have hlen := congrArg List.length hz
        simp only [List.length_append, List.length_singleton] at hlen
        have : A' <+: F := by
          refine List.prefix_of_prefix_length_le (l₃ := F ++ [[]]) ⟨[x] ++ z, by rw [← hz]; simp⟩ ⟨_, rfl⟩ (by omega)
        exact this.subset hl
      have := headerLoop_short A' P0 hA h3 _ _ _ e3
      subst this
      cases e4
    · rw [List.append_assoc, List.singleton_append] at e3
      have := headerLoop_pass F P' hF _ _ _ e3
      subst this
      rw [show D ++ [sum, tail] = (D ++ [sum]) ++ [tail] by simp] at h1
      rcases short_append h1 (by simp) with ⟨A', x, P0, g1, rfl, g3⟩ | ⟨P', g1, rfl⟩
      · have hA : ∀ l ∈ A', l.take 1 ≠ ['='] := by
          obtain ⟨z, hz⟩ := g1
          intro l hl
          refine hD l ?_
          have hlen := congrArg List.length hz
          simp only [List.length_append, List.length_singleton] at hlen
          have : A' <+: D := by
            refine List.prefix_of_prefix_length_le (l₃ := D ++ [sum]) ⟨[x] ++ z, by rw [← hz]; simp⟩ ⟨_, rfl⟩ (by omega)
          exact this.subset hl
        have := dataLoop_short A' P0 hA g3 _ _ _ e4
        cases this
      · rw [List.append_assoc, List.singleton_append, dataLoop_ok D sum P' hD hsum] at e4
        cases g1 with
        | none => cases e4
        | some _ _ p hp =>
          cases e4
          exact hp rfl (e5.trans htail.symm)
        | cons _ _ _ g => cases g

/-- C115: armored text is read only if it is complete: cut anywhere before the end of its last line, it raises, with either line end; only the last line end may be
missing. -/
theorem C115_armor_cut (a : Armor) (h : Storable a) :
    ∃ lines, a.toStr = .ok (textOf ['\n'] lines) ∧ ∀ eol, eol = ['\n'] ∨ eol = ['\r', '\n'] → ∀ n,
      (n + eol.length < (textOf eol lines).length → Raises (fromAscii ((textOf eol lines).take n))) ∧
      ((textOf eol lines).length ≤ n + eol.length → ∃ r, fromAscii ((textOf eol lines).take n) = .ok r ∧ r.data = a.data) := by
  obtain ⟨ls, h1, h2, h3⟩ := fromLines_toLines a h
  refine ⟨ls, by unfold Armor.toStr; rw [h1]; rfl, ?_⟩
  intro eol he n
  obtain ⟨l, hl, hx⟩ := h.extra
  have hextra : extraLines a.extraHeaders = .ok (l.map fun kv => kv.1 ++ ": ".toList ++ kv.2) := by
    rcases hl with hl | ⟨rfl, hl⟩ <;> rw [hl] <;> rfl
  have hf : ∀ (k : String) (v : Option Str), ∀ y ∈ headerField k v, isBlank y = false := by
    intro k v y hy
    cases v with
    | none => simp [headerField] at hy
    | some w =>
      simp only [headerField, List.mem_singleton] at hy
      subst hy
      exact field_notBlank _ _
  obtain ⟨F, D, sum, hF, hD, hsum, e⟩ : ∃ (F D : List Str) (sum : Str), (∀ y ∈ F, isBlank y = false) ∧ (∀ y ∈ D, y.take 1 ≠ ['=']) ∧ sum.take 1 = ['='] ∧
      ls = a.headerLine :: (F ++ [] :: (D ++ [sum, replaceBeginEnd a.headerLine])) := by
    refine ⟨headerField "Version" a.version ++ headerField "Comment" a.comment ++
      headerField "MessageID" a.messageId ++ headerField "Hash" a.hashAlgorithms ++ headerField "Charset" a.charset ++ (l.map fun kv => kv.1 ++ ": ".toList ++ kv.2),
      wrap72 (b64encode a.data), '=' :: b64encode [lowByte (crc24 a.data >>> 16), lowByte (crc24 a.data >>> 8), lowByte (crc24 a.data)], ?_, wrap72_head a.data, rfl, ?_⟩
    · intro y hy
      simp only [List.mem_append, List.mem_map] at hy
      rcases hy with ((((hy | hy) | hy) | hy) | hy) | ⟨kv, -, rfl⟩
      · exact hf _ _ _ hy
      · exact hf _ _ _ hy
      · exact hf _ _ _ hy
      · exact hf _ _ _ hy
      · exact hf _ _ _ hy
      · exact field_notBlank _ _
    · unfold Armor.toLines at h1
      rw [hextra] at h1
      cases h1
      simp
  have htail : replaceBeginEnd a.headerLine ≠ [] := by
    have : a.headerLine = '-' :: (a.headerLine.drop 1) := by unfold Armor.headerLine; rfl
    rw [this, replaceBeginEnd]
    · simp
    · intro t hc; simp at hc
  constructor
  · intro hn
    have hs := cut_lines he ls h2 n hn
    generalize hP : splitlines ((textOf eol ls).take n) = P at hs
    cases hr : fromAscii ((textOf eol ls).take n) with
    | error x => exact ⟨x, rfl⟩
    | ok r =>
      rw [e] at hs
      unfold fromAscii at hr
      rw [hP] at hr
      exact absurd hr (armor_short (Armor.headerLine_notBlank a) hF hD hsum rfl hs r)
  · intro hn
    have hsplit : ls = (a.headerLine :: (F ++ [] :: (D ++ [sum]))) ++ [replaceBeginEnd a.headerLine] := by rw [e]; simp
    have := uncut_lines he _ _ htail (hsplit ▸ h2) n (by rw [← hsplit]; exact hn)
    rw [← hsplit] at this
    refine ⟨{ a with extraHeaders := .none }, ?_, rfl⟩
    unfold fromAscii
    rw [this]
    simpa using h3 []

/-- C115: a key or a message given as armored text is read only if the text is complete, whatever the caller says about it. -/
theorem C115_text_cut (magic : Bytes → Str) (accept : RawPacket → Py Unit) (a : Armor) (h : Storable a) :
    ∃ lines, a.toStr = .ok (textOf ['\n'] lines) ∧ ∀ eol, eol = ['\n'] ∨ eol = ['\r', '\n'] → ∀ n, n + eol.length < (textOf eol lines).length → ∀ flag,
      Raises (readKeyAny magic flag (.text ((textOf eol lines).take n))) ∧ Raises (readMessageAny accept flag (.text ((textOf eol lines).take n))) := by
  obtain ⟨ls, h1, h2⟩ := C115_armor_cut a h
  refine ⟨ls, h1, fun eol he n hn flag => ?_⟩
  obtain ⟨e, he⟩ := (h2 eol he n).1 hn
  generalize (textOf eol ls).take n = s at he
  have key : Raises (inputOctets flag (.text s)) ∨ inputOctets flag (.text s) = .ok [] := by
    simp only [inputOctets, he]
    split
    · exact .inl ⟨e, rfl⟩
    · split
      · exact .inr rfl
      · exact .inl ⟨_, rfl⟩
  unfold readKeyAny readMessageAny
  rcases key with ⟨e', he'⟩ | he'
  · rw [he']; exact ⟨⟨e', rfl⟩, ⟨e', rfl⟩⟩
  · rw [he']; exact ⟨⟨_, rfl⟩, ⟨_, rfl⟩⟩

example : (textOf ['\n'] ["ab".toList, "c".toList]).length = 5 := rfl
example := C115_armor_cut { dataType := .publicKey, data := [1, 2, 3], version := some keyVersion } (keyArmor_storable _ _ _ (.inr rfl))
example (magic : Bytes → Str) (accept : RawPacket → Py Unit) :=
  C115_text_cut magic accept { dataType := .publicKey, data := [1, 2, 3], version := some keyVersion } (keyArmor_storable _ _ _ (.inr rfl))

/-! ### packets -/

theorem slice_short {data part : Bytes} {off n : Nat} (hd : data.drop off = part) (hn : part.length ≤ n) : slice data off (off + n) = part := by
  unfold slice
  rw [hd, List.take_of_length_le (by omega)]

/-- A packet of which a header and the beginning of the content are left. -/
theorem cut_memory {f : HeaderFormat} {t n : Nat} {hd part data : Bytes} {off : Nat} (h : LengthHeader f t n hd) (hn : part.length ≤ n) (hdrop : data.drop off = hd ++ part) :
    packetFromData data off = .ok (off + hd.length + n, ⟨f, t, part⟩) := by
  unfold packetFromData
  rw [frameLoop_succ]
  cases h with
  | new t n l ht hl =>
    have hd' : data.drop off = UInt8.ofNat (0x80 + (0x40 + t)) :: (l ++ part) := by
      rw [hdrop]; simp only [List.cons_append, List.cons.injEq, and_true]; congr 1; omega
    have h1 := newPacketLength_definite (drop_succ_of_drop hd') hl
    have h2 := slice_short (drop_add_of_drop (drop_succ_of_drop hd')) hn
    rw [show tagStep data none off = readTag data off from rfl, readTag_new ht hd']
    simp only [except_bind_ok, h1, h2, List.nil_append, Bool.false_eq_true, if_false, List.length_cons]
    congr 2; omega
  | old t lt n l ht hl =>
    have hlt : lt < 3 := by rcases oldDefinite_length hl with h | h | h <;> omega
    have hd' : data.drop off = UInt8.ofNat (128 + 4 * t + lt) :: (l ++ part) := by rw [hdrop]; rfl
    have hb : (UInt8.ofNat (128 + 4 * t + lt)).toNat = 128 + 4 * t + lt := toNat_ofNat_lt (by omega)
    have h40 : ∀ (t : Fin 16) (lt : Fin 3), (128 + 4 * t.val + lt.val) &&& 0x40 = 0 ∧ ((128 + 4 * t.val + lt.val) &&& 0x3f) >>> 2 = t.val := by decide
    obtain ⟨b1, b2⟩ := h40 ⟨t, ht⟩ ⟨lt, hlt⟩
    have h1 := oldPacketLength_definite hd' (n := n) (by rw [hb]; rw [show (128 + 4 * t + lt) % 4 = lt by omega]; exact hl)
    have h2 := slice_short (drop_add_of_drop (drop_succ_of_drop hd')) hn
    have htag : tagStep data none off = .ok (t, .old, off) := by
      show readTag data off = _
      unfold readTag
      rw [idx_of_drop hd']
      simp only [except_bind_ok, hb]
      simp only at b1 b2
      rw [if_neg (by rw [b1]; simp), b2]
      rfl
    rw [htag]
    simp only [except_bind_ok, h1, h2, List.nil_append, List.length_cons]
    congr 2; omega

/-- Length octets of which a part is left. -/
theorem cut_length {l l' data : Bytes} {n off : Nat} (hl : NewDefinite l n) (hpl : l' <+: l) (hnl : l' ≠ l) (hd2 : data.drop off = l') : Raises (newPacketLength data off) := by
  have hlong : ∀ o, data.length < o + 4 → longToInt data o = .error .indexError := by
    intro o ho
    rw [longToInt, bytesToInt_eq, if_neg (by omega)]
  have hlen := congrArg List.length hd2
  have hlt : l'.length < l.length := by
    rcases Nat.lt_or_ge l'.length l.length with h | h
    · exact h
    · exact absurd (hpl.eq_of_length_le h) hnl
  rw [List.length_drop] at hlen
  unfold newPacketLength
  cases l' with
  | nil =>
    rw [show idx data off = .error .indexError by unfold idx; rw [hd2]]
    exact ⟨_, rfl⟩
  | cons x l' =>
    rw [idx_of_drop hd2]
    simp only [except_bind_ok]
    cases hl with
    | one a ha => simp at hlt
    | two a b ha hb =>
      obtain ⟨z, hz⟩ := hpl
      simp only [List.cons_append, List.cons.injEq] at hz
      obtain ⟨rfl, hz⟩ := hz
      simp only [List.length_cons, List.length_nil] at hlt
      have : l' = [] := List.length_eq_zero_iff.mp (by omega)
      subst this
      rw [if_neg (by omega), if_pos (by omega)]
      rw [show idx data (off + 1) = .error .indexError by unfold idx; rw [drop_succ_of_drop hd2]]
      exact ⟨_, rfl⟩
    | five a b c d =>
      obtain ⟨z, hz⟩ := hpl
      simp only [List.cons_append, List.cons.injEq] at hz
      obtain ⟨rfl, hz⟩ := hz
      simp only [List.length_cons, List.length_nil] at hlt hlen
      rw [if_neg (by decide), if_neg (by decide), if_pos (by decide), hlong _ (by omega)]
      exact ⟨_, rfl⟩

/-- A header of which a part is left. -/
theorem cut_header_memory {f : HeaderFormat} {t n : Nat} {hd h' data : Bytes} {off : Nat} (h : LengthHeader f t n hd) (hp : h' <+: hd) (h0 : h' ≠ []) (h1 : h' ≠ hd)
    (hdrop : data.drop off = h') : Raises (packetFromData data off) := by
  unfold packetFromData
  rw [frameLoop_succ]
  cases h with
  | new t n l ht hl =>
    obtain ⟨l', rfl⟩ : ∃ l', h' = UInt8.ofNat (192 + t) :: l' := by
      obtain ⟨z, hz⟩ := hp
      cases h' with
      | nil => exact absurd rfl h0
      | cons x h' => cases hz; exact ⟨_, rfl⟩
    have hpl : l' <+: l := by simpa using hp
    have hnl : l' ≠ l := by rintro rfl; exact h1 rfl
    have hd' : data.drop off = UInt8.ofNat (0x80 + (0x40 + t)) :: l' := by
      rw [hdrop]; simp only [List.cons.injEq, and_true]; congr 1; omega
    have hd2 := drop_succ_of_drop hd'
    rw [show tagStep data none off = readTag data off from rfl, readTag_new ht hd']
    simp only [except_bind_ok]
    have := cut_length hl hpl hnl hd2
    obtain ⟨e, he⟩ := this
    rw [he]
    exact ⟨e, rfl⟩
  | old t lt n l ht hl =>
    obtain ⟨l', rfl⟩ : ∃ l', h' = UInt8.ofNat (128 + 4 * t + lt) :: l' := by
      obtain ⟨z, hz⟩ := hp
      cases h' with
      | nil => exact absurd rfl h0
      | cons x h' => cases hz; exact ⟨_, rfl⟩
    have hpl : l' <+: l := by simpa using hp
    have hnl : l' ≠ l := by rintro rfl; exact h1 rfl
    have hlt : l'.length < l.length := by
      rcases Nat.lt_or_ge l'.length l.length with h | h
      · exact h
      · exact absurd (hpl.eq_of_length_le h) hnl
    have hltt : lt < 3 := by rcases oldDefinite_length hl with h | h | h <;> omega
    have hb : (UInt8.ofNat (128 + 4 * t + lt)).toNat = 128 + 4 * t + lt := toNat_ofNat_lt (by omega)
    have h40 : ∀ (t : Fin 16) (lt : Fin 3), (128 + 4 * t.val + lt.val) &&& 0x40 = 0 ∧ ((128 + 4 * t.val + lt.val) &&& 0x3f) >>> 2 = t.val ∧
      (128 + 4 * t.val + lt.val) &&& 3 = lt.val := by decide
    obtain ⟨b1, b2, b3⟩ := h40 ⟨t, ht⟩ ⟨lt, hltt⟩
    simp only at b1 b2 b3
    have htag : tagStep data none off = .ok (t, .old, off) := by
      show readTag data off = _
      unfold readTag
      rw [idx_of_drop hdrop]
      simp only [except_bind_ok, hb]
      rw [if_neg (by rw [b1]; simp), b2]
      rfl
    rw [htag]
    simp only [except_bind_ok]
    have hd2 := drop_succ_of_drop hdrop
    have hlen := congrArg List.length hd2
    rw [List.length_drop] at hlen
    have hlen0 := congrArg List.length hdrop
    rw [List.length_drop, List.length_cons] at hlen0
    have : Raises (oldPacketLength data off) := by
      unfold oldPacketLength
      rw [idx_of_drop hdrop]
      simp only [except_bind_ok, hb, b3]
      cases hl with
      | one _ he =>
        have : l' = [] := List.length_eq_zero_iff.mp (by omega)
        subst this
        rw [if_pos rfl, show idx data (off + 1) = .error .indexError by unfold idx; rw [hd2]]
        exact ⟨_, rfl⟩
      | two _ he =>
        rw [if_neg (by decide), if_pos rfl, shortToInt, bytesToInt_eq, if_neg (by omega)]
        exact ⟨_, rfl⟩
      | four _ he =>
        rw [if_neg (by decide), if_neg (by decide), if_pos rfl, longToInt, bytesToInt_eq, if_neg (by omega)]
        exact ⟨_, rfl⟩
    obtain ⟨e, he⟩ := this
    rw [he]
    exact ⟨e, rfl⟩

theorem lengthHeader_ne {f : HeaderFormat} {t n : Nat} {hd : Bytes} (h : LengthHeader f t n hd) : hd ≠ [] := by cases h <;> simp

theorem parseLoop_framed {ps : List RawPacket} {ws : List Bytes} (h : List.Forall₂ Framed ps ws) (data rest : Bytes) (off fuel : Nat) (hd : data.drop off = ws.flatten ++ rest)
    (hf : ps.length ≤ fuel) : parseLoop data fuel off = (do
      let r ← parseLoop data (fuel - ps.length) (off + ws.flatten.length)
      return ps ++ r) := by
  induction h generalizing off fuel with
  | nil =>
    show _ = (do
      let r ← parseLoop data fuel off
      return [] ++ r)
    cases parseLoop data fuel off <;> rfl
  | @cons p w ps ws hp _ ih =>
    obtain ⟨fuel, rfl⟩ : ∃ k, fuel = k + 1 := ⟨fuel - 1, by simp only [List.length_cons] at hf; omega⟩
    rw [List.flatten_cons, List.append_assoc] at hd
    have hl : off < data.length := by
      have := congrArg List.length hd
      have := List.length_pos_iff.mpr (framed_ne hp)
      simp only [List.length_drop, List.length_append] at *
      omega
    rw [parseLoop, if_pos hl, framed_memory hp hd]
    simp only [except_bind_ok]
    rw [ih (off + w.length) fuel (drop_add_of_drop hd) (by simp only [List.length_cons] at hf; omega)]
    simp only [List.length_cons, List.flatten_cons, List.length_append, Nat.add_sub_add_right, Nat.add_assoc]
    cases parseLoop data (fuel - ps.length) (off + (w.length + ws.flatten.length)) <;> rfl

/-- C115 fails: packets of which the end is missing within the content of a packet are read without an exception, with what is left as the content of the last. -/
theorem C115_content_cut_refuted (ps : List RawPacket) (ws : List Bytes) (h : List.Forall₂ Framed ps ws) (f : HeaderFormat) (t n : Nat) (hd part : Bytes)
    (hh : LengthHeader f t n hd) (hn : part.length ≤ n) : parseBinaryPacketData (ws.flatten ++ (hd ++ part)) = .ok (ps ++ [⟨f, t, part⟩]) := by
  have hne := lengthHeader_ne hh
  have hpos := List.length_pos_iff.mpr hne
  have hl := framed_lists h
  unfold parseBinaryPacketData
  generalize hdat : ws.flatten ++ (hd ++ part) = data
  have hdrop : data.drop ws.flatten.length = hd ++ part := by rw [← hdat, List.drop_left]
  have hlen : data.length = ws.flatten.length + (hd.length + part.length) := by rw [← hdat]; simp
  rw [parseLoop_framed h data (hd ++ part) 0 data.length (by rw [← hdat]; rfl) (by omega)]
  obtain ⟨k, hk⟩ : ∃ k, data.length - ps.length = k + 1 := ⟨data.length - ps.length - 1, by omega⟩
  rw [hk, parseLoop, if_pos (by omega), Nat.zero_add, cut_memory hh hn hdrop]
  simp only [except_bind_ok]
  have : parseLoop data k (ws.flatten.length + hd.length + n) = .ok [] := by
    cases k <;> rw [parseLoop, if_neg (by omega)]
  rw [this]
  rfl

example := C115_content_cut_refuted _ _ exFramed .new 13 9 [205, 9] [65, 66] (.new 13 9 [9] (by decide) (.one 9 (by decide))) (by decide)

/-- C115 (part that holds): packets of which the end is missing within the header of a packet are not read. -/
theorem C115_header_cut_partial (ps : List RawPacket) (ws : List Bytes) (h : List.Forall₂ Framed ps ws) (f : HeaderFormat) (t n : Nat) (hd part : Bytes)
    (hh : LengthHeader f t n hd) (hp : part <+: hd) (h0 : part ≠ []) (h1 : part ≠ hd) : Raises (parseBinaryPacketData (ws.flatten ++ part)) := by
  have hpos := List.length_pos_iff.mpr h0
  have hl := framed_lists h
  unfold parseBinaryPacketData
  generalize hdat : ws.flatten ++ part = data
  have hdrop : data.drop ws.flatten.length = part := by rw [← hdat, List.drop_left]
  have hlen : data.length = ws.flatten.length + part.length := by rw [← hdat]; simp
  rw [parseLoop_framed h data part 0 data.length (by rw [← hdat]; rfl) (by omega)]
  obtain ⟨k, hk⟩ : ∃ k, data.length - ps.length = k + 1 := ⟨data.length - ps.length - 1, by omega⟩
  obtain ⟨e, he⟩ := cut_header_memory hh hp h0 h1 hdrop
  rw [hk, parseLoop, if_pos (by omega), Nat.zero_add, he]
  exact ⟨e, rfl⟩

example := C115_header_cut_partial _ _ exFramed .new 13 192 [205, 192, 0] [205, 192] (.new 13 192 [192, 0] (by decide) (.two 192 0 (by decide) (by decide)))
  ⟨[0], rfl⟩ (by decide) (by decide)

/-- What is left of a packet of at most the length the header gives, framed with its own length. -/
theorem header_framed {f : HeaderFormat} {t : Nat} {hd c : Bytes} (h : LengthHeader f t c.length hd) : Framed ⟨f, t, c⟩ (hd ++ c) := by
  cases h with
  | new t n l ht hl => exact .new t c l ht hl
  | old t lt n l ht hl => exact .old t lt c l ht hl

/-- C115 fails: packets cut within the content of the last one are indistinguishable, to the reader of keys, from complete packets of which the last is shorter. -/
theorem C115_key_shortened_refuted (magic : Bytes → Str) (ps : List RawPacket) (ws : List Bytes) (h : List.Forall₂ Framed ps ws) (f : HeaderFormat) (t n : Nat)
    (hd hd' part : Bytes) (hh : LengthHeader f t n hd) (hn : part.length ≤ n) (hh' : LengthHeader f t part.length hd') :
    readKey magic (ws.flatten ++ (hd ++ part)) = readKey magic (ws.flatten ++ (hd' ++ part)) := by
  unfold readKey
  rw [C115_content_cut_refuted ps ws h f t n hd part hh hn, C115_content_cut_refuted ps ws h f t _ hd' part hh' (Nat.le_refl _)]

example (magic : Bytes → Str) := C115_key_shortened_refuted magic _ _ exFramed .new 13 9 [205, 9] [205, 2] [65, 66] (.new 13 9 [9] (by decide) (.one 9 (by decide)))
  (by decide) (.new 13 2 [2] (by decide) (.one 2 (by decide)))

/-- C115 fails: the same for the reader of messages. -/
theorem C115_message_shortened_refuted (accept : RawPacket → Py Unit) (ps : List RawPacket) (ws : List Bytes) (h : List.Forall₂ Framed ps ws) (f : HeaderFormat) (t n : Nat)
    (hd hd' part : Bytes) (hh : LengthHeader f t n hd) (hn : part.length ≤ n) (hh' : LengthHeader f t part.length hd') :
    readMessage accept (ws.flatten ++ (hd ++ part)) = readMessage accept (ws.flatten ++ (hd' ++ part)) := by
  unfold readMessage
  rw [C115_content_cut_refuted ps ws h f t n hd part hh hn, C115_content_cut_refuted ps ws h f t _ hd' part hh' (Nat.le_refl _)]

example (accept : RawPacket → Py Unit) := C115_message_shortened_refuted accept _ _ exFramed .new 11 9 [203, 9] [203, 2] [65, 66]
  (.new 11 9 [9] (by decide) (.one 9 (by decide))) (by decide) (.new 11 2 [2] (by decide) (.one 2 (by decide)))

/-! ### packets in chunks, cut short -/

/-- Chunks of which the end is missing before the length octets of the last one are complete. -/
theorem cut_chunks {data e : Bytes} {t n : Nat} (ht : t ≠ 0) (he : NewDefinite e n) (cs : List Chunk) {p : Bytes} (hp : p <+: (cs.map Chunk.wire).flatten ++ e)
    (hne : p ≠ (cs.map Chunk.wire).flatten ++ e) {off fuel : Nat} {acc : Bytes} (hd : data.drop off = p) :
    Raises (frameLoop data fuel (some (t, .new)) off acc) := by
  have hst : ∀ o, tagStep data (some (t, .new)) o = .ok (t, .new, o) := fun o => by simp [tagStep, ht]
  induction cs generalizing p off fuel acc with
  | nil =>
    cases fuel with
    | zero => exact ⟨_, rfl⟩
    | succ fuel =>
      obtain ⟨x, hx⟩ := cut_length he hp hne hd
      rw [frameLoop_succ, hst]
      simp only [except_bind_ok, hx]
      exact ⟨x, rfl⟩
  | cons c cs ih =>
    cases fuel with
    | zero => exact ⟨_, rfl⟩
    | succ fuel =>
      simp only [List.map_cons, List.flatten_cons, List.append_assoc] at hp hne
      have hene : (cs.map Chunk.wire).flatten ++ e ≠ [] := by
        intro h
        have := List.append_eq_nil_iff.mp h
        rw [this.2] at he
        cases he
      rcases List.prefix_or_prefix_of_prefix hp (List.prefix_append c.wire _) with hc | hc
      · rcases Decidable.em (p = c.wire) with rfl | hpc
        · rw [frameLoop_chunk (s := []) c (hst off) (by rw [hd]; simp)]
          exact ih List.nil_prefix (fun h => hene h.symm) (drop_add_of_drop (s := []) (by rw [hd]; simp))
        · cases p with
          | nil =>
            rw [frameLoop_succ, hst]
            simp only [except_bind_ok]
            unfold newPacketLength
            rw [show idx data off = .error .indexError by unfold idx; rw [hd]]
            exact ⟨_, rfl⟩
          | cons x p =>
            have hk := c.hk
            have hn : (UInt8.ofNat (224 + c.k)).toNat = 224 + c.k := toNat_ofNat_lt (by omega)
            have hpa : NewPartial [UInt8.ofNat (224 + c.k)] (2 ^ c.k) := by
              have := NewPartial.mk (UInt8.ofNat (224 + c.k)) (by omega) (by omega)
              rwa [hn, Nat.add_sub_cancel_left] at this
            have hle : p.length ≤ 2 ^ c.k := by
              have := hc.length_le
              simp only [Chunk.wire, List.length_cons, c.hlen] at this
              omega
            have hx : x = UInt8.ofNat (224 + c.k) := by
              obtain ⟨z, hz⟩ := hc
              simp only [Chunk.wire, List.cons_append, List.cons.injEq] at hz
              exact hz.1
            subst hx
            have h1 := newPacketLength_partial (s := p) (by rw [hd]; rfl) hpa
            rw [frameLoop_succ, hst]
            simp only [except_bind_ok, h1, if_true]
            refine ih List.nil_prefix (fun h => hene h.symm) ?_
            apply List.drop_eq_nil_of_le
            have := congrArg List.length hd
            simp only [List.length_drop, List.length_cons, List.length_nil] at this ⊢
            omega
      · obtain ⟨p', rfl⟩ := hc
        have hp' : p' <+: (cs.map Chunk.wire).flatten ++ e := by
          rw [List.prefix_append_right_inj] at hp
          exact hp
        rw [frameLoop_chunk c (hst off) hd]
        exact ih hp' (fun h => hne (by rw [h])) (drop_add_of_drop hd)

/-- A packet in chunks, of which the octets from some place before the end of the last length on are missing. -/
theorem cut_partial {data e p : Bytes} {t n off : Nat} (h0 : t ≠ 0) (ht : t < 64) (he : NewDefinite e n) (cs : List Chunk) (hp : p <+: partialWire t cs e []) (hpe : p ≠ [])
    (hne : p ≠ partialWire t cs e []) (hd : data.drop off = p) : Raises (packetFromData data off) := by
  cases p with
  | nil => exact absurd rfl hpe
  | cons x p =>
    unfold partialWire at hp hne
    rw [List.append_nil] at hp hne
    obtain ⟨z, hz⟩ := hp
    simp only [List.cons_append, List.cons.injEq] at hz
    obtain ⟨rfl, hz⟩ := hz
    have hd' : data.drop off = UInt8.ofNat (0x80 + (0x40 + t)) :: p := by
      rw [hd]; simp only [List.cons.injEq, and_true]; congr 1; omega
    have hr : ∀ fuel, frameLoop data (fuel + 1) none off [] = frameLoop data (fuel + 1) (some (t, .new)) (off + 1) [] := by
      intro fuel
      have hst : tagStep data (some (t, .new)) (off + 1) = .ok (t, .new, off + 1) := by simp [tagStep, h0]
      rw [frameLoop_succ, frameLoop_succ, show tagStep data none off = readTag data off from rfl, readTag_new ht hd', hst]
    unfold packetFromData
    rw [hr]
    exact cut_chunks h0 he cs ⟨z, hz⟩ (fun h => hne (by rw [h])) (drop_succ_of_drop hd')

/-- C115 (part that holds): packets of which the end is missing within one but the last chunk of a packet sent in chunks, or within the length of a chunk, are not read
(type 0 is reserved and its chunks are not put together). -/
theorem C115_chunks_cut_partial (ps : List RawPacket) (ws : List Bytes) (h : List.Forall₂ Framed ps ws) (t : Nat) (h0 : t ≠ 0) (ht : t < 64) (cs : List Chunk) (e : Bytes) (n : Nat)
    (he : NewDefinite e n) (part : Bytes) (hp : part <+: partialWire t cs e []) (hpe : part ≠ []) (hne : part ≠ partialWire t cs e []) :
    Raises (parseBinaryPacketData (ws.flatten ++ part)) := by
  have hpos := List.length_pos_iff.mpr hpe
  have hl := framed_lists h
  unfold parseBinaryPacketData
  generalize hdat : ws.flatten ++ part = data
  have hdrop : data.drop ws.flatten.length = part := by rw [← hdat, List.drop_left]
  have hlen : data.length = ws.flatten.length + part.length := by rw [← hdat]; simp
  rw [parseLoop_framed h data part 0 data.length (by rw [← hdat]; rfl) (by omega)]
  obtain ⟨k, hk⟩ : ∃ k, data.length - ps.length = k + 1 := ⟨data.length - ps.length - 1, by omega⟩
  obtain ⟨x, hx⟩ := cut_partial h0 ht he cs hp hpe hne hdrop
  rw [hk, parseLoop, if_pos (by omega), Nat.zero_add, hx]
  exact ⟨x, rfl⟩

example := C115_chunks_cut_partial _ _ exFramed 11 (by decide) (by decide) [⟨1, [65, 66], by decide, rfl⟩, ⟨1, [67, 68], by decide, rfl⟩] [1] 1 (.one 1 (by decide))
  [203, 225, 65, 66, 225, 67] ⟨[68, 1], by decide⟩ (by decide) (by decide)

/-- A packet in chunks, of which the octets from some place in the last chunk on are missing. -/
theorem cut_last_chunk {data e part : Bytes} {t n off : Nat} (h0 : t ≠ 0) (ht : t < 64) (he : NewDefinite e n) (cs : List Chunk) (hn : part.length ≤ n)
    (hd : data.drop off = partialWire t cs e part) :
    packetFromData data off = .ok (off + (partialWire t cs e []).length + n, ⟨.new, t, partialBody cs part⟩) := by
  have key : ∀ (cs : List Chunk) (off fuel : Nat) (acc : Bytes), data.drop off = (cs.map Chunk.wire).flatten ++ (e ++ part) → cs.length < fuel →
      frameLoop data fuel (some (t, .new)) off acc = .ok (off + ((cs.map Chunk.wire).flatten ++ e).length + n, ⟨.new, t, acc ++ partialBody cs part⟩) := by
    intro cs
    induction cs with
    | nil =>
      intro off fuel acc hd hf
      obtain ⟨fuel, rfl⟩ : ∃ k, fuel = k + 1 := ⟨fuel - 1, by omega⟩
      have hd : data.drop off = e ++ part := hd
      have h1 := newPacketLength_definite hd he
      have h2 := slice_short (drop_add_of_drop hd) hn
      rw [frameLoop_succ, show tagStep data (some (t, .new)) off = .ok (t, .new, off) by simp [tagStep, h0]]
      simp only [except_bind_ok, h1, h2, Bool.false_eq_true, if_false]
      simp [partialBody]
    | cons c cs ih =>
      intro off fuel acc hd hf
      obtain ⟨fuel, rfl⟩ : ∃ k, fuel = k + 1 := ⟨fuel - 1, by omega⟩
      simp only [List.map_cons, List.flatten_cons, List.append_assoc] at hd
      rw [frameLoop_chunk (t := t) c (by simp [tagStep, h0]) hd, ih _ _ _ (drop_add_of_drop hd) (by simp at hf; omega)]
      simp [partialBody, Nat.add_assoc]
  unfold partialWire at hd
  have hd' : data.drop off = UInt8.ofNat (0x80 + (0x40 + t)) :: ((cs.map Chunk.wire).flatten ++ (e ++ part)) := by
    rw [hd]; simp only [List.cons.injEq, and_true]; congr 1; omega
  have hr : ∀ fuel, frameLoop data (fuel + 1) none off [] = frameLoop data (fuel + 1) (some (t, .new)) (off + 1) [] := by
    intro fuel
    have hst : tagStep data (some (t, .new)) (off + 1) = .ok (t, .new, off + 1) := by simp [tagStep, h0]
    rw [frameLoop_succ, frameLoop_succ, show tagStep data none off = readTag data off from rfl, readTag_new ht hd', hst]
  unfold packetFromData
  rw [hr, key cs (off + 1) _ [] (drop_succ_of_drop hd')]
  · simp only [partialWire, List.append_nil, List.length_cons, List.nil_append]
    congr 2; omega
  · have h1 := congrArg List.length hd
    have h2 : cs.length ≤ (cs.map Chunk.wire).flatten.length := by
      clear hd hd' key h1
      induction cs with
      | nil => simp
      | cons c cs ih => simp only [List.map_cons, List.flatten_cons, List.length_append, List.length_cons, Chunk.wire]; omega
    simp only [List.length_drop, List.length_cons, List.length_append] at h1
    omega

/-- C115 fails: packets of which the end is missing within the last chunk of a packet sent in chunks are read without an exception, with what is left as its content. -/
theorem C115_last_chunk_cut_refuted (ps : List RawPacket) (ws : List Bytes) (h : List.Forall₂ Framed ps ws) (t : Nat) (h0 : t ≠ 0) (ht : t < 64) (cs : List Chunk) (e : Bytes) (n : Nat)
    (he : NewDefinite e n) (part : Bytes) (hn : part.length ≤ n) :
    parseBinaryPacketData (ws.flatten ++ partialWire t cs e part) = .ok (ps ++ [⟨.new, t, partialBody cs part⟩]) := by
  have hl := framed_lists h
  have hw : (partialWire t cs e part).length = (partialWire t cs e []).length + part.length := by simp [partialWire]; omega
  have hpos : 0 < (partialWire t cs e []).length := by simp [partialWire]
  unfold parseBinaryPacketData
  generalize hdat : ws.flatten ++ partialWire t cs e part = data
  have hdrop : data.drop ws.flatten.length = partialWire t cs e part := by rw [← hdat, List.drop_left]
  have hlen : data.length = ws.flatten.length + (partialWire t cs e part).length := by rw [← hdat]; simp
  rw [parseLoop_framed h data (partialWire t cs e part) 0 data.length (by rw [← hdat]; rfl) (by omega)]
  obtain ⟨k, hk⟩ : ∃ k, data.length - ps.length = k + 1 := ⟨data.length - ps.length - 1, by omega⟩
  rw [hk, parseLoop, if_pos (by omega), Nat.zero_add, cut_last_chunk h0 ht he cs hn hdrop]
  simp only [except_bind_ok]
  have : parseLoop data k (ws.flatten.length + (partialWire t cs e []).length + n) = .ok [] := by
    cases k <;> rw [parseLoop, if_neg (by omega)]
  rw [this]
  rfl

example := C115_last_chunk_cut_refuted _ _ exFramed 11 (by decide) (by decide) [⟨1, [65, 66], by decide, rfl⟩] [5] 5 (.one 5 (by decide)) [67, 68] (by decide)

/-! ### key packets cut short -/

theorem idx_mono {a z : Bytes} {o : Nat} {x : UInt8} (h : idx a o = .ok x) : idx (a ++ z) o = .ok x := by
  unfold idx at h
  split at h
  · rename_i y r hd
    cases h
    have hl : o ≤ a.length := by
      rcases Nat.lt_or_ge o a.length with h | h
      · omega
      · rw [List.drop_eq_nil_of_le h] at hd; cases hd
    exact idx_of_drop (s := r ++ z) (by rw [List.drop_append_of_le_length hl, hd]; rfl)
  · cases h

theorem bytesToInt_mono {a z : Bytes} {o n r : Nat} (h : bytesToInt a o n = .ok r) : bytesToInt (a ++ z) o n = .ok r := by
  have key : ∀ (n o acc : Nat), bytesToIntLoop a o acc n = .ok r → bytesToIntLoop (a ++ z) o acc n = .ok r := by
    intro n
    induction n with
    | zero => intro o acc h; exact h
    | succ n ih =>
      intro o acc h
      rw [bytesToIntLoop] at h ⊢
      split at h
      · rename_i x hx
        rw [idx_mono hx]
        exact ih _ _ h
      · cases h
  exact key _ _ _ h

theorem mpiToInt_mono {a z : Bytes} {o : Nat} {r : Nat × Nat} (h : mpiToInt a o = .ok r) : mpiToInt (a ++ z) o = .ok r := by
  unfold mpiToInt mpiLength at h ⊢
  obtain ⟨n, hn, h⟩ := except_bind_eq_ok.mp h
  obtain ⟨b, hb, hn⟩ := except_bind_eq_ok.mp hn
  obtain ⟨v, hv, h⟩ := except_bind_eq_ok.mp h
  cases hn
  simp only [shortToInt] at hb ⊢
  simp only [bytesToInt_mono hb, except_bind_ok, except_pure, bytesToInt_mono hv]
  exact h

/-- Octets that are read as a public key are read as the same key when more octets follow. -/
theorem parsePubKey_mono {a z : Bytes} {r : Nat × PubKey} (h : parsePubKey a = .ok r) : parsePubKey (a ++ z) = .ok r := by
  unfold parsePubKey at h ⊢
  obtain ⟨v, hv, h⟩ := except_bind_eq_ok.mp h
  obtain ⟨c, hc, h⟩ := except_bind_eq_ok.mp h
  obtain ⟨⟨days, o⟩, hd, h⟩ := except_bind_eq_ok.mp h
  obtain ⟨g, hg, h⟩ := except_bind_eq_ok.mp h
  have hd' : readDays (a ++ z) v = .ok (days, o) := by
    unfold readDays at hd ⊢
    split
    · rename_i hv
      rw [if_pos hv] at hd
      obtain ⟨x, hx, hd⟩ := except_bind_eq_ok.mp hd
      simp only [shortToInt] at hx ⊢
      rw [bytesToInt_mono hx]
      exact hd
    · rename_i hv
      rw [if_neg hv] at hd
      exact hd
  have hc' : longToInt (a ++ z) 1 = .ok c := bytesToInt_mono hc
  simp only [idx_mono hv, hc', hd', idx_mono hg, except_bind_ok]
  dsimp only at h
  split
  · rename_i h1
    rw [if_pos h1] at h
    obtain ⟨⟨x, o1⟩, hx, h⟩ := except_bind_eq_ok.mp h
    obtain ⟨⟨y, o2⟩, hy, h⟩ := except_bind_eq_ok.mp h
    simp only [mpiToInt_mono hx, mpiToInt_mono hy, except_bind_ok]
    exact h
  · rename_i h1
    rw [if_neg h1] at h
    split
    · rename_i h2
      rw [if_pos h2] at h
      obtain ⟨⟨x, o1⟩, hx, h⟩ := except_bind_eq_ok.mp h
      obtain ⟨⟨y, o2⟩, hy, h⟩ := except_bind_eq_ok.mp h
      obtain ⟨⟨w, o3⟩, hw, h⟩ := except_bind_eq_ok.mp h
      simp only [mpiToInt_mono hx, mpiToInt_mono hy, mpiToInt_mono hw, except_bind_ok]
      exact h
    · rename_i h2
      rw [if_neg h2] at h
      split
      · rename_i h3
        rw [if_pos h3] at h
        obtain ⟨⟨x, o1⟩, hx, h⟩ := except_bind_eq_ok.mp h
        obtain ⟨⟨y, o2⟩, hy, h⟩ := except_bind_eq_ok.mp h
        obtain ⟨⟨w, o3⟩, hw, h⟩ := except_bind_eq_ok.mp h
        obtain ⟨⟨u, o4⟩, hu, h⟩ := except_bind_eq_ok.mp h
        simp only [mpiToInt_mono hx, mpiToInt_mono hy, mpiToInt_mono hw, mpiToInt_mono hu, except_bind_ok]
        exact h
      · rename_i h3
        rw [if_neg h3] at h
        cases h

theorem mapM_raises {α β : Type} {g : α → Py β} {a : List α} {x : α} (h : Raises (g x)) : Raises ((a ++ [x]).mapM g) := by
  obtain ⟨e, he⟩ := h
  induction a with
  | nil => exact ⟨e, by simp only [List.nil_append, List.mapM_cons, he]; rfl⟩
  | cons y a ih =>
    obtain ⟨e', h'⟩ := ih
    rw [List.cons_append, List.mapM_cons]
    cases g y with
    | error e2 => exact ⟨e2, rfl⟩
    | ok v => exact ⟨e', by simp only [except_bind_ok, h']; rfl⟩

/-- C115 (part that holds): a key file of which the end is missing within a public key or public subkey packet is not read. -/
theorem C115_public_key_cut_partial (magic : Bytes → Str) (ps : List RawPacket) (ws : List Bytes) (h : List.Forall₂ Framed ps ws) (f : HeaderFormat) (t : Nat)
    (ht : t = 6 ∨ t = 14) (c hd part : Bytes) (hc : PublicContent c) (hh : LengthHeader f t c.length hd) (hp : part <+: c) (hne : part ≠ c) :
    Raises (readKey magic (ws.flatten ++ (hd ++ part))) := by
  have hle := hp.length_le
  have hlt : part.length < c.length := by
    rcases Nat.lt_or_ge part.length c.length with h | h
    · exact h
    · exact absurd (hp.eq_of_length_le h) hne
  obtain ⟨z, rfl⟩ := hp
  obtain ⟨k, hk, _⟩ := publicContent_read hc
  have hk := hk []
  rw [List.append_nil] at hk
  have hr : Raises (parsePubKey part) := by
    cases hx : parsePubKey part with
    | error e => exact ⟨e, rfl⟩
    | ok r =>
      obtain ⟨o, k'⟩ := r
      have h1 := parsePubKey_mono (z := z) hx
      rw [hk] at h1
      cases h1
      obtain ⟨_, _, _, _, _, _, _, _, _, ho⟩ := C22_parsed_shape _ _ _ hx
      omega
  unfold readKey
  rw [C115_content_cut_refuted ps ws h f t _ hd part hh (by simp)]
  obtain ⟨e, he⟩ := hr
  have hb : Raises (readPacket ⟨f, t, part⟩) := by
    refine ⟨e, ?_⟩
    unfold readPacket readBody
    rw [dif_pos ht, he]
    rfl
  obtain ⟨e', he'⟩ := mapM_raises (a := ps) hb
  simp only [except_bind_ok, he']
  exact ⟨e', rfl⟩

example (magic : Bytes → Str) := C115_public_key_cut_partial magic _ _ exFramed .new 6 (.inl rfl) [4, 0, 0, 3, 232, 1, 0, 12, 12, 161, 0, 5, 17] [198, 13]
  [4, 0, 0, 3, 232, 1, 0, 12, 12, 161]
  ⟨4, 1, [0, 0, 3, 232], [], .rsa 3233 17, rfl, .inr ⟨by decide, rfl⟩, .inl rfl, fun i hi => Nat.lt_of_lt_of_le (show i < 2 ^ 12 by
    simp only [KeyMaterial.ints, List.mem_cons, List.not_mem_nil, or_false] at hi; omega) (Nat.pow_le_pow_right (by decide) (by decide)), by decide +kernel⟩
  (.new 6 13 [13] (by decide) (.one 13 (by decide))) ⟨[0, 5, 17], rfl⟩ (by decide)

/-! ### messages that lose their signatures -/

theorem mapM_take {α β : Type} {g : α → Py β} : ∀ {a b : List α} {r : List β}, (a ++ b).mapM g = .ok r → ∃ x y, a.mapM g = .ok x ∧ b.mapM g = .ok y ∧ r = x ++ y
  | [], b, r, h => ⟨[], r, rfl, h, rfl⟩
  | q :: a, b, r, h => by
    rw [List.cons_append, List.mapM_cons] at h
    obtain ⟨v, hv, h⟩ := except_bind_eq_ok.mp h
    obtain ⟨vs, hvs, h⟩ := except_bind_eq_ok.mp h
    cases h
    obtain ⟨x, y, h1, h2, rfl⟩ := mapM_take hvs
    exact ⟨v :: x, y, by rw [List.mapM_cons, hv, except_bind_ok, h1]; rfl, h2, rfl⟩

/-- The body read from a packet of another type than a one-pass signature is no one-pass signature, and the other way round. -/
theorem parsed_ops {accept : RawPacket → Py Unit} {r : RawPacket} {p : MPacket} (h : parseMPacket accept r = .ok p) : IsOps p ↔ r.type = 4 := by
  unfold parseMPacket at h
  obtain ⟨b, hb, h⟩ := except_bind_eq_ok.mp h
  cases h
  unfold parseMBody at hb
  unfold IsOps
  split at hb
  · obtain ⟨x, _, hb⟩ := except_bind_eq_ok.mp hb
    cases hb; simp; omega
  split at hb
  · obtain ⟨x, _, hb⟩ := except_bind_eq_ok.mp hb
    cases hb; simp; omega
  split at hb
  · obtain ⟨x, _, hb⟩ := except_bind_eq_ok.mp hb
    cases hb; simp; omega
  split at hb
  · obtain ⟨x, _, hb⟩ := except_bind_eq_ok.mp hb
    cases hb; simp; omega
  rename_i h4
  simp only [h4, iff_false]
  split at hb
  · obtain ⟨x, _, hb⟩ := except_bind_eq_ok.mp hb
    cases hb; simp
  split at hb
  · cases hb; simp
  split at hb
  · obtain ⟨x, _, hb⟩ := except_bind_eq_ok.mp hb
    cases hb; simp
  split at hb
  · obtain ⟨x, _, hb⟩ := except_bind_eq_ok.mp hb
    cases hb; simp
  split at hb
  · obtain ⟨x, _, hb⟩ := except_bind_eq_ok.mp hb
    cases hb; simp
  · cases hb

/-- C115 fails: a signed message of which everything behind the signed packet is missing is read as a signed message with the same contents and no signature. -/
theorem C115_signatures_cut_refuted (accept : RawPacket → Py Unit) (ps qs : List RawPacket) (d : RawPacket) (ws vs : List Bytes) (w : Bytes) (h : List.Forall₂ Framed ps ws)
    (hd : Framed d w) (hq : List.Forall₂ Framed qs vs) (hps : ∀ p ∈ ps, p.type = 4) (hd4 : d.type ≠ 4) (sigs : List (HeaderFormat × Sig)) (m : Msg) (o : Bool)
    (hr : readMessage accept ((ws ++ w :: vs).flatten) = .ok (.signed sigs (some m) o)) :
    readMessage accept ((ws ++ [w]).flatten) = .ok (.signed [] (some m) o) := by
  have f1 : List.Forall₂ Framed (ps ++ d :: qs) (ws ++ w :: vs) := List.rel_append h (.cons hd hq)
  have f2 : List.Forall₂ Framed (ps ++ [d]) (ws ++ [w]) := List.rel_append h (.cons hd .nil)
  unfold readMessage at hr ⊢
  rw [C10_received_concat _ _ f1, except_bind_ok] at hr
  rw [C10_received_concat _ _ f2, except_bind_ok]
  obtain ⟨r, h1, h2⟩ := except_bind_eq_ok.mp hr
  obtain ⟨x, y, hx, hy, rfl⟩ := mapM_take h1
  rw [List.mapM_cons] at hy
  obtain ⟨q, hq', hy⟩ := except_bind_eq_ok.mp hy
  obtain ⟨z, hz, hy⟩ := except_bind_eq_ok.mp hy
  cases hy
  have h3 : (ps ++ [d]).mapM (parseMPacket accept) = .ok (x ++ [q]) := mapM_append_ok hx (by rw [List.mapM_cons, hq']; rfl)
  rw [h3, except_bind_ok]
  have hops : ∀ p ∈ x, IsOps p := by
    have := mapM_ok_forall₂ hx
    intro p hp
    obtain ⟨r, hr, hrp⟩ := forall₂_mem_right this _ hp
    exact (parsed_ops hrp).mpr (hps r hr)
  have hnq : ¬ IsOps q := fun h => hd4 ((parsed_ops hq').mp h)
  have hm := (C37_recognition _ _).mp h2
  refine (C37_recognition _ _).mpr ?_
  generalize hl : x ++ q :: z = l at hm
  generalize hs : Msg.signed sigs (some m) o = s at hm
  cases hm with
  | literal => cases hs
  | compressed => cases hs
  | encrypted => cases hs
  | encryptedDefault => cases hs
  | signedNothing => cases hs
  | signed pre post p m' sigs' hne hpre hp hm' hs' =>
    cases hs
    have key : ∀ (a b : List MPacket), (∀ p ∈ a, IsOps p) → (∀ p ∈ b, IsOps p) → a ++ q :: z = b ++ p :: post → a = b ∧ q = p := by
      intro a
      induction a with
      | nil =>
        intro b _ hb he
        cases b with
        | nil => cases he; exact ⟨rfl, rfl⟩
        | cons b0 b => cases he; exact absurd (hb _ (List.mem_cons_self ..)) hnq
      | cons a0 a ih =>
        intro b ha hb he
        cases b with
        | nil => cases he; exact absurd (ha _ (List.mem_cons_self ..)) hp
        | cons b0 b =>
          simp only [List.cons_append, List.cons.injEq] at he
          obtain ⟨rfl, he⟩ := he
          obtain ⟨rfl, e⟩ := ih b (fun p hp => ha p (List.mem_cons_of_mem _ hp)) (fun p hp => hb p (List.mem_cons_of_mem _ hp)) he
          exact ⟨rfl, e⟩
    obtain ⟨rfl, rfl⟩ := key x pre hops hpre hl
    exact .signed x [] q m [] hne hops hnq hm' .nil

/-- A signed message: the one-pass signature, the document and the signature. -/
def exCutOps : RawPacket := ⟨.new, 4, [3, 0, 8, 1, 1, 2, 3, 4, 5, 6, 7, 8, 1]⟩
def exCutLit : RawPacket := ⟨.new, 11, [0x62, 0, 0, 0, 0, 5, 65]⟩
def exCutSig : RawPacket := ⟨.new, 2, exSigPlain 0⟩

theorem exCut_read (accept : RawPacket → Py Unit) :
    ∃ s, readMessage accept (([[196, 13] ++ exCutOps.content] ++ ([203, 7] ++ exCutLit.content) :: [[194, 19] ++ exSigPlain 0]).flatten) =
      .ok (.signed [(.new, s)] (some (.literal false (.octets [65]) [] 5)) true) := by
  obtain ⟨s, hs, _⟩ := C82_signature_octets_kept_partial Nat.log2 (· < 4096) exGood (exSigPlain 0) (exSigPlain_ok 0)
  refine ⟨s, ?_⟩
  have hf : List.Forall₂ Framed [exCutOps, exCutLit, exCutSig] ([[196, 13] ++ exCutOps.content] ++ ([203, 7] ++ exCutLit.content) :: [[194, 19] ++ exSigPlain 0]) :=
    .cons (.new 4 _ [13] (by decide) (.one 13 (by decide))) (.cons (.new 11 _ [7] (by decide) (.one 7 (by decide)))
      (.cons (.new 2 _ [19] (by decide) (.one 19 (by decide))) .nil))
  unfold readMessage
  rw [C10_received_concat _ _ hf, except_bind_ok]
  obtain ⟨x, h1⟩ : ∃ x, parseMPacket accept exCutOps = .ok ⟨.new, .onePass x⟩ := ⟨_, rfl⟩
  have h2 : parseMPacket accept exCutLit = .ok ⟨.new, .literal ⟨0x62, [], .int 5, .octets [65]⟩⟩ := by
    show (do let b ← (do let x ← Literal.parse exCutLit.content; return MBody.literal x); return (⟨.new, b⟩ : MPacket)) = _
    rw [show Literal.parse exCutLit.content = .ok ⟨0x62, [], .int 5, .octets [65]⟩ from (C87_literal 0x62 0 [] [0, 0, 0, 5] [65] rfl rfl).1 (by decide) (by decide)]
    rfl
  have h3 : parseMPacket accept exCutSig = .ok ⟨.new, .sig s⟩ := by
    show (do let b ← (do let x ← parseSig (exSigPlain 0); return MBody.sig x); return (⟨.new, b⟩ : MPacket)) = _
    rw [hs]; rfl
  simp only [List.mapM_cons, List.mapM_nil, h1, h2, h3, except_bind_ok, except_pure]
  exact (C37_recognition _ _).mpr (.signed [_] [_] _ _ _ (by simp) (by intro p hp; rw [List.mem_singleton] at hp; subst hp; exact ⟨_, rfl⟩) (by rintro ⟨o, ho⟩; cases ho)
    (.literal .new ⟨0x62, [], .int 5, .octets [65]⟩ 5 [] rfl) (.sig .nil))

example (accept : RawPacket → Py Unit) : readMessage accept ([196, 13] ++ exCutOps.content ++ ([203, 7] ++ exCutLit.content)) =
    .ok (.signed [] (some (.literal false (.octets [65]) [] 5)) true) := by
  obtain ⟨s, hs⟩ := exCut_read accept
  exact C115_signatures_cut_refuted accept [exCutOps] [exCutSig] exCutLit _ _ _ (.cons (.new 4 _ [13] (by decide) (.one 13 (by decide))) .nil)
    (.new 11 _ [7] (by decide) (.one 7 (by decide))) (.cons (.new 2 _ [19] (by decide) (.one 19 (by decide))) .nil) (by decide) (by decide) _ _ _ hs

/-! ### The same when packets are read from a file -/

/-- The first octet of a header, and that what follows is not a partial length, however much of it is left. -/
theorem header_definite {f : HeaderFormat} {t n : Nat} {hd : Bytes} (h : LengthHeader f t n hd) (b : UInt8) (m : Nat) (z more : Bytes) (hz : (b :: z) = hd.take (m + 1))
    (hm : more = [] ∨ hd.length ≤ m + 1) :
    (b.toNat &&& 0x40 ≠ 0 ∧ ∀ o n, newPacketLength (b :: (z ++ more)) 1 ≠ .ok (o, n, true)) ∨ (b.toNat &&& 0x40 = 0 ∧ b.toNat % 4 ≠ 3) := by
  cases h with
  | new t n l ht hl =>
    simp only [List.take_succ_cons, List.cons.injEq] at hz
    obtain ⟨rfl, rfl⟩ := hz
    have hn : (UInt8.ofNat (192 + t)).toNat = 192 + t := toNat_ofNat_lt (by omega)
    have hb : ∀ t : Fin 64, (192 + t.val) &&& 0x40 ≠ 0 := by decide
    refine .inl ⟨by rw [hn]; exact hb ⟨t, ht⟩, ?_⟩
    intro o k hk
    have hx : ∀ (x : UInt8) (r : Bytes), l.take m ++ more = x :: r → x.toNat < 224 ∨ x.toNat = 255 := by
      intro x r hr
      have : l.take m ≠ [] := by
        intro h0
        rcases hm with rfl | hm
        · rw [h0] at hr; cases hr
        · have hlen : l.length ≤ m := by simpa using hm
          rw [List.take_of_length_le hlen] at h0
          rw [h0] at hl
          cases hl
      cases hl with
      | one a ha =>
        cases m with
        | zero => exact absurd rfl this
        | succ m => rw [List.take_succ_cons] at hr; cases hr; omega
      | two a b ha hb =>
        cases m with
        | zero => exact absurd rfl this
        | succ m => rw [List.take_succ_cons] at hr; cases hr; omega
      | five a b c d =>
        cases m with
        | zero => exact absurd rfl this
        | succ m => rw [List.take_succ_cons] at hr; cases hr; exact .inr rfl
    generalize l.take m ++ more = y at hk hx
    unfold newPacketLength at hk
    obtain ⟨x, h1, hk⟩ := except_bind_eq_ok.mp hk
    cases y with
    | nil => cases h1
    | cons y r =>
      cases h1
      have := hx x r rfl
      dsimp only at hk
      split at hk
      · cases hk
      · split at hk
        · obtain ⟨_, _, hk⟩ := except_bind_eq_ok.mp hk
          cases hk
        · split at hk
          · obtain ⟨_, _, hk⟩ := except_bind_eq_ok.mp hk
            cases hk
          · omega
  | old t lt n l ht hl =>
    simp only [List.take_succ_cons, List.cons.injEq] at hz
    obtain ⟨rfl, rfl⟩ := hz
    have hlt : lt < 3 := by rcases oldDefinite_length hl with h | h | h <;> omega
    have hn : (UInt8.ofNat (128 + 4 * t + lt)).toNat = 128 + 4 * t + lt := toNat_ofNat_lt (by omega)
    have hb : ∀ (t : Fin 16) (lt : Fin 3), (128 + 4 * t.val + lt.val) &&& 0x40 = 0 := by decide
    exact .inr ⟨by rw [hn]; exact hb ⟨t, ht⟩ ⟨lt, hlt⟩, by rw [hn]; omega⟩

theorem cut_stream {f : HeaderFormat} {t n : Nat} {hd part : Bytes} (h : LengthHeader f t n hd) (hn : part.length ≤ n) :
    packetFromStream (hd ++ part) = .ok (⟨f, t, part⟩, []) := by
  have hm := cut_memory (data := hd ++ part) (off := 0) h hn rfl
  have hne := lengthHeader_ne h
  obtain ⟨b, z, hb⟩ : ∃ b z, hd = b :: z := by
    cases hd with
    | nil => exact absurd rfl hne
    | cons b z => exact ⟨b, z, rfl⟩
  have hdef := header_definite h b z.length z part (by rw [hb]; simp) (.inr (by rw [hb]; simp))
  subst hb
  refine (C13_stream_memory_agree b (z ++ part) hdef _ _).mpr ⟨_, hm, ?_⟩
  rw [List.drop_eq_nil_of_le]
  simp only [List.length_cons, List.length_append, List.cons_append]
  omega

theorem cut_header_stream {f : HeaderFormat} {t n : Nat} {hd part : Bytes} (h : LengthHeader f t n hd) (hp : part <+: hd) (h0 : part ≠ []) (h1 : part ≠ hd) :
    Raises (packetFromStream part) := by
  obtain ⟨e, hm⟩ := cut_header_memory (data := part) (off := 0) h hp h0 h1 rfl
  cases hs : packetFromStream part with
  | error e => exact ⟨e, rfl⟩
  | ok r =>
    exfalso
    cases part with
    | nil => exact h0 rfl
    | cons b z =>
      have hz : (b :: z) = hd.take (z.length + 1) := by simpa using List.prefix_iff_eq_take.mp hp
      have hdef := header_definite h b z.length z [] hz (.inl rfl)
      rw [List.append_nil] at hdef
      obtain ⟨off, h2, _⟩ := (C13_stream_memory_agree b z hdef r.1 r.2).mp hs
      rw [hm] at h2
      cases h2

theorem streamLoop_framed {ps : List RawPacket} {ws : List Bytes} (h : List.Forall₂ Framed ps ws) (rest : Bytes) (fuel : Nat) (hf : ps.length ≤ fuel) :
    parseStreamLoop fuel (ws.flatten ++ rest) = (parseStreamLoop (fuel - ps.length) rest >>= fun r => Except.ok (ps ++ r)) := by
  induction h generalizing fuel with
  | nil => simp only [List.flatten_nil, List.nil_append, List.length_nil, Nat.sub_zero]; cases parseStreamLoop fuel rest <;> rfl
  | @cons p w ps ws hp _ ih =>
    obtain ⟨fuel, rfl⟩ : ∃ k, fuel = k + 1 := ⟨fuel - 1, by simp only [List.length_cons] at hf; omega⟩
    rw [parseStreamLoop, if_neg (by simp [framed_ne hp]), List.flatten_cons, List.append_assoc, framed_stream hp]
    simp only [except_bind_ok]
    rw [ih fuel (by simp only [List.length_cons] at hf; omega)]
    simp only [List.length_cons, Nat.add_sub_add_right]
    cases parseStreamLoop (fuel - ps.length) rest <;> rfl

/-- C115 fails for files as well: packets of which the end is missing within the content of a packet are read without an exception, and as from memory. -/
theorem C115_stream_content_cut_refuted (ps : List RawPacket) (ws : List Bytes) (h : List.Forall₂ Framed ps ws) (f : HeaderFormat) (t n : Nat) (hd part : Bytes)
    (hh : LengthHeader f t n hd) (hn : part.length ≤ n) : parseBinaryPacketStream (ws.flatten ++ (hd ++ part)) = .ok (ps ++ [⟨f, t, part⟩]) := by
  have hne := lengthHeader_ne hh
  have hpos := List.length_pos_iff.mpr hne
  have hl := framed_lists h
  unfold parseBinaryPacketStream
  rw [streamLoop_framed h _ _ (by simp only [List.length_append]; omega)]
  obtain ⟨k, hk⟩ : ∃ k, (ws.flatten ++ (hd ++ part)).length - ps.length = k + 1 := ⟨_, (Nat.succ_pred_eq_of_pos (by simp only [List.length_append]; omega)).symm⟩
  rw [hk, parseStreamLoop, if_neg (by simp [hne]), cut_stream hh hn]
  simp only [except_bind_ok]
  cases k <;> rfl

example := C115_stream_content_cut_refuted _ _ exFramed .new 13 9 [205, 9] [65, 66] (.new 13 9 [9] (by decide) (.one 9 (by decide))) (by decide)

/-- C115 (part that holds): a file that ends within the header of a packet is not read. -/
theorem C115_stream_header_cut_partial (ps : List RawPacket) (ws : List Bytes) (h : List.Forall₂ Framed ps ws) (f : HeaderFormat) (t n : Nat) (hd part : Bytes)
    (hh : LengthHeader f t n hd) (hp : part <+: hd) (h0 : part ≠ []) (h1 : part ≠ hd) : Raises (parseBinaryPacketStream (ws.flatten ++ part)) := by
  have hpos := List.length_pos_iff.mpr h0
  have hl := framed_lists h
  unfold parseBinaryPacketStream
  rw [streamLoop_framed h _ _ (by simp only [List.length_append]; omega)]
  obtain ⟨k, hk⟩ : ∃ k, (ws.flatten ++ part).length - ps.length = k + 1 := ⟨_, (Nat.succ_pred_eq_of_pos (by simp only [List.length_append]; omega)).symm⟩
  obtain ⟨e, he⟩ := cut_header_stream hh hp h0 h1
  rw [hk, parseStreamLoop, if_neg h0, he]
  exact ⟨e, rfl⟩

example := C115_stream_header_cut_partial _ _ exFramed .new 13 9 [205, 255, 0, 0, 0, 9] [205, 255, 0] (.new 13 9 [255, 0, 0, 0, 9] (by decide) (.five 0 0 0 9))
  ⟨[0, 0, 9], rfl⟩ (by decide) (by decide)

end Pgp.Props
