import Verif.Spec.Output
/-
C101 (output limit), C102 (status, log and attribute output), C103 (photo viewer command).
-/
namespace Pgp.Props
open Pgp Pgp.Spec

/-! ### C101 -/

theorem writeLoop_within (l total : Nat) (hl : 0 < l) (data : Bytes) (h : total + data.length ≤ l) : writeLoop (some l) total data = (.ok (total + data.length), data) := by
  induction hn : data.length using Nat.strongRecOn generalizing total data with
  | ind n ih =>
    rw [writeLoop]
    have hle : (data.take 1024).length ≤ data.length := by simp; omega
    have hc : ¬ (l ≠ 0 ∧ total + (data.take 1024).length > l) := by omega
    simp only [if_neg hc]
    by_cases hd : data = []
    · subst hd; simp at hn ⊢; omega
    · have hpos : data.length ≠ 0 := fun e => hd (List.length_eq_zero_iff.mp e)
      have hlen : (data.take 1024).length + (data.drop 1024).length = data.length := by
        rw [← List.length_append, List.take_append_drop]
      rw [dif_neg hd, ih (data.drop 1024).length (by simp; omega) _ _ (by omega) rfl]
      simp only [List.take_append_drop]
      rw [Prod.mk.injEq]
      exact ⟨by congr 1; omega, rfl⟩

theorem writeLoop_over (l total : Nat) (hl : 0 < l) (data : Bytes) (h : l < total + data.length) (ht : total ≤ l) :
    ∃ w rest, writeLoop (some l) total data = (.error .attributeError, w) ∧ data = w ++ rest ∧ l < total + w.length ∧ total + w.length ≤ l + 1024 := by
  induction hn : data.length using Nat.strongRecOn generalizing total data with
  | ind n ih =>
    rw [writeLoop]
    have hlen : (data.take 1024).length + (data.drop 1024).length = data.length := by
      rw [← List.length_append, List.take_append_drop]
    have h1024 : (data.take 1024).length ≤ 1024 := by simp; omega
    by_cases hc : l ≠ 0 ∧ total + (data.take 1024).length > l
    · simp only [if_pos hc]
      exact ⟨_, data.drop 1024, rfl, (List.take_append_drop _ _).symm, by omega, by omega⟩
    · simp only [if_neg hc]
      have hd : data ≠ [] := by rintro rfl; simp at h; omega
      have hpos : data.length ≠ 0 := fun e => hd (List.length_eq_zero_iff.mp e)
      obtain ⟨w, rest, e, he, h1, h2⟩ := ih (data.drop 1024).length (by simp; omega) (total + (data.take 1024).length) (data.drop 1024) (by omega) (by omega) rfl
      rw [dif_neg hd, e]
      refine ⟨data.take 1024 ++ w, rest, rfl, ?_, ?_, ?_⟩
      · rw [List.append_assoc, ← he, List.take_append_drop]
      · rw [List.length_append]; omega
      · rw [List.length_append]; omega

theorem writeOutput_limit {l : Nat} (hl : 0 < l) (option caller : Option Str) (data : Bytes) :
    (writeOutput (some l) option caller data).2 = writeLoop (some l) 0 data := by
  unfold writeOutput
  dsimp only
  rw [if_neg (by omega)]

/-- C101: with a limit, output that does not exceed it is written completely, to the file named by the caller or else by the option, and its length is returned. -/
theorem C101_within_limit_partial (l : Nat) (hl : 0 < l) (option caller : Option Str) (data : Bytes) (h : data.length ≤ l) :
    (writeOutput (some l) option caller data).2 = (.ok data.length, data) ∧
    (∀ c n, caller = some (c :: n) → (writeOutput (some l) option caller data).1 = some (c :: n)) ∧
    (∀ c n, caller = none → option = some (c :: n) → (writeOutput (some l) option caller data).1 = some (c :: n)) ∧
    (caller = none → option = none → (writeOutput (some l) option caller data).1 = none) := by
  refine ⟨?_, ?_, ?_, ?_⟩
  · rw [writeOutput_limit hl]
    simpa using writeLoop_within l 0 hl data (by omega)
  · rintro c n rfl; rfl
  · rintro c n rfl rfl; rfl
  · rintro rfl rfl; rfl

/-- C101 (refuted): output that exceeds the limit is cut off with an exception, but only behind the limit: more octets than allowed have been written then, up to 1024
too many. -/
theorem C101_over_limit_refuted (l : Nat) (hl : 0 < l) (option caller : Option Str) (data : Bytes) (h : l < data.length) :
    ∃ w rest, (writeOutput (some l) option caller data).2 = (.error .attributeError, w) ∧ data = w ++ rest ∧ l < w.length ∧ w.length ≤ l + 1024 := by
  obtain ⟨w, rest, h1, h2, h3, h4⟩ := writeLoop_over l 0 hl data (by omega) (by omega)
  refine ⟨w, rest, ?_, h2, by omega, by omega⟩
  rw [writeOutput_limit hl]
  exact h1

/-- C101 (refuted): without a limit (none, or 0) nothing is written but the first 1024 octets, and an exception is raised even if that is all. -/
theorem C101_no_limit_refuted (m : Option Nat) (hm : m = none ∨ m = some 0) (option caller : Option Str) (data : Bytes) :
    (writeOutput m option caller data).2 = (.error .unboundLocal, data.take 1024) := by
  have key : writeLoop none 0 data = (.error .unboundLocal, data.take 1024) := by rw [writeLoop]
  rcases hm with rfl | rfl <;> exact key

example := C101_within_limit_partial 5 (by decide) (some "a".toList) none [1, 2, 3] (by decide)
example := C101_over_limit_refuted 2 (by decide) none none [1, 2, 3] (by decide)
example := C101_no_limit_refuted none (.inl rfl) none none [1, 2, 3]

/-! ### C102 -/

/-- A way of output is chosen: a descriptor other than 0, or a file name, but not both. -/
inductive ChannelChosen : Channel → Option Dest → Prop
  | none : ChannelChosen ⟨none, none⟩ none
  | fd (n : Nat) (h : n ≠ 0) : ChannelChosen ⟨some n, none⟩ (some (.fd n))
  | file (s : Str) (h : s ≠ []) : ChannelChosen ⟨none, some s⟩ (some (.file s))

/-- The place can be written to. -/
def CanWrite (fdOk : Nat → Bool) (fileOk : Str → Bool) : Dest → Prop
  | .stdout => True
  | .fd n => fdOk n = true
  | .file s => fileOk s = true

variable {fdOk : Nat → Bool} {fileOk : Str → Bool} {encode : Str → Option Bytes} {exitOnError : Bool}

/-- C102: status messages go where the status options say, or else to the standard output, once and encoded. -/
theorem C102_status_partial (c : Channel) (d : Option Dest) (hc : ChannelChosen c d) (hu : ∀ x ∈ d, CanWrite fdOk fileOk x) (text : Str) (b : Bytes) (he : encode text = some b) :
    writeStatus c exitOnError fdOk fileOk encode text = ([(d.getD .stdout, b)], false) := by
  cases hc with
  | none => simp [writeStatus, writeChannel, Channel.hasFd, Channel.hasFile, he]
  | fd n h =>
    have := hu _ rfl
    cases n with
    | zero => exact absurd rfl h
    | succ n => simp [writeStatus, writeChannel, Channel.hasFd, Channel.hasFile, openFd, he, show fdOk (n + 1) = true from this]
  | file s h =>
    have := hu _ rfl
    cases s with
    | nil => exact absurd rfl h
    | cons a s => simp [writeStatus, writeChannel, Channel.hasFd, Channel.hasFile, openName, he, show fileOk (a :: s) = true from this]

/-- C102 (part that holds): the log and the attributes go where their own options say if the status options choose a place in the same way (both by descriptor, both
by file name, or neither chosen). -/
theorem C102_log_partial (status own : Channel) (ds d : Option Dest) (hs : ChannelChosen status ds) (hc : ChannelChosen own d) (hu : ∀ x ∈ d, CanWrite fdOk fileOk x)
    (hsame : status.fd.isSome = own.fd.isSome ∧ status.file.isSome = own.file.isSome) (text : Str) (b : Bytes) (he : encode text = some b) :
    writeLog status own exitOnError fdOk fileOk encode text = ([(d.getD .stdout, b)], false) ∧
    writeAttribute status own exitOnError fdOk fileOk encode text = ([(d.getD .stdout, b)], false) := by
  have key : writeChannel status own exitOnError fdOk fileOk encode text = ([(d.getD .stdout, b)], false) := by
    cases hs with
    | none => cases hc with
      | none => simp [writeChannel, Channel.hasFd, Channel.hasFile, he]
      | fd n h => simp at hsame
      | file s h => simp at hsame
    | fd m hm => cases hc with
      | none => simp at hsame
      | fd n h =>
        have := hu _ rfl
        cases m with
        | zero => exact absurd rfl hm
        | succ m => simp [writeChannel, Channel.hasFd, Channel.hasFile, openFd, he, show fdOk n = true from this]
      | file s h => simp at hsame
    | file t ht => cases hc with
      | none => simp at hsame
      | fd n h => simp at hsame
      | file s h =>
        have := hu _ rfl
        cases t with
        | nil => exact absurd rfl ht
        | cons a t => simp [writeChannel, Channel.hasFd, Channel.hasFile, openName, he, show fileOk s = true from this]
  exact ⟨key, key⟩

/-- C102 (refuted): without status options, the log and the attributes go to the standard output, wherever they were to go. -/
theorem C102_log_to_stdout_refuted (own : Channel) (text : Str) (b : Bytes) (he : encode text = some b) :
    writeLog ⟨none, none⟩ own exitOnError fdOk fileOk encode text = ([(.stdout, b)], false) ∧
    writeAttribute ⟨none, none⟩ own exitOnError fdOk fileOk encode text = ([(.stdout, b)], false) := by
  constructor <;> simp [writeLog, writeAttribute, writeChannel, Channel.hasFd, Channel.hasFile, he]

/-- C102 (refuted): with a status descriptor or file and no such option for the log, every log message and attribute is lost without an error. -/
theorem C102_log_lost_refuted (status : Channel) (d : Dest) (hs : ChannelChosen status (some d)) (text : Str) :
    writeLog status ⟨none, none⟩ false fdOk fileOk encode text = ([], false) ∧ writeAttribute status ⟨none, none⟩ false fdOk fileOk encode text = ([], false) := by
  have key : writeChannel status ⟨none, none⟩ false fdOk fileOk encode text = ([], false) := by
    cases hs with
    | fd n h => cases n with
      | zero => exact absurd rfl h
      | succ n => simp [writeChannel, Channel.hasFd, openFd]
    | file s h => cases s with
      | nil => exact absurd rfl h
      | cons a s => simp [writeChannel, Channel.hasFd, Channel.hasFile, openName]
  exact ⟨key, key⟩

/-- C102: nothing is ever written partly or twice, and the program is ended only after a failure and only if asked for. -/
theorem C102_at_most_once (status own : Channel) (text : Str) :
    (∃ d b, encode text = some b ∧ writeChannel status own exitOnError fdOk fileOk encode text = ([(d, b)], false)) ∨
    writeChannel status own exitOnError fdOk fileOk encode text = ([], exitOnError) := by
  unfold writeChannel
  dsimp only
  split
  · right; rfl
  · rename_i d _
    cases he : encode text with
    | none => right; rfl
    | some b => left; exact ⟨d, b, rfl, rfl⟩

example := C102_status_partial (fdOk := fun _ => true) (fileOk := fun _ => false) (encode := fun s => some (s.map fun c => UInt8.ofNat c.toNat)) (exitOnError := true)
  ⟨some 3, none⟩ _ (.fd 3 (by decide)) (by rintro x ⟨⟩; rfl) "ok".toList _ rfl
example := C102_log_partial (fdOk := fun _ => true) (fileOk := fun _ => false) (encode := fun s => some (s.map fun c => UInt8.ofNat c.toNat)) (exitOnError := true)
  ⟨some 3, none⟩ ⟨some 4, none⟩ _ _ (.fd 3 (by decide)) (.fd 4 (by decide)) (by rintro x ⟨⟩; rfl) ⟨rfl, rfl⟩ "ok".toList _ rfl
example := C102_log_to_stdout_refuted (fdOk := fun _ => true) (fileOk := fun _ => true) (encode := fun _ => some []) (exitOnError := true) ⟨some 4, none⟩ [] [] rfl
example := C102_log_lost_refuted (fdOk := fun _ => true) (fileOk := fun _ => true) (encode := fun _ => some []) ⟨some 3, none⟩ (.fd 3) (.fd 3 (by decide)) "x".toList

/-! ### C103 -/

theorem replaceMark_cons {x : Char} {v : Str} {c : Char} (hc : c ≠ '%') (t : Str) : replaceMark x v (c :: t) = c :: replaceMark x v t := by
  rw [replaceMark]
  intro y t' h
  cases h
  exact absurd rfl hc

theorem replaceMark_skip {x : Char} {v : Str} {s : Str} (hs : '%' ∉ s) (t : Str) : replaceMark x v (s ++ t) = s ++ replaceMark x v t := by
  induction s with
  | nil => rfl
  | cons c s ih =>
    simp only [List.mem_cons, not_or] at hs
    rw [List.cons_append, replaceMark_cons (Ne.symm hs.1), ih hs.2, List.cons_append]

theorem replaceMark_hit (x : Char) (v t : Str) : replaceMark x v ('%' :: x :: t) = v ++ replaceMark x v t := by
  rw [replaceMark, if_pos rfl]

theorem replaceMark_miss {x y : Char} (h : y ≠ x) (hy : y ≠ '%') (v t : Str) : replaceMark x v ('%' :: y :: t) = '%' :: y :: replaceMark x v t := by
  rw [replaceMark, if_neg h, replaceMark_cons hy]

theorem replaceMark_id {x : Char} {v : Str} {s : Str} (hs : '%' ∉ s) : replaceMark x v s = s := by
  have := replaceMark_skip (x := x) (v := v) hs []
  simpa [replaceMark] using this

/-- How the pieces stand in the command while the marks are replaced in turn: those with a letter in `left` are still written as marks. -/
def between (left : List Char) (i : PhotoInfo) : PhotoPiece → Str
  | .char c => [c]
  | .percent => ['%', '%']
  | p => match p.written with
    | [_, y] => if y ∈ left then p.written else p.meaning i
    | _ => []

theorem meaning_clean {i : PhotoInfo} (hi : noPercent i) {p : PhotoPiece} (hp : p ≠ .percent) (hc : p ≠ .char '%') : '%' ∉ p.meaning i := by
  obtain ⟨h1, h2, h3, h4, h5, h6, h7, h8⟩ := hi
  cases p with
  | char c =>
    have : c ≠ '%' := fun e => hc (by rw [e])
    simpa [PhotoPiece.meaning] using Ne.symm this
  | percent => exact absurd rfl hp
  | _ => assumption

/-- A piece at one of the replacements: replaced, or not affected. -/
theorem stage_piece {x : Char} {v : Str} {f g : PhotoPiece → Str} {p : PhotoPiece} (t : Str)
    (h : f p = ['%', x] ∧ g p = v ∨ (∃ y, y ≠ x ∧ y ≠ '%' ∧ f p = ['%', y] ∧ g p = f p) ∨ '%' ∉ f p ∧ g p = f p) :
    replaceMark x v (f p ++ t) = g p ++ replaceMark x v t := by
  rcases h with ⟨h1, h2⟩ | ⟨y, h1, h2, h3, h4⟩ | ⟨h1, h2⟩
  · rw [h1, h2]; exact replaceMark_hit x v t
  · rw [h4, h3]; exact replaceMark_miss h1 h2 v t
  · rw [h2]; exact replaceMark_skip h1 t

theorem stage {x : Char} {v : Str} {f g : PhotoPiece → Str} (hx : x ∈ ['k', 'K', 'f', 't', 'T', 'v', 'V', 'U']) {l : List PhotoPiece} (ht : photoTemplate l)
    (ha : PercentsApart l) (hfp : f .percent = ['%', '%']) (hgp : g .percent = ['%', '%']) (hfc : ∀ c, f (.char c) = [c]) (hgc : ∀ c, g (.char c) = [c])
    (h : ∀ p, p ≠ .percent → (∀ c, p ≠ .char c) →
      f p = ['%', x] ∧ g p = v ∨ (∃ y, y ≠ x ∧ y ≠ '%' ∧ f p = ['%', y] ∧ g p = f p) ∨ '%' ∉ f p ∧ g p = f p) :
    replaceMark x v (l.flatMap f) = l.flatMap g := by
  have hxp : x ≠ '%' := by
    rintro rfl
    revert hx
    decide
  induction ha with
  | nil => rfl
  | piece p l hp _ ih =>
    simp only [List.flatMap_cons]
    rw [stage_piece (g := g) _ ?_, ih fun c hc => ht c (by simp [hc])]
    by_cases hc : ∃ c, p = .char c
    · obtain ⟨c, rfl⟩ := hc
      refine .inr (.inr ⟨?_, by rw [hfc, hgc]⟩)
      rw [hfc]
      have := ht c (by simp)
      simpa using Ne.symm this
    · exact h p hp fun c e => hc ⟨c, e⟩
  | last =>
    simp only [List.flatMap_cons, List.flatMap_nil, hfp, hgp, List.append_nil]
    rw [replaceMark, if_neg (Ne.symm hxp)]
    rfl
  | apart c l hc _ ih =>
    have hcx : c ≠ x := by
      rintro rfl
      refine hc ?_
      have : ∀ y ∈ ['k', 'K', 'f', 't', 'T', 'v', 'V', 'U'], y ∈ ['k', 'K', 'f', 't', 'T', 'v', 'V', 'U', 'i', 'I'] := by decide
      exact this _ hx
    have hcp : c ≠ '%' := ht c (by simp)
    simp only [List.flatMap_cons, hfp, hgp, hfc, hgc, List.cons_append, List.nil_append]
    rw [replaceMark, if_neg (Ne.symm hxp), replaceMark_miss hcx hcp, ih fun c hc => ht c (by simp [hc])]

theorem stage_final {i : PhotoInfo} (hi : noPercent i) {l : List PhotoPiece} (ht : photoTemplate l) (ha : PercentsApart l) :
    replaceMark '%' ['%'] (l.flatMap (between [] i)) = l.flatMap (PhotoPiece.meaning i) := by
  have hb : ∀ p : PhotoPiece, p ≠ .percent → between [] i p = p.meaning i := by
    intro p hp
    cases p <;> first | rfl | exact absurd rfl hp
  induction ha with
  | nil => rfl
  | piece p l hp _ ih =>
    simp only [List.flatMap_cons]
    rw [hb p hp, replaceMark_skip (meaning_clean hi hp ?_), ih fun c hc => ht c (by simp [hc])]
    rintro rfl
    exact ht '%' (by simp) rfl
  | last => rfl
  | apart c l hc _ ih =>
    have hcp : c ≠ '%' := ht c (by simp)
    have e1 : (PhotoPiece.percent :: .char c :: l).flatMap (between [] i) = '%' :: '%' :: c :: l.flatMap (between [] i) := rfl
    have e2 : (PhotoPiece.percent :: .char c :: l).flatMap (PhotoPiece.meaning i) = '%' :: c :: l.flatMap (PhotoPiece.meaning i) := rfl
    rw [e1, e2, replaceMark_hit, replaceMark_cons hcp, ih fun c hc => ht c (by simp [hc])]
    rfl

/-- C103 (part that holds): in templates where `%%` is not followed by a mark or by one of the letters of marks, and with values without per cent signs, every mark is
replaced by its value and nothing else is changed. -/
theorem C103_command_partial (l : List PhotoPiece) (ht : photoTemplate l) (ha : PercentsApart l) (i : PhotoInfo) (hi : noPercent i) :
    photoCommand (l.flatMap PhotoPiece.written) i = l.flatMap (PhotoPiece.meaning i) := by
  have h0 : l.flatMap PhotoPiece.written = l.flatMap (between ['k', 'K', 'f', 't', 'T', 'v', 'V', 'U'] i) := by
    congr 1
    funext p
    cases p <;> rfl
  obtain ⟨h1, h2, h3, h4, h5, h6, h7, h8⟩ := hi
  unfold photoCommand
  rw [h0]
  rw [stage (g := between ['K', 'f', 't', 'T', 'v', 'V', 'U'] i) (by decide) ht ha rfl rfl (fun _ => rfl) (fun _ => rfl)]
  rw [stage (g := between ['f', 't', 'T', 'v', 'V', 'U'] i) (by decide) ht ha rfl rfl (fun _ => rfl) (fun _ => rfl)]
  rw [stage (g := between ['t', 'T', 'v', 'V', 'U'] i) (by decide) ht ha rfl rfl (fun _ => rfl) (fun _ => rfl)]
  rw [stage (g := between ['T', 'v', 'V', 'U'] i) (by decide) ht ha rfl rfl (fun _ => rfl) (fun _ => rfl)]
  rw [stage (g := between ['v', 'V', 'U'] i) (by decide) ht ha rfl rfl (fun _ => rfl) (fun _ => rfl)]
  rw [stage (g := between ['V', 'U'] i) (by decide) ht ha rfl rfl (fun _ => rfl) (fun _ => rfl)]
  rw [stage (g := between ['U'] i) (by decide) ht ha rfl rfl (fun _ => rfl) (fun _ => rfl)]
  rw [stage (g := between [] i) (by decide) ht ha rfl rfl (fun _ => rfl) (fun _ => rfl)]
  · exact stage_final ⟨h1, h2, h3, h4, h5, h6, h7, h8⟩ ht ha
  all_goals
    intro p hp hc
    cases p with
    | percent => exact absurd rfl hp
    | char c => exact absurd rfl (hc c)
    | _ => first
      | exact .inl ⟨rfl, rfl⟩
      | exact .inr (.inl ⟨_, by decide, by decide, rfl, rfl⟩)
      | exact .inr (.inr ⟨by assumption, rfl⟩)

/-- C103 (refuted): values are not safe from later replacements: a validity `%V` is replaced in its turn; and `%%k` is not a per cent sign and a `k`. -/
theorem C103_nested_refuted (i : PhotoInfo) (hv : i.fullValidity = "full".toList) (hk : i.keyId = "AB".toList) (hm : i.validity = "%V".toList) :
    photoCommand "%v".toList i = "full".toList ∧ photoCommand "%%k".toList i = "%AB".toList := by
  obtain ⟨k, K, f, t, T, v, V, U⟩ := i
  dsimp only at hv hk hm
  subst hv hk hm
  constructor <;> rfl

/-- C103 (refuted): the viewer never gets the photo: it is started without a file and without input, or not at all. -/
theorem C103_photo_refuted (viewer : Str) (i : PhotoInfo) : (∃ command, viewPhoto viewer i = .ok (command, none)) ∨ Raises (viewPhoto viewer i) := by
  unfold viewPhoto
  dsimp only
  split
  · exact .inr ⟨_, rfl⟩
  · exact .inl ⟨_, rfl⟩

/-- C103 (refuted): with `%i` or `%I` in the template (as in every template that names the photo) it is not started. -/
theorem C103_file_refuted (a b : Str) (x : Char) (hx : x = 'i' ∨ x = 'I') (ha : '%' ∉ a) (hb : '%' ∉ b) (i : PhotoInfo) : Raises (viewPhoto (a ++ '%' :: x :: b) i) := by
  have hmiss : ∀ (y : Char) (v : Str), y ≠ x → replaceMark y v (a ++ '%' :: x :: b) = a ++ '%' :: x :: b := by
    intro y v hy
    rw [replaceMark_skip ha, replaceMark_miss (Ne.symm hy) (by rcases hx with rfl | rfl <;> decide), replaceMark_id hb]
  have hcmd : photoCommand (a ++ '%' :: x :: b) i = a ++ '%' :: x :: b := by
    unfold photoCommand
    iterate 9 rw [hmiss _ _ (by rcases hx with rfl | rfl <;> decide)]
  have hhas : ∀ s : Str, '%' ∉ s → hasMark x (s ++ '%' :: x :: b) = true := by
    intro s hs
    induction s with
    | nil => simp [hasMark]
    | cons c s ih =>
      simp only [List.mem_cons, not_or] at hs
      rw [List.cons_append, hasMark]
      · exact ih hs.2
      · intro y t h
        cases h
        exact absurd rfl hs.1
  unfold viewPhoto
  dsimp only
  rw [hcmd]
  rcases hx with rfl | rfl
  · rw [hhas a ha, Bool.or_true, if_pos rfl]; exact ⟨_, rfl⟩
  · rw [hhas a ha, Bool.true_or, if_pos rfl]; exact ⟨_, rfl⟩

theorem hasMark_skip {x : Char} {v : Str} (hv : '%' ∉ v) (t : Str) : hasMark x (v ++ t) = hasMark x t := by
  induction v with
  | nil => rfl
  | cons c v ih =>
    simp only [List.mem_cons, not_or] at hv
    rw [List.cons_append, hasMark]
    · exact ih hv.2
    · intro y t h
      cases h
      exact absurd rfl hv.1

/-- C103: with a template that names no file, and values without a percent sign, the viewer is started with the command that the template means (but without the photo). -/
theorem C103_started_partial (l : List PhotoPiece) (ht : photoTemplate l) (ha : PercentsApart l) (i : PhotoInfo) (hi : noPercent i) :
    viewPhoto (l.flatMap PhotoPiece.written) i = .ok (l.flatMap (PhotoPiece.meaning i), none) := by
  have hno : ∀ x : Char, x = 'i' ∨ x = 'I' → hasMark x (l.flatMap (PhotoPiece.meaning i)) = false := by
    intro x hx
    have hval : ∀ p : PhotoPiece, p ≠ .percent → (∀ c, p = .char c → c ≠ '%') → '%' ∉ p.meaning i := by
      obtain ⟨h1, h2, h3, h4, h5, h6, h7, h8⟩ := hi
      intro p hp hc
      cases p with
      | char c => simpa [PhotoPiece.meaning] using (hc c rfl).symm
      | percent => exact absurd rfl hp
      | _ => assumption
    clear hi
    induction ha with
    | nil => rfl
    | piece p l hp _ ih =>
      rw [List.flatMap_cons, hasMark_skip (hval p hp fun c hc => ht c (by simp [hc]))]
      exact ih fun c hc => ht c (List.mem_cons_of_mem _ hc)
    | last => rfl
    | apart c l hc _ ih =>
      have hcp : c ≠ '%' := ht c (by simp)
      have hcx : c ≠ x := by rintro rfl; rcases hx with rfl | rfl <;> exact absurd hc (by decide)
      have hrest := ih fun c hc => ht c (List.mem_cons_of_mem _ (List.mem_cons_of_mem _ hc))
      show hasMark x ('%' :: c :: l.flatMap (PhotoPiece.meaning i)) = false
      rw [hasMark, decide_eq_false hcx, Bool.false_or]
      have := hasMark_skip (x := x) (v := [c]) (by simpa using hcp.symm) (l.flatMap (PhotoPiece.meaning i))
      rw [List.singleton_append] at this
      rw [this, hrest]
  unfold viewPhoto
  dsimp only
  rw [C103_command_partial l ht ha i hi, hno 'i' (.inl rfl), hno 'I' (.inr rfl)]
  rfl

private def exPhoto : PhotoInfo := ⟨"AB".toList, "00AB".toList, "F".toList, "jpg".toList, "image/jpeg".toList, "f".toList, "full".toList, "u".toList⟩
example : photoCommand "xv -t %K 100%% %f".toList exPhoto = "xv -t 00AB 100% F".toList := by decide +kernel
example := C103_command_partial [.char 'x', .char ' ', .longKeyId, .percent] (by intro c hc; simp at hc; rcases hc with rfl | rfl <;> decide) (.piece _ _ (by decide) (.piece _ _ (by decide) (.piece _ _ (by decide) .last)))
  exPhoto (by unfold noPercent; decide +kernel)
example := C103_started_partial [.char 'x', .char ' ', .longKeyId, .percent] (by intro c hc; simp at hc; rcases hc with rfl | rfl <;> decide) (.piece _ _ (by decide) (.piece _ _ (by decide) (.piece _ _ (by decide) .last)))
  exPhoto (by unfold noPercent; decide +kernel)
example := C103_nested_refuted { exPhoto with validity := "%V".toList } rfl rfl rfl
example := C103_file_refuted "xv ".toList " -x".toList 'i' (.inl rfl) (by decide +kernel) (by decide +kernel) exPhoto

end Pgp.Props
