import Verif.Lemmas.UserIdForms
/-
Property theorems C58 (user ids).
-/
namespace Pgp.Props
open Spec

/-- C58: parsing any string at all ends, either with a name, an address and a comment or with IndexError; it never loops. -/
theorem C58_terminates (s : Str) : (∃ name email comment, parseUserId s = .ok (name, email, comment)) ∨ parseUserId s = .error .indexError := by
  obtain ⟨res, cl, r, h, -, -⟩ := (getAddress_total s.length).1 (2 * s.length + 2) s rfl (by omega)
  unfold parseUserId
  simp only [h, except_bind_ok]
  cases res with
  | nil => exact Or.inr rfl
  | cons p res => exact Or.inl ⟨_, _, _, rfl⟩

theorem getAddress_plain (ws : List Str) (hw : ∀ w ∈ ws, NameWord w) (loc dom : Str) (hl : AddrText loc) (hne : loc ≠ []) (hd : AddrText dom)
    (fuel : Nat) : getAddress (fuel + 1) (plainId ws loc dom) = .ok ([(pyJoin [' '] ws, loc ++ '@' :: dom)], [], []) := by
  have e : plainId ws loc dom = nameText ws ++ ('<' :: (loc ++ '@' :: (dom ++ ['>']))) := by simp [plainId]
  have hgo : gotoNext [] (nameText ws ++ ('<' :: (loc ++ '@' :: (dom ++ ['>'])))) =
      .ok ([], [], nameText ws ++ ('<' :: (loc ++ '@' :: (dom ++ ['>'])))) := by
    rcases nameText_head ws ('<' :: (loc ++ '@' :: (dom ++ ['>']))) hw with h | ⟨c, t, h, hc⟩
    · rw [h]; exact gotoNext_stay _ _ _ (by decide) (by decide)
    · rw [h]; exact gotoNext_plain _ _ _ hc
  have hph := (phraseReads_name hw (phraseReads_stop [] '<' (loc ++ '@' :: (dom ++ ['>'])) (Or.inl rfl))).get
  rw [List.append_nil] at hph
  rw [e, getAddress]
  simp only [hgo, hph, except_bind_ok, gotoNext_stay [] '<' (loc ++ '@' :: (dom ++ ['>'])) (by decide) (by decide)]
  rw [if_neg (by decide), if_neg (by decide), if_pos trivial]
  simp only [getRouteAddr_text [] loc dom hl hne hd, except_bind_ok]
  rfl

/-- C58: `Name <local@domain>` gives back the name, the address and no comment, whatever the words of the name and the parts of the
address. -/
theorem C58_name_and_address_partial (ws : List Str) (hw : ∀ w ∈ ws, NameWord w) (loc dom : Str) (hl : AddrText loc) (hne : loc ≠ [])
    (hd : AddrText dom) : parseUserId (plainId ws loc dom) = .ok (pyJoin [' '] ws, loc ++ '@' :: dom, []) := by
  unfold parseUserId
  simp only [getAddress_plain ws hw loc dom hl hne hd, except_bind_ok]
  simp only [pyJoin, removeAllOcc, if_true, pyStrip_join ws hw]

/-- The hypotheses are met. -/
example : parseUserId "J. R. Hacker <j.r@example.org>".toList = .ok ("J. R. Hacker".toList, "j.r@example.org".toList, []) := by
  decide +kernel
example : plainId ["J.".toList, "Hacker".toList] "j.r".toList "example.org".toList = "J. Hacker <j.r@example.org>".toList ∧
    (∀ w ∈ ["J.".toList, "Hacker".toList], NameWord w) ∧ AddrText "j.r".toList ∧ AddrText "example.org".toList := by
  refine ⟨by decide +kernel, ?_, ?_, ?_⟩ <;> (simp only [NameWord, AddrText]; decide +kernel)

theorem getAddress_comment (ws : List Str) (hw : ∀ w ∈ ws, NameWord w) (c : Str) (hc : CommentText c) (loc dom : Str) (hl : AddrText loc)
    (hne : loc ≠ []) (hd : AddrText dom) (fuel : Nat) (hws : ws ≠ []) :
    getAddress (fuel + 1) (commentId ws c loc dom) = .ok ([(pyJoin [' '] ws ++ " (".toList ++ c ++ [')'], loc ++ '@' :: dom)], [c], []) := by
  have e : commentId ws c loc dom = nameText ws ++ ('(' :: (c ++ ')' :: (' ' :: '<' :: (loc ++ '@' :: (dom ++ ['>']))))) := by simp [commentId]
  have hgo : gotoNext [] (nameText ws ++ ('(' :: (c ++ ')' :: (' ' :: '<' :: (loc ++ '@' :: (dom ++ ['>'])))))) =
      .ok ([], [], nameText ws ++ ('(' :: (c ++ ')' :: (' ' :: '<' :: (loc ++ '@' :: (dom ++ ['>'])))))) := by
    cases ws with
    | nil => exact absurd rfl hws
    | cons w ws =>
      obtain ⟨hne, h⟩ := hw w (by simp)
      cases w with
      | nil => exact absurd rfl hne
      | cons x s => exact gotoNext_plain _ _ _ (h x (by simp))
  have hph := (phraseReads_name hw (phraseReads_comment (cl := []) hc (phraseReads_space
    (phraseReads_stop ([] ++ [c]) '<' (loc ++ '@' :: (dom ++ ['>'])) (Or.inl rfl))))).get
  rw [List.append_nil] at hph
  rw [e, getAddress]
  simp only [hgo, hph, except_bind_ok, List.nil_append, gotoNext_stay [c] '<' (loc ++ '@' :: (dom ++ ['>'])) (by decide) (by decide)]
  rw [if_neg (by decide), if_neg (by decide), if_pos trivial]
  simp only [getRouteAddr_text [c] loc dom hl hne hd, except_bind_ok]
  simp only [finishAddress, gotoNext_nil, except_bind_ok, routeName, pyJoin]
  rw [if_neg (by simp)]

/-- C58: of `Name (comment) <local@domain>` the address and the comment are recovered exactly. -/
theorem C58_comment_and_address_partial (ws : List Str) (hw : ∀ w ∈ ws, NameWord w) (hws : ws ≠ []) (c : Str) (hc : CommentText c)
    (loc dom : Str) (hl : AddrText loc) (hne : loc ≠ []) (hd : AddrText dom) :
    ∃ name, parseUserId (commentId ws c loc dom) = .ok (name, loc ++ '@' :: dom, c) := by
  unfold parseUserId
  simp only [getAddress_comment ws hw c hc loc dom hl hne hd _ hws, except_bind_ok]
  exact ⟨_, rfl⟩

example := C58_comment_and_address_partial ["Alice".toList, "B.".toList] (by simp only [NameWord]; decide +kernel) (by decide) "work".toList
  (by simp only [CommentText]; decide +kernel) "a".toList "b.org".toList (by simp only [AddrText]; decide +kernel) (by decide) (by simp only [AddrText]; decide +kernel)

/-- C58, refuted: of a user id with a comment the name is never recovered — the name returned keeps the parentheses of the comment. -/
theorem C58_commented_name_refuted (ws : List Str) (hw : ∀ w ∈ ws, NameWord w) (hws : ws ≠ []) (c : Str) (hc : CommentText c)
    (loc dom : Str) (hl : AddrText loc) (hne : loc ≠ []) (hd : AddrText dom) (name email comment : Str)
    (h : parseUserId (commentId ws c loc dom) = .ok (name, email, comment)) : '(' ∈ name ∧ ')' ∈ name ∧ name ≠ pyJoin [' '] ws := by
  unfold parseUserId at h
  simp only [getAddress_comment ws hw c hc loc dom hl hne hd _ hws, except_bind_ok, Except.ok.injEq, Prod.mk.injEq] at h
  obtain ⟨h, -, -⟩ := h
  have ho : '(' ∉ c := fun hm => hc.2 _ hm (by decide)
  have hcl : ')' ∉ c := fun hm => hc.2 _ hm (by decide)
  simp only [pyJoin] at h
  have m1 : '(' ∈ name := by
    rw [← h]
    exact mem_pyStrip _ _ (by decide) (mem_removeAllOcc _ _ _ ho (by simp))
  refine ⟨m1, ?_, ?_⟩
  · rw [← h]
    exact mem_pyStrip _ _ (by decide) (mem_removeAllOcc _ _ _ hcl (by simp))
  · intro e
    rw [e] at m1
    have : ∀ ws : List Str, (∀ w ∈ ws, NameWord w) → '(' ∉ pyJoin [' '] ws := by
      intro ws
      induction ws with
      | nil => intro _; decide
      | cons w ws ih =>
        intro hw
        have h0 : '(' ∉ w := fun hm => ((hw w (by simp)).2 _ hm).2 (by decide)
        cases ws with
        | nil => exact h0
        | cons v ws =>
          have := ih (fun x hx => hw x (by simp [hx]))
          simp only [pyJoin, List.mem_append, not_or] at this ⊢
          exact ⟨⟨h0, by decide⟩, this⟩
    exact this ws hw m1

example := C58_commented_name_refuted ["Alice".toList] (by simp only [NameWord]; decide +kernel) (by decide) "work".toList
  (by simp only [CommentText]; decide +kernel) "a".toList "b.org".toList (by simp only [AddrText]; decide +kernel) (by decide) (by simp only [AddrText]; decide +kernel)
  "Alice ()".toList "a@b.org".toList "work".toList (by decide +kernel)

/-- C58, what is returned instead: when the first character of the comment does not occur earlier, the name followed by ` ()`. -/
theorem C58_commented_name_is (ws : List Str) (hw : ∀ w ∈ ws, NameWord w) (hws : ws ≠ []) (x : Char) (c : Str) (hc : CommentText (x :: c))
    (hx : x ∉ pyJoin [' '] ws) (hsp : x ≠ ' ') (loc dom : Str) (hl : AddrText loc) (hne : loc ≠ []) (hd : AddrText dom) :
    parseUserId (commentId ws (x :: c) loc dom) = .ok (pyJoin [' '] ws ++ " ()".toList, loc ++ '@' :: dom, x :: c) := by
  have hxo : x ≠ '(' := fun e => hc.2 x (by simp) (by rw [e]; decide)
  have hclose : ')' ≠ x := fun e => hc.2 x (by simp) (by rw [← e]; decide)
  unfold parseUserId
  simp only [getAddress_comment ws hw (x :: c) hc loc dom hl hne hd _ hws, except_bind_ok, pyJoin]
  have e1 : removeAllOcc (x :: c) (pyJoin [' '] ws ++ " (".toList ++ (x :: c) ++ [')']) = pyJoin [' '] ws ++ " ()".toList := by
    rw [removeAllOcc, if_neg (by simp), List.append_assoc (pyJoin [' '] ws ++ " (".toList), removeLoop_skip x c _ _ ?_ _ (by simp)]
    · have : ∀ f, removeLoop (x :: c) (f + 1 + 1) ((x :: c) ++ [')']) = [')'] := by
        intro f
        rw [List.cons_append, removeLoop, if_pos]
        · have hdrop : (x :: (c ++ [')'])).drop (x :: c).length = [')'] := by simp
          rw [hdrop, removeLoop, if_neg]
          · cases f <;> simp [removeLoop]
          · simp only [List.isPrefixOf, Bool.and_eq_true, beq_iff_eq, not_and]
            intro e; exact absurd e.symm hclose
        · rw [List.isPrefixOf_iff_prefix]; exact ⟨[')'], by simp⟩
      have hl2 : (pyJoin [' '] ws ++ " (".toList ++ ((x :: c) ++ [')'])).length - (pyJoin [' '] ws ++ " (".toList).length = c.length + 1 + 1 := by
        rw [List.length_append, Nat.add_sub_cancel_left]; simp
      rw [hl2, this, List.append_assoc]
      rfl
    · simp only [List.mem_append, not_or]
      refine ⟨hx, ?_⟩
      simp [hsp, hxo]
  rw [e1]
  have e2 : pyStrip (pyJoin [' '] ws ++ " ()".toList) = pyJoin [' '] ws ++ " ()".toList := by
    have h1 : (pyJoin [' '] ws ++ " ()".toList).dropWhile isPySpace = pyJoin [' '] ws ++ " ()".toList := by
      cases ws with
      | nil => exact absurd rfl hws
      | cons w ws =>
        obtain ⟨hne, h⟩ := hw w (by simp)
        cases w with
        | nil => exact absurd rfl hne
        | cons y s =>
          have : ∃ t, pyJoin [' '] ((y :: s) :: ws) = y :: t := by
            cases ws with
            | nil => exact ⟨s, rfl⟩
            | cons v ws => exact ⟨_, rfl⟩
          obtain ⟨t, e⟩ := this
          rw [e, List.cons_append, List.dropWhile_cons, if_neg (by rw [(h y (by simp)).1]; decide)]
    unfold pyStrip
    rw [h1, List.reverse_append]
    have : " ()".toList.reverse = [')', '(', ' '] := by decide +kernel
    rw [this, List.cons_append, List.dropWhile_cons, if_neg (by decide), ← List.cons_append, ← this, ← List.reverse_append, List.reverse_reverse]
  rw [e2]

example : parseUserId "Alice (work) <a@b.org>".toList = .ok ("Alice ()".toList, "a@b.org".toList, "work".toList) := by decide +kernel

/-- C58: a bare address is recovered, with an empty name and comment. -/
theorem C58_bare_address_partial (loc dom : Str) (hl : AddrText loc) (hne : loc ≠ []) (hd : AddrText dom) :
    parseUserId (loc ++ '@' :: dom) = .ok ([], loc ++ '@' :: dom, []) := by
  have hgo : gotoNext [] (loc ++ '@' :: dom) = .ok ([], [], loc ++ '@' :: dom) := by
    cases loc with
    | nil => exact absurd rfl hne
    | cons x s => exact gotoNext_plain _ _ _ (hl x (by simp))
  have hph := (phraseReads_word (cl := []) ⟨hne, hl⟩ (rest := '@' :: dom) (by
    intro c t e
    simp only [List.cons.injEq] at e
    rw [← e.1]; decide) (phraseReads_stop [] '@' dom (Or.inr rfl))).get
  have hspec := getAddrSpec_text [] loc dom [] hl hd (Or.inl rfl)
  rw [List.append_nil] at hspec
  unfold parseUserId
  rw [getAddress]
  simp only [hgo, hph, except_bind_ok, gotoNext_stay [] '@' dom (by decide) (by decide)]
  rw [if_pos (Or.inr trivial)]
  simp only [hspec, except_bind_ok, finishAddress, gotoNext_nil, pyJoin, removeAllOcc, if_true]
  rfl

example := C58_bare_address_partial "a".toList "b.org".toList (by simp only [AddrText]; decide +kernel) (by decide) (by simp only [AddrText]; decide +kernel)

/-- C58, refuted: a user id that is only a name is returned with an empty name, its first word as the address, and the rest lost. -/
theorem C58_name_only_refuted (w : Str) (ws : List Str) (hw : ∀ v ∈ w :: ws, NameWord v) :
    parseUserId (pyJoin [' '] (w :: ws)) = .ok ([], w, []) := by
  have hgo : gotoNext [] (pyJoin [' '] (w :: ws)) = .ok ([], [], pyJoin [' '] (w :: ws)) := by
    obtain ⟨hne, h⟩ := hw w (by simp)
    cases w with
    | nil => exact absurd rfl hne
    | cons y s =>
      have : ∃ t, pyJoin [' '] ((y :: s) :: ws) = y :: t := by
        cases ws with
        | nil => exact ⟨s, rfl⟩
        | cons v ws => exact ⟨_, rfl⟩
      obtain ⟨t, e⟩ := this
      rw [e]
      exact gotoNext_plain _ _ _ (h y (by simp))
  have hph := (phraseReads_join [] (w :: ws) hw).get
  unfold parseUserId
  rw [getAddress]
  simp only [hgo, hph, except_bind_ok, gotoNext_nil, plainAddress, finishAddress, pyJoin, removeAllOcc, if_true]
  rfl

example : parseUserId "Alice Smith".toList = .ok ([], "Alice".toList, []) := by decide +kernel

/-- C58, refuted: a user id of white space only raises IndexError. -/
theorem C58_blank_refuted (s : Str) (h : ∀ c ∈ s, c = ' ' ∨ c = '\t' ∨ c = '\r' ∨ c = '\n') : parseUserId s = .error .indexError := by
  have loop : ∀ (s : Str), (∀ c ∈ s, c = ' ' ∨ c = '\t' ∨ c = '\r' ∨ c = '\n') → ∀ fuel ws, s.length < fuel →
      ∃ ws', gotoNextLoop fuel ws [] s = .ok (ws', [], []) := by
    intro s
    induction s with
    | nil =>
      intro _ fuel ws hf
      cases fuel with
      | zero => omega
      | succ fuel => exact ⟨ws, rfl⟩
    | cons c s ih =>
      intro h fuel ws hf
      cases fuel with
      | zero => omega
      | succ fuel =>
        simp only [List.length_cons] at hf
        rw [gotoNextLoop, if_pos (by rcases h c (by simp) with rfl | rfl | rfl | rfl <;> decide)]
        exact ih (fun x hx => h x (by simp [hx])) fuel _ (by omega)
  obtain ⟨ws', h'⟩ := loop s h (s.length + 1) [] (by omega)
  have hg : gotoNext [] s = .ok (ws', [], []) := h'
  have hp : getPhraseList [] [] = .ok ([], [], []) := rfl
  unfold parseUserId
  rw [getAddress]
  simp only [hg, hp, gotoNext_nil, except_bind_ok, finishAddress, plainAddress]

example := C58_blank_refuted " \t ".toList (by decide +kernel)

/-! ### Quoted and escaped text -/

theorem delimLoop_escaped {ends stops : List Char} {comments : Bool} {e : Char} (he : e ∈ ends) (h1 : ∀ c ∈ ends, c ∈ stops) (h2 : '\\' ∈ stops)
    (h3 : comments = true → '(' ∈ stops) (hb : '\\' ∉ ends) {w s : Str} (h : Escaped stops w s) (t : Str) :
    ∀ (fuel : Nat) (acc : Str), (w ++ e :: t).length < fuel → delimLoop fuel ends comments false acc (w ++ e :: t) = .ok (acc ++ s, t) := by
  induction h with
  | nil =>
    intro fuel acc hf
    cases fuel with
    | zero => omega
    | succ fuel => rw [List.nil_append, delimLoop, if_neg (by decide), if_pos he, List.append_nil]
  | plain hc _ ih =>
    rename_i w s c _
    intro fuel acc hf
    cases fuel with
    | zero => omega
    | succ fuel =>
      have n1 : c ∉ ends := fun h => hc (h1 c h)
      have n2 : ¬ (comments && decide (c = '(')) = true := by
        simp only [Bool.and_eq_true, decide_eq_true_eq, not_and]
        rintro h rfl
        exact hc (h3 h)
      have n3 : c ≠ '\\' := fun h => hc (h ▸ h2)
      rw [List.cons_append, delimLoop, if_neg (by decide), if_neg n1, if_neg n2, if_neg n3,
        ih fuel (acc ++ [c]) (by simp only [List.cons_append, List.length_cons] at hf; omega)]
      simp
  | escaped _ ih =>
    rename_i w s c _
    intro fuel acc hf
    cases fuel with
    | zero => omega
    | succ fuel =>
      cases fuel with
      | zero => simp only [List.cons_append, List.length_cons] at hf; omega
      | succ fuel =>
        have n2 : ¬ (comments && decide ('\\' = '(')) = true := by cases comments <;> decide
        rw [List.cons_append, delimLoop, if_neg (by decide), if_neg hb, if_neg n2, if_pos rfl, List.cons_append, delimLoop, if_pos rfl,
          ih fuel (acc ++ [c]) (by simp only [List.cons_append, List.length_cons] at hf; omega)]
        simp

/-- C58: a name in quotes is recovered, whatever characters it contains, apart from white space at its ends: characters the mail syntax
reserves stand for themselves, and a backslash keeps the character after it. -/
theorem C58_quoted_name_partial (w s : Str) (h : Escaped ['"', '\\', '\r'] w s) (loc dom : Str) (hl : AddrText loc) (hne : loc ≠ [])
    (hd : AddrText dom) : parseUserId (quotedId w loc dom) = .ok (pyStrip s, loc ++ '@' :: dom, []) := by
  have e : quotedId w loc dom = '"' :: (w ++ '"' :: (' ' :: '<' :: (loc ++ '@' :: (dom ++ ['>'])))) := by simp [quotedId]
  have hq : ∀ t, getQuote ('"' :: (w ++ '"' :: t)) = .ok (s, t) := by
    intro t
    rw [getQuote, getDelimited, if_neg (by decide),
      delimLoop_escaped (by decide) (by decide) (by decide) (by decide) (by decide) h t _ [] (by omega), List.nil_append]
  have hst : PhraseReads [] (' ' :: '<' :: (loc ++ '@' :: (dom ++ ['>']))) [] [] ('<' :: (loc ++ '@' :: (dom ++ ['>']))) :=
    phraseReads_space (phraseReads_stop [] '<' (loc ++ '@' :: (dom ++ ['>'])) (Or.inl rfl))
  have hph : PhraseReads [] ('"' :: (w ++ '"' :: (' ' :: '<' :: (loc ++ '@' :: (dom ++ ['>']))))) [s] []
      ('<' :: (loc ++ '@' :: (dom ++ ['>']))) := by
    intro fuel pl hf
    cases fuel with
    | zero => omega
    | succ fuel =>
      rw [phraseLoop, if_neg (by decide), if_pos rfl]
      simp only [hq, except_bind_ok]
      rw [hst fuel (pl ++ [s]) (by simp only [List.length_cons, List.length_append] at hf ⊢; omega)]
      simp
  unfold parseUserId
  rw [e, getAddress]
  simp only [gotoNext_stay [] '"' _ (show isFws '"' = false by decide) (by decide), hph.get, except_bind_ok,
    gotoNext_stay [] '<' (loc ++ '@' :: (dom ++ ['>'])) (by decide) (by decide)]
  rw [if_neg (by decide), if_neg (by decide), if_pos trivial]
  simp only [getRouteAddr_text [] loc dom hl hne hd, except_bind_ok]
  rfl

/-- The name `Smith, "J"`. -/
theorem exQuoted : Escaped ['"', '\\', '\r'] "Smith, \\\"J\\\"".toList "Smith, \"J\"".toList :=
  .plain (by decide) (.plain (by decide) (.plain (by decide) (.plain (by decide) (.plain (by decide) (.plain (by decide) (.plain (by decide)
    (.escaped (.plain (by decide) (.escaped .nil)))))))))

example := C58_quoted_name_partial _ _ exQuoted "a".toList "b.org".toList (by simp only [AddrText]; decide +kernel) (by decide)
  (by simp only [AddrText]; decide +kernel)

/-- C58: a comment is recovered whatever characters it contains, when the parentheses, backslashes and carriage returns in it are
escaped. -/
theorem C58_escaped_comment_partial (ws : List Str) (hw : ∀ w ∈ ws, NameWord w) (hws : ws ≠ []) (w c : Str) (hc : Escaped ['(', ')', '\\', '\r'] w c)
    (loc dom : Str) (hl : AddrText loc) (hne : loc ≠ []) (hd : AddrText dom) :
    ∃ name, parseUserId (commentId ws w loc dom) = .ok (name, loc ++ '@' :: dom, c) := by
  have e : commentId ws w loc dom = nameText ws ++ ('(' :: (w ++ ')' :: (' ' :: '<' :: (loc ++ '@' :: (dom ++ ['>']))))) := by simp [commentId]
  have hgo : gotoNext [] (nameText ws ++ ('(' :: (w ++ ')' :: (' ' :: '<' :: (loc ++ '@' :: (dom ++ ['>'])))))) =
      .ok ([], [], nameText ws ++ ('(' :: (w ++ ')' :: (' ' :: '<' :: (loc ++ '@' :: (dom ++ ['>'])))))) := by
    cases ws with
    | nil => exact absurd rfl hws
    | cons w' ws =>
      obtain ⟨hne, h⟩ := hw w' (by simp)
      cases w' with
      | nil => exact absurd rfl hne
      | cons x s => exact gotoNext_plain _ _ _ (h x (by simp))
  have hcom : ∀ t, getComment ('(' :: (w ++ ')' :: t)) = .ok (c, t) := by
    intro t
    rw [getComment, getDelimited, if_neg (by decide),
      delimLoop_escaped (by decide) (by decide) (by decide) (by decide) (by decide) hc t _ [] (by omega), List.nil_append]
  have hst : PhraseReads ([] ++ [c]) (' ' :: '<' :: (loc ++ '@' :: (dom ++ ['>']))) [] ([] ++ [c]) ('<' :: (loc ++ '@' :: (dom ++ ['>']))) :=
    phraseReads_space (phraseReads_stop ([] ++ [c]) '<' (loc ++ '@' :: (dom ++ ['>'])) (Or.inl rfl))
  have hco : PhraseReads [] ('(' :: (w ++ ')' :: (' ' :: '<' :: (loc ++ '@' :: (dom ++ ['>']))))) [] [c]
      ('<' :: (loc ++ '@' :: (dom ++ ['>']))) := by
    intro fuel pl hf
    cases fuel with
    | zero => omega
    | succ fuel =>
      rw [phraseLoop, if_neg (by decide), if_neg (by decide), if_pos rfl]
      simp only [hcom, except_bind_ok]
      exact hst fuel pl (by simp only [List.length_cons, List.length_append] at hf ⊢; omega)
  have hph := (phraseReads_name hw hco).get
  rw [List.append_nil] at hph
  unfold parseUserId
  rw [e, getAddress]
  simp only [hgo, hph, except_bind_ok, gotoNext_stay [c] '<' (loc ++ '@' :: (dom ++ ['>'])) (by decide) (by decide)]
  rw [if_neg (by decide), if_neg (by decide), if_pos trivial]
  simp only [getRouteAddr_text [c] loc dom hl hne hd, except_bind_ok]
  exact ⟨_, rfl⟩

example := C58_escaped_comment_partial ["Alice".toList] (by simp only [NameWord]; decide +kernel) (by decide) "\\(x\\)".toList "(x)".toList
  (.escaped (.plain (by decide) (.escaped .nil))) "a".toList "b.org".toList (by simp only [AddrText]; decide +kernel) (by decide)
  (by simp only [AddrText]; decide +kernel)

/-- C58, refuted: a name with a comma, semicolon, bracket or closing mark outside quotes (`Smith, John <j@example.org>`): whatever
follows, the address is lost, and the first word of the name is returned in its place. -/
theorem C58_reserved_refuted (w : Str) (ws : List Str) (hw : ∀ v ∈ w :: ws, NameWord v) (c : Char) (hc : c ∈ ",;>[])".toList) (rest : Str) :
    parseUserId (pyJoin [' '] (w :: ws) ++ c :: rest) = .ok ([], w, []) := by
  have hstop : PhraseReads [] (c :: rest) [] [] (c :: rest) := by
    have hc' : isFws c = false ∧ c ≠ '"' ∧ c ≠ '(' ∧ isPhraseEnd c = true := by
      have : ∀ c ∈ ",;>[])".toList, isFws c = false ∧ c ≠ '"' ∧ c ≠ '(' ∧ isPhraseEnd c = true := by decide +kernel
      exact this c hc
    intro fuel pl hf
    cases fuel with
    | zero => omega
    | succ fuel =>
      rw [phraseLoop, if_neg (by rw [hc'.1]; decide), if_neg hc'.2.1, if_neg hc'.2.2.1, if_pos hc'.2.2.2, List.append_nil]
  have hend : isPhraseEnd c = true := by
    have : ∀ c ∈ ",;>[])".toList, isPhraseEnd c = true := by decide +kernel
    exact this c hc
  have hjoin : ∀ ws : List Str, (∀ v ∈ ws, NameWord v) → PhraseReads [] (pyJoin [' '] ws ++ c :: rest) ws [] (c :: rest) := by
    intro ws
    induction ws with
    | nil => intro _; exact hstop
    | cons v ws ih =>
      intro hv
      have ih := ih (fun x hx => hv x (by simp [hx]))
      cases ws with
      | nil => exact phraseReads_word (hv v (by simp)) (by rintro c' t ⟨⟩; exact hend) hstop
      | cons u us =>
        have e : pyJoin [' '] (v :: u :: us) ++ c :: rest = v ++ (' ' :: (pyJoin [' '] (u :: us) ++ c :: rest)) := by simp [pyJoin]
        rw [e]
        exact phraseReads_word (hv v (by simp)) (by rintro c' t ⟨⟩; decide) (phraseReads_space ih)
  have hgo : gotoNext [] (pyJoin [' '] (w :: ws) ++ c :: rest) = .ok ([], [], pyJoin [' '] (w :: ws) ++ c :: rest) := by
    obtain ⟨hne, h⟩ := hw w (by simp)
    cases w with
    | nil => exact absurd rfl hne
    | cons y s =>
      have : ∃ t, pyJoin [' '] ((y :: s) :: ws) = y :: t := by
        cases ws with
        | nil => exact ⟨s, rfl⟩
        | cons v ws => exact ⟨_, rfl⟩
      obtain ⟨t, e⟩ := this
      rw [e]
      exact gotoNext_plain _ _ _ (h y (by simp))
  have hc' : isFws c = false ∧ c ≠ '(' ∧ ¬ (c = '.' ∨ c = '@') ∧ c ≠ ':' ∧ c ≠ '<' := by
    have : ∀ c ∈ ",;>[])".toList, isFws c = false ∧ c ≠ '(' ∧ ¬ (c = '.' ∨ c = '@') ∧ c ≠ ':' ∧ c ≠ '<' := by decide +kernel
    exact this c hc
  have hstay := gotoNext_stay [] c rest hc'.1 hc'.2.1
  have hfin : ∃ r, finishAddress (plainAddress [] (w :: ws)) [] (c :: rest) = .ok ([([], w)], [], r) := by
    unfold finishAddress
    rw [hstay]
    simp only [except_bind_ok]
    split <;> exact ⟨_, rfl⟩
  obtain ⟨r, hfin⟩ := hfin
  unfold parseUserId
  rw [getAddress]
  simp only [hgo, (hjoin (w :: ws) hw).get, hstay, except_bind_ok]
  rw [if_neg hc'.2.2.1, if_neg hc'.2.2.2.1, if_neg hc'.2.2.2.2, if_pos (by simp), hfin]
  rfl

example := C58_reserved_refuted "Smith".toList [] (by simp only [NameWord]; decide +kernel) ',' (by decide +kernel) " John <j@example.org>".toList

end Pgp.Props
