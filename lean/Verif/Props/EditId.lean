import Verif.Model.EditId
import Verif.Spec.EditId
import Verif.Props.UserId
/-
C90: editing a user id.
-/
namespace Pgp.Props
open Pgp.Spec

theorem getRouteAddr_tail (cl : List Str) (loc dom t : Str) (hl : AddrText loc) (hne : loc ≠ []) (hd : AddrText dom) :
    getRouteAddr cl ('<' :: (loc ++ '@' :: (dom ++ '>' :: t))) = .ok (loc ++ '@' :: dom, cl, t) := by
  cases loc with
  | nil => exact absurd rfl hne
  | cons x s' =>
    have hx : AddrChar x := hl x (by simp)
    unfold getRouteAddr
    have hgo : gotoNext cl ((x :: s') ++ '@' :: (dom ++ '>' :: t)) = .ok ([], cl, (x :: s') ++ '@' :: (dom ++ '>' :: t)) :=
      gotoNext_stay _ _ _ hx.not_fws (hx.ne '(' (by decide))
    simp only [hgo, except_bind_ok]
    rw [List.cons_append, routeLoop, if_neg (hx.ne '>' (by decide)), if_neg (hx.ne '@' (by decide)), if_neg (hx.ne ':' (by decide)),
      ← List.cons_append, getAddrSpec_text cl (x :: s') dom ('>' :: t) hl hd (Or.inr ⟨t, rfl⟩)]
    rfl

/-- The end of a user id: nothing, or a comment. -/
def commentTail (c : Str) : Str := if c = [] then [] else " (".toList ++ c ++ [')']

theorem gotoNext_tail (c : Str) (hc : c = [] ∨ CommentText c) : ∃ ws, gotoNext [] (commentTail c) = .ok (ws, if c = [] then [] else [c], []) := by
  rcases hc with rfl | hc
  · exact ⟨[], rfl⟩
  · rw [commentTail, if_neg hc.1, if_neg hc.1]
    have e : " (".toList ++ c ++ [')'] = ' ' :: '(' :: (c ++ ')' :: []) := by simp
    have hl : ∀ n : Nat, gotoNextLoop (n + 3) [] [] (' ' :: '(' :: (c ++ ')' :: [])) = .ok ([' '], [c], []) := by
      intro n
      rw [gotoNextLoop, if_pos (by decide), gotoNextLoop, if_neg (by decide), if_pos rfl, getComment_text c [] hc]
      simp only [except_bind_ok]
      rfl
    rw [e, gotoNext]
    have hlen : (' ' :: '(' :: (c ++ ')' :: [])).length + 1 = (c.length + 1) + 3 := by simp
    rw [hlen, hl]
    exact ⟨_, rfl⟩

theorem finish_tail (result : List (Str × Str)) (c : Str) (hc : c = [] ∨ CommentText c) :
    finishAddress result [] (commentTail c) = .ok (result, if c = [] then [] else [c], []) := by
  obtain ⟨ws, h⟩ := gotoNext_tail c hc
  unfold finishAddress
  simp only [h, except_bind_ok]

theorem join_tail (c : Str) : pyJoin [' '] (if c = [] then [] else [c]) = c := by
  by_cases h : c = []
  · rw [if_pos h, h]; rfl
  · rw [if_neg h]; rfl

theorem removeLoop_none (p : Str) : ∀ (fuel : Nat) (s : Str), ¬ p <:+: s → removeLoop p fuel s = s := by
  intro fuel
  induction fuel with
  | zero => intro s _; rfl
  | succ fuel ih =>
    intro s h
    cases s with
    | nil => rfl
    | cons c s =>
      rw [removeLoop, if_neg, ih s fun hs => h (hs.trans (List.suffix_cons c s).isInfix)]
      intro hp
      exact h (List.isPrefixOf_iff_prefix.mp hp).isInfix

theorem removeAll_none {name c : Str} (h : CommentFor name c) : removeAllOcc c name = name := by
  unfold removeAllOcc
  rcases h with rfl | h
  · rw [if_pos rfl]
  · rw [if_neg h.1.1, removeLoop_none _ _ _ h.2]

theorem comment_text {name c : Str} (h : CommentFor name c) : c = [] ∨ CommentText c := h.imp id And.left

/-! ### The three forms `_make_user_id` writes -/

theorem parse_words_any (ws : List Str) (hw : ∀ w ∈ ws, NameWord w) (loc dom c : Str) (hl : AddrText loc) (hne : loc ≠ []) (hd : AddrText dom)
    (hc : c = [] ∨ CommentText c) :
    parseUserId (nameText ws ++ ('<' :: (loc ++ '@' :: (dom ++ '>' :: commentTail c)))) = .ok (pyStrip (removeAllOcc c (pyJoin [' '] ws)), loc ++ '@' :: dom, c) := by
  have hgo : gotoNext [] (nameText ws ++ ('<' :: (loc ++ '@' :: (dom ++ '>' :: commentTail c)))) =
      .ok ([], [], nameText ws ++ ('<' :: (loc ++ '@' :: (dom ++ '>' :: commentTail c)))) := by
    rcases nameText_head ws ('<' :: (loc ++ '@' :: (dom ++ '>' :: commentTail c))) hw with h | ⟨c, t, h, hc⟩
    · rw [h]; exact gotoNext_stay _ _ _ (by decide) (by decide)
    · rw [h]; exact gotoNext_plain _ _ _ hc
  have hph := (phraseReads_name hw (phraseReads_stop [] '<' (loc ++ '@' :: (dom ++ '>' :: commentTail c)) (Or.inl rfl))).get
  rw [List.append_nil] at hph
  unfold parseUserId
  rw [getAddress]
  simp only [hgo, hph, except_bind_ok, gotoNext_stay [] '<' (loc ++ '@' :: (dom ++ '>' :: commentTail c)) (by decide) (by decide)]
  rw [if_neg (by decide), if_neg (by decide), if_pos trivial]
  simp only [getRouteAddr_tail [] loc dom _ hl hne hd, except_bind_ok, finish_tail _ c hc, join_tail]
  simp only [routeName, if_true]

theorem parse_words (ws : List Str) (hw : ∀ w ∈ ws, NameWord w) (loc dom c : Str) (hl : AddrText loc) (hne : loc ≠ []) (hd : AddrText dom)
    (hc : CommentFor (pyJoin [' '] ws) c) :
    parseUserId (nameText ws ++ ('<' :: (loc ++ '@' :: (dom ++ '>' :: commentTail c)))) = .ok (pyJoin [' '] ws, loc ++ '@' :: dom, c) := by
  rw [parse_words_any ws hw loc dom c hl hne hd (comment_text hc), removeAll_none hc, pyStrip_join ws hw]

theorem parse_quoted (w s : Str) (h : Escaped ['"', '\\', '\r'] w s) (hs : pyStrip s = s) (loc dom c : Str) (hl : AddrText loc) (hne : loc ≠ []) (hd : AddrText dom)
    (hc : CommentFor s c) :
    parseUserId ('"' :: (w ++ '"' :: (' ' :: '<' :: (loc ++ '@' :: (dom ++ '>' :: commentTail c))))) = .ok (s, loc ++ '@' :: dom, c) := by
  have hq : ∀ t, getQuote ('"' :: (w ++ '"' :: t)) = .ok (s, t) := by
    intro t
    rw [getQuote, getDelimited, if_neg (by decide),
      delimLoop_escaped (by decide) (by decide) (by decide) (by decide) (by decide) h t _ [] (by omega), List.nil_append]
  have hst : PhraseReads [] (' ' :: '<' :: (loc ++ '@' :: (dom ++ '>' :: commentTail c))) [] [] ('<' :: (loc ++ '@' :: (dom ++ '>' :: commentTail c))) :=
    phraseReads_space (phraseReads_stop [] '<' (loc ++ '@' :: (dom ++ '>' :: commentTail c)) (Or.inl rfl))
  have hph : PhraseReads [] ('"' :: (w ++ '"' :: (' ' :: '<' :: (loc ++ '@' :: (dom ++ '>' :: commentTail c))))) [s] []
      ('<' :: (loc ++ '@' :: (dom ++ '>' :: commentTail c))) := by
    intro fuel pl hf
    cases fuel with
    | zero => omega
    | succ fuel =>
      rw [phraseLoop, if_neg (by decide), if_pos rfl]
      simp only [hq, except_bind_ok]
      rw [hst fuel (pl ++ [s]) (by simp only [List.length_cons, List.length_append] at hf ⊢; omega)]
      simp
  unfold parseUserId
  rw [getAddress]
  simp only [gotoNext_stay [] '"' _ (show isFws '"' = false by decide) (by decide), hph.get, except_bind_ok,
    gotoNext_stay [] '<' (loc ++ '@' :: (dom ++ '>' :: commentTail c)) (by decide) (by decide)]
  rw [if_neg (by decide), if_neg (by decide), if_pos trivial]
  simp only [getRouteAddr_tail [] loc dom _ hl hne hd, except_bind_ok, finish_tail _ c (comment_text hc), join_tail]
  simp only [routeName, if_true, pyJoin, removeAll_none hc, hs]

/-- A domain read up to a character that ends atoms. -/
theorem domainLoop_reads : ∀ (n : Nat) (dom : Str), dom.length ≤ n → AddrText dom → ∀ (fuel : Nat) (sd : Str) (cl : List Str) (rest : Str),
    (dom ++ rest).length < fuel → (∀ c t, rest = c :: t → isAtomEnd c = true) →
    ∃ fuel', rest.length < fuel' ∧ domainLoop fuel sd cl (dom ++ rest) = domainLoop fuel' (sd ++ dom) cl rest := by
  intro n
  induction n with
  | zero =>
    intro dom hl _ fuel sd cl rest hf hr
    obtain rfl : dom = [] := List.length_eq_zero_iff.mp (by omega)
    exact ⟨fuel, hf, by simp⟩
  | succ n ih =>
    intro dom hl hdom fuel sd cl rest hf hr
    cases fuel with
    | zero => omega
    | succ fuel =>
    cases dom with
    | nil => exact ⟨fuel + 1, hf, by simp⟩
    | cons c s =>
      have hc : AddrChar c := hdom c (by simp)
      have hs : AddrText s := fun x hx => hdom x (by simp [hx])
      simp only [List.length_cons] at hl
      simp only [List.cons_append, List.length_cons] at hf
      have hsp : ¬ (c = ' ' ∨ c = '\t') := by
        have := hc.not_fws
        rintro (rfl | rfl) <;> exact absurd this (by decide)
      rw [List.cons_append, domainLoop, if_neg hsp, if_neg (hc.ne '(' (by decide)), if_neg (hc.ne '[' (by decide))]
      by_cases hd : c = '.'
      · rw [if_pos hd]
        obtain ⟨f, hf', e⟩ := ih s (by omega) hs fuel (sd ++ ['.']) cl rest (by omega) hr
        exact ⟨f, hf', by rw [e, hd]; simp⟩
      · obtain ⟨a, b, e, ha, hb⟩ := split_dot (c :: s)
        have hane : a ≠ [] := by
          rintro rfl
          exact hd (hb c s (by simpa using e.symm))
        have hpa : ∀ x ∈ a, AddrChar x := fun x hx => hdom x (by rw [e]; simp [hx])
        have hpb : AddrText b := fun x hx => hdom x (by rw [e]; simp [hx])
        have hat : getAtom isAtomEnd (c :: (s ++ rest)) = (a, b ++ rest) := by
          have : c :: (s ++ rest) = a ++ (b ++ rest) := by rw [← List.cons_append, e, List.append_assoc]
          rw [this]
          refine getAtom_append _ _ _ (fun x hx => (hpa x hx).atomEnd (ha x hx)) ?_
          intro x y exy
          cases b with
          | nil => exact hr x y exy
          | cons z b' =>
            simp only [List.cons_append, List.cons.injEq] at exy
            rw [← exy.1, hb z b' rfl]; decide
        have hlen : a.length + b.length = s.length + 1 := by
          have := congrArg List.length e
          simp only [List.length_cons, List.length_append] at this
          omega
        have hapos := List.length_pos_iff.mpr hane
        rw [if_neg hd, if_neg (by rw [hc.atomEnd hd]; decide)]
        simp only [hat]
        obtain ⟨f, hf', e'⟩ := ih b (by omega) hpb fuel (sd ++ a) cl rest (by simp only [List.length_append] at hf ⊢; omega) hr
        exact ⟨f, hf', by rw [e', e, List.append_assoc]⟩

theorem getAddrSpec_tail (loc dom c : Str) (hl : AddrText loc) (hne : loc ≠ []) (hd : AddrText dom) (hc : c = [] ∨ CommentText c) :
    getAddrSpec [] (loc ++ '@' :: (dom ++ commentTail c)) = .ok (loc ++ '@' :: dom, if c = [] then [] else [c], []) := by
  rcases hc with rfl | hc
  · have := getAddrSpec_text [] loc dom [] hl hd (Or.inl rfl)
    simpa [commentTail] using this
  · have hgo : gotoNext [] (loc ++ '@' :: (dom ++ commentTail c)) = .ok ([], [], loc ++ '@' :: (dom ++ commentTail c)) := by
      cases loc with
      | nil => exact absurd rfl hne
      | cons x s => exact gotoNext_plain _ _ _ (hl x (by simp))
    have et : commentTail c = ' ' :: '(' :: (c ++ ')' :: []) := by rw [commentTail, if_neg hc.1]; simp
    unfold getAddrSpec
    simp only [hgo, except_bind_ok]
    obtain ⟨as', h1, h2⟩ := addrSpecLoop_local loc.length loc (Nat.le_refl _) hl ((loc ++ '@' :: (dom ++ commentTail c)).length + 1) [] []
      (dom ++ commentTail c) (by omega) (by simp)
    simp only [h1, except_bind_ok, if_neg hc.1]
    -- the domain, with or without characters
    have hcom : ∀ f sd, (commentTail c).length < f → domainLoop f sd [] (commentTail c) = .ok (sd, [c], []) := by
      intro f sd hf
      rw [et] at hf ⊢
      obtain ⟨f, rfl⟩ : ∃ g, f = g + 3 := ⟨f - 3, by simp only [List.length_cons, List.length_append] at hf; omega⟩
      rw [domainLoop, if_pos (Or.inl rfl), domainLoop, if_neg (by decide), if_pos rfl, getComment_text c [] hc]
      simp only [except_bind_ok]
      rfl
    cases hdom : dom with
    | nil =>
      have hg : gotoNext [] (commentTail c) = .ok ([' '], [c], []) := by
        rw [et, gotoNext]
        have hlen : (' ' :: '(' :: (c ++ ')' :: [])).length + 1 = (c.length + 1) + 3 := by simp
        rw [hlen, gotoNextLoop, if_pos (by decide), gotoNextLoop, if_neg (by decide), if_pos rfl, getComment_text c [] hc]
        simp only [except_bind_ok]
        rfl
      simp only [addrSpecEnd, List.nil_append, hg, except_bind_ok, getDomain]
      simp only [domainLoop, except_bind_ok, except_pure, h2]
      simp
    | cons x s =>
      rw [← hdom]
      have hg : gotoNext [] (dom ++ commentTail c) = .ok ([], [], dom ++ commentTail c) := by
        rw [hdom]
        exact gotoNext_plain _ _ _ (hd x (by rw [hdom]; simp))
      simp only [addrSpecEnd, hg, except_bind_ok, getDomain]
      obtain ⟨f, hf, e⟩ := domainLoop_reads dom.length dom (Nat.le_refl _) hd ((dom ++ commentTail c).length + 1) [] [] (commentTail c) (by omega) (by
        intro c' t e
        rw [et] at e
        simp only [List.cons.injEq] at e
        rw [← e.1]; decide)
      rw [e, hcom f _ hf]
      simp only [except_bind_ok, except_pure, h2]
      simp

theorem pyStrip_nil : pyStrip [] = [] := rfl

theorem removeAll_self (c : Str) : removeAllOcc c c = [] := by
  unfold removeAllOcc
  cases c with
  | nil => rfl
  | cons x c =>
    rw [if_neg (by simp), List.length_cons, removeLoop, if_pos (by simp), List.drop_of_length_le (by simp)]
    cases c.length <;> rfl

theorem parse_bare (loc dom c : Str) (hl : AddrText loc) (hne : loc ≠ []) (hd : AddrText dom) (hc : c = [] ∨ CommentText c) :
    parseUserId (loc ++ '@' :: (dom ++ commentTail c)) = .ok ([], loc ++ '@' :: dom, c) := by
  have hgo : gotoNext [] (loc ++ '@' :: (dom ++ commentTail c)) = .ok ([], [], loc ++ '@' :: (dom ++ commentTail c)) := by
    cases loc with
    | nil => exact absurd rfl hne
    | cons x s => exact gotoNext_plain _ _ _ (hl x (by simp))
  have hph := (phraseReads_word (cl := []) ⟨hne, hl⟩ (rest := '@' :: (dom ++ commentTail c)) (by
    intro c t e
    simp only [List.cons.injEq] at e
    rw [← e.1]; decide) (phraseReads_stop [] '@' (dom ++ commentTail c) (Or.inr rfl))).get
  unfold parseUserId
  rw [getAddress]
  simp only [hgo, hph, except_bind_ok, gotoNext_stay [] '@' (dom ++ commentTail c) (by decide) (by decide)]
  rw [if_pos (Or.inr trivial)]
  simp only [getAddrSpec_tail loc dom c hl hne hd hc, except_bind_ok, finishAddress, gotoNext_nil, join_tail, removeAll_self, pyStrip_nil]

/-! ### Writing and reading -/

theorem isAscii_iff (s : Str) : isAscii s = true ↔ AsciiText s := by
  unfold isAscii AsciiText
  rw [List.all_eq_true]
  simp only [decide_eq_true_eq]

theorem mem_specials (c : Char) : c ∈ addrSpecials ↔ c ∈ "[]()<>@,:;.\\\"".toList := by
  have e1 : addrSpecials = [']', '[', '\\', '(', ')', '<', '>', '@', ',', ':', ';', '"', '.'] := by decide +kernel
  have e2 : "[]()<>@,:;.\\\"".toList = ['[', ']', '(', ')', '<', '>', '@', ',', ':', ';', '.', '\\', '"'] := by decide +kernel
  rw [e1, e2]
  simp only [List.mem_cons, List.not_mem_nil, or_false]
  tauto

theorem escape_escaped {s : Str} (h : '\r' ∉ s) : Escaped ['"', '\\', '\r'] (escapeName s) s := by
  induction s with
  | nil => exact .nil
  | cons c s ih =>
    have ih' := ih fun hm => h (by simp [hm])
    have hr : c ≠ '\r' := fun e => h (by simp [e])
    by_cases hc : c = '\\' ∨ c = '"'
    · rw [show escapeName (c :: s) = '\\' :: c :: escapeName s by simp [escapeName, hc]]
      exact .escaped ih'
    · rw [show escapeName (c :: s) = c :: escapeName s by simp [escapeName, hc]]
      refine .plain ?_ ih'
      simp only [not_or] at hc
      simp [hc, hr]

theorem escape_plain {s : Str} (h : s.any (· ∈ addrSpecials) = false) : escapeName s = s := by
  induction s with
  | nil => rfl
  | cons c s ih =>
    rw [List.any_cons, Bool.or_eq_false_iff, decide_eq_false_iff_not] at h
    have hc : ¬ (c = '\\' ∨ c = '"') := by
      rintro (rfl | rfl)
      · exact h.1 (by decide +kernel)
      · exact h.1 (by decide +kernel)
    rw [show escapeName (c :: s) = c :: escapeName s by simp [escapeName, hc], ih h.2]

theorem nameText_join {ws : List Str} (h : ws ≠ []) : nameText ws = pyJoin [' '] ws ++ [' '] := by
  induction ws with
  | nil => exact absurd rfl h
  | cons w ws ih =>
    cases ws with
    | nil => simp [nameText, pyJoin]
    | cons v ws =>
      have := ih (by simp)
      rw [nameText, List.flatMap_cons, ← nameText, this]
      simp [pyJoin]

theorem join_noCR {ws : List Str} (hw : ∀ w ∈ ws, NameWord w) : '\r' ∉ pyJoin [' '] ws := by
  induction ws with
  | nil => decide
  | cons w ws ih =>
    have h0 : '\r' ∉ w := fun hm => absurd ((hw w (by simp)).2 _ hm).1 (by decide)
    cases ws with
    | nil => exact h0
    | cons v ws =>
      have := ih fun x hx => hw x (by simp [hx])
      simp only [pyJoin, List.mem_append, not_or] at this ⊢
      exact ⟨⟨h0, by decide⟩, this⟩

/-- C90 (part that holds): a user id made of a name, an address and a comment is read back as these three. -/
theorem C90_made_is_read_partial (enc : Str → Str) (name email c : Str) (hn : PlainName name) (he : PlainAddress email) (hc : CommentFor name c) :
    ∃ s, makeUserId enc name email c = .ok s ∧ parseUserId s = .ok (name, email, c) := by
  obtain ⟨hae, loc, dom, rfl, hne, hl, hd⟩ := he
  have tail : ∀ r : Str, (if c = [] then r else r ++ " (".toList ++ c ++ [')']) = r ++ commentTail c := by
    intro r
    unfold commentTail
    by_cases h : c = []
    · rw [if_pos h, if_pos h, List.append_nil]
    · rw [if_neg h, if_neg h, List.append_assoc, List.append_assoc, List.append_assoc]
  unfold makeUserId formatAddr
  rw [(isAscii_iff _).mpr hae, if_neg (by decide)]
  by_cases h0 : name = []
  · rw [if_pos h0]
    simp only [except_bind_ok, except_pure, tail]
    refine ⟨_, rfl, ?_⟩
    rw [List.append_assoc, List.cons_append, parse_bare loc dom c hl hne hd (comment_text hc), h0]
  · rw [if_neg h0, (isAscii_iff _).mpr hn.ascii, if_neg (by decide)]
    simp only [except_bind_ok, except_pure, tail]
    refine ⟨_, rfl, ?_⟩
    cases hs : name.any (· ∈ addrSpecials) with
    | true =>
      have hq : nameQuotes name = ['"'] := by unfold nameQuotes; rw [hs, if_pos rfl]
      have hgood : '\r' ∉ name ∧ pyStrip name = name := by
        rcases hn.form with h | ⟨ws, _, hw, rfl⟩ | ⟨_, h⟩
        · exact absurd h h0
        · exact ⟨join_noCR hw, pyStrip_join ws hw⟩
        · exact h
      have := parse_quoted (escapeName name) name (escape_escaped hgood.1) hgood.2 loc dom c hl hne hd hc
      rw [hq]
      refine Eq.trans (congrArg parseUserId ?_) this
      simp
    | false =>
      have hq : nameQuotes name = [] := by unfold nameQuotes; rw [hs, if_neg (by decide)]
      rcases hn.form with h | ⟨ws, hws, hw, rfl⟩ | ⟨⟨x, hx, hx'⟩, _⟩
      · exact absurd h h0
      · have := parse_words ws hw loc dom c hl hne hd hc
        rw [hq, escape_plain hs]
        refine Eq.trans (congrArg parseUserId ?_) this
        rw [nameText_join hws]
        simp
      · rw [List.any_eq_false] at hs
        exact absurd (decide_eq_true ((mem_specials x).mpr hx')) (hs x hx)

example : makeUserId id "Smith, J.".toList "j@b.org".toList "work".toList = .ok "\"Smith, J.\" <j@b.org> (work)".toList := by decide +kernel
theorem exEditName : PlainName "Smith, J.".toList := by
  refine ⟨?_, .inr (.inr ⟨⟨',', ?_⟩, ?_, ?_⟩)⟩
  · unfold AsciiText; decide +kernel
  all_goals decide +kernel
theorem exEditAddress : PlainAddress "j@b.org".toList := by
  refine ⟨?_, "j".toList, "b.org".toList, ?_, ?_, ?_, ?_⟩
  · unfold AsciiText; decide +kernel
  · decide +kernel
  · decide
  · unfold AddrText; decide +kernel
  · unfold AddrText; decide +kernel
theorem exEditComment : CommentFor "Smith, J.".toList "work".toList := by
  refine .inr ⟨?_, ?_⟩
  · unfold CommentText; decide +kernel
  · decide +kernel
example := C90_made_is_read_partial id _ _ _ exEditName exEditAddress exEditComment

/-! ### The setters -/

/-- The three parts of a user id as the attributes report them. -/
def Parts (s name email comment : Str) : Prop := userName s = .ok name ∧ userEmail s = .ok email ∧ userComment s = .ok comment

theorem parts_of {s n e c : Str} (h : parseUserId s = .ok (n, e, c)) : Parts s n e c := by
  refine ⟨?_, ?_, ?_⟩
  · unfold userName; rw [h]; rfl
  · unfold userEmail; rw [h]; rfl
  · unfold userComment; rw [h]; rfl

/-- C90 (part that holds): setting the name changes the name and keeps the address and the comment. -/
theorem C90_set_name_partial (enc : Str → Str) (s name n e c : Str) (h : Parts s n e c) (hn : PlainName name) (he : PlainAddress e) (hc : CommentFor name c) :
    ∃ s', setUserName enc s name = .ok s' ∧ Parts s' name e c := by
  obtain ⟨s', h1, h2⟩ := C90_made_is_read_partial enc name e c hn he hc
  refine ⟨s', ?_, parts_of h2⟩
  unfold setUserName
  simp only [h.2.1, h.2.2, except_bind_ok, h1]

/-- C90 (part that holds): setting the address changes the address and keeps the name and the comment. -/
theorem C90_set_email_partial (enc : Str → Str) (s email n e c : Str) (h : Parts s n e c) (hn : PlainName n) (he : PlainAddress email) (hc : CommentFor n c) :
    ∃ s', setUserEmail enc s email = .ok s' ∧ Parts s' n email c := by
  obtain ⟨s', h1, h2⟩ := C90_made_is_read_partial enc n email c hn he hc
  refine ⟨s', ?_, parts_of h2⟩
  unfold setUserEmail
  simp only [h.1, h.2.2, except_bind_ok, h1]

/-- C90 (part that holds): setting the comment changes the comment and keeps the name and the address. -/
theorem C90_set_comment_partial (enc : Str → Str) (s comment n e c : Str) (h : Parts s n e c) (hn : PlainName n) (he : PlainAddress e) (hc : CommentFor n comment) :
    ∃ s', setUserComment enc s comment = .ok s' ∧ Parts s' n e comment := by
  obtain ⟨s', h1, h2⟩ := C90_made_is_read_partial enc n e comment hn he hc
  refine ⟨s', ?_, parts_of h2⟩
  unfold setUserComment
  simp only [h.1, h.2.1, except_bind_ok, h1]

theorem exEditParts : Parts "\"Smith, J.\" <j@b.org> (work)".toList "Smith, J.".toList "j@b.org".toList "work".toList := parts_of (by decide +kernel)
example := C90_set_name_partial id _ [] _ _ _ exEditParts ⟨nofun, .inl rfl⟩ exEditAddress (.inr ⟨by unfold CommentText; decide +kernel, by decide⟩)
example := C90_set_email_partial id _ "j@b.org".toList _ _ _ exEditParts exEditName exEditAddress exEditComment
example := C90_set_comment_partial id _ [] _ _ _ exEditParts exEditName exEditAddress (.inl rfl)

/-! ### What fails -/

/-- C90 fails: setting the address of the conventional `Name (comment) <address>` does not keep the form: the name comes to contain the empty parentheses. -/
theorem C90_conventional_refuted (enc : Str → Str) (ws : List Str) (hw : ∀ w ∈ ws, NameWord w) (hws : ws ≠ []) (x : Char) (c : Str) (hc : CommentText (x :: c))
    (hx : x ∉ pyJoin [' '] ws) (hsp : x ≠ ' ') (loc dom email : Str) (hl : AddrText loc) (hne : loc ≠ []) (hd : AddrText dom) (ha : AsciiText (pyJoin [' '] ws))
    (he : AsciiText email) :
    setUserEmail enc (commentId ws (x :: c) loc dom) email =
      .ok ('"' :: escapeName (pyJoin [' '] ws) ++ " ()\" <".toList ++ email ++ "> (".toList ++ x :: c ++ [')']) := by
  obtain ⟨h1, h2, h3⟩ := parts_of (C58_commented_name_is ws hw hws x c hc hx hsp loc dom hl hne hd)
  unfold setUserEmail
  simp only [h1, h3, except_bind_ok]
  unfold makeUserId formatAddr
  have hn : AsciiText (pyJoin [' '] ws ++ " ()".toList) := by
    intro y hy
    rcases List.mem_append.mp hy with hy | hy
    · exact ha y hy
    · have : ∀ y ∈ " ()".toList, y.toNat < 128 := by decide +kernel
      exact this y hy
  rw [(isAscii_iff _).mpr he, if_neg (by decide), if_neg (by simp), (isAscii_iff _).mpr hn, if_neg (by decide)]
  simp only [except_bind_ok, except_pure, if_neg (List.cons_ne_nil x c)]
  have hq : nameQuotes (pyJoin [' '] ws ++ " ()".toList) = ['"'] := by
    unfold nameQuotes
    rw [if_pos]
    rw [List.any_append, Bool.or_eq_true]
    exact .inr (by decide +kernel)
  have hes : escapeName (pyJoin [' '] ws ++ " ()".toList) = escapeName (pyJoin [' '] ws) ++ " ()".toList := by
    unfold escapeName
    rw [List.flatMap_append]; rfl
  rw [hq, hes]
  simp

example : setUserEmail id "Alice (work) <a@b.org>".toList "a@c.org".toList = .ok "\"Alice ()\" <a@c.org> (work)".toList := by decide +kernel

/-- C90 fails: setting the address of a user id that is only a name loses the name. -/
theorem C90_name_only_refuted (enc : Str → Str) (w : Str) (ws : List Str) (hw : ∀ v ∈ w :: ws, NameWord v) (email : Str) (he : AsciiText email) :
    setUserEmail enc (pyJoin [' '] (w :: ws)) email = .ok email := by
  obtain ⟨h1, h2, h3⟩ := parts_of (C58_name_only_refuted w ws hw)
  unfold setUserEmail
  simp only [h1, h3, except_bind_ok]
  unfold makeUserId formatAddr
  rw [(isAscii_iff _).mpr he, if_neg (by decide), if_pos rfl]
  rfl

example : setUserEmail id "Alice Smith".toList "a@c.org".toList = .ok "a@c.org".toList := by decide +kernel

/-- C90 fails: a name that is not ASCII is replaced by its encoded word, whatever the encoding, and reported in that form. -/
theorem C90_non_ascii_refuted (enc : Str → Str) (s name n e c : Str) (h : Parts s n e c) (hn : ¬ AsciiText name) (hw : NameWord (enc name)) (hea : AsciiText (enc name))
    (he : PlainAddress e) (hc : CommentFor (enc name) c) :
    ∃ s', setUserName enc s name = .ok s' ∧ Parts s' (enc name) e c ∧ enc name ≠ name := by
  obtain ⟨hae, loc, dom, rfl, hne, hl, hd⟩ := he
  have h0 : name ≠ [] := fun e => hn (by rw [e]; exact nofun)
  have hp := parse_words [enc name] (fun w hw' => by rw [List.mem_singleton.mp hw']; exact hw) loc dom c hl hne hd hc
  refine ⟨_, ?_, parts_of hp, fun e => hn (e ▸ hea)⟩
  unfold setUserName
  simp only [h.2.1, h.2.2, except_bind_ok]
  unfold makeUserId formatAddr
  have hna : isAscii name = false := by
    rw [Bool.eq_false_iff]
    exact fun h => hn ((isAscii_iff _).mp h)
  rw [(isAscii_iff _).mpr hae, if_neg (by decide), if_neg h0, hna, if_pos (by decide)]
  simp only [except_bind_ok, except_pure]
  unfold commentTail
  by_cases hc0 : c = []
  · rw [if_pos hc0, if_pos hc0]; simp [nameText]
  · rw [if_neg hc0, if_neg hc0]; simp [nameText]

example := C90_non_ascii_refuted (fun _ => "=?utf8?b?w6k=?=".toList) _ "é".toList _ _ _ exEditParts (fun h => absurd (h 'é' (by decide +kernel)) (by decide +kernel))
  (by unfold NameWord; decide +kernel) (by unfold AsciiText; decide +kernel) exEditAddress (.inr ⟨by unfold CommentText; decide +kernel, by decide +kernel⟩)

/-- C90: an address that is not ASCII is refused, and the user id is not changed. -/
theorem C90_non_ascii_email_raises (enc : Str → Str) (s email n e c : Str) (h : Parts s n e c) (he : ¬ AsciiText email) : setUserEmail enc s email = .error .unicodeError := by
  unfold setUserEmail
  simp only [h.1, h.2.2, except_bind_ok]
  unfold makeUserId formatAddr
  have hna : isAscii email = false := by
    rw [Bool.eq_false_iff]
    exact fun h => he ((isAscii_iff _).mp h)
  rw [hna, if_pos (by decide)]
  rfl

example := C90_non_ascii_email_raises id _ "é@b.org".toList _ _ _ exEditParts (fun h => absurd (h 'é' (by decide +kernel)) (by decide +kernel))

theorem removeLoop_le (p : Str) : ∀ (fuel : Nat) (s : Str), (removeLoop p fuel s).length ≤ s.length := by
  intro fuel
  induction fuel with
  | zero => intro s; exact Nat.le_refl _
  | succ fuel ih =>
    intro s
    cases s with
    | nil => exact Nat.le_refl _
    | cons c s =>
      rw [removeLoop]
      split
      · exact Nat.le_trans (ih _) (by rw [List.length_drop]; omega)
      · have := ih s
        simp only [List.length_cons]; omega

theorem removeLoop_shorter (p : Str) (hp : p ≠ []) : ∀ (fuel : Nat) (s : Str), s.length ≤ fuel → p <:+: s → (removeLoop p fuel s).length < s.length := by
  intro fuel
  induction fuel with
  | zero =>
    intro s hf hin
    obtain rfl : s = [] := List.length_eq_zero_iff.mp (by omega)
    exact absurd (List.infix_nil.mp hin) hp
  | succ fuel ih =>
    intro s hf hin
    cases s with
    | nil => exact absurd (List.infix_nil.mp hin) hp
    | cons c s =>
      rw [removeLoop]
      split
      · have := removeLoop_le p fuel ((c :: s).drop p.length)
        have hpos := List.length_pos_iff.mpr hp
        rw [List.length_drop] at this
        simp only [List.length_cons] at this ⊢; omega
      · rename_i hn
        rcases List.infix_cons_iff.mp hin with h | h
        · exact absurd (List.isPrefixOf_iff_prefix.mpr h) hn
        · have := ih s (by simp only [List.length_cons] at hf; omega) h
          simp only [List.length_cons]; omega

theorem pyStrip_le (s : Str) : (pyStrip s).length ≤ s.length := by
  unfold pyStrip
  rw [List.length_reverse]
  refine Nat.le_trans (List.dropWhile_suffix _).length_le ?_
  rw [List.length_reverse]
  exact (List.dropWhile_suffix _).length_le

/-- C90 fails: a comment that occurs in the name is cut out of the name. -/
theorem C90_comment_in_name_refuted (enc : Str → Str) (ws : List Str) (hws : ws ≠ []) (hw : ∀ w ∈ ws, NameWord w) (hs : ∀ w ∈ ws, '.' ∉ w ∧ '\\' ∉ w)
    (ha : AsciiText (pyJoin [' '] ws)) (email c : Str) (he : PlainAddress email) (hc : CommentText c) (hin : c <:+: pyJoin [' '] ws) :
    ∃ s n, makeUserId enc (pyJoin [' '] ws) email c = .ok s ∧ Parts s n email c ∧ n.length < (pyJoin [' '] ws).length := by
  obtain ⟨hae, loc, dom, rfl, hne, hl, hd⟩ := he
  refine ⟨_, _, ?_, parts_of (parse_words_any ws hw loc dom c hl hne hd (.inr hc)), ?_⟩
  · have h0 : pyJoin [' '] ws ≠ [] := by
      intro e
      rw [e] at hin
      exact hc.1 (List.infix_nil.mp hin)
    have hsp : (pyJoin [' '] ws).any (· ∈ addrSpecials) = false := by
      rw [List.any_eq_false]
      have : ∀ ws : List Str, (∀ w ∈ ws, NameWord w) → (∀ w ∈ ws, '.' ∉ w ∧ '\\' ∉ w) → ∀ x ∈ pyJoin [' '] ws, x ∉ addrSpecials := by
        intro ws
        induction ws with
        | nil => intro _ _ x hx; exact absurd hx (by simp [pyJoin])
        | cons w ws ih =>
          intro hw hs
          have one : ∀ x ∈ w, x ∉ addrSpecials := by
            intro x hx hxs
            have h1 := ((hw w (by simp)).2 x hx).2
            have h2 := hs w (by simp)
            rw [mem_specials] at hxs
            have e2 : "[]()<>@,:;.\\\"".toList = ['[', ']', '(', ')', '<', '>', '@', ',', ':', ';', '.', '\\', '"'] := by decide +kernel
            have e3 : "()<>@,:;\"[]".toList = ['(', ')', '<', '>', '@', ',', ':', ';', '"', '[', ']'] := by decide +kernel
            rw [e2] at hxs
            rw [e3] at h1
            by_cases d1 : x = '.'
            · exact h2.1 (d1 ▸ hx)
            by_cases d2 : x = '\\'
            · exact h2.2 (d2 ▸ hx)
            simp only [List.mem_cons, List.not_mem_nil, or_false] at hxs h1
            tauto
          cases ws with
          | nil => exact one
          | cons v ws =>
            have ih' := ih (fun x hx => hw x (by simp [hx])) fun x hx => hs x (by simp [hx])
            intro x hx
            simp only [pyJoin, List.mem_append] at hx ih'
            rcases hx with (hx | hx) | hx
            · exact one x hx
            · rw [List.mem_singleton.mp hx]; decide +kernel
            · exact ih' x hx
      intro x hx
      simpa using this ws hw hs x hx
    unfold makeUserId formatAddr
    rw [(isAscii_iff _).mpr hae, if_neg (by decide), if_neg h0, (isAscii_iff _).mpr ha, if_neg (by decide)]
    have hq : nameQuotes (pyJoin [' '] ws) = [] := by unfold nameQuotes; rw [hsp, if_neg (by decide)]
    simp only [except_bind_ok, except_pure, hq, escape_plain hsp]
    rw [if_neg hc.1, commentTail, if_neg hc.1, nameText_join hws]
    simp
  · refine Nat.lt_of_le_of_lt (pyStrip_le _) ?_
    unfold removeAllOcc
    rw [if_neg hc.1]
    exact removeLoop_shorter c hc.1 _ _ (Nat.le_refl _) hin

example : makeUserId id "Bobby".toList "b@c.org".toList "b".toList = .ok "Bobby <b@c.org> (b)".toList ∧ Parts "Bobby <b@c.org> (b)".toList "Boy".toList "b@c.org".toList "b".toList :=
  ⟨by decide +kernel, parts_of (by decide +kernel)⟩

/-- C90 fails: white space between the words of a name that needs no quotation marks is not kept. -/
theorem C90_spaces_refuted : ∃ s, makeUserId id "A  B".toList "a@b.org".toList [] = .ok s ∧ Parts s "A B".toList "a@b.org".toList [] :=
  ⟨"A  B <a@b.org>".toList, by decide +kernel, parts_of (by decide +kernel)⟩

end Pgp.Props
