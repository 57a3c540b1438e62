import Verif.Lemmas.UserId
import Verif.Lemmas.Hkp
import Verif.Spec.UserId
/-
What the user id parser makes of the conventional forms of a user id.
-/
namespace Pgp
open Spec

/-- The characters of a name word and of an address part. -/
def AddrChar (c : Char) : Prop := isPySpace c = false ∧ c ∉ "()<>@,:;\"[]".toList

theorem fws_space {c : Char} (h : isFws c = true) : isPySpace c = true := by
  simp only [isFws, Bool.or_eq_true, decide_eq_true_eq] at h
  rcases h with ((rfl | rfl) | rfl) | rfl <;> decide

theorem AddrChar.not_fws {c : Char} (h : AddrChar c) : isFws c = false := by
  rw [Bool.eq_false_iff]
  intro hf
  have := h.1
  rw [fws_space hf] at this
  exact absurd this (by decide)

theorem AddrChar.ne {c : Char} (h : AddrChar c) (d : Char) (hd : d ∈ "()<>@,:;\"[]".toList) : c ≠ d := by
  rintro rfl
  exact h.2 hd

theorem AddrChar.special {c : Char} (h : AddrChar c) (hs : c ∈ specials) : c = '.' := by
  have h2 := h.2
  simp only [specials, List.mem_cons, List.not_mem_nil, or_false] at hs
  rcases hs with rfl | rfl | rfl | rfl | rfl | rfl | rfl | rfl | rfl | rfl | rfl | rfl <;>
    first
    | rfl
    | exact absurd h2 (by decide)

theorem AddrChar.not_phraseEnd {c : Char} (h : AddrChar c) : isPhraseEnd c = false := by
  rw [Bool.eq_false_iff]
  intro hp
  have hs := phraseEnd_special hp h.not_fws
  rw [h.special hs] at hp
  exact absurd hp (by decide)

theorem AddrChar.atomEnd {c : Char} (h : AddrChar c) (hd : c ≠ '.') : isAtomEnd c = false := by
  rw [Bool.eq_false_iff]
  intro hp
  simp only [isAtomEnd, Bool.or_eq_true, decide_eq_true_eq, h.not_fws, Bool.false_eq_true, or_false] at hp
  exact hd (h.special hp)

theorem getAtom_append (isEnd : Char → Bool) (a : Str) (rest : Str) (ha : ∀ c ∈ a, isEnd c = false)
    (hr : ∀ c t, rest = c :: t → isEnd c = true) : getAtom isEnd (a ++ rest) = (a, rest) := by
  rw [getAtom_eq, List.takeWhile_append_of_pos (by simpa using ha), List.dropWhile_append_of_pos (by simpa using ha)]
  cases rest with
  | nil => simp
  | cons c t => simp [hr c t rfl]

/-- The first run of characters that are not dots. -/
theorem split_dot (s : Str) : ∃ a b, s = a ++ b ∧ (∀ c ∈ a, c ≠ '.') ∧ ∀ c t, b = c :: t → c = '.' := by
  refine ⟨s.takeWhile (· ≠ '.'), s.dropWhile (· ≠ '.'), (List.takeWhile_append_dropWhile ..).symm, ?_, ?_⟩
  · intro c hc
    have := List.all_takeWhile (p := fun c => decide (c ≠ '.')) (l := s)
    rw [List.all_eq_true] at this
    simpa using this c hc
  · intro c t e
    have := List.head?_dropWhile_not (fun c => decide (c ≠ '.')) s
    rw [e] at this
    simpa using this

theorem popBlank_noop (as : List Str) (h : ∀ w ∈ as, isBlank w = false) : popBlank as = as := by
  unfold popBlank
  split
  · rename_i s hs
    rw [if_neg (by rw [h s (List.mem_of_getLast? hs)]; decide)]
  · rfl

theorem addrSpecLoop_local : ∀ (n : Nat) (loc : Str), loc.length ≤ n → AddrText loc → ∀ (fuel : Nat) (as cl : List Str) (t : Str),
    (loc ++ '@' :: t).length < fuel → (∀ w ∈ as, isBlank w = false) →
    ∃ as', addrSpecLoop fuel as cl (loc ++ '@' :: t) = .ok (as', cl, '@' :: t) ∧ as'.flatten = as.flatten ++ loc := by
  intro n
  induction n with
  | zero =>
    intro loc hl _ fuel as cl t hf has
    obtain rfl : loc = [] := List.length_eq_zero_iff.mp (by omega)
    cases fuel with
    | zero => omega
    | succ fuel =>
      refine ⟨as, ?_, by simp⟩
      rw [List.nil_append, addrSpecLoop, if_neg (by decide), if_neg (by decide), if_pos (by decide), popBlank_noop as has]
  | succ n ih =>
    intro loc hl hloc fuel as cl t hf has
    cases fuel with
    | zero => omega
    | succ fuel =>
    cases loc with
    | nil =>
      refine ⟨as, ?_, by simp⟩
      rw [List.nil_append, addrSpecLoop, if_neg (by decide), if_neg (by decide), if_pos (by decide), popBlank_noop as has]
    | cons c s =>
      have hc : AddrChar c := hloc c (by simp)
      have hs : AddrText s := fun x hx => hloc x (by simp [hx])
      simp only [List.length_cons] at hl
      simp only [List.cons_append, List.length_cons] at hf
      by_cases hd : c = '.'
      · rw [List.cons_append, addrSpecLoop, if_pos hd]
        have hgo : gotoNext cl (s ++ '@' :: t) = .ok ([], cl, s ++ '@' :: t) := by
          cases s with
          | nil => exact gotoNext_stay _ _ _ (by decide) (by decide)
          | cons x s' => exact gotoNext_stay _ _ _ (AddrChar.not_fws (hs x (by simp))) (AddrChar.ne (hs x (by simp)) '(' (by decide))
        simp only [hgo, except_bind_ok]
        obtain ⟨as', h1, h2⟩ := ih s (by omega) hs fuel (pushWs (popBlank as ++ [['.']]) false []) cl t (by omega) (by
          intro w hw
          simp only [pushWs, Bool.false_and, Bool.false_eq_true, if_false, popBlank_noop as has, List.mem_append, List.mem_singleton] at hw
          rcases hw with hw | rfl
          · exact has w hw
          · decide)
        refine ⟨as', h1, ?_⟩
        rw [h2]
        simp [pushWs, popBlank_noop as has, hd]
      · obtain ⟨a, b, e, ha, hb⟩ := split_dot (c :: s)
        have hane : a ≠ [] := by
          rintro rfl
          exact hd (hb c s (by simpa using e.symm))
        have hpa : ∀ x ∈ a, AddrChar x := fun x hx => hloc x (by rw [e]; simp [hx])
        have hpb : AddrText b := fun x hx => hloc x (by rw [e]; simp [hx])
        have hat : getAtom isAtomEnd (c :: (s ++ '@' :: t)) = (a, b ++ '@' :: t) := by
          have : c :: (s ++ '@' :: t) = a ++ (b ++ '@' :: t) := by rw [← List.cons_append, e, List.append_assoc]
          rw [this]
          refine getAtom_append _ _ _ (fun x hx => (hpa x hx).atomEnd (ha x hx)) ?_
          intro x y exy
          cases b with
          | nil => simp only [List.nil_append, List.cons.injEq] at exy; rw [← exy.1]; decide
          | cons z b' =>
            simp only [List.cons_append, List.cons.injEq] at exy
            rw [← exy.1, hb z b' rfl]; decide
        have hgo : gotoNext cl (b ++ '@' :: t) = .ok ([], cl, b ++ '@' :: t) := by
          cases b with
          | nil => exact gotoNext_stay _ _ _ (by decide) (by decide)
          | cons x s' => exact gotoNext_stay _ _ _ (AddrChar.not_fws (hpb x (by simp))) (AddrChar.ne (hpb x (by simp)) '(' (by decide))
        have hlen : a.length + b.length = s.length + 1 := by
          have := congrArg List.length e
          simp only [List.length_cons, List.length_append] at this
          omega
        have hapos := List.length_pos_iff.mpr hane
        rw [List.cons_append, addrSpecLoop, if_neg hd, if_neg (hc.ne '"' (by decide)), if_neg (by rw [hc.atomEnd hd]; decide)]
        simp only [hat, hgo, except_bind_ok]
        have hbl : isBlank a = false := by
          rw [Bool.eq_false_iff]
          intro hb'
          cases a with
          | nil => exact hane rfl
          | cons x a' =>
            rw [isBlank, List.all_cons, Bool.and_eq_true] at hb'
            rw [(hpa x (by simp)).1] at hb'
            exact absurd hb'.1 (by decide)
        obtain ⟨as', h1, h2⟩ := ih b (by omega) hpb fuel (pushWs (as ++ [a]) true []) cl t
          (by simp only [List.length_append, List.length_cons] at hf ⊢; omega) (by
          intro w hw
          simp only [pushWs, ne_eq, not_true_eq_false, decide_false, Bool.and_false, Bool.false_eq_true, if_false, List.mem_append,
            List.mem_singleton] at hw
          rcases hw with hw | rfl
          · exact has w hw
          · exact hbl)
        refine ⟨as', h1, ?_⟩
        rw [h2, e]
        simp [pushWs]

/-- Where a domain may stop. -/
def DomainStop (rest : Str) : Prop := rest = [] ∨ ∃ t, rest = '>' :: t

theorem domainLoop_text : ∀ (n : Nat) (dom : Str), dom.length ≤ n → AddrText dom → ∀ (fuel : Nat) (sd : Str) (cl : List Str) (rest : Str),
    (dom ++ rest).length < fuel → DomainStop rest → domainLoop fuel sd cl (dom ++ rest) = .ok (sd ++ dom, cl, rest) := by
  intro n
  have base : ∀ (fuel : Nat) (sd : Str) (cl : List Str) (rest : Str), DomainStop rest → domainLoop (fuel + 1) sd cl rest = .ok (sd, cl, rest) := by
    intro fuel sd cl rest hr
    rcases hr with rfl | ⟨t, rfl⟩
    · rfl
    · rw [domainLoop, if_neg (by decide), if_neg (by decide), if_neg (by decide), if_neg (by decide), if_pos (by decide)]
  induction n with
  | zero =>
    intro dom hl _ fuel sd cl rest hf hr
    obtain rfl : dom = [] := List.length_eq_zero_iff.mp (by omega)
    cases fuel with
    | zero => omega
    | succ fuel => rw [List.nil_append, base fuel sd cl rest hr]; simp
  | succ n ih =>
    intro dom hl hdom fuel sd cl rest hf hr
    cases fuel with
    | zero => omega
    | succ fuel =>
    cases dom with
    | nil => rw [List.nil_append, base fuel sd cl rest hr]; simp
    | cons c s =>
      have hc : AddrChar c := hdom c (by simp)
      have hs : AddrText s := fun x hx => hdom x (by simp [hx])
      simp only [List.length_cons] at hl
      simp only [List.cons_append, List.length_cons] at hf
      have hsp : ¬ (c = ' ' ∨ c = '\t') := by
        have := hc.not_fws
        rintro (rfl | rfl) <;> exact absurd this (by decide)
      rw [List.cons_append, domainLoop, if_neg hsp, if_neg (hc.ne '(' (by decide)), if_neg (hc.ne '[' (by decide))]
      by_cases hd : c = '.'
      · rw [if_pos hd, ih s (by omega) hs fuel _ cl rest (by omega) hr, hd]
        simp
      · obtain ⟨a, b, e, ha, hb⟩ := split_dot (c :: s)
        have hane : a ≠ [] := by
          rintro rfl
          exact hd (hb c s (by simpa using e.symm))
        have hpa : ∀ x ∈ a, AddrChar x := fun x hx => hdom x (by rw [e]; simp [hx])
        have hpb : AddrText b := fun x hx => hdom x (by rw [e]; simp [hx])
        have hat : getAtom isAtomEnd (c :: (s ++ rest)) = (a, b ++ rest) := by
          have : c :: (s ++ rest) = a ++ (b ++ rest) := by rw [← List.cons_append, e, List.append_assoc]
          rw [this]
          refine getAtom_append _ _ _ (fun x hx => (hpa x hx).atomEnd (ha x hx)) ?_
          intro x y exy
          cases b with
          | nil =>
            rcases hr with rfl | ⟨t, rfl⟩
            · simp at exy
            · simp only [List.nil_append, List.cons.injEq] at exy; rw [← exy.1]; decide
          | cons z b' =>
            simp only [List.cons_append, List.cons.injEq] at exy
            rw [← exy.1, hb z b' rfl]; decide
        have hlen : a.length + b.length = s.length + 1 := by
          have := congrArg List.length e
          simp only [List.length_cons, List.length_append] at this
          omega
        have hapos := List.length_pos_iff.mpr hane
        rw [if_neg hd, if_neg (by rw [hc.atomEnd hd]; decide)]
        simp only [hat]
        rw [ih b (by omega) hpb fuel _ cl rest (by simp only [List.length_append] at hf ⊢; omega) hr, e, List.append_assoc]

theorem gotoNext_text (cl : List Str) (s rest : Str) (hs : AddrText s) (hr : DomainStop rest) :
    gotoNext cl (s ++ rest) = .ok ([], cl, s ++ rest) := by
  cases s with
  | nil =>
    rcases hr with rfl | ⟨t, rfl⟩
    · rfl
    · exact gotoNext_stay _ _ _ (by decide) (by decide)
  | cons x s' => exact gotoNext_stay _ _ _ (AddrChar.not_fws (hs x (by simp))) (AddrChar.ne (hs x (by simp)) '(' (by decide))

theorem getAddrSpec_text (cl : List Str) (loc dom rest : Str) (hl : AddrText loc) (hd : AddrText dom) (hr : DomainStop rest) :
    getAddrSpec cl (loc ++ '@' :: (dom ++ rest)) = .ok (loc ++ '@' :: dom, cl, rest) := by
  have hgo : gotoNext cl (loc ++ '@' :: (dom ++ rest)) = .ok ([], cl, loc ++ '@' :: (dom ++ rest)) := by
    cases loc with
    | nil => exact gotoNext_stay _ _ _ (by decide) (by decide)
    | cons x s' => exact gotoNext_stay _ _ _ (AddrChar.not_fws (hl x (by simp))) (AddrChar.ne (hl x (by simp)) '(' (by decide))
  unfold getAddrSpec
  simp only [hgo, except_bind_ok]
  obtain ⟨as', h1, h2⟩ := addrSpecLoop_local loc.length loc (Nat.le_refl _) hl ((loc ++ '@' :: (dom ++ rest)).length + 1) [] cl
    (dom ++ rest) (by omega) (by simp)
  simp only [h1, except_bind_ok]
  simp only [addrSpecEnd, gotoNext_text cl dom rest hd hr, except_bind_ok, getDomain]
  rw [domainLoop_text dom.length dom (Nat.le_refl _) hd _ [] cl rest (by omega) hr]
  simp only [except_bind_ok, except_pure, h2]
  simp

theorem getRouteAddr_text (cl : List Str) (loc dom : Str) (hl : AddrText loc) (hne : loc ≠ []) (hd : AddrText dom) :
    getRouteAddr cl ('<' :: (loc ++ '@' :: (dom ++ ['>']))) = .ok (loc ++ '@' :: dom, cl, []) := by
  cases loc with
  | nil => exact absurd rfl hne
  | cons x s' =>
    have hx : AddrChar x := hl x (by simp)
    unfold getRouteAddr
    have hgo : gotoNext cl ((x :: s') ++ '@' :: (dom ++ ['>'])) = .ok ([], cl, (x :: s') ++ '@' :: (dom ++ ['>'])) :=
      gotoNext_stay _ _ _ hx.not_fws (hx.ne '(' (by decide))
    simp only [hgo, except_bind_ok]
    rw [List.cons_append, routeLoop, if_neg (hx.ne '>' (by decide)), if_neg (hx.ne '@' (by decide)), if_neg (hx.ne ':' (by decide)),
      ← List.cons_append, getAddrSpec_text cl (x :: s') dom ['>'] hl hd (Or.inr ⟨[], rfl⟩)]
    rfl

/-- What `phraseLoop` reads, whatever the fuel beyond the length and the phrases found before. -/
def PhraseReads (cl : List Str) (rest : Str) (found cl' : List Str) (r : Str) : Prop :=
  ∀ fuel pl, rest.length < fuel → phraseLoop fuel pl cl rest = .ok (pl ++ found, cl', r)

theorem phraseReads_stop (cl : List Str) (c : Char) (t : Str) (h : c = '<' ∨ c = '@') : PhraseReads cl (c :: t) [] cl (c :: t) := by
  intro fuel pl hf
  cases fuel with
  | zero => omega
  | succ fuel =>
    rcases h with rfl | rfl <;>
      rw [phraseLoop, if_neg (by decide), if_neg (by decide), if_neg (by decide), if_pos (by decide), List.append_nil]

theorem phraseReads_nil (cl : List Str) : PhraseReads cl [] [] cl [] := by
  intro fuel pl hf
  cases fuel with
  | zero => omega
  | succ fuel => rw [phraseLoop, List.append_nil]

theorem phraseReads_space {cl rest found cl' r} (h : PhraseReads cl rest found cl' r) : PhraseReads cl (' ' :: rest) found cl' r := by
  intro fuel pl hf
  cases fuel with
  | zero => omega
  | succ fuel =>
    rw [phraseLoop, if_pos (by decide)]
    exact h fuel pl (by simp only [List.length_cons] at hf; omega)

theorem phraseReads_word {cl : List Str} {w rest : Str} {found cl' : List Str} {r : Str} (hw : NameWord w)
    (hr : ∀ c t, rest = c :: t → isPhraseEnd c = true) (h : PhraseReads cl rest found cl' r) :
    PhraseReads cl (w ++ rest) (w :: found) cl' r := by
  intro fuel pl hf
  obtain ⟨hne, hw⟩ := hw
  cases w with
  | nil => exact absurd rfl hne
  | cons c s =>
    have hc : AddrChar c := hw c (by simp)
    cases fuel with
    | zero => omega
    | succ fuel =>
      have hat := getAtom_append isPhraseEnd (c :: s) rest (fun x hx => AddrChar.not_phraseEnd (hw x hx)) hr
      rw [List.cons_append] at hat
      rw [List.cons_append, phraseLoop, if_neg (by rw [hc.not_fws]; decide), if_neg (hc.ne '"' (by decide)), if_neg (hc.ne '(' (by decide)),
        if_neg (by rw [hc.not_phraseEnd]; decide)]
      simp only [hat]
      simp only [List.length_append, List.length_cons] at hf
      rw [h fuel _ (by omega), List.append_assoc]
      rfl

theorem delimLoop_comment (c : Str) (hc : ∀ x ∈ c, x ∉ "()\\\r".toList) (t : Str) : ∀ (fuel : Nat) (acc : Str), (c ++ ')' :: t).length < fuel →
    delimLoop fuel [')', '\r'] true false acc (c ++ ')' :: t) = .ok (acc ++ c, t) := by
  induction c with
  | nil =>
    intro fuel acc hf
    cases fuel with
    | zero => omega
    | succ fuel => rw [List.nil_append, delimLoop, if_neg (by decide), if_pos (by decide), List.append_nil]
  | cons x s ih =>
    intro fuel acc hf
    have hx := hc x (by simp)
    have h0 : x ≠ '(' ∧ x ≠ ')' ∧ x ≠ '\\' ∧ x ≠ '\r' := by simpa [not_or] using hx
    cases fuel with
    | zero => omega
    | succ fuel =>
      simp only [List.cons_append, List.length_cons] at hf
      rw [List.cons_append, delimLoop, if_neg (by decide), if_neg (by simp [h0]), if_neg (by simp [h0]), if_neg (by simp [h0]),
        ih (fun y hy => hc y (by simp [hy])) fuel _ (by omega), List.append_assoc]
      rfl

theorem getComment_text (c t : Str) (hc : CommentText c) : getComment ('(' :: (c ++ ')' :: t)) = .ok (c, t) := by
  rw [getComment, getDelimited, if_neg (by decide), delimLoop_comment c hc.2 t _ [] (by omega), List.nil_append]

theorem phraseReads_comment {cl : List Str} {c rest : Str} {found cl' : List Str} {r : Str} (hc : CommentText c)
    (h : PhraseReads (cl ++ [c]) rest found cl' r) : PhraseReads cl ('(' :: (c ++ ')' :: rest)) found cl' r := by
  intro fuel pl hf
  cases fuel with
  | zero => omega
  | succ fuel =>
    rw [phraseLoop, if_neg (by decide), if_neg (by decide), if_pos rfl]
    simp only [getComment_text c rest hc, except_bind_ok]
    simp only [List.length_append, List.length_cons] at hf
    exact h fuel pl (by omega)

theorem phraseReads_name {cl : List Str} {ws : List Str} {rest : Str} {found cl' : List Str} {r : Str} (hw : ∀ w ∈ ws, NameWord w)
    (h : PhraseReads cl rest found cl' r) : PhraseReads cl (nameText ws ++ rest) (ws ++ found) cl' r := by
  induction ws with
  | nil => simpa [nameText] using h
  | cons w ws ih =>
    have e : nameText (w :: ws) ++ rest = w ++ (' ' :: (nameText ws ++ rest)) := by simp [nameText]
    rw [e, List.cons_append]
    refine phraseReads_word (hw w (by simp)) ?_ (phraseReads_space (ih (fun v hv => hw v (by simp [hv]))))
    intro c t e
    simp only [List.cons.injEq] at e
    rw [← e.1]; decide

theorem phraseReads_join (cl : List Str) (ws : List Str) (hw : ∀ w ∈ ws, NameWord w) : PhraseReads cl (pyJoin [' '] ws) ws cl [] := by
  induction ws with
  | nil => exact phraseReads_nil cl
  | cons w ws ih =>
    cases ws with
    | nil =>
      have := phraseReads_word (hw w (by simp)) (rest := []) (by simp) (phraseReads_nil cl)
      simpa [pyJoin] using this
    | cons v ws =>
      have := phraseReads_word (hw w (by simp)) (rest := ' ' :: pyJoin [' '] (v :: ws)) (by
        intro c t e
        simp only [List.cons.injEq] at e
        rw [← e.1]; decide) (phraseReads_space (ih (fun x hx => hw x (by simp [hx]))))
      simpa [pyJoin] using this

theorem PhraseReads.get {cl rest found cl' r} (h : PhraseReads cl rest found cl' r) : getPhraseList cl rest = .ok (found, cl', r) := by
  have := h (rest.length + 1) [] (by omega)
  rwa [List.nil_append] at this

theorem nameText_head (ws : List Str) (rest : Str) (hw : ∀ w ∈ ws, NameWord w) :
    (nameText ws ++ rest = rest) ∨ ∃ c t, nameText ws ++ rest = c :: t ∧ AddrChar c := by
  cases ws with
  | nil => exact Or.inl rfl
  | cons w ws =>
    right
    obtain ⟨hne, h⟩ := hw w (by simp)
    cases w with
    | nil => exact absurd rfl hne
    | cons c s => exact ⟨c, s ++ ' ' :: nameText ws ++ rest, by simp [nameText], h c (by simp)⟩

theorem gotoNext_plain (cl : List Str) (c : Char) (t : Str) (h : AddrChar c) : gotoNext cl (c :: t) = .ok ([], cl, c :: t) :=
  gotoNext_stay _ _ _ h.not_fws (h.ne '(' (by decide))

theorem pyStrip_join (ws : List Str) (hw : ∀ w ∈ ws, NameWord w) : pyStrip (pyJoin [' '] ws) = pyJoin [' '] ws := by
  have first : ∀ ws : List Str, (∀ w ∈ ws, NameWord w) → (pyJoin [' '] ws).dropWhile isPySpace = pyJoin [' '] ws := by
    intro ws hw
    cases ws with
    | nil => rfl
    | cons w ws =>
      obtain ⟨hne, h⟩ := hw w (by simp)
      cases w with
      | nil => exact absurd rfl hne
      | cons c s =>
        have : ∃ t, pyJoin [' '] ((c :: s) :: ws) = c :: t := by
          cases ws with
          | nil => exact ⟨s, rfl⟩
          | cons v ws => exact ⟨_, rfl⟩
        obtain ⟨t, e⟩ := this
        rw [e, List.dropWhile_cons, if_neg (by rw [(h c (by simp)).1]; decide)]
  have last : ∀ ws : List Str, (∀ w ∈ ws, NameWord w) → (pyJoin [' '] ws).reverse.dropWhile isPySpace = (pyJoin [' '] ws).reverse := by
    intro ws
    induction ws with
    | nil => intro _; rfl
    | cons w ws ih =>
      intro hw
      cases ws with
      | nil =>
        obtain ⟨hne, h⟩ := hw w (by simp)
        simp only [pyJoin]
        cases e : w.reverse with
        | nil => rfl
        | cons c s =>
          have : c ∈ w := by rw [← List.mem_reverse, e]; simp
          rw [List.dropWhile_cons, if_neg (by rw [(h c this).1]; decide)]
      | cons v ws =>
        have ih' := ih (fun x hx => hw x (by simp [hx]))
        simp only [pyJoin, List.reverse_append] at ih' ⊢
        have hv := hw v (by simp)
        cases e : (pyJoin [' '] (v :: ws)).reverse with
        | nil =>
          have h0 : pyJoin [' '] (v :: ws) = [] := by simpa using e
          cases ws with
          | nil => exact absurd h0 hv.1
          | cons u ws => simp [pyJoin] at h0
        | cons c s =>
          have hnp : isPySpace c = false := by
            rw [e] at ih'
            rw [Bool.eq_false_iff]
            intro hc
            rw [List.dropWhile_cons, if_pos hc] at ih'
            have := congrArg List.length ih'
            have l := List.IsSuffix.length_le (List.dropWhile_suffix (l := s) isPySpace)
            simp only [List.length_cons] at this
            omega
          rw [List.cons_append, List.dropWhile_cons, if_neg (by rw [hnp]; decide)]
  unfold pyStrip
  rw [first ws hw, last ws hw, List.reverse_reverse]

/-- Removing occurrences of a text without the character `x` keeps every `x`. -/
theorem mem_removeLoop (p : Str) (x : Char) (hx : x ∉ p) : ∀ (fuel : Nat) (s : Str), x ∈ s → x ∈ removeLoop p fuel s := by
  intro fuel
  induction fuel with
  | zero => intro s h; exact h
  | succ fuel ih =>
    intro s h
    cases s with
    | nil => simp at h
    | cons c s =>
      rw [removeLoop]
      split
      · rename_i hp
        obtain ⟨t, ht⟩ := List.isPrefixOf_iff_prefix.mp hp
        refine ih _ ?_
        rw [← ht, List.drop_left]
        rw [← ht] at h
        rcases List.mem_append.mp h with h | h
        · exact absurd h hx
        · exact h
      · rcases List.mem_cons.mp h with rfl | h
        · simp
        · exact List.mem_cons_of_mem _ (ih s h)

theorem mem_removeAllOcc (p s : Str) (x : Char) (hx : x ∉ p) (h : x ∈ s) : x ∈ removeAllOcc p s := by
  unfold removeAllOcc
  split
  · exact h
  · exact mem_removeLoop p x hx _ s h

theorem mem_pyStrip (s : Str) (x : Char) (hx : isPySpace x = false) (h : x ∈ s) : x ∈ pyStrip s := by
  have key : ∀ s : Str, x ∈ s → x ∈ s.dropWhile isPySpace := by
    intro s h
    induction s with
    | nil => exact h
    | cons c s ih =>
      rw [List.dropWhile_cons]
      split
      · rename_i hc
        rcases List.mem_cons.mp h with rfl | h
        · rw [hx] at hc; exact absurd hc (by decide)
        · exact ih h
      · exact h
  unfold pyStrip
  rw [List.mem_reverse]
  apply key
  rw [List.mem_reverse]
  exact key s h

theorem removeLoop_skip (x : Char) (p' : Str) : ∀ (s rest : Str), x ∉ s → ∀ fuel, s.length ≤ fuel →
    removeLoop (x :: p') fuel (s ++ rest) = s ++ removeLoop (x :: p') (fuel - s.length) rest := by
  intro s
  induction s with
  | nil => intro rest _ fuel _; simp
  | cons c s ih =>
    intro rest h fuel hf
    simp only [List.mem_cons, not_or] at h
    cases fuel with
    | zero => simp at hf
    | succ fuel =>
      simp only [List.length_cons, Nat.add_le_add_iff_right] at hf
      rw [List.cons_append, removeLoop, if_neg, ih rest h.2 fuel hf, List.length_cons, List.cons_append]
      · rw [Nat.add_sub_add_right]
      · intro hp
        simp only [List.isPrefixOf, Bool.and_eq_true, beq_iff_eq] at hp
        exact h.1 hp.1

end Pgp
