import Verif.Model.UserId
import Verif.Lemmas.Utils
/-
Lemmas about the user id parser: every loop ends, nothing is read past the end.
-/
namespace Pgp

theorem delimLoop_total : ∀ (fuel : Nat) (ends : List Char) (cm q : Bool) (acc rest : Str), rest.length < fuel →
    ∃ s r, delimLoop fuel ends cm q acc rest = .ok (s, r) ∧ r.length ≤ rest.length := by
  intro fuel
  induction fuel with
  | zero => intro _ _ _ _ _ h; omega
  | succ fuel ih =>
    intro ends cm q acc rest h
    cases rest with
    | nil => exact ⟨acc, [], rfl, by simp⟩
    | cons c t =>
      simp only [List.length_cons] at h
      have step : ∀ q' acc', ∃ s r, delimLoop fuel ends cm q' acc' t = .ok (s, r) ∧ r.length ≤ (c :: t).length := by
        intro q' acc'
        obtain ⟨s, r, h1, h2⟩ := ih ends cm q' acc' t (by omega)
        exact ⟨s, r, h1, by simp; omega⟩
      rw [delimLoop]
      split
      · exact step _ _
      · split
        · exact ⟨acc, t, rfl, by simp⟩
        · split
          · obtain ⟨s, r, h1, h2⟩ := ih [')', '\r'] true false [] t (by omega)
            simp only [h1, except_bind_ok]
            obtain ⟨s', r', h3, h4⟩ := ih ends cm false (acc ++ s) r (by omega)
            exact ⟨s', r', h3, by simp; omega⟩
          · split
            · exact step _ _
            · exact step _ _

theorem getDelimited_total (b : Char) (ends : List Char) (cm : Bool) (t : Str) :
    ∃ s r, getDelimited b ends cm (b :: t) = .ok (s, r) ∧ r.length ≤ t.length := by
  rw [getDelimited, if_neg (by simp)]
  exact delimLoop_total _ _ _ _ _ _ (by omega)

theorem gotoNextLoop_total : ∀ (fuel : Nat) (ws : Str) (cl : List Str) (rest : Str), rest.length < fuel →
    ∃ ws' cl' r, gotoNextLoop fuel ws cl rest = .ok (ws', cl', r) ∧ r.length ≤ rest.length ∧
      ∀ c t, r = c :: t → isFws c = false ∧ c ≠ '(' := by
  intro fuel
  induction fuel with
  | zero => intro _ _ _ h; omega
  | succ fuel ih =>
    intro ws cl rest h
    cases rest with
    | nil => exact ⟨ws, cl, [], rfl, by simp, by simp⟩
    | cons c t =>
      simp only [List.length_cons] at h
      rw [gotoNextLoop]
      split
      · obtain ⟨ws', cl', r, h1, h2, h3⟩ := ih (if c = '\n' ∨ c = '\r' then ws else ws ++ [c]) cl t (by omega)
        exact ⟨ws', cl', r, h1, by simp; omega, h3⟩
      · rename_i hf
        split
        · rename_i hc
          subst hc
          obtain ⟨s, r, h1, h2⟩ := getDelimited_total '(' [')', '\r'] true t
          simp only [getComment, h1, except_bind_ok]
          obtain ⟨ws', cl', r', h3, h4, h5⟩ := ih ws (cl ++ [s]) r (by omega)
          exact ⟨ws', cl', r', h3, by simp; omega, h5⟩
        · rename_i hc
          refine ⟨ws, cl, c :: t, rfl, Nat.le_refl _, ?_⟩
          intro c' t' e
          simp only [List.cons.injEq] at e
          rw [← e.1]
          exact ⟨by simpa using hf, hc⟩

theorem gotoNext_total (cl : List Str) (rest : Str) :
    ∃ ws' cl' r, gotoNext cl rest = .ok (ws', cl', r) ∧ r.length ≤ rest.length ∧ ∀ c t, r = c :: t → isFws c = false ∧ c ≠ '(' :=
  gotoNextLoop_total _ _ _ _ (by omega)

theorem gotoNext_stay (cl : List Str) (c : Char) (t : Str) (h1 : isFws c = false) (h2 : c ≠ '(') :
    gotoNext cl (c :: t) = .ok ([], cl, c :: t) := by
  rw [gotoNext, gotoNextLoop, if_neg (by simp [h1]), if_neg h2]

theorem gotoNext_nil (cl : List Str) : gotoNext cl [] = .ok ([], cl, []) := rfl

theorem getAtom_eq (isEnd : Char → Bool) (rest : Str) :
    getAtom isEnd rest = (rest.takeWhile (fun c => !isEnd c), rest.dropWhile (fun c => !isEnd c)) := rfl

theorem getAtom_progress (isEnd : Char → Bool) (c : Char) (t : Str) (h : isEnd c = false) :
    (getAtom isEnd (c :: t)).2.length ≤ t.length := by
  rw [getAtom_eq]
  simp only
  rw [List.dropWhile_cons, if_pos (by simp [h])]
  exact List.IsSuffix.length_le (List.dropWhile_suffix _)

/-- Where a phrase stops. -/
def PhraseStop (r : Str) : Prop := ∀ c t, r = c :: t → isFws c = false ∧ c ≠ '"' ∧ c ≠ '(' ∧ isPhraseEnd c = true

theorem phraseLoop_total : ∀ (fuel : Nat) (pl cl : List Str) (rest : Str), rest.length < fuel →
    ∃ pl' cl' r, phraseLoop fuel pl cl rest = .ok (pl', cl', r) ∧ r.length ≤ rest.length ∧ pl.length ≤ pl'.length ∧
      (pl.length < pl'.length → r.length < rest.length) ∧ PhraseStop r := by
  intro fuel
  induction fuel with
  | zero => intro _ _ _ h; omega
  | succ fuel ih =>
    intro pl cl rest h
    cases rest with
    | nil => exact ⟨pl, cl, [], rfl, by simp, Nat.le_refl _, by intro h; omega, by intro c t e; simp at e⟩
    | cons c t =>
      simp only [List.length_cons] at h
      rw [phraseLoop]
      split
      · obtain ⟨pl', cl', r, h1, h2, h3, h4, h5⟩ := ih pl cl t (by omega)
        exact ⟨pl', cl', r, h1, by simp; omega, h3, fun h => by simp; omega, h5⟩
      · rename_i hf
        split
        · rename_i hc
          subst hc
          obtain ⟨s, r, h1, h2⟩ := getDelimited_total '"' ['"', '\r'] false t
          simp only [getQuote, h1, except_bind_ok]
          obtain ⟨pl', cl', r', h3, h4, h5, h6, h7⟩ := ih (pl ++ [s]) cl r (by omega)
          simp only [List.length_append, List.length_singleton] at h5 h6
          exact ⟨pl', cl', r', h3, by simp; omega, by omega, fun h => by simp; omega, h7⟩
        · rename_i hq
          split
          · rename_i hc
            subst hc
            obtain ⟨s, r, h1, h2⟩ := getDelimited_total '(' [')', '\r'] true t
            simp only [getComment, h1, except_bind_ok]
            obtain ⟨pl', cl', r', h3, h4, h5, h6, h7⟩ := ih pl (cl ++ [s]) r (by omega)
            exact ⟨pl', cl', r', h3, by simp; omega, by omega, fun h => by simp; omega, h7⟩
          · rename_i hc
            split
            · rename_i hp
              refine ⟨pl, cl, c :: t, rfl, Nat.le_refl _, Nat.le_refl _, by intro h; omega, ?_⟩
              intro c' t' e
              simp only [List.cons.injEq] at e
              rw [← e.1]
              exact ⟨by simpa using hf, hq, hc, hp⟩
            · rename_i hp
              have hat := getAtom_progress isPhraseEnd c t (by simpa using hp)
              obtain ⟨pl', cl', r', h3, h4, h5, h6, h7⟩ :=
                ih (pl ++ [(getAtom isPhraseEnd (c :: t)).1]) cl (getAtom isPhraseEnd (c :: t)).2 (by omega)
              simp only [List.length_append, List.length_singleton] at h5 h6
              exact ⟨pl', cl', r', h3, by simp; omega, by omega, fun h => by simp; omega, h7⟩

theorem domainLoop_total : ∀ (fuel : Nat) (sd : Str) (cl : List Str) (rest : Str), rest.length < fuel →
    ∃ sd' cl' r, domainLoop fuel sd cl rest = .ok (sd', cl', r) ∧ r.length ≤ rest.length := by
  intro fuel
  induction fuel with
  | zero => intro _ _ _ h; omega
  | succ fuel ih =>
    intro sd cl rest h
    cases rest with
    | nil => exact ⟨sd, cl, [], rfl, by simp⟩
    | cons c t =>
      simp only [List.length_cons] at h
      rw [domainLoop]
      split
      · obtain ⟨a, b, r, h1, h2⟩ := ih sd cl t (by omega)
        exact ⟨a, b, r, h1, by simp; omega⟩
      · split
        · rename_i hc
          subst hc
          obtain ⟨s, r, h1, h2⟩ := getDelimited_total '(' [')', '\r'] true t
          simp only [getComment, h1, except_bind_ok]
          obtain ⟨a, b, r', h3, h4⟩ := ih sd (cl ++ [s]) r (by omega)
          exact ⟨a, b, r', h3, by simp; omega⟩
        · split
          · rename_i hc
            subst hc
            obtain ⟨s, r, h1, h2⟩ := getDelimited_total '[' [']', '\r'] false t
            simp only [getDomainLiteral, h1, except_bind_ok, except_pure]
            obtain ⟨a, b, r', h3, h4⟩ := ih (sd ++ ('[' :: s ++ [']'])) cl r (by omega)
            exact ⟨a, b, r', h3, by simp; omega⟩
          · split
            · obtain ⟨a, b, r, h1, h2⟩ := ih (sd ++ ['.']) cl t (by omega)
              exact ⟨a, b, r, h1, by simp; omega⟩
            · split
              · exact ⟨sd, cl, c :: t, rfl, Nat.le_refl _⟩
              · rename_i hp
                have hat := getAtom_progress isAtomEnd c t (by simpa using hp)
                obtain ⟨a, b, r, h1, h2⟩ := ih (sd ++ (getAtom isAtomEnd (c :: t)).1) cl (getAtom isAtomEnd (c :: t)).2 (by omega)
                exact ⟨a, b, r, h1, by simp; omega⟩

theorem getDomain_total (cl : List Str) (rest : Str) :
    ∃ sd' cl' r, getDomain cl rest = .ok (sd', cl', r) ∧ r.length ≤ rest.length := domainLoop_total _ _ _ _ (by omega)

theorem addrSpecLoop_total : ∀ (fuel : Nat) (as cl : List Str) (rest : Str), rest.length < fuel →
    ∃ as' cl' r, addrSpecLoop fuel as cl rest = .ok (as', cl', r) ∧ r.length ≤ rest.length ∧
      (∀ c t, rest = c :: t → (c = '.' ∨ c = '"' ∨ isAtomEnd c = false) → r.length < rest.length) ∧
      (∀ c t, rest = c :: t → c ≠ '.' → c ≠ '"' → isAtomEnd c = true → r = rest) := by
  intro fuel
  induction fuel with
  | zero => intro _ _ _ h; omega
  | succ fuel ih =>
    intro as cl rest h
    cases rest with
    | nil => exact ⟨as, cl, [], rfl, by simp, by simp, by simp⟩
    | cons c t =>
      simp only [List.length_cons] at h
      rw [addrSpecLoop]
      split
      · rename_i hc
        obtain ⟨ws, cl', r, h1, h2, -⟩ := gotoNext_total cl t
        simp only [h1, except_bind_ok]
        obtain ⟨a, b, r', h3, h4, -⟩ := ih (pushWs (popBlank as ++ [['.']]) false ws) cl' r (by omega)
        refine ⟨a, b, r', h3, by simp; omega, fun _ _ _ _ => by simp; omega, ?_⟩
        intro c' t' e h1
        simp only [List.cons.injEq] at e
        exact absurd (e.1 ▸ hc) h1
      · rename_i hnd
        split
        · rename_i hc
          subst hc
          obtain ⟨s, r0, h1, h2⟩ := getDelimited_total '"' ['"', '\r'] false t
          simp only [getQuote, h1, except_bind_ok]
          obtain ⟨ws, cl', r, h3, h4, -⟩ := gotoNext_total cl r0
          simp only [h3, except_bind_ok]
          obtain ⟨a, b, r', h5, h6, -⟩ := ih (pushWs (as ++ ['"' :: urlQuote s ++ ['"']]) true ws) cl' r (by omega)
          refine ⟨a, b, r', h5, by simp; omega, fun _ _ _ _ => by simp; omega, ?_⟩
          intro c' t' e _ h2
          simp only [List.cons.injEq] at e
          exact absurd e.1.symm h2
        · rename_i hnq
          split
          · rename_i hp
            refine ⟨popBlank as, cl, c :: t, rfl, Nat.le_refl _, ?_, fun _ _ _ _ _ _ => rfl⟩
            intro c' t' e h'
            simp only [List.cons.injEq] at e
            rw [← e.1] at h'
            rcases h' with h' | h' | h'
            · exact absurd h' hnd
            · exact absurd h' hnq
            · rw [h'] at hp; simp at hp
          · rename_i hp
            have hat := getAtom_progress isAtomEnd c t (by simpa using hp)
            obtain ⟨ws, cl', r, h1, h2, -⟩ := gotoNext_total cl (getAtom isAtomEnd (c :: t)).2
            simp only [h1, except_bind_ok]
            obtain ⟨a, b, r', h3, h4, -⟩ := ih (pushWs (as ++ [(getAtom isAtomEnd (c :: t)).1]) true ws) cl' r (by omega)
            refine ⟨a, b, r', h3, by simp; omega, fun _ _ _ _ => by simp; omega, ?_⟩
            intro c' t' e _ _ h3
            simp only [List.cons.injEq] at e
            rw [← e.1] at h3
            exact absurd h3 hp

theorem addrSpecEnd_total (as cl : List Str) (rest : Str) : ∃ a cl' r, addrSpecEnd as cl rest = .ok (a, cl', r) ∧ r.length ≤ rest.length ∧
    (∀ t, rest = '@' :: t → r.length < rest.length) := by
  unfold addrSpecEnd
  split
  · rename_i t
    obtain ⟨ws, cl', r, h1, h2, -⟩ := gotoNext_total cl t
    obtain ⟨d, cl'', r', h3, h4⟩ := getDomain_total cl' r
    simp only [h1, h3, except_bind_ok, except_pure]
    exact ⟨_, _, r', rfl, by simp; omega, fun _ _ => by simp; omega⟩
  · rename_i hne
    exact ⟨_, _, _, rfl, Nat.le_refl _, fun t e => absurd e (hne t)⟩

theorem getAddrSpec_total (cl : List Str) (rest : Str) : ∃ a cl' r, getAddrSpec cl rest = .ok (a, cl', r) ∧ r.length ≤ rest.length ∧
    (∀ c t, rest = c :: t → isFws c = false → c ≠ '(' → (c = '.' ∨ c = '"' ∨ c = '@' ∨ isAtomEnd c = false) → r.length < rest.length) := by
  unfold getAddrSpec
  obtain ⟨ws, cl0, r0, h1, h2, -⟩ := gotoNext_total cl rest
  simp only [h1, except_bind_ok]
  obtain ⟨as, cl1, r1, h3, h4, h5, h5'⟩ := addrSpecLoop_total (r0.length + 1) [] cl0 r0 (by omega)
  simp only [h3, except_bind_ok]
  obtain ⟨a, cl2, r2, h6, h7, h8⟩ := addrSpecEnd_total as cl1 r1
  refine ⟨a, cl2, r2, h6, by omega, ?_⟩
  intro c t e hf hc hcase
  subst e
  rw [gotoNext_stay cl c t hf hc] at h1
  simp only [Except.ok.injEq, Prod.mk.injEq] at h1
  obtain ⟨-, -, rfl⟩ := h1
  by_cases h : c = '.' ∨ c = '"' ∨ isAtomEnd c = false
  · have := h5 c t rfl h
    omega
  · have hat : c = '@' := by
      rcases hcase with h' | h' | h' | h'
      · exact absurd (Or.inl h') h
      · exact absurd (Or.inr (Or.inl h')) h
      · exact h'
      · exact absurd (Or.inr (Or.inr h')) h
    have e1 := h5' c t rfl (by rw [hat]; decide) (by rw [hat]; decide) (by rw [hat]; decide)
    have := h8 t (by rw [e1, hat])
    rw [e1] at this
    exact this

theorem routeLoop_total : ∀ (fuel : Nat) (ex : Bool) (cl : List Str) (rest : Str), 2 * rest.length + (if ex then 1 else 0) < fuel →
    ∃ a cl' r, routeLoop fuel ex cl rest = .ok (a, cl', r) ∧ r.length ≤ rest.length := by
  intro fuel
  induction fuel with
  | zero => intro _ _ _ h; omega
  | succ fuel ih =>
    intro ex cl rest h
    cases rest with
    | nil => cases ex <;> exact ⟨[], cl, [], rfl, by simp⟩
    | cons c t =>
      simp only [List.length_cons] at h
      cases ex with
      | true =>
        rw [routeLoop]
        obtain ⟨sd, cl', r, h1, h2⟩ := getDomain_total cl (c :: t)
        obtain ⟨ws, cl'', r', h3, h4, -⟩ := gotoNext_total cl' r
        simp only [h1, h3, except_bind_ok]
        simp only [if_true, List.length_cons] at h h2
        obtain ⟨a, b, r'', h5, h6⟩ := ih false cl'' r' (by simp; omega)
        exact ⟨a, b, r'', h5, by simp; omega⟩
      | false =>
        simp only [Bool.false_eq_true, if_false] at h
        rw [routeLoop]
        split
        · exact ⟨[], cl, t, rfl, by simp⟩
        · split
          · obtain ⟨ws, cl', r, h1, h2, -⟩ := gotoNext_total cl t
            simp only [h1, except_bind_ok]
            obtain ⟨a, b, r'', h5, h6⟩ := ih true cl' r (by simp; omega)
            exact ⟨a, b, r'', h5, by simp; omega⟩
          · split
            · obtain ⟨ws, cl', r, h1, h2, -⟩ := gotoNext_total cl t
              simp only [h1, except_bind_ok]
              obtain ⟨a, b, r'', h5, h6⟩ := ih false cl' r (by simp; omega)
              exact ⟨a, b, r'', h5, by simp; omega⟩
            · obtain ⟨a, cl', r, h1, h2, -⟩ := getAddrSpec_total cl (c :: t)
              simp only [h1, except_bind_ok, except_pure]
              exact ⟨_, _, _, rfl, by simp only [List.length_drop]; omega⟩

theorem getRouteAddr_total (cl : List Str) (c : Char) (t : Str) : ∃ a cl' r, getRouteAddr cl (c :: t) = .ok (a, cl', r) ∧ r.length ≤ t.length := by
  unfold getRouteAddr
  obtain ⟨ws, cl', r, h1, h2, -⟩ := gotoNext_total cl t
  simp only [h1, except_bind_ok]
  obtain ⟨a, b, r', h3, h4⟩ := routeLoop_total (2 * r.length + 2) false cl' r (by simp)
  exact ⟨a, b, r', h3, by omega⟩

theorem finishAddress_total (res : List (Str × Str)) (cl : List Str) (rest : Str) :
    ∃ cl' r, finishAddress res cl rest = .ok (res, cl', r) ∧ r.length ≤ rest.length := by
  unfold finishAddress
  obtain ⟨ws, cl', r, h1, h2, -⟩ := gotoNext_total cl rest
  simp only [h1, except_bind_ok]
  split
  · rename_i t
    exact ⟨cl', t, rfl, by simp only [List.length_cons] at h2; omega⟩
  · exact ⟨cl', r, rfl, h2⟩

theorem phraseEnd_special {c : Char} (h : isPhraseEnd c = true) (hf : isFws c = false) : c ∈ specials := by
  simp only [isPhraseEnd, isAtomEnd, Bool.and_eq_true, Bool.or_eq_true, hf, Bool.false_eq_true, or_false, decide_eq_true_eq] at h
  exact h.2

theorem getAddress_total : ∀ n : Nat,
    (∀ fuel rest, rest.length = n → 2 * n + 1 ≤ fuel →
      ∃ res cl r, getAddress fuel rest = .ok (res, cl, r) ∧ r.length ≤ rest.length ∧ (rest ≠ [] → r.length < rest.length)) ∧
    (∀ fuel res cl rest, rest.length = n → 2 * n + 2 ≤ fuel →
      ∃ res' cl' r, groupLoop fuel res cl rest = .ok (res', cl', r) ∧ r.length ≤ rest.length) := by
  intro n
  induction n using Nat.strongRecOn with
  | ind n ih =>
  have hA : ∀ fuel rest, rest.length = n → 2 * n + 1 ≤ fuel →
      ∃ res cl r, getAddress fuel rest = .ok (res, cl, r) ∧ r.length ≤ rest.length ∧ (rest ≠ [] → r.length < rest.length) := by
    intro fuel rest hn hfuel
    cases fuel with
    | zero => omega
    | succ fuel =>
      rw [getAddress]
      obtain ⟨ws0, cl0, r0, h0, l0, s0⟩ := gotoNext_total [] rest
      obtain ⟨pl, cl1, r1, h1, l1, -, p1, s1⟩ := phraseLoop_total (r0.length + 1) [] cl0 r0 (by omega)
      obtain ⟨ws2, cl2, r2, h2, l2, s2⟩ := gotoNext_total cl1 r1
      have h1' : getPhraseList cl0 r0 = .ok (pl, cl1, r1) := h1
      simp only [h0, h1', h2, except_bind_ok]
      have e12 : ∀ c t, r2 = c :: t → r1 = r2 := by
        intro c t e
        cases r1 with
        | nil => rw [gotoNext_nil] at h2; simp only [Except.ok.injEq, Prod.mk.injEq] at h2; rw [← h2.2.2]
        | cons c1 t1 =>
          have := s1 c1 t1 rfl
          rw [gotoNext_stay cl1 c1 t1 this.1 this.2.2.1] at h2
          simp only [Except.ok.injEq, Prod.mk.injEq] at h2
          exact h2.2.2
      cases r2 with
      | nil =>
        simp only
        obtain ⟨cl', r, hf, lf⟩ := finishAddress_total (plainAddress cl2 pl) cl2 []
        refine ⟨_, _, _, hf, by omega, fun hne => ?_⟩
        have := List.length_pos_iff.mpr hne
        simp only [List.length_nil] at lf
        omega
      | cons c t =>
        have e := e12 c t rfl
        have hstop := s1 c t e
        simp only [List.length_cons] at l2
        simp only
        split
        · rename_i hc
          obtain ⟨a, cl3, r3, h3, l3, p3⟩ := getAddrSpec_total cl2 r0
          simp only [h3, except_bind_ok]
          obtain ⟨cl', r, hf, lf⟩ := finishAddress_total [(pyJoin [' '] cl3, a)] cl3 r3
          refine ⟨_, _, _, hf, by omega, fun hne => ?_⟩
          cases r0 with
          | nil => simp only [List.length_nil] at l1; omega
          | cons c0 t0 =>
            have hs0 := s0 c0 t0 rfl
            have : r3.length < (c0 :: t0).length := by
              refine p3 c0 t0 rfl hs0.1 hs0.2 ?_
              by_cases hpe : isPhraseEnd c0 = true
              · by_cases hq : c0 = '"'
                · exact Or.inr (Or.inl hq)
                · -- the phrase list stops at once
                  have hst : getPhraseList cl0 (c0 :: t0) = .ok ([], cl0, c0 :: t0) := by
                    rw [getPhraseList, phraseLoop, if_neg (by simp [hs0.1]), if_neg hq, if_neg hs0.2, if_pos hpe]
                  rw [hst] at h1'
                  simp only [Except.ok.injEq, Prod.mk.injEq] at h1'
                  rw [← h1'.2.2] at e
                  simp only [List.cons.injEq] at e
                  rcases hc with hc | hc
                  · rw [e.1, hc] at hpe; exact absurd hpe (by decide)
                  · exact Or.inr (Or.inr (Or.inl (e.1.trans hc)))
              · by_cases hd : c0 = '.'
                · exact Or.inl hd
                · right; right; right
                  simp only [isPhraseEnd, Bool.and_eq_true, decide_eq_true_eq, not_and, Bool.not_eq_true] at hpe
                  exact hpe hd
            omega
        · split
          · obtain ⟨res', cl3, r3, h3, l3⟩ := (ih t.length (by omega)).2 fuel [] cl2 t rfl (by omega)
            simp only [h3, except_bind_ok]
            obtain ⟨cl', r, hf, lf⟩ := finishAddress_total res' cl3 r3
            exact ⟨_, _, _, hf, by omega, fun _ => by omega⟩
          · split
            · obtain ⟨a, cl3, r3, h3, l3⟩ := getRouteAddr_total cl2 c t
              simp only [h3, except_bind_ok]
              obtain ⟨cl', r, hf, lf⟩ := finishAddress_total [(routeName cl3 pl, a)] cl3 r3
              exact ⟨_, _, _, hf, by omega, fun _ => by omega⟩
            · split
              · rename_i hpl
                have hlt := p1 (by simp only [List.length_nil]; exact List.length_pos_iff.mpr hpl)
                obtain ⟨cl', r, hf, lf⟩ := finishAddress_total (plainAddress cl2 pl) cl2 (c :: t)
                rw [e] at hlt
                exact ⟨_, _, _, hf, by simp only [List.length_cons] at *; omega, fun _ => by omega⟩
              · split
                · obtain ⟨cl', r, hf, lf⟩ := finishAddress_total [] cl2 t
                  exact ⟨_, _, _, hf, by omega, fun _ => by omega⟩
                · rename_i hsp
                  exact absurd (phraseEnd_special hstop.2.2.2 hstop.1) hsp
  refine ⟨hA, ?_⟩
  intro fuel res cl rest hn hfuel
  cases fuel with
  | zero => omega
  | succ fuel =>
    cases rest with
    | nil => exact ⟨res, cl, [], by rw [groupLoop], by simp⟩
    | cons c t =>
      rw [groupLoop]
      obtain ⟨ws0, cl0, r0, h0, l0, s0⟩ := gotoNext_total cl (c :: t)
      simp only [h0, except_bind_ok]
      split
      · rename_i t'
        exact ⟨_, _, _, rfl, by simp only [List.length_cons] at *; omega⟩
      · have key : ∃ more cl'' r', getAddress fuel r0 = .ok (more, cl'', r') ∧ r'.length < n := by
          rcases Nat.lt_or_ge r0.length n with h | h
          · obtain ⟨more, cl'', r', h1, l1, -⟩ := (ih r0.length h).1 fuel r0 rfl (by omega)
            exact ⟨more, cl'', r', h1, by omega⟩
          · have hr0 : r0.length = n := by omega
            obtain ⟨more, cl'', r', h1, l1, p1⟩ := hA fuel r0 hr0 (by omega)
            refine ⟨more, cl'', r', h1, ?_⟩
            have := p1 (by intro h; rw [h] at hr0; simp only [List.length_nil, List.length_cons] at *; omega)
            omega
        obtain ⟨more, cl'', r', h1, l1⟩ := key
        simp only [h1, except_bind_ok]
        obtain ⟨res', cl', r, h3, l3⟩ := (ih r'.length l1).2 fuel (res ++ more) cl'' r' rfl (by omega)
        exact ⟨res', cl', r, h3, by omega⟩

end Pgp
