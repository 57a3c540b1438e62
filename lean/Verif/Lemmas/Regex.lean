import Verif.Model.Regex
import Verif.Spec.Regex
import Verif.Lemmas.Utils
/-
Lemmas about the regular expression validator.
-/
namespace Pgp
open Spec

theorem pattern_snoc {k x} (h : Pattern k x) :
    (k = .branch → ∀ p, Pattern .piece p → Pattern .branch (x ++ p)) ∧
    (k = .regex → (∀ p, Pattern .piece p → Pattern .regex (x ++ p)) ∧ Pattern .regex (x ++ [['|']])) := by
  induction h with
  | one hb ih =>
    refine ⟨by simp, fun _ => ⟨fun p hp => .one (ih.1 rfl p hp), .alt hb (.one .nil)⟩⟩
  | alt hb hr ihb ihr =>
    refine ⟨by simp, fun _ => ⟨fun p hp => ?_, ?_⟩⟩
    · rw [List.append_assoc, List.cons_append]
      exact .alt hb ((ihr.2 rfl).1 p hp)
    · rw [List.append_assoc, List.cons_append]
      exact .alt hb (ihr.2 rfl).2
  | nil =>
    refine ⟨fun _ p hp => ?_, by simp⟩
    have := Pattern.cons hp .nil
    simpa using this
  | cons hp hb _ ihb =>
    refine ⟨fun _ p hp' => ?_, by simp⟩
    rw [List.append_assoc]
    exact .cons hp (ihb.1 rfl p hp')
  | once _ _ => exact ⟨by simp, by simp⟩
  | rep _ _ _ => exact ⟨by simp, by simp⟩
  | group _ _ => exact ⟨by simp, by simp⟩
  | range _ => exact ⟨by simp, by simp⟩
  | single _ => exact ⟨by simp, by simp⟩

theorem regex_snoc_piece {x p} (h : Pattern .regex x) (hp : Pattern .piece p) : Pattern .regex (x ++ p) := ((pattern_snoc h).2 rfl).1 p hp
theorem regex_snoc_atom {x p} (h : Pattern .regex x) (hp : Pattern .atom p) : Pattern .regex (x ++ p) := regex_snoc_piece h (.once hp)
theorem regex_snoc_bar {x} (h : Pattern .regex x) : Pattern .regex (x ++ [['|']]) := ((pattern_snoc h).2 rfl).2

/-- A range's content so far: nothing, a `^`, or a full content. -/
def RangeSoFar (cs : List Str) : Prop := cs = [] ∨ cs = [['^']] ∨ RangeContent cs

theorem rangeSoFar_snoc {cs : List Str} {t : Str} (h : RangeSoFar cs) (ht : t ≠ [']'] ∨ cs = [] ∨ cs = [['^']]) : RangeSoFar (cs ++ [t]) := by
  rcases h with rfl | rfl | ⟨neg, x, rest, e, hn, hr⟩
  · by_cases hx : t = ['^']
    · subst hx; exact Or.inr (Or.inl rfl)
    · exact Or.inr (Or.inr ⟨[], t, [], rfl, Or.inl ⟨rfl, hx⟩, by simp⟩)
  · exact Or.inr (Or.inr ⟨[['^']], t, [], rfl, Or.inr rfl, by simp⟩)
  · refine Or.inr (Or.inr ⟨neg, x, rest ++ [t], by simp [e], hn, ?_⟩)
    have : t ≠ [']'] := by
      rcases ht with h | h | h
      · exact h
      · rw [h] at e; simp at e
      · rcases hn with ⟨rfl, hx⟩ | rfl
        · rw [h] at e; simp only [List.nil_append, List.cons.injEq] at e; exact absurd e.1.symm hx
        · rw [h] at e; simp at e
    simp only [List.mem_append, List.mem_singleton, not_or]
    exact ⟨hr, fun h => this h.symm⟩

theorem symbol_flatten_nil {cs : List Str} (h : ∀ t ∈ cs, IsSymbol t) : cs.flatten = [] ↔ cs = [] := by
  cases cs with
  | nil => simp
  | cons t cs =>
    have := h t (by simp)
    rcases this with ⟨c, rfl, -⟩ | ⟨c, rfl, -⟩ <;> simp

theorem symbol_flatten_caret {cs : List Str} (h : ∀ t ∈ cs, IsSymbol t) : cs.flatten = ['^'] ↔ cs = [['^']] := by
  cases cs with
  | nil => simp
  | cons t cs =>
    have := h t (by simp)
    have hn := symbol_flatten_nil (cs := cs) (fun x hx => h x (by simp [hx]))
    rcases this with ⟨c, rfl, -⟩ | ⟨c, rfl, hc⟩
    · rw [List.flatten_cons, List.singleton_append, List.cons.injEq, hn]; simp
    · simp

/-- The new piece at the end of the text. -/
theorem str_pieces (past : List (List RxPiece)) (pieces : List RxPiece) (cur : RxCur) (p : RxPiece) :
    (RxState.mk past (p :: pieces) cur).str = (RxState.mk past pieces cur).str ++ p.str := by
  have hb : branchStr (p :: pieces) = branchStr pieces ++ p.str := by simp [branchStr]
  have : ∀ (l : List Str) (a b : Str), pyJoin ['|'] (l ++ [a ++ b]) = pyJoin ['|'] (l ++ [a]) ++ b := by
    intro l a b
    induction l with
    | nil => rfl
    | cons x l ih =>
      cases l with
      | nil => simp [pyJoin]
      | cons y l =>
        simp only [List.cons_append] at ih ⊢
        simp only [pyJoin, ih, List.append_assoc]
  simp only [RxState.str, List.map_append, List.map_cons, List.map_nil, hb, this]

theorem str_bar (past : List (List RxPiece)) (pieces : List RxPiece) (cur cur' : RxCur) :
    (RxState.mk (past ++ [pieces]) [] cur).str = (RxState.mk past pieces cur').str ++ ['|'] := by
  have : ∀ (l : List Str) (a : Str), pyJoin ['|'] (l ++ [a] ++ [[]]) = pyJoin ['|'] (l ++ [a]) ++ ['|'] := by
    intro l a
    induction l with
    | nil => simp [pyJoin]
    | cons x l ih =>
      cases l with
      | nil => simp [pyJoin]
      | cons y l =>
        simp only [List.cons_append, List.append_assoc] at ih ⊢
        simp only [pyJoin, ih, List.append_assoc]
  simp only [RxState.str, List.map_append, List.map_cons, List.map_nil]
  exact this _ _

theorem str_cur (past : List (List RxPiece)) (pieces : List RxPiece) (cur cur' : RxCur) :
    (RxState.mk past pieces cur).str = (RxState.mk past pieces cur').str := rfl

/-- What the state says about the symbols consumed so far, given the symbols to come. -/
def RxInv (st : RxState) (consumed ts : List Str) : Prop :=
  st.str = consumed.flatten ∧
  match st.cur with
  | .branch => Pattern .regex consumed
  | .piece | .atom => (∃ x a, consumed = x ++ a ∧ Pattern .regex x ∧ Pattern .atom a) ∧
      ∃ p ps, st.pieces = p :: ps ∧ p.complete = false ∧ p.term = [] ∧ p.closed = true
  | .group => (∃ x r, consumed = x ++ ['('] :: r ∧ Pattern .regex x ∧ (∀ t, ts = [')'] :: t → Pattern .regex r) ∧
        ∀ tok t, ts = tok :: t → tok ∈ rxSpecial) ∧
      ∃ p ps, st.pieces = p :: ps ∧ p.complete = false ∧ p.term = [] ∧ p.closed = false ∧ p.stop = [')']
  | .range => ∃ x cs, consumed = x ++ ['['] :: cs ∧ Pattern .regex x ∧ RangeSoFar cs ∧ (∀ t ∈ cs, IsSymbol t) ∧
      ∃ p ps, st.pieces = p :: ps ∧ p.complete = false ∧ p.term = [] ∧ p.closed = false ∧ p.stop = [']'] ∧ p.content = cs.flatten

/-- The result of a call, given what was consumed before and what was to come. -/
def RxOutcome (consumed ts : List Str) (res : RxResult) : Prop :=
  ∃ mid left, ts = mid ++ left ∧ res.2.2.1 = (consumed ++ mid).flatten ∧ res.2.2.2 = left ∧
    (res.2.1 = true → left = []) ∧ (res.2.1 = true → res.1 = false → Pattern .regex (consumed ++ mid)) ∧
    (res.2.1 = false → res.1 = false ∧ ∃ tok t, left = tok :: t ∧ tok ∈ rxSpecial ∧ (tok = [')'] → Pattern .regex (consumed ++ mid))) ∧
    (res.1 = true → left = [])

theorem rxOutcome_step {consumed ts t res} (h : RxOutcome (consumed ++ [t]) ts res) : RxOutcome consumed (t :: ts) res := by
  obtain ⟨mid, left, h1, h2, h3, h4, h5, h6, h7⟩ := h
  have e : consumed ++ [t] ++ mid = consumed ++ t :: mid := by simp
  rw [e] at h2 h5 h6
  exact ⟨t :: mid, left, by simp [h1], h2, h3, h4, h5, h6, h7⟩

theorem rxOutcome_bad {consumed : List Str} {st : RxState} {tok : Str} {ts : List Str} (hs : st.str = consumed.flatten)
    (hsp : tok ∈ rxSpecial) (h : tok = [')'] → Pattern .regex consumed) : RxOutcome consumed (tok :: ts) (rxBad st false tok ts) := by
  refine ⟨[], tok :: ts, rfl, by simp [rxBad, hs], rfl, by simp [rxBad], by simp [rxBad], fun _ => ⟨rfl, tok, ts, rfl, hsp, ?_⟩, by simp [rxBad]⟩
  simpa using h

theorem rxInv_regex {st consumed ts} (h : RxInv st consumed ts) (hc : st.cur ≠ .group) (hr : st.cur ≠ .range) : Pattern .regex consumed := by
  unfold RxInv at h
  obtain ⟨-, h⟩ := h
  split at h
  · exact h
  · obtain ⟨⟨x, a, rfl, hx, ha⟩, -⟩ := h; exact regex_snoc_atom hx ha
  · obtain ⟨⟨x, a, rfl, hx, ha⟩, -⟩ := h; exact regex_snoc_atom hx ha
  · rename_i e; exact absurd e hc
  · rename_i e; exact absurd e hr

/-- Marking the last piece complete changes neither the text nor the state otherwise. -/
theorem str_finish (st : RxState) : st.finishPiece.str = st.str := by
  obtain ⟨past, pieces, cur⟩ := st
  cases pieces with
  | nil => rfl
  | cons p ps => simp only [RxState.finishPiece, RxState.last, str_pieces]; rfl

theorem str_newPiece (st : RxState) (a b : Str) (cl : Bool) (cur : RxCur) :
    (st.newPiece a b cl cur).str = st.str ++ a ++ (if cl then b else []) := by
  obtain ⟨past, pieces, c⟩ := st
  simp only [RxState.newPiece, str_pieces, RxPiece.str]
  simp [str_cur past pieces cur c]

theorem newPiece_pieces (st : RxState) (a b : Str) (cl : Bool) (cur : RxCur) :
    (st.newPiece a b cl cur).pieces = ⟨a, b, [], cl, [], false⟩ :: st.pieces := rfl

/-- Adding content to an open last piece without terminator. -/
theorem str_addContent {st : RxState} {p : RxPiece} {ps : List RxPiece} (h : st.pieces = p :: ps) (ht : p.term = []) (hc : p.closed = false)
    (t : Str) : (st.addContent t).str = st.str ++ t := by
  obtain ⟨past, pieces, cur⟩ := st
  simp only at h
  subst h
  simp only [RxState.addContent, RxState.last, str_pieces, RxPiece.str]
  simp [ht, hc]

theorem str_term {st : RxState} {p : RxPiece} {ps : List RxPiece} (h : st.pieces = p :: ps) (ht : p.term = []) (t : Str) :
    (setTerm st t).str = st.str ++ t := by
  obtain ⟨past, pieces, cur⟩ := st
  simp only at h
  subst h
  simp only [setTerm, RxState.last, str_pieces, RxPiece.str, str_cur past ps .branch cur]
  simp [ht]

theorem str_close {st : RxState} {p : RxPiece} {ps : List RxPiece} (h : st.pieces = p :: ps) (ht : p.term = []) (hc : p.closed = false) :
    ({ st.last (fun p => { p with closed := true }) with cur := .piece } : RxState).str = st.str ++ p.stop := by
  obtain ⟨past, pieces, cur⟩ := st
  simp only at h
  subst h
  simp only [RxState.last, str_pieces, RxPiece.str, str_cur past ps .piece cur]
  simp [ht, hc]

theorem str_content {st : RxState} {p : RxPiece} {ps : List RxPiece} (h : st.pieces = p :: ps) (ht : p.term = []) (hc : p.closed = false)
    (he : p.content = []) (t : Str) : (st.last fun p => { p with content := t }).str = st.str ++ t := by
  obtain ⟨past, pieces, cur⟩ := st
  simp only at h
  subst h
  simp only [RxState.last, str_pieces, RxPiece.str]
  simp [ht, hc, he]

theorem openGroup_some {st : RxState} (h : st.cur ≠ .group) : ∃ st', openGroup st = some st' ∧ st'.cur = .group ∧
    st'.str = st.str ++ ['('] ∧ ∃ ps, st'.pieces = ⟨['('], [')'], [], false, [], false⟩ :: ps := by
  unfold openGroup
  split
  · rename_i e; exact absurd e h
  · exact ⟨_, rfl, rfl, by simp [str_newPiece, str_finish], _, rfl⟩
  all_goals exact ⟨_, rfl, rfl, by simp [str_newPiece], _, rfl⟩

/-- What one token other than a group's start does: it is refused, or the new state's invariant holds. -/
theorem rxStep_inv {st : RxState} {consumed : List Str} {tok : Str} {ts : List Str} (hs : IsSymbol tok) (h : RxInv st consumed (tok :: ts))
    (hp : ¬ (tok = ['('] ∧ st.cur ≠ .range)) :
    ((rxStep st tok).1 = true ∧ RxInv (rxStep st tok).2 (consumed ++ [tok]) ts) ∨
    ((rxStep st tok).1 = false ∧ (rxStep st tok).2.str = consumed.flatten ∧ tok ∈ rxSpecial ∧ (tok = [')'] → Pattern .regex consumed)) := by
  by_cases hrange : st.cur = .range
  · -- inside a range
    have h0 := h
    unfold RxInv at h
    rw [hrange] at h
    obtain ⟨hstr, x, cs, rfl, hx, hsf, hsym, p, ps, hpp, hc, ht, hcl, hst, hct⟩ := h
    have hadd : (tok ≠ [']'] ∨ cs = [] ∨ cs = [['^']]) → RxInv (st.addContent tok) (x ++ ['['] :: cs ++ [tok]) ts := by
      intro hcond
      refine ⟨by rw [str_addContent hpp ht hcl, hstr]; simp, ?_⟩
      have : (st.addContent tok).cur = .range := hrange
      rw [this]
      refine ⟨x, cs ++ [tok], by simp, hx, rangeSoFar_snoc hsf hcond, ?_, { p with content := p.content ++ tok }, ps, ?_, hc, ht, hcl, hst, ?_⟩
      · intro t' ht'
        rcases List.mem_append.mp ht' with h' | h'
        · exact hsym t' h'
        · rw [List.mem_singleton.mp h']; exact hs
      · simp [RxState.addContent, RxState.last, hpp]
      · simp [hct]
    left
    unfold rxStep
    split
    · rename_i e; subst e
      simp only [stepBar, hrange, Option.isSome_some, Option.getD_some, true_and]
      exact hadd (Or.inl (by decide))
    · split
      · rename_i e
        simp only [stepRep, hrange, true_and]
        refine hadd (Or.inl ?_)
        rcases e with rfl | rfl | rfl <;> decide
      · split
        · rename_i e; subst e
          exact ⟨rfl, hadd (Or.inl (by decide))⟩
        · split
          · rename_i e; subst e
            simp only [stepClose, hrange, Option.isSome_some, Option.getD_some, true_and]
            exact hadd (Or.inl (by decide))
          · split
            · rename_i e; subst e
              simp only [stepOpenRange, hrange, Option.isSome_some, Option.getD_some, true_and]
              exact hadd (Or.inl (by decide))
            · split
              · rename_i e; subst e
                have hcont : st.content = cs.flatten := by simp [RxState.content, hpp, hct]
                by_cases hcc : cs = [] ∨ cs = [['^']]
                · have : st.content = [] ∨ st.content = ['^'] := by
                    rw [hcont, symbol_flatten_nil hsym, symbol_flatten_caret hsym]; exact hcc
                  simp only [stepCloseRange, hrange, if_pos this, Option.isSome_some, Option.getD_some, true_and]
                  exact hadd (Or.inr hcc)
                · have : ¬ (st.content = [] ∨ st.content = ['^']) := by
                    rw [hcont, symbol_flatten_nil hsym, symbol_flatten_caret hsym]; exact hcc
                  simp only [stepCloseRange, hrange, if_neg this, Option.isSome_some, Option.getD_some, true_and]
                  refine ⟨by rw [str_close hpp ht hcl, hstr, hst]; simp, ?_⟩
                  simp only
                  have hrc : RangeContent cs := by
                    rcases hsf with h | h | h
                    · exact absurd (Or.inl h) hcc
                    · exact absurd (Or.inr h) hcc
                    · exact h
                  refine ⟨⟨x, ['['] :: (cs ++ [[']']]), by simp, hx, .range hrc⟩, { p with closed := true }, ps, ?_, hc, ht, rfl⟩
                  simp [RxState.last, hpp]
              · rename_i h1 h2 h3 h4 h5 h6
                simp only [stepOther, hrange, true_and]
                exact hadd (Or.inl h6)
  · have hnotpar : tok ≠ ['('] := fun e => hp ⟨e, hrange⟩
    have hinv := h
    unfold RxInv at h
    obtain ⟨hstr, h⟩ := h
    unfold rxStep
    split
    · -- a bar
      rename_i e; subst e
      have hgo : st.cur ≠ .group → RxInv ⟨st.past ++ [st.pieces], [], .branch⟩ (consumed ++ [['|']]) ts := by
        intro hg
        refine ⟨?_, regex_snoc_bar (rxInv_regex hinv hg hrange)⟩
        rw [str_bar st.past st.pieces .branch st.cur, List.flatten_append, ← hstr]
        rfl
      have hgo' : st.cur ≠ .group → RxInv ⟨st.past ++ [st.finishPiece.pieces], [], .branch⟩ (consumed ++ [['|']]) ts := by
        intro hg
        refine ⟨?_, regex_snoc_bar (rxInv_regex hinv hg hrange)⟩
        have hf := str_finish st
        rw [hstr] at hf
        rw [str_bar st.past st.finishPiece.pieces .branch st.finishPiece.cur, List.flatten_append, ← hf]
        rfl
      cases hcur : st.cur with
      | branch => left; simp only [stepBar, hcur, Option.isSome_some, Option.getD_some, true_and]; exact hgo (by simp [hcur])
      | piece => left; simp only [stepBar, hcur, Option.isSome_some, Option.getD_some, true_and]; exact hgo' (by simp [hcur])
      | atom => left; simp only [stepBar, hcur, Option.isSome_some, Option.getD_some, true_and]; exact hgo' (by simp [hcur])
      | group => right; simp only [stepBar, hcur, Option.isSome_none, Option.getD_none, true_and]; exact ⟨hstr, by decide, fun h => absurd h (by decide)⟩
      | range => exact absurd hcur hrange
    · split
      · -- a repetition
        rename_i e
        have hsp : tok ∈ rxSpecial := by rcases e with rfl | rfl | rfl <;> decide
        have hne : tok ≠ [')'] := by rcases e with rfl | rfl | rfl <;> decide
        have hpend : ∀ x a, consumed = x ++ a → Pattern .regex x → Pattern .atom a → ∀ p ps, st.pieces = p :: ps → p.term = [] →
            RxInv (setTerm st tok) (consumed ++ [tok]) ts := by
          intro x a e1 hx ha p ps hpp ht
          refine ⟨by rw [str_term hpp ht, hstr]; simp, ?_⟩
          have : (setTerm st tok).cur = .branch := rfl
          rw [this]
          simp only
          rw [e1, List.append_assoc]
          exact regex_snoc_piece hx (.rep ha e)
        cases hcur : st.cur with
        | branch => right; simp only [stepRep, hcur, true_and]; exact ⟨hstr, hsp, fun e => absurd e hne⟩
        | group => right; simp only [stepRep, hcur, true_and]; exact ⟨hstr, hsp, fun e => absurd e hne⟩
        | range => exact absurd hcur hrange
        | atom =>
          rw [hcur] at h
          obtain ⟨⟨x, a, e1, hx, ha⟩, p, ps, hpp, hc, ht, -⟩ := h
          left; simp only [stepRep, hcur, true_and]; exact hpend x a e1 hx ha p ps hpp ht
        | piece =>
          rw [hcur] at h
          obtain ⟨⟨x, a, e1, hx, ha⟩, p, ps, hpp, hc, ht, -⟩ := h
          left
          refine ⟨by simp [stepRep, hcur, hpp, hc], ?_⟩
          simp only [stepRep, hcur]
          exact hpend x a e1 hx ha p ps hpp ht
      · skip
        · split
          · -- a closing parenthesis
            rename_i e; subst e
            cases hcur : st.cur with
            | group =>
              rw [hcur] at h
              obtain ⟨⟨x, r, rfl, hx, hr, -⟩, p, ps, hpp, hc, ht, hcl, hst⟩ := h
              left; simp only [stepClose, hcur, Option.isSome_some, Option.getD_some, true_and]
              refine ⟨by rw [str_close hpp ht hcl, hstr, hst]; simp, ?_⟩
              simp only
              refine ⟨⟨x, ['('] :: (r ++ [[')']]), by simp, hx, .group (hr ts rfl)⟩, { p with closed := true }, ps, ?_, hc, ht, rfl⟩
              simp [RxState.last, hpp]
            | range => exact absurd hcur hrange
            | branch =>
              right; simp only [stepClose, hcur, Option.isSome_none, Option.getD_none, true_and]
              exact ⟨hstr, by decide, fun _ => rxInv_regex hinv (by simp [hcur]) hrange⟩
            | piece =>
              right; simp only [stepClose, hcur, Option.isSome_none, Option.getD_none, true_and]
              exact ⟨hstr, by decide, fun _ => rxInv_regex hinv (by simp [hcur]) hrange⟩
            | atom =>
              right; simp only [stepClose, hcur, Option.isSome_none, Option.getD_none, true_and]
              exact ⟨hstr, by decide, fun _ => rxInv_regex hinv (by simp [hcur]) hrange⟩
          · split
            · -- a range starts
              rename_i e; subst e
              have hnew : ∀ st0 : RxState, st0.str = st.str → st.cur ≠ .group →
                  RxInv (st0.newPiece ['['] [']'] false .range) (consumed ++ [['[']]) ts := by
                intro st0 hst0 hg
                refine ⟨by rw [str_newPiece, hst0, hstr]; simp, ?_⟩
                have : (st0.newPiece ['['] [']'] false .range).cur = .range := rfl
                rw [this]
                exact ⟨consumed, [], rfl, rxInv_regex hinv hg hrange, Or.inl rfl, by simp, _, _, newPiece_pieces .., rfl, rfl, rfl, rfl, rfl⟩
              cases hcur : st.cur with
              | group => right; simp only [stepOpenRange, hcur, Option.isSome_none, Option.getD_none, true_and]; exact ⟨hstr, by decide, fun h => absurd h (by decide)⟩
              | range => exact absurd hcur hrange
              | atom =>
                left; simp only [stepOpenRange, hcur, Option.isSome_some, Option.getD_some, true_and]
                exact hnew _ (str_finish st) (by simp [hcur])
              | piece =>
                left; simp only [stepOpenRange, hcur, Option.isSome_some, Option.getD_some, true_and]
                exact hnew _ rfl (by simp [hcur])
              | branch =>
                left; simp only [stepOpenRange, hcur, Option.isSome_some, Option.getD_some, true_and]
                exact hnew _ rfl (by simp [hcur])
            · split
              · -- a stray closing bracket
                rename_i e; subst e
                right
                have : stepCloseRange st = none := by
                  unfold stepCloseRange
                  split
                  · rename_i e; exact absurd e hrange
                  · rfl
                simp only [this, Option.isSome_none, Option.getD_none, true_and]
                exact ⟨hstr, by decide, fun h => absurd h (by decide)⟩
              · -- any other symbol
                rename_i h1 h2 h4 h5 h6
                have h3 := hnotpar
                have hsp : tok ∉ rxSpecial := by
                  simp only [rxSpecial, List.mem_cons, List.not_mem_nil, or_false, not_or]
                  simp only [not_or] at h2
                  exact ⟨h1, h2.1, h2.2.1, h2.2.2, h3, h4, h5, h6⟩
                have hnew : ∀ st0 : RxState, st0.str = st.str → st.cur ≠ .group →
                    RxInv ((st0.newPiece [] [] true .atom).addContent tok) (consumed ++ [tok]) ts := by
                  intro st0 hst0 hg
                  refine ⟨?_, ⟨consumed, [tok], rfl, rxInv_regex hinv hg hrange, .single hsp⟩, _, _, rfl, rfl, rfl, rfl⟩
                  obtain ⟨past, pieces, c⟩ := st0
                  simp only [RxState.newPiece, RxState.addContent, RxState.last, str_pieces, RxPiece.str]
                  rw [List.flatten_append, ← hstr, ← hst0, str_cur past pieces .atom c]
                  simp
                left
                cases hcur : st.cur with
                | group =>
                  rw [hcur] at h
                  obtain ⟨⟨x, r, rfl, hx, hr, hspec⟩, -⟩ := h
                  exact absurd (hspec tok ts rfl) hsp
                | range => exact absurd hcur hrange
                | atom => simp only [stepOther, hcur, true_and]; exact hnew _ (str_finish st) (by simp [hcur])
                | piece => simp only [stepOther, hcur, true_and]; exact hnew _ (str_finish st) (by simp [hcur])
                | branch => simp only [stepOther, hcur, true_and]; exact hnew _ rfl (by simp [hcur])

theorem rxLoop_sound : ∀ (fuel : Nat) (st : RxState) (u : Bool) (consumed ts : List Str), ts.length < fuel → (∀ t ∈ ts, IsSymbol t) →
    RxInv st consumed ts → (u = true → ts = []) → ∃ res, rxLoop fuel st u ts = .ok res ∧ RxOutcome consumed ts res := by
  intro fuel
  induction fuel with
  | zero => intro _ _ _ _ h; omega
  | succ fuel ih =>
    intro st u consumed ts hf hsym hinv hu
    cases ts with
    | nil =>
      refine ⟨rxEnd st u, rfl, [], [], rfl, by simp [rxEnd, hinv.1], rfl, fun _ => rfl, ?_, by simp [rxEnd], fun _ => rfl⟩
      intro _ h
      simp only [rxEnd, Bool.or_eq_false_iff, decide_eq_false_iff_not, not_or] at h
      rw [List.append_nil]
      exact rxInv_regex hinv h.1.2 h.1.1
    | cons tok ts =>
      have hu0 : u = false := by
        cases u with
        | false => rfl
        | true => simpa using hu rfl
      subst hu0
      simp only [List.length_cons] at hf
      rw [rxLoop]
      by_cases hp : tok = ['('] ∧ st.cur ≠ .range
      · rw [if_pos hp]
        obtain ⟨rfl, hr⟩ := hp
        by_cases hg : st.cur = .group
        · have : openGroup st = none := by simp [openGroup, hg]
          rw [this]
          exact ⟨_, rfl, rxOutcome_bad hinv.1 (by decide) (fun h => absurd h (by decide))⟩
        · obtain ⟨st', ho, hcur, hstr, ps, hps⟩ := openGroup_some hg
          rw [ho]
          obtain ⟨⟨u', v', sub, left⟩, hsub, mid, left', h1, h2, h3, h4, h5, h6, h7⟩ :=
            ih RxState.init false [] ts (by omega) (fun t ht => hsym t (by simp [ht])) ⟨rfl, .one .nil⟩ (by simp)
          simp only at h2 h3 h4 h5 h6 h7
          subst h3
          rw [List.nil_append] at h2 h5 h6
          simp only [hsub, except_bind_ok]
          have hinv' : RxInv (st'.last fun p => { p with content := sub }) (consumed ++ ['('] :: mid) left := by
            refine ⟨?_, ?_⟩
            · rw [str_content hps rfl rfl rfl, hstr, hinv.1, h2]; simp
            · have : (st'.last fun p => { p with content := sub }).cur = .group := hcur
              rw [this]
              refine ⟨⟨consumed, mid, rfl, rxInv_regex hinv hg hr, ?_, ?_⟩, ⟨['('], [')'], sub, false, [], false⟩, ps, ?_, rfl, rfl, rfl, rfl⟩
              · intro t ht
                cases v' with
                | true => simp [h4 rfl] at ht
                | false =>
                  obtain ⟨-, tok', t', e, -, hreg⟩ := h6 rfl
                  rw [e] at ht
                  simp only [List.cons.injEq] at ht
                  exact hreg ht.1
              · intro tok0 t ht
                cases v' with
                | true => simp [h4 rfl] at ht
                | false =>
                  obtain ⟨-, tok', t', e, hsp, -⟩ := h6 rfl
                  rw [e] at ht
                  simp only [List.cons.injEq] at ht
                  exact ht.1 ▸ hsp
              · simp [RxState.last, hps]
          have hlen : left.length ≤ ts.length := by rw [h1]; simp
          obtain ⟨res, hres, hout⟩ := ih _ u' (consumed ++ ['('] :: mid) left (by omega)
            (fun t ht => hsym t (by rw [h1]; simp [ht])) hinv' h7
          refine ⟨res, hres, ?_⟩
          obtain ⟨mid2, left2, g1, g2, g3, g4, g5, g6, g7⟩ := hout
          have e : consumed ++ ['('] :: mid ++ mid2 = consumed ++ (['('] :: (mid ++ mid2)) := by simp
          rw [e] at g2 g5 g6
          exact ⟨['('] :: (mid ++ mid2), left2, by rw [h1, g1]; simp, g2, g3, g4, g5, g6, g7⟩
      · rw [if_neg hp]
        rcases rxStep_inv (hsym tok (by simp)) hinv hp with ⟨h1, h2⟩ | ⟨h1, h2, h3, h4⟩
        · rw [if_pos h1]
          obtain ⟨res, hres, hout⟩ := ih _ false _ ts (by omega) (fun t ht => hsym t (by simp [ht])) h2 (by simp)
          exact ⟨res, hres, rxOutcome_step hout⟩
        · rw [if_neg (by rw [h1]; decide)]
          exact ⟨_, rfl, rxOutcome_bad h2 h3 h4⟩

/-- From this state and these tokens the loop gives this result, whatever the fuel beyond the length. -/
def RxRuns (st : RxState) (ts : List Str) (res : RxResult) : Prop := ∀ fuel, ts.length < fuel → rxLoop fuel st false ts = .ok res

/-- The last atom may be repeated. -/
def RxPend (st : RxState) : Prop := st.cur = .atom ∨ st.cur = .piece ∧ ∀ p ps, st.pieces = p :: ps → p.complete = false

/-- A new piece may start. -/
def RxReady (st : RxState) : Prop := st.cur = .branch ∨ RxPend st

/-- The loop reads these symbols, ending in a state with the property. -/
def RxReads (P : RxState → Prop) (st : RxState) (w : List Str) : Prop :=
  ∀ ts, ∃ st', P st' ∧ ∀ res, RxRuns st' ts res → RxRuns st (w ++ ts) res

theorem rxReads_nil {P : RxState → Prop} {st} (h : P st) : RxReads P st [] := fun _ => ⟨st, h, fun _ hr => hr⟩

theorem rxReads_append {P Q : RxState → Prop} {st a b} (h : RxReads P st a) (h' : ∀ st', P st' → RxReads Q st' b) : RxReads Q st (a ++ b) := by
  intro ts
  obtain ⟨st1, h1, r1⟩ := h (b ++ ts)
  obtain ⟨st2, h2, r2⟩ := h' st1 h1 ts
  exact ⟨st2, h2, fun res hr => by rw [List.append_assoc]; exact r1 res (r2 res hr)⟩

theorem rxReads_mono {P Q : RxState → Prop} {st a} (h : RxReads P st a) (hpq : ∀ s, P s → Q s) : RxReads Q st a :=
  fun ts => let ⟨st', h1, h2⟩ := h ts; ⟨st', hpq _ h1, h2⟩

theorem rxReads_step {P : RxState → Prop} {st : RxState} {tok : Str} (hp : ¬ (tok = ['('] ∧ st.cur ≠ .range)) (h1 : (rxStep st tok).1 = true)
    (h2 : P (rxStep st tok).2) : RxReads P st [tok] := by
  intro ts
  refine ⟨_, h2, fun res hr fuel hf => ?_⟩
  cases fuel with
  | zero => omega
  | succ fuel =>
    simp only [List.singleton_append, List.length_cons] at hf ⊢
    rw [rxLoop, if_neg hp, if_pos h1]
    exact hr fuel (by omega)

theorem rxReady_close {st : RxState} (h : RxReady st) (ts : List Str) : ∃ s, RxRuns st ([')'] :: ts) (false, false, s, [')'] :: ts) := by
  refine ⟨st.str, fun fuel hf => ?_⟩
  have : stepClose st = none := by
    rcases h with h | h | ⟨h, -⟩ <;> simp [stepClose, h]
  have hs : rxStep st [')'] = (false, st) := by
    unfold rxStep
    rw [if_neg (by decide), if_neg (by decide), if_neg (by decide), if_pos rfl, this]
    rfl
  cases fuel with
  | zero => omega
  | succ fuel => rw [rxLoop, if_neg (by rintro ⟨h, -⟩; exact absurd h (by decide)), hs, if_neg (by simp)]; rfl

theorem rxReads_group {r : List Str} (h : RxReads RxReady RxState.init r) {st : RxState} (hst : RxReady st) :
    RxReads RxPend st (['('] :: (r ++ [[')']])) := by
  intro ts
  obtain ⟨st1, h1, r1⟩ := h ([')'] :: ts)
  obtain ⟨sub, hc⟩ := rxReady_close h1 ts
  have hsub := r1 _ hc
  have hng : st.cur ≠ .group := by rcases hst with h | h | ⟨h, -⟩ <;> simp [h]
  have hnr : st.cur ≠ .range := by rcases hst with h | h | ⟨h, -⟩ <;> simp [h]
  obtain ⟨st', ho, hcur, -, ps, hps⟩ := openGroup_some hng
  refine ⟨{ (st'.last fun p => { p with content := sub }).last (fun p => { p with closed := true }) with cur := .piece }, Or.inr ⟨rfl, ?_⟩, ?_⟩
  · intro p ps' e
    simp only [RxState.last, hps, List.cons.injEq] at e
    rw [← e.1]
  · intro res hr fuel hf
    cases fuel with
    | zero => omega
    | succ fuel =>
      have e : ['('] :: (r ++ [[')']]) ++ ts = ['('] :: (r ++ [')'] :: ts) := by simp
      rw [e] at hf ⊢
      simp only [List.length_cons, List.length_append] at hf
      rw [rxLoop, if_pos ⟨rfl, hnr⟩, ho]
      simp only [hsub fuel (by simp; omega), except_bind_ok]
      cases fuel with
      | zero => omega
      | succ fuel =>
        have hcl : stepClose (st'.last fun p => { p with content := sub }) =
            some { (st'.last fun p => { p with content := sub }).last (fun p => { p with closed := true }) with cur := .piece } := by
          have : (st'.last fun p => { p with content := sub }).cur = .group := hcur
          simp [stepClose, this]
        have hs : rxStep (st'.last fun p => { p with content := sub }) [')'] =
            (true, { (st'.last fun p => { p with content := sub }).last (fun p => { p with closed := true }) with cur := .piece }) := by
          unfold rxStep
          rw [if_neg (by decide), if_neg (by decide), if_neg (by decide), if_pos rfl, hcl]
          rfl
        rw [rxLoop, if_neg (by rintro ⟨h, -⟩; exact absurd h (by decide)), hs, if_pos rfl]
        exact hr fuel (by omega)

/-- A range that has been read up to here. -/
def RxInRange (cs : List Str) (st : RxState) : Prop := st.cur = .range ∧ ∃ p ps, st.pieces = p :: ps ∧ p.complete = false ∧ p.content = cs.flatten

theorem rxReads_inRange {cs : List Str} {st : RxState} (h : RxInRange cs st) (hsym : ∀ t ∈ cs, IsSymbol t) (tok : Str)
    (ht : tok ≠ [']'] ∨ cs = [] ∨ cs = [['^']]) : RxReads (RxInRange (cs ++ [tok])) st [tok] := by
  obtain ⟨hcur, p, ps, hpp, hc, hct⟩ := h
  have hstep : rxStep st tok = (true, st.addContent tok) := by
    unfold rxStep
    split
    · rename_i e; subst e; simp [stepBar, hcur]
    · split
      · simp [stepRep, hcur]
      · split
        · rfl
        · split
          · rename_i e; subst e; simp [stepClose, hcur]
          · split
            · rename_i e; subst e; simp [stepOpenRange, hcur]
            · split
              · rename_i e
                have hcont : st.content = cs.flatten := by simp [RxState.content, hpp, hct]
                have : st.content = [] ∨ st.content = ['^'] := by
                  rw [hcont, symbol_flatten_nil hsym, symbol_flatten_caret hsym]
                  rcases ht with h | h
                  · exact absurd e h
                  · exact h
                subst e
                simp [stepCloseRange, hcur, this]
              · simp [stepOther, hcur]
  refine rxReads_step (by rintro ⟨-, h⟩; exact h hcur) (by rw [hstep]) ?_
  rw [hstep]
  exact ⟨hcur, { p with content := p.content ++ tok }, ps, by simp [RxState.addContent, RxState.last, hpp], hc, by simp [hct]⟩

theorem rxReads_rangeRest {rest : List Str} : ∀ {cs : List Str} {st : RxState}, RxInRange cs st → (∀ t ∈ cs ++ rest, IsSymbol t) →
    [']'] ∉ rest → RxReads (RxInRange (cs ++ rest)) st rest := by
  induction rest with
  | nil => intro cs st h _ _; rw [List.append_nil]; exact rxReads_nil h
  | cons t rest ih =>
    intro cs st h hsym hn
    simp only [List.mem_cons, not_or] at hn
    have h1 := rxReads_inRange h (fun x hx => hsym x (by simp [hx])) t (Or.inl (Ne.symm hn.1))
    have := rxReads_append h1 (b := rest) (Q := RxInRange (cs ++ t :: rest)) (by
      intro st' hst'
      have := ih hst' (by simpa using hsym) hn.2
      simpa using this)
    simpa using this

theorem rangeContent_ne {c : List Str} (h : RangeContent c) : c ≠ [] ∧ c ≠ [['^']] := by
  obtain ⟨neg, x, rest, rfl, hn, -⟩ := h
  constructor
  · simp
  · rcases hn with ⟨rfl, hx⟩ | rfl
    · intro e; simp only [List.nil_append, List.cons.injEq] at e; exact hx e.1
    · simp

theorem rxReads_content {c : List Str} (h : RangeContent c) (hsym : ∀ t ∈ c, IsSymbol t) {st : RxState} (hst : RxInRange [] st) :
    RxReads (RxInRange c) st c := by
  obtain ⟨neg, x, rest, rfl, hn, hr⟩ := h
  have tail : ∀ (neg : List Str) (st' : RxState), (neg = [] ∨ neg = [['^']]) → (∀ t ∈ neg ++ x :: rest, IsSymbol t) → RxInRange neg st' →
      RxReads (RxInRange (neg ++ x :: rest)) st' (x :: rest) := by
    intro neg st' hneg hsym hin
    have h1 := rxReads_inRange hin (fun t ht => hsym t (by simp [ht])) x (Or.inr hneg)
    have := rxReads_append h1 (b := rest) (Q := RxInRange (neg ++ x :: rest)) (by
      intro st2 hst2
      have := rxReads_rangeRest hst2 (by simpa using hsym) hr
      simpa using this)
    simpa using this
  rcases hn with ⟨rfl, -⟩ | rfl
  · exact tail [] st (Or.inl rfl) hsym hst
  · have h1 := rxReads_inRange hst (by simp) ['^'] (Or.inl (by decide))
    exact rxReads_append h1 (fun st' hst' => tail [['^']] st' (Or.inr rfl) hsym hst')

theorem rxReads_range {c : List Str} (h : RangeContent c) (hsym : ∀ t ∈ c, IsSymbol t) {st : RxState} (hst : RxReady st) :
    RxReads RxPend st (['['] :: (c ++ [[']']])) := by
  have hopen : RxReads (RxInRange []) st [['[']] := by
    have hs : ∃ st', stepOpenRange st = some st' ∧ RxInRange [] st' := by
      rcases hst with h | h | ⟨h, -⟩ <;>
        simp only [stepOpenRange, h] <;> exact ⟨_, rfl, rfl, _, _, newPiece_pieces .., rfl, rfl⟩
    obtain ⟨st', h1, h2⟩ := hs
    have : rxStep st ['['] = (true, st') := by
      unfold rxStep
      rw [if_neg (by decide), if_neg (by decide), if_neg (by decide), if_neg (by decide), if_pos rfl, h1]
      rfl
    exact rxReads_step (by rintro ⟨h, -⟩; exact absurd h (by decide)) (by rw [this]) (by rw [this]; exact h2)
  have hclose : ∀ st', RxInRange c st' → RxReads RxPend st' [[']']] := by
    rintro st' ⟨hcur, p, ps, hpp, hc, hct⟩
    have hcont : st'.content = c.flatten := by simp [RxState.content, hpp, hct]
    have hne : ¬ (st'.content = [] ∨ st'.content = ['^']) := by
      rw [hcont, symbol_flatten_nil hsym, symbol_flatten_caret hsym, not_or]
      exact rangeContent_ne h
    have : rxStep st' [']'] = (true, { st'.last (fun p => { p with closed := true }) with cur := .piece }) := by
      unfold rxStep
      rw [if_neg (by decide), if_neg (by decide), if_neg (by decide), if_neg (by decide), if_neg (by decide), if_pos rfl]
      simp only [stepCloseRange, hcur, if_neg hne]
      rfl
    refine rxReads_step (by rintro ⟨h, -⟩; exact absurd h (by decide)) (by rw [this]) ?_
    rw [this]
    refine Or.inr ⟨rfl, ?_⟩
    intro q qs e
    simp only [RxState.last, hpp, List.cons.injEq] at e
    rw [← e.1]; exact hc
  exact rxReads_append hopen (fun st1 h1 => rxReads_append (rxReads_content h hsym h1) hclose)

theorem rxReads_single {t : Str} (h : t ∉ rxSpecial) {st : RxState} (hst : RxReady st) : RxReads RxPend st [t] := by
  simp only [rxSpecial, List.mem_cons, List.not_mem_nil, or_false, not_or] at h
  obtain ⟨h1, h2, h3, h4, h5, h6, h7, h8⟩ := h
  have : rxStep st t = (true, stepOther st t) := by
    unfold rxStep
    rw [if_neg h1, if_neg (by simp [h2, h3, h4]), if_neg h5, if_neg h6, if_neg h7, if_neg h8]
  refine rxReads_step (by rintro ⟨h, -⟩; exact h5 h) (by rw [this]) ?_
  rw [this]
  left
  rcases hst with h | h | ⟨h, -⟩ <;> simp only [stepOther, h] <;> rfl

theorem rxReads_rep {t : Str} (ht : t = ['*'] ∨ t = ['+'] ∨ t = ['?']) {st : RxState} (hst : RxPend st) : RxReads RxReady st [t] := by
  have hb : t ≠ ['|'] := by rcases ht with rfl | rfl | rfl <;> decide
  have : rxStep st t = (true, setTerm st t) := by
    unfold rxStep
    rw [if_neg hb, if_pos ht]
    rcases hst with h | ⟨h, hc⟩
    · simp [stepRep, h]
    · simp only [stepRep, h, Prod.mk.injEq, and_true]
      split
      · rename_i p ps e; simp [hc p ps e]
      · rfl
  refine rxReads_step (by rintro ⟨h, -⟩; rcases ht with rfl | rfl | rfl <;> exact absurd h (by decide)) (by rw [this]) ?_
  rw [this]
  exact Or.inl rfl

theorem rxReads_bar {st : RxState} (hst : RxReady st) : RxReads RxReady st [['|']] := by
  have : ∃ st', rxStep st ['|'] = (true, st') ∧ st'.cur = .branch := by
    unfold rxStep
    rw [if_pos rfl]
    rcases hst with h | h | ⟨h, -⟩ <;> simp [stepBar, h]
  obtain ⟨st', h1, h2⟩ := this
  refine rxReads_step (by rintro ⟨h, -⟩; exact absurd h (by decide)) (by rw [h1]) ?_
  rw [h1]
  exact Or.inl h2

theorem rxReads_pattern {k w} (h : Pattern k w) : (∀ t ∈ w, IsSymbol t) → ∀ st, RxReady st →
    match k with
    | .atom => RxReads RxPend st w
    | _ => RxReads RxReady st w := by
  induction h with
  | one _ ih => exact ih
  | alt _ _ ihb ihr =>
    intro hsym st hst
    refine rxReads_append (ihb (fun t ht => hsym t (by simp [ht])) st hst) (fun st1 h1 => ?_)
    exact rxReads_append (rxReads_bar h1) (fun st2 h2 => ihr (fun t ht => hsym t (by simp [ht])) st2 h2)
  | nil => intro _ st hst; exact rxReads_nil hst
  | cons _ _ ihp ihb =>
    intro hsym st hst
    exact rxReads_append (ihp (fun t ht => hsym t (by simp [ht])) st hst) (fun st1 h1 => ihb (fun t ht => hsym t (by simp [ht])) st1 h1)
  | once _ ih => intro hsym st hst; exact rxReads_mono (ih hsym st hst) (fun _ h => Or.inr h)
  | rep _ ht ih =>
    intro hsym st hst
    exact rxReads_append (ih (fun t ht => hsym t (by simp [ht])) st hst) (fun st1 h1 => rxReads_rep ht h1)
  | group _ ih =>
    intro hsym st hst
    exact rxReads_group (ih (fun t ht => hsym t (by simp [ht])) RxState.init (Or.inl rfl)) hst
  | range hc => intro hsym st hst; exact rxReads_range hc (fun t ht => hsym t (by simp [ht])) hst
  | single ht => intro _ st hst; exact rxReads_single ht hst

theorem reTokens_char (c : Char) (s : Str) (hc : c ≠ '\\') : reTokens (c :: s) = [c] :: reTokens s := by
  rw [reTokens]
  · rintro d s' rfl _; exact hc rfl
  · rintro rfl; exact absurd rfl hc

theorem reTokens_symbols (syms : List Str) (h : ∀ t ∈ syms, IsSymbol t) : reTokens syms.flatten = syms := by
  induction syms with
  | nil => rfl
  | cons t syms ih =>
    have ih' := ih (fun x hx => h x (by simp [hx]))
    rcases h t (by simp) with ⟨c, rfl, hc⟩ | ⟨c, rfl, hc⟩
    · rw [List.flatten_cons, List.singleton_append, reTokens_char c _ hc, ih']
    · rw [List.flatten_cons]
      simp only [List.cons_append, List.nil_append]
      rw [reTokens, if_neg hc, ih']

end Pgp
