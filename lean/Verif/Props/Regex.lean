import Verif.Lemmas.Regex
/-
Property theorems C43 (regular expression subpackets).
-/
namespace Pgp.Props
open Spec

/-- C43: a pattern made of symbols (characters and escaped characters) is accepted exactly when it is a regular expression of RFC 4880
section 8, read over those symbols. -/
theorem C43_accepts_iff_partial (syms : List Str) (h : ∀ t ∈ syms, IsSymbol t) :
    validateRegex syms.flatten = .ok none ↔ Pattern .regex syms := by
  unfold validateRegex
  rw [reTokens_symbols syms h]
  constructor
  · intro hv
    obtain ⟨⟨u, v, s, left⟩, h1, mid, left', e, h2, h3, h4, h5, h6, h7⟩ :=
      rxLoop_sound (syms.length + 1) RxState.init false [] syms (by omega) h ⟨rfl, .one .nil⟩ (by simp)
    simp only [h1, except_bind_ok, except_pure] at hv
    simp only at h2 h3 h4 h5 h6 h7
    cases u with
    | true => simp at hv
    | false =>
      cases v with
      | false => simp at hv
      | true =>
        have := h4 rfl
        subst h3
        rw [this, List.append_nil] at e
        rw [e]
        exact h5 rfl rfl
  · intro hp
    have := rxReads_pattern hp h RxState.init (Or.inl rfl)
    simp only at this
    obtain ⟨st', hr, hrun⟩ := this []
    have hend : RxRuns st' [] (rxEnd st' false) := by
      intro fuel hf
      cases fuel with
      | zero => omega
      | succ fuel => rfl
    have hres := hrun _ hend (syms.length + 1) (by simp)
    rw [List.append_nil] at hres
    have hne : ¬ (st'.cur = .range ∨ st'.cur = .group) := by rcases hr with h | h | ⟨h, -⟩ <;> simp [h]
    simp only [hres, except_bind_ok, except_pure, rxEnd, hne, decide_false, Bool.or_false, Bool.false_eq_true, if_false, if_true]

example := C43_accepts_iff_partial [['a'], ['*'], ['|'], ['\\', 'b']] (by
  intro t ht
  simp only [List.mem_cons, List.not_mem_nil, or_false] at ht
  rcases ht with rfl | rfl | rfl | rfl
  · exact .inl ⟨'a', rfl, by decide⟩
  · exact .inl ⟨'*', rfl, by decide⟩
  · exact .inl ⟨'|', rfl, by decide⟩
  · exact .inr ⟨'b', rfl, by decide⟩)

/-- The hypothesis is met by any text without a backslash, read character by character. -/
theorem chars_symbols (s : Str) (h : '\\' ∉ s) : (∀ t ∈ s.map ([·]), IsSymbol t) ∧ (s.map ([·])).flatten = s := by
  refine ⟨?_, ?_⟩
  · intro t ht
    obtain ⟨c, hc, rfl⟩ := List.mem_map.mp ht
    exact Or.inl ⟨c, rfl, fun e => h (e ▸ hc)⟩
  · induction s with
    | nil => rfl
    | cons c s ih =>
      simp only [List.mem_cons, not_or] at h
      simp [ih h.2]

/-- C43: in particular a text without a backslash is accepted exactly when it is in the grammar. -/
theorem C43_plain_text_partial (s : Str) (h : '\\' ∉ s) : validateRegex s = .ok none ↔ Pattern .regex (s.map ([·])) := by
  obtain ⟨h1, h2⟩ := chars_symbols s h
  have := C43_accepts_iff_partial _ h1
  rwa [h2] at this

example : validateRegex "<[^>]+[@.]example\\.com>$|(a|b*)+[]a]".toList = .ok none := by decide +kernel
example : validateRegex "a**".toList = .ok (some 2) ∧ validateRegex "(ab".toList = .ok (some 2) ∧ validateRegex "a]".toList = .ok (some 1) := by
  decide +kernel

/-- Every token of any string is a symbol. -/
theorem reTokens_isSymbol (s : Str) : ∀ t ∈ reTokens s, IsSymbol t := by
  fun_induction reTokens s with
  | case1 => simp
  | case2 s ih =>
    intro t ht
    rcases List.mem_cons.mp ht with rfl | ht
    · exact Or.inl ⟨_, rfl, by decide⟩
    · exact ih t ht
  | case3 c s hc ih =>
    intro t ht
    rcases List.mem_cons.mp ht with rfl | ht
    · exact Or.inr ⟨c, rfl, hc⟩
    · exact ih t ht
  | case4 => simp
  | case5 c s h1 h2 ih =>
    intro t ht
    rcases List.mem_cons.mp ht with rfl | ht
    · refine Or.inl ⟨c, rfl, ?_⟩
      rintro rfl
      cases s with
      | nil => exact h2 rfl rfl
      | cons d s => exact h1 d s rfl rfl
    · exact ih t ht

/-- C43: validation ends on every string whatever, returning or raising RegexValueError; nothing else happens. -/
theorem C43_terminates (s : Str) : ∃ r, validateRegex s = .ok r := by
  obtain ⟨⟨u, v, t, left⟩, h1, -⟩ :=
    rxLoop_sound ((reTokens s).length + 1) RxState.init false [] (reTokens s) (by omega) (reTokens_isSymbol s) ⟨rfl, .one .nil⟩ (by simp)
  unfold validateRegex
  simp only [h1, except_bind_ok, except_pure]
  split
  · exact ⟨_, rfl⟩
  · split
    · exact ⟨_, rfl⟩
    · exact ⟨_, rfl⟩

/-- C43: when a pattern is refused, the position reported is either the last position (the pattern ends inside a group or a range) or the
position at which one of the special symbols starts, after a part of the pattern that is as long as the position says. -/
theorem C43_error_position (syms : List Str) (h : ∀ t ∈ syms, IsSymbol t) (pos : Int) (hv : validateRegex syms.flatten = .ok (some pos)) :
    pos = (syms.flatten.length : Int) - 1 ∨
    ∃ before tok after, syms = before ++ tok :: after ∧ tok ∈ rxSpecial ∧ pos = before.flatten.length := by
  unfold validateRegex at hv
  rw [reTokens_symbols syms h] at hv
  obtain ⟨⟨u, v, s, left⟩, h1, mid, left', e, h2, h3, h4, h5, h6, h7⟩ :=
    rxLoop_sound (syms.length + 1) RxState.init false [] syms (by omega) h ⟨rfl, .one .nil⟩ (by simp)
  simp only [h1, except_bind_ok, except_pure] at hv
  simp only [List.nil_append] at h2 h3 h4 h5 h6 h7
  cases u with
  | true =>
    left
    simp only [if_true, Except.ok.injEq, Option.some.injEq] at hv
    rw [← hv, h2, e, h7 rfl, List.append_nil]
  | false =>
    cases v with
    | true => simp at hv
    | false =>
      right
      obtain ⟨-, tok, t, e', hsp, -⟩ := h6 rfl
      refine ⟨mid, tok, t, by rw [e, e'], hsp, ?_⟩
      simp only [Bool.false_eq_true, if_false, Except.ok.injEq, Option.some.injEq] at hv
      rw [← hv, h2]

example := C43_error_position [['a'], ['*'], ['*']] (by
  intro t ht
  simp only [List.mem_cons, List.not_mem_nil, or_false] at ht
  rcases ht with rfl | rfl | rfl
  · exact .inl ⟨'a', rfl, by decide⟩
  · exact .inl ⟨'*', rfl, by decide⟩
  · exact .inl ⟨'*', rfl, by decide⟩) 2 (by decide +kernel)

/-- C43, refuted: a pattern that ends in a lone backslash is not in the grammar, but is accepted whenever the text before it is. -/
theorem C43_trailing_backslash_refuted (s : Str) (h : '\\' ∉ s) : validateRegex (s ++ ['\\']) = validateRegex s := by
  have e : reTokens (s ++ ['\\']) = reTokens s := by
    induction s with
    | nil => rfl
    | cons c s ih =>
      simp only [List.mem_cons, not_or] at h
      rw [List.cons_append, reTokens_char c _ (Ne.symm h.1), reTokens_char c _ (Ne.symm h.1), ih h.2]
  unfold validateRegex
  rw [e]

example := C43_trailing_backslash_refuted "a*".toList (by decide)

/-- C43, refuted: a range whose last character is a backslash is a range of RFC 4880, where a backslash has no special meaning inside a
range, but every pattern ending in one is refused as unterminated. -/
theorem C43_range_backslash_refuted (s : Str) (h : '\\' ∉ s) (hb : ']' ∉ s) :
    ∃ pos, validateRegex ('[' :: s ++ ['\\', ']']) = .ok (some pos) := by
  have e : '[' :: s ++ ['\\', ']'] = (['['] :: (s.map ([·]) ++ [['\\', ']']])).flatten := by
    have := (chars_symbols s h).2
    rw [List.flatten_cons, List.flatten_append, this]
    rfl
  have hsym : ∀ t ∈ (['['] :: (s.map ([·]) ++ [['\\', ']']])), IsSymbol t := by
    intro t ht
    simp only [List.mem_cons, List.mem_append, List.not_mem_nil, or_false] at ht
    rcases ht with rfl | ht | rfl
    · exact Or.inl ⟨_, rfl, by decide⟩
    · exact (chars_symbols s h).1 t ht
    · exact Or.inr ⟨_, rfl, by decide⟩
  obtain ⟨r, hr⟩ := C43_terminates ('[' :: s ++ ['\\', ']'])
  cases r with
  | some pos => exact ⟨pos, hr⟩
  | none =>
    exfalso
    rw [e] at hr
    have hp := (C43_accepts_iff_partial _ hsym).mp hr
    -- every pattern with an opening bracket has a closing one
    have key : ∀ {k w}, Pattern k w → ['['] ∈ w → [']'] ∈ w := by
      intro k w hw
      induction hw with
      | one _ ih => exact ih
      | alt _ _ ih1 ih2 =>
        intro hm
        simp only [List.mem_append, List.mem_cons] at hm ⊢
        rcases hm with hm | hm | hm
        · exact Or.inl (ih1 hm)
        · exact absurd hm (by decide)
        · exact Or.inr (Or.inr (ih2 hm))
      | nil => simp
      | cons _ _ ih1 ih2 =>
        intro hm
        simp only [List.mem_append] at hm ⊢
        exact hm.imp ih1 ih2
      | once _ ih => exact ih
      | rep _ ht ih =>
        intro hm
        simp only [List.mem_append, List.mem_singleton] at hm ⊢
        rcases hm with hm | hm
        · exact Or.inl (ih hm)
        · rw [← hm] at ht; exact absurd ht (by decide)
      | group _ ih =>
        intro hm
        simp only [List.mem_append, List.mem_cons, List.not_mem_nil, or_false] at hm ⊢
        rcases hm with hm | hm | hm
        · exact absurd hm (by decide)
        · exact Or.inr (Or.inl (ih hm))
        · exact absurd hm (by decide)
      | range _ => intro _; simp
      | single ht =>
        intro hm
        rw [List.mem_singleton] at hm
        exact absurd (by rw [← hm]; decide) ht
    have := key hp (by simp)
    simp only [List.mem_cons, List.mem_append, List.mem_map, List.not_mem_nil, or_false] at this
    rcases this with h' | ⟨c, hc, h'⟩ | h'
    · exact absurd h' (by decide)
    · simp only [List.cons.injEq, and_true] at h'
      exact hb (h' ▸ hc)
    · exact absurd h' (by decide)

example : validateRegex "[ab\\]".toList = .ok (some 4) := by decide +kernel

end Pgp.Props
