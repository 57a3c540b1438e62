import Verif.Model.Pinentry
import Verif.Spec.Pinentry
import Verif.Lemmas.Hkp
import Verif.Lemmas.Utils
/-
Lemmas about the passphrase prompts.
-/
namespace Pgp
open Spec

theorem confirmLoop_eq : ∀ (n : Nat) (p : Str) (ok : Bool) (typed : List Str),
    confirmLoop n p ok typed = if n ≤ typed.length then .ok (ok && (typed.take n).all (· = p), typed.drop n) else .error eofError := by
  intro n
  induction n with
  | zero => intro p ok typed; simp [confirmLoop]
  | succ n ih =>
    intro p ok typed
    cases typed with
    | nil => simp [confirmLoop]
    | cons c typed =>
      rw [confirmLoop, ih]
      by_cases h : n ≤ typed.length
      · rw [if_pos h, if_pos (by simpa using h)]
        simp [Bool.and_assoc]
      · rw [if_neg h, if_neg (by simpa using h)]

theorem askLoop_sound (n : Nat) : ∀ (fuel : Nat) (e : Str) (typed : List Str) (p : Str) (shown rest : List Str),
    askLoop n fuel e typed = .ok (p, shown, rest) → Confirmed n typed p rest := by
  intro fuel
  induction fuel with
  | zero => intro e typed p shown rest h; cases h
  | succ fuel ih =>
    intro e typed p shown rest h
    cases typed with
    | nil => cases h
    | cons q typed =>
      rw [askLoop, confirmLoop_eq] at h
      by_cases hn : n ≤ typed.length
      · rw [if_pos hn] at h
        simp only [except_bind_ok, Bool.true_and] at h
        split at h
        · rename_i hall
          simp only [except_pure, Except.ok.injEq, Prod.mk.injEq] at h
          obtain ⟨rfl, -, rfl⟩ := h
          refine ⟨[], by simp, ?_⟩
          have : typed.take n = List.replicate n q := by
            rw [List.eq_replicate_iff]
            refine ⟨by simp [hn], ?_⟩
            intro b hb
            have := List.all_eq_true.mp hall b hb
            simpa using this
          simp only [List.flatten_nil, List.nil_append, List.cons_append]
          rw [← this, List.take_append_drop]
        · rename_i hall
          obtain ⟨⟨q', more, rest'⟩, h1, h⟩ := except_bind_eq_ok.mp h
          simp only [except_pure, Except.ok.injEq, Prod.mk.injEq] at h
          obtain ⟨rfl, -, rfl⟩ := h
          obtain ⟨failed, hf, he⟩ := ih _ _ _ _ _ h1
          refine ⟨(q :: typed.take n) :: failed, ?_, ?_⟩
          · intro a ha
            rcases List.mem_cons.mp ha with rfl | ha
            · refine ⟨q, typed.take n, rfl, by simp [hn], ?_⟩
              simpa using hall
            · exact hf a ha
          · simp only [List.flatten_cons, List.cons_append, List.append_assoc]
            rw [List.cons_append] at he
            rw [← he, List.take_append_drop]
      · rw [if_neg hn] at h; cases h

theorem askLoop_complete (n : Nat) : ∀ (failed : List (List Str)) (fuel : Nat) (e : Str) (p : Str) (rest : List Str),
    (∀ a ∈ failed, FailedAttempt n a) → failed.length < fuel →
    askLoop n fuel e (failed.flatten ++ (p :: List.replicate n p ++ rest)) =
      .ok (p, ((e :: List.replicate failed.length "Passwords do not match.".toList).filter (· ≠ [])), rest) := by
  intro failed
  induction failed with
  | nil =>
    intro fuel e p rest _ hf
    obtain ⟨fuel, rfl⟩ : ∃ f, fuel = f + 1 := ⟨fuel - 1, by simp at hf; omega⟩
    simp only [List.flatten_nil, List.nil_append, List.cons_append]
    rw [askLoop, confirmLoop_eq, if_pos (by simp)]
    simp only [except_bind_ok, Bool.true_and]
    rw [if_pos]
    · by_cases h : e = [] <;> simp [h]
    · simp only [List.take_append, List.length_replicate, Nat.sub_self, List.take_zero, List.append_nil, List.all_eq_true]
      intro x hx
      have := List.eq_of_mem_replicate (List.mem_of_mem_take hx)
      simp [this]
  | cons a failed ih =>
    intro fuel e p rest hall hf
    obtain ⟨fuel, rfl⟩ : ∃ f, fuel = f + 1 := ⟨fuel - 1, by simp at hf; omega⟩
    obtain ⟨q, cs, rfl, hlen, c, hc, hne⟩ := hall a (by simp)
    simp only [List.flatten_cons, List.cons_append, List.append_assoc]
    rw [askLoop, confirmLoop_eq, if_pos (by simp [hlen])]
    simp only [except_bind_ok, Bool.true_and]
    rw [if_neg]
    · have hdrop : (cs ++ (failed.flatten ++ p :: (List.replicate n p ++ rest))).drop n =
          failed.flatten ++ (p :: List.replicate n p ++ rest) := by
        rw [← hlen, List.drop_left]; simp
      rw [hdrop, ih fuel _ p rest (fun a ha => hall a (by simp [ha])) (by simp at hf; omega)]
      simp only [except_bind_ok, except_pure, List.length_cons, List.replicate_succ]
      by_cases h : e = [] <;> simp [h]
    · rw [← hlen, List.take_left]
      simp only [List.all_eq_true, decide_eq_true_eq, not_forall]
      exact ⟨c, hc, hne⟩

theorem flatten_length_ge (failed : List (List Str)) (n : Nat) (h : ∀ a ∈ failed, FailedAttempt n a) : failed.length ≤ failed.flatten.length := by
  induction failed with
  | nil => simp
  | cons a failed ih =>
    obtain ⟨q, cs, rfl, -⟩ := h a (by simp)
    have := ih (fun a ha => h a (by simp [ha]))
    rw [List.flatten_cons, List.length_append, List.length_cons, List.length_cons]; omega

theorem askLoop_iff (n : Nat) (e : Str) (typed : List Str) (p : Str) (rest : List Str) :
    (∃ shown, askLoop n (typed.length + 1) e typed = .ok (p, shown, rest)) ↔ Confirmed n typed p rest := by
  constructor
  · rintro ⟨shown, h⟩; exact askLoop_sound _ _ _ _ _ _ _ h
  · rintro ⟨failed, hf, rfl⟩
    refine ⟨_, askLoop_complete n failed _ e p rest hf ?_⟩
    have := flatten_length_ge failed n hf
    rw [List.length_append]; omega

theorem askLoop_error (n : Nat) : ∀ (fuel : Nat) (e : Str) (typed : List Str) (x : PyErr), typed.length < fuel →
    askLoop n fuel e typed = .error x → x = eofError := by
  intro fuel
  induction fuel with
  | zero => intro e typed x h; omega
  | succ fuel ih =>
    intro e typed x hl h
    cases typed with
    | nil => rw [askLoop] at h; cases h; rfl
    | cons q typed =>
      rw [askLoop, confirmLoop_eq] at h
      by_cases hn : n ≤ typed.length
      · rw [if_pos hn] at h
        simp only [except_bind_ok, Bool.true_and] at h
        split at h
        · cases h
        · generalize hr : askLoop n fuel "Passwords do not match.".toList (typed.drop n) = r at h
          cases r with
          | ok v => cases h
          | error y =>
            cases h
            exact ih _ _ _ (by simp at hl ⊢; omega) hr
      · rw [if_neg hn] at h; cases h; rfl

/-! ### The agent -/

/-- The octets `quote` leaves alone. -/
def quoteSafe (b : UInt8) : Bool :=
  let n := b.toNat
  (48 ≤ n && n ≤ 57) || (65 ≤ n && n ≤ 90) || (97 ≤ n && n ≤ 122) || n = 95 || n = 46 || n = 45 || n = 126 || n = 47

theorem quote_char : ∀ b : Fin 256, quoteSafe (UInt8.ofNat b.val) = true →
    (Char.ofNat b.val).toNat = b.val ∧ b.val < 128 ∧ Char.ofNat b.val ≠ ' ' ∧ Char.ofNat b.val ≠ '\n' ∧ Char.ofNat b.val ≠ '+' ∧ Char.ofNat b.val ≠ '%' := by
  decide +kernel

theorem hexDigit_plain : ∀ n : Fin 16, hexDigit n.val ≠ ' ' ∧ hexDigit n.val ≠ '\n' := by decide +kernel

/-- One octet quoted. -/
def quoteOctet (b : UInt8) : Str := if quoteSafe b then [Char.ofNat b.toNat] else ['%', hexDigit (b.toNat / 16), hexDigit (b.toNat % 16)]

theorem urlQuote_eq (s : Str) : urlQuote s = (utf8Encode s).flatMap quoteOctet := rfl

theorem quoteOctet_plain (b : UInt8) : ∀ c ∈ quoteOctet b, c ≠ ' ' ∧ c ≠ '\n' := by
  intro c hc
  have hb := b.toNat_lt
  unfold quoteOctet at hc
  split at hc
  · rename_i hs
    have := quote_char ⟨b.toNat, hb⟩ (by simpa using hs)
    simp only [List.mem_singleton] at hc
    rw [hc]; exact ⟨this.2.2.1, this.2.2.2.1⟩
  · simp only [List.mem_cons, List.not_mem_nil, or_false] at hc
    rcases hc with rfl | rfl | rfl
    · decide
    · exact hexDigit_plain ⟨b.toNat / 16, by omega⟩
    · exact hexDigit_plain ⟨b.toNat % 16, by omega⟩

theorem urlQuote_plain (s : Str) : ∀ c ∈ urlQuote s, c ≠ ' ' ∧ c ≠ '\n' := by
  intro c hc
  rw [urlQuote_eq, List.mem_flatMap] at hc
  obtain ⟨b, -, hc⟩ := hc
  exact quoteOctet_plain b c hc

theorem quote_unescape (b : Bytes) : AgentUnescape (b.flatMap quoteOctet) b := by
  induction b with
  | nil => exact .nil
  | cons x b ih =>
    have hb := x.toNat_lt
    rw [List.flatMap_cons]
    have hdef : quoteOctet x = if quoteSafe x then [Char.ofNat x.toNat] else ['%', hexDigit (x.toNat / 16), hexDigit (x.toNat % 16)] := rfl
    rw [hdef]
    split
    · rename_i hs
      have hq := quote_char ⟨x.toNat, hb⟩ (by simpa using hs)
      simp only at hq
      have := AgentUnescape.plain hq.2.2.2.2.1 hq.2.2.2.2.2 (by rw [hq.1]; exact hq.2.1) ih
      rw [hq.1] at this
      simpa using this
    · have := AgentUnescape.hex (hexVal_hexDigit (n := x.toNat / 16) (by omega)) (hexVal_hexDigit (n := x.toNat % 16) (by omega)) ih
      have e : UInt8.ofNat (16 * (x.toNat / 16) + x.toNat % 16) = x := by
        apply UInt8.toNat_inj.mp
        rw [UInt8.toNat_ofNat']
        omega
      rw [e] at this
      exact this

theorem agentArg_plain (o : Option Str) : ∀ c ∈ agentArg o, c ≠ ' ' ∧ c ≠ '\n' := by
  intro c hc
  cases o with
  | none => simp only [agentArg, List.mem_singleton] at hc; subst hc; decide
  | some s =>
    simp only [agentArg] at hc
    split at hc
    · simp only [List.mem_singleton] at hc; subst hc; decide
    · exact urlQuote_plain s c hc

theorem decStr_plain (n : Nat) : ∀ c ∈ decStr n, c ≠ ' ' ∧ c ≠ '\n' := by
  intro c hc
  have := Nat.isDigit_of_mem_toDigits (b := 10) (by omega) (by omega) hc
  constructor <;> (rintro rfl; exact absurd this (by decide))

theorem agentResponse_line (lines : List Bytes) (l : Bytes) (hl : (0x0a : UInt8) ∉ l) (buf rest : Bytes) :
    agentResponse lines buf (l ++ 0x0a :: rest) = agentResponse lines (buf ++ l) (0x0a :: rest) := by
  induction l generalizing buf with
  | nil => simp
  | cons x l ih =>
    simp only [List.mem_cons, not_or] at hl
    rw [List.cons_append, agentResponse, if_neg (fun h => hl.1 h.symm), ih hl.2]
    simp

theorem agentResponse_ok (lines : List Bytes) (l : Bytes) (hl : OkLine l) (rest : Bytes) :
    agentResponse lines [] (l ++ 0x0a :: rest) = .ok (lines ++ [l], rest) := by
  rw [agentResponse_line _ _ hl.1, agentResponse, if_pos rfl, List.nil_append, if_pos hl.2]

theorem agentResponse_other (lines : List Bytes) (l : Bytes) (hl : OtherReply l) (rest : Bytes) :
    agentResponse lines [] (l ++ 0x0a :: rest) = agentResponse (lines ++ [l]) [] rest := by
  rw [agentResponse_line _ _ hl.1, agentResponse, if_pos rfl, List.nil_append, if_neg hl.2.1, if_neg hl.2.2]

theorem agentResponse_lines (ls : List Bytes) (h : ∀ l ∈ ls, OtherReply l) (lines : List Bytes) (rest : Bytes) :
    agentResponse lines [] (linesBytes ls ++ rest) = agentResponse (lines ++ ls) [] rest := by
  induction ls generalizing lines with
  | nil => simp [linesBytes]
  | cons l ls ih =>
    have e : linesBytes (l :: ls) ++ rest = l ++ 0x0a :: (linesBytes ls ++ rest) := by simp [linesBytes]
    rw [e, agentResponse_other _ _ (h l (by simp)), ih (fun l hl => h l (by simp [hl]))]
    simp

theorem agentResponse_closed (lines : List Bytes) (buf input : Bytes) (h : (0x0a : UInt8) ∉ input) :
    agentResponse lines buf input = .error .diverges := by
  induction input generalizing buf with
  | nil => rfl
  | cons x l ih =>
    simp only [List.mem_cons, not_or] at h
    rw [agentResponse, if_neg (fun e => h.1 e.symm), ih _ h.2]

theorem latin1_small : ∀ b : Fin 128, (Char.ofNat b.val).toNat = b.val ∧ (b.val ≠ 0x25 → Char.ofNat b.val ≠ '%') := by decide +kernel

theorem hexDigit_octet : ∀ n : Fin 16, Char.ofNat (UInt8.ofNat (hexDigit n.val).toNat).toNat = hexDigit n.val := by decide +kernel

theorem assuanText_decode {b l : Bytes} (h : AssuanText false b l) :
    (∀ c ∈ latin1Decode l, c.toNat < 128) ∧ unquoteBytes (latin1Decode l) = b := by
  induction h with
  | nil => exact ⟨by simp [latin1Decode], rfl⟩
  | @plain x b l h1 h2 h3 h4 _ ih =>
    have hx : x.toNat < 128 := by rcases h4 with h | h <;> [exact h; cases h]
    have hq := latin1_small ⟨x.toNat, hx⟩
    simp only at hq
    have e : latin1Decode (x :: l) = Char.ofNat x.toNat :: latin1Decode l := rfl
    rw [e]
    refine ⟨?_, ?_⟩
    · intro c hc
      rcases List.mem_cons.mp hc with rfl | hc
      · rw [hq.1]; exact hx
      · exact ih.1 c hc
    · rw [unquoteBytes_lit _ _ (hq.2 (by intro h; apply h1; apply UInt8.toNat_inj.mp; exact h)), ih.2, hq.1]
      simp
  | @hex x b l _ ih =>
    have hx := x.toNat_lt
    have e : latin1Decode (0x25 :: UInt8.ofNat (hexDigit (x.toNat / 16)).toNat :: UInt8.ofNat (hexDigit (x.toNat % 16)).toNat :: l) =
        '%' :: hexDigit (x.toNat / 16) :: hexDigit (x.toNat % 16) :: latin1Decode l := by
      have h1 := hexDigit_octet ⟨x.toNat / 16, by omega⟩
      have h2 := hexDigit_octet ⟨x.toNat % 16, by omega⟩
      simp only at h1 h2
      simp only [latin1Decode, List.map_cons, h1, h2]
      rfl
    rw [e]
    refine ⟨?_, ?_⟩
    · intro c hc
      simp only [List.mem_cons] at hc
      rcases hc with rfl | rfl | rfl | hc
      · decide
      · exact hexDigit_ascii _ (by omega)
      · exact hexDigit_ascii _ (by omega)
      · exact ih.1 c hc
    · rw [unquoteBytes_pct, ih.2]

theorem assuanText_no_lf {raw : Bool} {b l : Bytes} (h : AssuanText raw b l) : (0x0a : UInt8) ∉ l := by
  induction h with
  | nil => simp
  | plain _ h2 _ _ _ ih => simp only [List.mem_cons, not_or]; exact ⟨fun e => h2 e.symm, ih⟩
  | @hex x b l _ ih =>
    have hx := x.toNat_lt
    have key : ∀ n : Fin 16, (0x0a : UInt8) ≠ UInt8.ofNat (hexDigit n.val).toNat := by decide +kernel
    simp only [List.mem_cons, not_or]
    exact ⟨by decide, key ⟨x.toNat / 16, by omega⟩, key ⟨x.toNat % 16, by omega⟩, ih⟩

end Pgp
