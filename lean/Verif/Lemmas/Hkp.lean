import Verif.Model.Hkp
import Verif.Spec.Hkp
import Verif.Lemmas.Armor
import Verif.Lemmas.Hex
import Verif.Lemmas.Text
import Verif.Lemmas.Commands
/-
Lemmas about keyserver listings.
-/
namespace Pgp
open Spec

theorem digit_not_space : ∀ c, isAsciiDigit c = true → isPySpace c = false := by
  intro c h
  simp only [isAsciiDigit, Bool.and_eq_true, decide_eq_true_eq] at h
  have h1 : 48 ≤ c.toNat := h.1
  have h2 : c.toNat ≤ 57 := h.2
  simp only [isPySpace, Bool.or_eq_false_iff, Bool.and_eq_false_iff, decide_eq_false_iff_not]
  omega

theorem pyStrip_noop (s : Str) (h : ∀ c ∈ s, isPySpace c = false) : pyStrip s = s := by
  have dw : ∀ t : Str, (∀ c ∈ t, isPySpace c = false) → t.dropWhile isPySpace = t := by
    intro t ht
    cases t with
    | nil => rfl
    | cons c t => rw [List.dropWhile_cons, if_neg (by simp [ht c (by simp)])]
  unfold pyStrip
  rw [dw s h, dw s.reverse (by simpa using h), List.reverse_reverse]

theorem decimal_ne_nil (n : Nat) : decimal n ≠ [] := by
  intro h
  by_cases hn : n < 10
  · rw [decimal_small n hn] at h; simp at h
  · rw [decimal_step n hn] at h; simp at h

theorem pyInt_decimal (n : Nat) : pyInt (decimal n) = .ok (n : Int) := by
  obtain ⟨hv, hd, -⟩ := decimal_facts n
  have hne := decimal_ne_nil n
  unfold pyInt
  rw [pyStrip_noop _ (fun c hc => digit_not_space c (hd c hc))]
  have hbody : pyIntBody (decimal n) = .ok n := by
    unfold pyIntBody
    have notUnder : ∀ c, isAsciiDigit c = true → c ≠ '_' := by rintro c h rfl; exact absurd h (by decide)
    rw [if_pos]
    · rw [List.filter_eq_self.mpr hd, hv]
    · refine ⟨hne, ?_, ?_, ?_, ?_⟩
      · simp only [List.all_eq_true]
        intro c hc; rw [hd c hc]; rfl
      · intro h
        exact notUnder _ (hd '_' (List.mem_of_head? h)) rfl
      · intro h
        exact notUnder _ (hd '_' (List.mem_of_getLast? h)) rfl
      · simp only [List.all_eq_true]
        intro p hp
        have := notUnder p.1 (hd p.1 (List.of_mem_zip hp).1)
        simp [this]
  cases hs : decimal n with
  | nil => exact absurd hs hne
  | cons c s =>
    have hc : isAsciiDigit c = true := hd c (by rw [hs]; simp)
    rw [hs] at hbody
    split
    · rename_i h; simp only [List.cons.injEq] at h; rw [h.1] at hc; exact absurd hc (by decide)
    · rename_i h; simp only [List.cons.injEq] at h; rw [h.1] at hc; exact absurd hc (by decide)
    · rw [hbody]; rfl

theorem pyInt_nil : pyInt [] = .error .valueError := by
  simp [pyInt, pyStrip, pyIntBody, bind, Except.bind]

/-! ### Percent encoding -/

theorem char_ofNat_toNat_small (n : Nat) (h : n < 128) : (Char.ofNat n).toNat = n := by
  have : ∀ n : Fin 128, (Char.ofNat n.val).toNat = n.val := by decide +kernel
  exact this ⟨n, h⟩

theorem unquoteBytes_lit (c : Char) (s : Str) (h : c ≠ '%') : unquoteBytes (c :: s) = UInt8.ofNat c.toNat :: unquoteBytes s := by
  rw [unquoteBytes]
  rintro a b s rfl; exact absurd rfl h

theorem unquoteBytes_pct (x : UInt8) (s : Str) :
    unquoteBytes ('%' :: hexDigit (x.toNat / 16) :: hexDigit (x.toNat % 16) :: s) = x :: unquoteBytes s := by
  have hx := x.toNat_lt
  rw [unquoteBytes, hexVal_hexDigit (by omega), hexVal_hexDigit (by omega)]
  simp only
  congr 1
  apply UInt8.toNat_inj.mp
  rw [UInt8.toNat_ofNat']
  omega

/-- The encoding of a list of octets. -/
def pctBytes (safe : UInt8 → Bool) (b : Bytes) : Str :=
  b.flatMap fun b =>
    if safe b && b.toNat < 128 && b ≠ 0x25 then [Char.ofNat b.toNat]
    else ['%', hexDigit (b.toNat / 16), hexDigit (b.toNat % 16)]

theorem unquoteBytes_pctBytes (safe : UInt8 → Bool) (b : Bytes) : unquoteBytes (pctBytes safe b) = b := by
  induction b with
  | nil => rfl
  | cons x b ih =>
    have e : pctBytes safe (x :: b) = (if safe x && x.toNat < 128 && x ≠ 0x25 then [Char.ofNat x.toNat]
        else ['%', hexDigit (x.toNat / 16), hexDigit (x.toNat % 16)]) ++ pctBytes safe b := rfl
    rw [e]
    split
    · rename_i h
      simp only [Bool.and_eq_true, decide_eq_true_eq] at h
      have hn := char_ofNat_toNat_small _ h.1.2
      rw [List.singleton_append, unquoteBytes_lit, hn, ih]
      · simp
      · intro hc
        rw [hc] at hn
        apply h.2
        apply UInt8.toNat_inj.mp
        exact hn.symm
    · show unquoteBytes ('%' :: hexDigit (x.toNat / 16) :: hexDigit (x.toNat % 16) :: pctBytes safe b) = _
      rw [unquoteBytes_pct, ih]

theorem hexDigit_ascii (n : Nat) (h : n < 16) : (hexDigit n).toNat < 128 := by
  have : ∀ n : Fin 16, (hexDigit n.val).toNat < 128 := by decide +kernel
  exact this ⟨n, h⟩

theorem pctBytes_ascii (safe : UInt8 → Bool) (b : Bytes) : ∀ c ∈ pctBytes safe b, c.toNat < 128 := by
  intro c hc
  simp only [pctBytes, List.mem_flatMap] at hc
  obtain ⟨x, -, hc⟩ := hc
  have hx := x.toNat_lt
  split at hc
  · rename_i h
    simp only [Bool.and_eq_true, decide_eq_true_eq] at h
    simp only [List.mem_singleton] at hc
    rw [hc, char_ofNat_toNat_small _ h.1.2]; exact h.1.2
  · simp only [List.mem_cons, List.not_mem_nil, or_false] at hc
    rcases hc with rfl | rfl | rfl
    · decide
    · exact hexDigit_ascii _ (by omega)
    · exact hexDigit_ascii _ (by omega)

theorem unquoteAux_ascii (acc s : Str) (h : ∀ c ∈ s, c.toNat < 128) :
    unquoteAux acc s = utf8DecodeReplace (unquoteBytes (acc ++ s)) := by
  induction s generalizing acc with
  | nil => simp [unquoteAux]
  | cons c s ih =>
    rw [unquoteAux, if_pos (h c (by simp)), ih _ (fun x hx => h x (by simp [hx]))]
    simp

theorem unquoteAux_ascii_append (acc x s : Str) (h : ∀ c ∈ x, c.toNat < 128) : unquoteAux acc (x ++ s) = unquoteAux (acc ++ x) s := by
  induction x generalizing acc with
  | nil => simp
  | cons c x ih =>
    rw [List.cons_append, unquoteAux, if_pos (h c (by simp)), ih _ (fun y hy => h y (by simp [hy]))]
    simp

theorem pctBytes_append (safe : UInt8 → Bool) (a b : Bytes) : pctBytes safe (a ++ b) = pctBytes safe a ++ pctBytes safe b := by
  simp [pctBytes]

theorem utf8Encode_append' (a b : Str) : utf8Encode (a ++ b) = utf8Encode a ++ utf8Encode b := by
  simp [utf8Encode]

theorem unquoteAux_pctEncode (safe : UInt8 → Bool) (raw : Char → Bool) (p s : Str) :
    unquoteAux (pctBytes safe (utf8Encode p)) (pctEncode safe raw s) = p ++ s := by
  induction s generalizing p with
  | nil =>
    show unquoteAux _ [] = _
    rw [unquoteAux, unquoteBytes_pctBytes, utf8DecodeReplace_encode, List.append_nil]
  | cons c s ih =>
    have e : pctEncode safe raw (c :: s) =
        (if raw c && 128 ≤ c.toNat then [c] else pctBytes safe (utf8Encode [c])) ++ pctEncode safe raw s := rfl
    rw [e]
    split
    · rename_i h
      simp only [Bool.and_eq_true, decide_eq_true_eq] at h
      rw [List.singleton_append, unquoteAux, if_neg (by omega), unquoteBytes_pctBytes, utf8DecodeReplace_encode]
      exact congrArg (fun t => p ++ c :: t) (ih [])
    · rw [unquoteAux_ascii_append _ _ _ (pctBytes_ascii safe _), ← pctBytes_append, ← utf8Encode_append', ih]
      simp

theorem unquote_pctEncode (safe : UInt8 → Bool) (raw : Char → Bool) (s : Str) : unquote (pctEncode safe raw s) = s :=
  unquoteAux_pctEncode safe raw [] s

/-! ### Fields -/

theorem pyJoin_cons_ne (w : Str) (ws : List Str) (h : ws ≠ []) : pyJoin [':'] (w :: ws) = w ++ ':' :: pyJoin [':'] ws := by
  cases ws with
  | nil => exact absurd rfl h
  | cons v ws => simp [pyJoin]

theorem pyJoin_count (ws : List Str) (h : ∀ w ∈ ws, ':' ∉ w) (hne : ws ≠ []) : (pyJoin [':'] ws).count ':' = ws.length - 1 := by
  induction ws with
  | nil => exact absurd rfl hne
  | cons w ws ih =>
    cases ws with
    | nil => simp [pyJoin, List.count_eq_zero.mpr (h w (by simp))]
    | cons v ws =>
      rw [pyJoin_cons_ne _ _ (by simp), List.count_append, List.count_cons_self, ih (fun x hx => h x (by simp [hx])) (by simp),
        List.count_eq_zero.mpr (h w (by simp))]
      simp

theorem pySplit_pyJoin (ws : List Str) (h : ∀ w ∈ ws, ':' ∉ w) (hne : ws ≠ []) : pySplit ':' (pyJoin [':'] ws) = ws := by
  induction ws with
  | nil => exact absurd rfl hne
  | cons w ws ih =>
    cases ws with
    | nil => exact pySplit_of_not_mem _ _ (h w (by simp))
    | cons v ws =>
      rw [pyJoin_cons_ne _ _ (by simp), pySplit_append _ _ _ (h w (by simp)), ih (fun x hx => h x (by simp [hx])) (by simp)]

theorem pyJoin_trailing (kept : List Str) (k : Nat) (hne : kept ≠ []) :
    pyJoin [':'] (kept ++ List.replicate k []) = pyJoin [':'] kept ++ List.replicate k ':' := by
  have rep : ∀ k : Nat, pyJoin [':'] (List.replicate (k + 1) []) = List.replicate k ':' := by
    intro k
    induction k with
    | zero => rfl
    | succ k ih => rw [List.replicate_succ, pyJoin_cons_ne _ _ (by simp), ih]; rfl
  induction kept with
  | nil => exact absurd rfl hne
  | cons w ws ih =>
    cases ws with
    | nil =>
      cases k with
      | zero => simp
      | succ k =>
        rw [List.singleton_append, pyJoin_cons_ne _ _ (by simp), rep]
        simp [pyJoin, List.replicate_succ]
    | cons v ws =>
      rw [List.cons_append, pyJoin_cons_ne w _ (by simp), ih (by simp), pyJoin_cons_ne w (v :: ws) (by simp), List.append_assoc]
      rfl

theorem split_lineOf {fields : List Str} {line : Str} (h : LineOf fields line) (hf : ∀ w ∈ fields, ':' ∉ w) :
    pySplit ':' (addColons line (fields.length - 1)) = fields := by
  obtain ⟨kept, k, hne, e, rfl⟩ := h
  have hk : ∀ w ∈ kept, ':' ∉ w := fun w hw => hf w (by rw [e]; simp [hw])
  unfold addColons
  rw [pyJoin_count kept hk hne]
  have hl : fields.length - 1 - (kept.length - 1) = k := by
    have : 0 < kept.length := List.length_pos_of_ne_nil hne
    rw [e]; simp; omega
  rw [hl, ← pyJoin_trailing kept k hne, ← e]
  exact pySplit_pyJoin fields hf (by rw [e]; simp [hne])

theorem decimal_no_colon (n : Nat) : ':' ∉ decimal n := by
  intro h
  have := (decimal_facts n).2.1 ':' h
  exact absurd this (by decide)

theorem optDecimal_no_colon (o : Option Nat) : ':' ∉ optDecimal o := by
  cases o with
  | none => simp [optDecimal]
  | some n => exact decimal_no_colon n

theorem parseExpires_opt {T : Type} {ft : Int → Py T} {ts : Nat → T} (o : Option Nat) (hft : ∀ n ∈ o.toList, ft (n : Nat) = .ok (ts n)) :
    parseExpires ft (optDecimal o) = .ok (o.map ts) := by
  cases o with
  | none => rfl
  | some n =>
    simp only [parseExpires, optDecimal, if_neg (decimal_ne_nil n), pyInt_decimal, except_bind_ok, hft n (by simp), except_pure, Option.map_some]

theorem parseUidLine_ok {T : Type} {ft : Int → Py T} {ts : Nat → T} {u : UidEntry} {line : Str}
    (hft : ∀ n ∈ u.times, ft (n : Nat) = .ok (ts n)) (h : UidLine u line) : parseUidLine ft line = .ok (u.result ts) := by
  obtain ⟨safe, raw, h1, h2, h3⟩ := h
  have := split_lineOf h3 (by
    intro w hw
    simp only [List.mem_cons, List.not_mem_nil, or_false] at hw
    rcases hw with rfl | rfl | rfl | rfl | rfl
    · decide
    · exact h1.1
    · exact decimal_no_colon _
    · exact optDecimal_no_colon _
    · exact h2.1)
  unfold parseUidLine
  rw [show (4 : Nat) = ["uid".toList, pctEncode safe raw u.text, decimal u.created, optDecimal u.expires, u.flags].length - 1 from rfl, this]
  simp only [pyInt_decimal, except_bind_ok, hft u.created (by simp [UidEntry.times]),
    parseExpires_opt u.expires (fun n hn => hft n (by simp only [UidEntry.times, List.mem_cons]; exact .inr hn)), except_pure, unquote_pctEncode,
    UidEntry.result]

theorem parseResult_ok {T : Type} {ft : Int → Py T} {ts : Nat → T} {e : KeyEntry} {line : Str}
    (hft : ∀ n ∈ e.times, ft (n : Nat) = .ok (ts n)) (h : PubLine e line) {uids : List Str} (hu : List.Forall₂ (fun u l => UidLine u l) e.uids uids) :
    parseResult ft line uids = .ok (e.result ts) := by
  obtain ⟨h1, h2, h3⟩ := h
  have := split_lineOf h3 (by
    intro w hw
    simp only [List.mem_cons, List.not_mem_nil, or_false] at hw
    rcases hw with rfl | rfl | rfl | rfl | rfl | rfl | rfl
    · decide
    · exact h1.1
    · exact decimal_no_colon _
    · exact decimal_no_colon _
    · exact decimal_no_colon _
    · exact optDecimal_no_colon _
    · exact h2.1)
  have hm : uids.mapM (parseUidLine ft) = .ok (e.uids.map (·.result ts)) := by
    clear this h3
    have hf : ∀ n ∈ e.uids.flatMap UidEntry.times, ft (n : Nat) = .ok (ts n) := fun n hn =>
      hft n (by simp only [KeyEntry.times, List.mem_append]; exact .inr hn)
    generalize e.uids = eu at hu hf
    induction hu with
    | nil => rfl
    | cons hu _ ih =>
      rw [List.mapM_cons, parseUidLine_ok (fun n hn => hf n (by rw [List.flatMap_cons]; exact List.mem_append_left _ hn)) hu, except_bind_ok,
        ih (fun n hn => hf n (by rw [List.flatMap_cons]; exact List.mem_append_right _ hn)), except_bind_ok]; rfl
  unfold parseResult
  rw [show (6 : Nat) = ["pub".toList, e.keyId, decimal e.algorithm, decimal e.bits, decimal e.created, optDecimal e.expires,
    e.flags].length - 1 from rfl, this]
  simp only [pyInt_decimal, except_bind_ok, hft e.created (by simp [KeyEntry.times]),
    parseExpires_opt e.expires (fun n hn => hft n (by simp only [KeyEntry.times, List.cons_append, List.mem_cons, List.mem_append]; exact .inr (.inl hn))),
    hm, except_pure, KeyEntry.result]

theorem startsWith_iff (s p : Str) : startsWith s p = true ↔ p <+: s := by
  rw [startsWith, beq_iff_eq, List.prefix_iff_eq_take]
  exact eq_comm

theorem lineOf_prefix {w : Str} {fields : List Str} {line : Str} (h : LineOf (w :: fields) line) (hw : w ≠ []) : w <+: line := by
  obtain ⟨kept, k, hne, e, rfl⟩ := h
  cases kept with
  | nil => exact absurd rfl hne
  | cons v kept =>
    simp only [List.cons_append, List.cons.injEq] at e
    rw [e.1]
    cases kept with
    | nil => simp [pyJoin]
    | cons x kept => rw [pyJoin_cons_ne _ _ (by simp)]; exact List.prefix_append _ _

/-! ### Grouping -/

theorem readMrLoop_uids {T : Type} (ft : Int → Py T) {us : List UidEntry} {ls : List Str} (h : UidLines us ls) :
    ∃ uls, List.Forall₂ (fun u l => UidLine u l) us uls ∧ ∀ results p uids rest,
      readMrLoop ft results p uids (ls ++ rest) = readMrLoop ft results p (uids ++ uls) rest := by
  induction h with
  | nil => exact ⟨[], .nil, fun _ _ _ _ => by simp⟩
  | other ho _ ih =>
    obtain ⟨uls, h1, h2⟩ := ih
    refine ⟨uls, h1, fun results p uids rest => ?_⟩
    rw [List.cons_append, readMrLoop, if_neg (by rw [startsWith_iff]; exact ho.2.1), if_neg (by rw [startsWith_iff]; exact ho.2.2), h2]
  | @uid u us l ls hu _ ih =>
    obtain ⟨uls, h1, h2⟩ := ih
    refine ⟨l :: uls, .cons hu h1, fun results p uids rest => ?_⟩
    have hp : "uid".toList <+: l := by
      obtain ⟨safe, raw, -, -, h3⟩ := hu
      exact lineOf_prefix h3 (by decide)
    have hnp : ¬ "pub".toList <+: l := by
      intro h
      obtain ⟨t, rfl⟩ := h
      obtain ⟨t', ht⟩ := hp
      simp at ht
    rw [List.cons_append, readMrLoop, if_neg (by rw [startsWith_iff]; exact hnp), if_pos (by rw [startsWith_iff]; exact hp), h2]
    simp

theorem readMrLoop_keys {T : Type} {ft : Int → Py T} {ts : Nat → T} {es : List KeyEntry}
    {ls : List Str} (h : KeyLines es ls) : (∀ e ∈ es, ∀ n ∈ e.times, ft (n : Nat) = .ok (ts n)) → ∀ results p uids r, parseResult ft p uids = .ok r →
      readMrLoop ft results (some p) uids ls = .ok (results ++ r :: es.map (·.result ts)) := by
  induction h with
  | nil =>
    intro _ results p uids r hr
    simp only [readMrLoop, closeGroup, hr, except_bind_ok, except_pure, List.map_nil]
  | @key e es l us ls hl hu hk ih =>
    intro hft results p uids r hr
    obtain ⟨uls, h1, h2⟩ := readMrLoop_uids ft hu
    have hp : "pub".toList <+: l := lineOf_prefix hl.2.2 (by decide)
    rw [List.cons_append, readMrLoop, if_pos (by rw [startsWith_iff]; exact hp)]
    simp only [closeGroup, hr, except_bind_ok, except_pure]
    rw [h2, List.nil_append, ih (fun e he => hft e (List.mem_cons_of_mem _ he)) _ _ _ _ (parseResult_ok (hft e List.mem_cons_self) hl h1)]
    simp

theorem readMrLoop_start {T : Type} {ft : Int → Py T} {ts : Nat → T} {es : List KeyEntry}
    (hft : ∀ e ∈ es, ∀ n ∈ e.times, ft (n : Nat) = .ok (ts n)) {ls : List Str} (h : KeyLines es ls) (uids : List Str) :
      readMrLoop ft [] none uids ls = .ok (es.map (·.result ts)) := by
  cases h with
  | nil => rfl
  | @key e es l us ls hl hu hk =>
    obtain ⟨uls, h1, h2⟩ := readMrLoop_uids ft hu
    have hp : "pub".toList <+: l := lineOf_prefix hl.2.2 (by decide)
    rw [List.cons_append, readMrLoop, if_pos (by rw [startsWith_iff]; exact hp)]
    simp only [closeGroup, except_bind_ok]
    rw [h2, List.nil_append, readMrLoop_keys hk (fun e he => hft e (List.mem_cons_of_mem _ he)) _ _ _ _ (parseResult_ok (hft e List.mem_cons_self) hl h1)]
    simp

/-! ### Lines stay lines -/

theorem decimal_oneLine (n : Nat) : OneLine (decimal n) := by
  intro c hc
  have := (decimal_facts n).2.1 c hc
  intro hm
  simp only [lineTerminators, List.mem_cons, List.not_mem_nil, or_false] at hm
  rcases hm with rfl | rfl | rfl | rfl | rfl | rfl | rfl | rfl | rfl | rfl <;> exact absurd this (by decide)

theorem optDecimal_oneLine (o : Option Nat) : OneLine (optDecimal o) := by
  cases o with
  | none => intro c hc; simp [optDecimal] at hc
  | some n => exact decimal_oneLine n

theorem lineOf_oneLine {fields : List Str} {line : Str} (h : LineOf fields line) (hf : ∀ w ∈ fields, OneLine w) : OneLine line := by
  obtain ⟨kept, k, hne, e, rfl⟩ := h
  have hk : ∀ w ∈ kept, OneLine w := fun w hw => hf w (by rw [e]; simp [hw])
  clear e hne hf
  induction kept with
  | nil => intro c hc; simp [pyJoin] at hc
  | cons w ws ih =>
    cases ws with
    | nil => exact hk w (by simp)
    | cons v ws =>
      rw [pyJoin_cons_ne _ _ (by simp), oneLine_append, oneLine_cons]
      exact ⟨hk w (by simp), by decide, ih (fun x hx => hk x (by simp [hx]))⟩

theorem uidLine_oneLine {u : UidEntry} {line : Str} (h : UidLine u line) : OneLine line := by
  obtain ⟨safe, raw, h1, h2, h3⟩ := h
  refine lineOf_oneLine h3 fun w hw => ?_
  simp only [List.mem_cons, List.not_mem_nil, or_false] at hw
  rcases hw with rfl | rfl | rfl | rfl | rfl
  · unfold OneLine; decide
  · exact h1.2
  · exact decimal_oneLine _
  · exact optDecimal_oneLine _
  · exact h2.2

theorem pubLine_oneLine {e : KeyEntry} {line : Str} (h : PubLine e line) : OneLine line := by
  obtain ⟨h1, h2, h3⟩ := h
  refine lineOf_oneLine h3 fun w hw => ?_
  simp only [List.mem_cons, List.not_mem_nil, or_false] at hw
  rcases hw with rfl | rfl | rfl | rfl | rfl | rfl | rfl
  · unfold OneLine; decide
  · exact h1.2
  · exact decimal_oneLine _
  · exact decimal_oneLine _
  · exact decimal_oneLine _
  · exact optDecimal_oneLine _
  · exact h2.2

theorem uidLines_oneLine {us : List UidEntry} {ls : List Str} (h : UidLines us ls) : ∀ l ∈ ls, OneLine l := by
  induction h with
  | nil => simp
  | other ho _ ih => intro l hl; rcases List.mem_cons.mp hl with rfl | hl; exact ho.1; exact ih l hl
  | uid hu _ ih => intro l hl; rcases List.mem_cons.mp hl with rfl | hl; exact uidLine_oneLine hu; exact ih l hl

theorem keyLines_oneLine {es : List KeyEntry} {ls : List Str} (h : KeyLines es ls) : ∀ l ∈ ls, OneLine l := by
  induction h with
  | nil => simp
  | key hl hu _ ih =>
    intro l hm
    rcases List.mem_append.mp hm with hm | hm
    · rcases List.mem_cons.mp hm with rfl | hm
      · exact pubLine_oneLine hl
      · exact uidLines_oneLine hu l hm
    · exact ih l hm

/-- The number of results is the number of key lines. -/
theorem closeGroup_count {T : Type} {ft : Int → Py T} {results pub uids rs} (h : closeGroup ft results pub uids = .ok rs) :
    rs.length = results.length + (if pub.isSome then 1 else 0) := by
  cases pub with
  | none => simp only [closeGroup, Except.ok.injEq] at h; subst h; simp
  | some p =>
    simp only [closeGroup] at h
    obtain ⟨r, -, h⟩ := except_bind_eq_ok.mp h
    simp only [except_pure, Except.ok.injEq] at h; subst h; simp

theorem readMrLoop_count {T : Type} (ft : Int → Py T) (lines : List Str) : ∀ results pub uids rs,
    readMrLoop ft results pub uids lines = .ok rs →
    rs.length = results.length + (if pub.isSome then 1 else 0) + (lines.filter (fun l => startsWith l "pub".toList)).length := by
  induction lines with
  | nil =>
    intro results pub uids rs h
    simpa using closeGroup_count h
  | cons line lines ih =>
    intro results pub uids rs h
    rw [readMrLoop] at h
    split at h
    · rename_i hp
      obtain ⟨r, hr, h⟩ := except_bind_eq_ok.mp h
      rw [ih _ _ _ _ h, List.filter_cons, if_pos hp, closeGroup_count hr]; simp; omega
    · rename_i hp
      rw [List.filter_cons, if_neg hp]
      split at h
      · exact ih _ _ _ _ h
      · exact ih _ _ _ _ h

/-- A user id line that cannot be read makes the whole listing fail. -/
theorem readMrLoop_bad_uid {T : Type} (ft : Int → Py T) (bad : Str) (hb : Raises (parseUidLine ft bad)) (hu : "uid".toList <+: bad)
    (post : List Str) : ∀ (pre : List Str) results pub uids, (pub.isSome ∨ ∃ l ∈ pre, startsWith l "pub".toList = true) →
    Raises (readMrLoop ft results pub uids (pre ++ bad :: post)) := by
  have mapM_bad : ∀ uids : List Str, bad ∈ uids → Raises (uids.mapM (parseUidLine ft)) := by
    intro uids
    induction uids with
    | nil => simp
    | cons u us ih =>
      intro hm
      rw [List.mapM_cons]
      cases hpu : parseUidLine ft u with
      | error e => exact ⟨e, rfl⟩
      | ok v =>
        rcases List.mem_cons.mp hm with rfl | hm
        · obtain ⟨e, he⟩ := hb; rw [he] at hpu; cases hpu
        · obtain ⟨e, he⟩ := ih hm
          rw [except_bind_ok, he]; exact ⟨e, rfl⟩
  have res_bad : ∀ p uids, bad ∈ uids → Raises (parseResult ft p uids) := by
    intro p uids hm
    by_contra hn
    cases hr : parseResult ft p uids with
    | error e => exact hn ⟨e, hr⟩
    | ok r =>
      unfold parseResult at hr
      split at hr
      · obtain ⟨_, -, hr⟩ := except_bind_eq_ok.mp hr
        obtain ⟨_, -, hr⟩ := except_bind_eq_ok.mp hr
        obtain ⟨_, -, hr⟩ := except_bind_eq_ok.mp hr
        obtain ⟨_, -, hr⟩ := except_bind_eq_ok.mp hr
        obtain ⟨_, -, hr⟩ := except_bind_eq_ok.mp hr
        obtain ⟨us, hus, hr⟩ := except_bind_eq_ok.mp hr
        obtain ⟨e, he⟩ := mapM_bad uids hm
        rw [he] at hus; cases hus
      · cases hr
  have after : ∀ (lines : List Str) results p uids, bad ∈ uids → Raises (readMrLoop ft results (some p) uids lines) := by
    intro lines
    induction lines with
    | nil =>
      intro results p uids hm
      obtain ⟨e, he⟩ := res_bad p uids hm
      simp only [readMrLoop, closeGroup, he]; exact ⟨e, rfl⟩
    | cons l ls ih =>
      intro results p uids hm
      rw [readMrLoop]
      split
      · obtain ⟨e, he⟩ := res_bad p uids hm
        simp only [closeGroup, he]; exact ⟨e, rfl⟩
      · split
        · exact ih _ _ _ (by simp [hm])
        · exact ih _ _ _ hm
  intro pre
  induction pre with
  | nil =>
    intro results pub uids h
    rcases h with h | ⟨l, hl, -⟩
    · obtain ⟨p, rfl⟩ := Option.isSome_iff_exists.mp h
      have hnp : ¬ "pub".toList <+: bad := by
        intro h
        obtain ⟨t, rfl⟩ := h
        obtain ⟨t', ht⟩ := hu
        simp at ht
      rw [List.nil_append, readMrLoop, if_neg (by rw [startsWith_iff]; exact hnp), if_pos (by rw [startsWith_iff]; exact hu)]
      exact after _ _ _ _ (by simp)
    · simp at hl
  | cons l ls ih =>
    intro results pub uids h
    rw [List.cons_append, readMrLoop]
    split
    · cases hr : closeGroup ft results pub uids with
      | error e => exact ⟨e, rfl⟩
      | ok r => rw [except_bind_ok]; exact ih _ _ _ (Or.inl rfl)
    · rename_i hnp
      have h' : pub.isSome ∨ ∃ l ∈ ls, startsWith l "pub".toList = true := by
        rcases h with h | ⟨x, hx, hp⟩
        · exact Or.inl h
        · rcases List.mem_cons.mp hx with rfl | hx
          · exact absurd hp hnp
          · exact Or.inr ⟨x, hx, hp⟩
      split
      · exact ih _ _ _ h'
      · exact ih _ _ _ h'

end Pgp
