import Mathlib.Data.List.Forall2
import Verif.Lemmas.Commands
/-
Property theorems C48 (choice of cipher and integrity protection) and C65 (recipients) of the encryption command.
-/
namespace Pgp.Props
open Spec

/-! ## C48 -/

/-- C48: for every list of preferred cipher codes and all recipient keys, the encryption call uses the sender's first preference that
every recipient lists; hidden and shown recipients count alike, and every recipient stays one. -/
theorem C48_cipher_partial (preferred : List Nat) (shown hidden : List RecipientKey) (throwKeys forced disabled : Bool) (call : EncryptCall)
    (h : pubkeyEncrypt preferred (shown.map some) (hidden.map some) throwKeys forced disabled = .ok call) :
    FirstShared preferred (shown ++ hidden) call.cipher ∧ call.all.Perm ((shown ++ hidden).map some) := by
  unfold pubkeyEncrypt at h
  obtain ⟨c, hc, h⟩ := except_bind_eq_ok.mp h
  obtain ⟨m, hm, h⟩ := except_bind_eq_ok.mp h
  simp only [except_pure, Except.ok.injEq] at h
  subst h
  unfold chooseCipher at hc
  split at hc
  · exact absurd hc (by simp)
  · cases throwKeys with
    | false =>
      simp only [Bool.false_eq_true, if_false, ← List.map_append] at hc ⊢
      rcases chooseCipherLoop_some (shown ++ hidden) preferred with ⟨d, hd, hf⟩ | ⟨he, -⟩
      · rw [hd] at hc
        simp only [Except.ok.injEq] at hc
        subst hc
        exact ⟨hf, by simp [EncryptCall.all]⟩
      · rw [he] at hc; exact absurd hc (by simp)
    | true =>
      simp only [if_true, List.nil_append, ← List.map_append] at hc ⊢
      rcases chooseCipherLoop_some (hidden ++ shown) preferred with ⟨d, hd, hf⟩ | ⟨he, -⟩
      · rw [hd] at hc
        simp only [Except.ok.injEq] at hc
        subst hc
        refine ⟨?_, ?_⟩
        · obtain ⟨pre, post, e, h1, h2⟩ := hf
          have swap : ∀ x, SharedCipher (hidden ++ shown) x ↔ SharedCipher (shown ++ hidden) x := by
            intro x; simp only [SharedCipher, List.mem_append]; constructor <;> intro h k hk <;> exact h k hk.symm
          exact ⟨pre, post, e, (swap _).mp h1, fun x hx hs => h2 x hx ((swap x).mpr hs)⟩
        · simp only [EncryptCall.all, List.nil_append, List.map_append]
          exact List.perm_append_comm
      · rw [he] at hc; exact absurd hc (by simp)

example : FirstShared [9, 7, 2] ([⟨[7, 2], true⟩, ⟨[2, 7], false⟩] ++ []) 7 :=
  (C48_cipher_partial [9, 7, 2] [⟨[7, 2], true⟩, ⟨[2, 7], false⟩] [] false false false _ rfl).1

/-- C48: the call is made exactly when some preferred cipher is listed by every recipient (and the preference list is not empty). -/
theorem C48_fails_iff_none_shared_partial (preferred : List Nat) (shown hidden : List RecipientKey) (throwKeys forced disabled : Bool) :
    (∃ call, pubkeyEncrypt preferred (shown.map some) (hidden.map some) throwKeys forced disabled = .ok call) ↔
      ∃ c ∈ preferred, SharedCipher (shown ++ hidden) c := by
  constructor
  · rintro ⟨call, h⟩
    obtain ⟨⟨pre, post, e, h1, -⟩, -⟩ := C48_cipher_partial _ _ _ _ _ _ _ h
    exact ⟨call.cipher, by rw [e]; simp, h1⟩
  · rintro ⟨c, hc, hs⟩
    have hne : preferred ≠ [] := List.ne_nil_of_mem hc
    have mdcOk : ∀ keys : List RecipientKey, ∃ m, chooseMdc forced disabled (keys.map some) = .ok m := by
      intro keys
      unfold chooseMdc
      split
      · exact ⟨_, rfl⟩
      · split
        · exact ⟨_, rfl⟩
        · exact ⟨_, allSupportMdc_some keys⟩
    have cipOk : ∀ keys : List RecipientKey, SharedCipher keys c → ∃ d, chooseCipher preferred (keys.map some) = .ok d := by
      intro keys hk
      unfold chooseCipher
      rw [if_neg hne]
      rcases chooseCipherLoop_some keys preferred with ⟨d, hd, -⟩ | ⟨-, hn⟩
      · exact ⟨d, hd⟩
      · exact absurd hk (hn c hc)
    unfold pubkeyEncrypt
    cases throwKeys with
    | false =>
      simp only [Bool.false_eq_true, if_false, ← List.map_append]
      obtain ⟨d, hd⟩ := cipOk (shown ++ hidden) hs
      obtain ⟨m, hm⟩ := mdcOk (shown ++ hidden)
      exact ⟨⟨d, shown.map some, hidden.map some, m⟩, by
        simp only [hd, hm, except_bind_ok, except_pure]⟩
    | true =>
      simp only [if_true, List.nil_append, ← List.map_append]
      obtain ⟨d, hd⟩ := cipOk (hidden ++ shown) (by
        intro k hk; exact hs k (by simp only [List.mem_append] at hk ⊢; exact hk.symm))
      obtain ⟨m, hm⟩ := mdcOk (hidden ++ shown)
      exact ⟨⟨d, [], (hidden ++ shown).map some, m⟩, by simp only [hd, hm, except_bind_ok, except_pure]⟩

/-- C48: integrity protection is used if forced; otherwise not if disabled; otherwise exactly when every recipient supports it. -/
theorem C48_integrity_partial (preferred : List Nat) (shown hidden : List RecipientKey) (throwKeys forced disabled : Bool) (call : EncryptCall)
    (h : pubkeyEncrypt preferred (shown.map some) (hidden.map some) throwKeys forced disabled = .ok call) :
    call.mdc = true ↔ forced = true ∨ (disabled = false ∧ ∀ k ∈ shown ++ hidden, k.mdc = true) := by
  unfold pubkeyEncrypt at h
  obtain ⟨c, hc, h⟩ := except_bind_eq_ok.mp h
  obtain ⟨m, hm, h⟩ := except_bind_eq_ok.mp h
  simp only [except_pure, Except.ok.injEq] at h
  subst h
  unfold chooseMdc at hm
  cases forced with
  | true => simp at hm; simp [← hm]
  | false =>
    cases disabled with
    | true => simp at hm; simp [← hm]
    | false =>
      cases throwKeys <;>
        (simp only [Bool.false_eq_true, if_false, if_true, List.nil_append, ← List.map_append, allSupportMdc_some,
            Except.ok.injEq] at hm
         subst hm
         simp only [List.all_eq_true, Bool.false_eq_true, false_or, true_and, List.mem_append])
      · constructor <;> intro h k hk <;> exact h k hk.symm

example : ∃ call, pubkeyEncrypt [9, 7, 2] ([⟨[7, 2], true⟩, ⟨[2, 7], false⟩].map some) [] false false false = .ok call ∧
    call.cipher = 7 ∧ call.mdc = false := ⟨_, rfl, rfl, rfl⟩

/-- C48: with the built-in preferences (no `--cipher-algo`, no personal preferences, nothing disabled) only the first default cipher is
ever tried: whatever the recipients accept, the choice is AES-256 or the command fails — although the ten other defaults were meant to
be fall-backs. -/
theorem C48_fallback_refuted (personal : Option (List String)) (hp : personal = none ∨ personal = some []) :
    ∃ helper, cipherInit defaultCiphers personal [] none = .ok helper ∧ preferredCiphers helper = .ok [9] ∧
      ∀ (shown hidden : List RecipientKey) (throwKeys forced disabled : Bool), ¬ SharedCipher (shown ++ hidden) 9 →
        ∀ p, preferredCiphers helper = .ok p → ∀ call, pubkeyEncrypt p (shown.map some) (hidden.map some) throwKeys forced disabled ≠ .ok call := by
  have key : ∀ helper, preferredCiphers helper = .ok [9] → ∀ (shown hidden : List RecipientKey) (throwKeys forced disabled : Bool),
      ¬ SharedCipher (shown ++ hidden) 9 → ∀ p, preferredCiphers helper = .ok p →
        ∀ call, pubkeyEncrypt p (shown.map some) (hidden.map some) throwKeys forced disabled ≠ .ok call := by
    intro helper h9 shown hidden t f d hs p hp call hcall
    rw [h9] at hp
    simp only [Except.ok.injEq] at hp
    subst hp
    obtain ⟨c, hc, hsh⟩ := (C48_fails_iff_none_shared_partial _ _ _ _ _ _).mp ⟨call, hcall⟩
    simp only [List.mem_singleton] at hc
    subst hc
    exact hs hsh
  rcases hp with rfl | rfl
  · exact ⟨_, rfl, by decide, key _ (by decide)⟩
  · exact ⟨_, rfl, by decide, key _ (by decide)⟩

/-- The hypothesis of the refutation is met by a recipient that accepts AES-128 and triple DES, both among the defaults. -/
example : ¬ SharedCipher ([⟨[7, 2], true⟩] ++ []) 9 := by simp [SharedCipher]

/-- C48: a personal preference list does not help: only its first enabled entry is tried. -/
theorem C48_personal_first_only_refuted (defaults : List String) (a : String) (as : List String) (ha : a ≠ "") :
    ∃ helper, cipherInit defaults (some (a :: as)) [] none = .ok helper ∧ preferredCiphers helper = .ok [cipherCode a] := by
  refine ⟨⟨a, some (a :: as), defaults⟩, ?_, ?_⟩
  · simp [cipherInit, removeAll]
  · simp [preferredCiphers, ha]

example := C48_personal_first_only_refuted defaultCiphers "cast5" ["aes128"] (by decide)

/-- C48: a cipher forced with `--cipher-algo` is used even when it is disabled. -/
theorem C48_forced_disabled_refuted (defaults : List String) (p : List String) (a : String) (ha : a ≠ "") :
    ∃ helper, cipherInit defaults (some p) [a] (some a) = .ok helper ∧ preferredCiphers helper = .ok [cipherCode a] := by
  cases p with
  | nil => exact ⟨_, rfl, by simp [preferredCiphers, ha]⟩
  | cons x xs => exact ⟨_, rfl, by simp [preferredCiphers, ha]⟩

example := C48_forced_disabled_refuted defaultCiphers ["aes128"] "cast5" (by decide)

/-- C48: disabling ciphers in one helper changes the defaults every later helper sees. -/
theorem C48_disabled_persists_refuted (disabled : List String) (c : Option String) (helper : CipherHelper)
    (h : cipherInit defaultCiphers (some []) disabled c = .ok helper) :
    helper.defaults = defaultCiphers.filter (fun a => a ∉ disabled) := by
  unfold cipherInit at h
  simp only at h
  split at h
  · simp only [Except.ok.injEq] at h; subst h; rfl
  · split at h
    · simp only [Except.ok.injEq] at h; subst h; rfl
    · exact absurd h (by simp)

example : ∃ helper, cipherInit defaultCiphers (some []) ["cast5"] none = .ok helper ∧
    helper.defaults = defaultCiphers.filter (fun a => a ∉ ["cast5"]) :=
  ⟨_, rfl, C48_disabled_persists_refuted _ none _ rfl⟩

/-- C48: a recipient without any encryption key (None) makes the command raise AttributeError. -/
theorem C48_none_key (preferred : List Nat) (hidden : List (Option RecipientKey)) (shown : List (Option RecipientKey)) (f d : Bool)
    (hp : preferred ≠ []) : pubkeyEncrypt preferred (none :: shown) hidden false f d = .error .attributeError := by
  cases preferred with
  | nil => exact absurd rfl hp
  | cons c cs => rfl

example := C48_none_key [9, 7] [] [some ⟨[7], true⟩] false false (by decide)

/-! ## C65 -/

/-- C65, what holds: without groups, and when the trust check passes, the message goes to exactly the named recipients followed by the
always-encrypt-to ones. -/
theorem C65_no_groups_partial (check : Str → Py Unit) (rs hidden extra hiddenExtra groups ungroups : List Str) (noExtra noGroups : Bool)
    (hg : groups = [] ∨ noGroups = true) (hc : ∀ r ∈ rs, check r = .ok ()) :
    ∃ h, recipientsInit rs hidden extra hiddenExtra noExtra groups ungroups noGroups = .ok h ∧
      getRecipients check h.groups h.recipients h.encryptTo = .ok (rs ++ if noExtra then [] else extra) := by
  have e : (if noGroups then [] else groups) = [] := by rcases hg with rfl | rfl <;> simp
  refine ⟨⟨[], rs, hidden, if noExtra then [] else extra, if noExtra then [] else hiddenExtra⟩, ?_, ?_⟩
  · unfold recipientsInit
    rw [e]
    rfl
  · unfold getRecipients
    rw [expandRecipients_plain [] [] rs (by simp)]
    simp only [except_bind_ok, List.nil_append, verifyAll_ok check rs hc]
    exact expandRecipients_plain [] rs _ (by simp)

example := C65_no_groups_partial (fun r => if r = "eve".toList then .error .valueError else .ok ()) ["alice".toList, "bob".toList] [] ["me".toList] []
  ["work=bob carol".toList] [] false true (.inr rfl) (by decide)

/-- C65 refuted: if any group is defined, the recipients the user named are discarded: the message is addressed to the members of the last
group defined, whoever was named. -/
theorem C65_groups_refuted (rs hidden extra hiddenExtra vals ungroups : List Str) (noExtra : Bool) (name members : Str) (hn : '=' ∉ name)
    (hm : '=' ∉ members) (hv : ∃ r, parseGroups [] rs vals = .ok r) :
    ∃ h, recipientsInit rs hidden extra hiddenExtra noExtra (vals ++ [name ++ '=' :: members]) ungroups false = .ok h ∧
      h.recipients = pyWords members := by
  obtain ⟨r, hr⟩ := hv
  obtain ⟨gs, hgs⟩ := parseGroups_append [] rs vals name members hn hm hr
  refine ⟨⟨gs.filter (fun g => g.1 ∉ ungroups), pyWords members, hidden, if noExtra then [] else extra,
    if noExtra then [] else hiddenExtra⟩, ?_, rfl⟩
  unfold recipientsInit
  simp only [Bool.false_eq_true, if_false, hgs, except_bind_ok, except_pure]

example : ∃ h, recipientsInit ["alice".toList] [] [] [] false ["work=bob carol".toList] [] false = .ok h ∧
    h.recipients = ["bob".toList, "carol".toList] := ⟨_, rfl, by decide⟩

theorem groupsExtend_mem (groups : List (Str × List Str)) (name : Str) (ms : List Str) (hd : (groups.map (·.1)).Nodup) :
    ((groupsExtend groups name ms).map (·.1)).Nodup ∧
    ∀ n l, (n, l) ∈ groupsExtend groups name ms ↔
      (n ≠ name ∧ (n, l) ∈ groups) ∨ (n = name ∧ ((∃ l', (n, l') ∈ groups ∧ l = l' ++ ms) ∨ ((∀ l', (n, l') ∉ groups) ∧ l = ms))) := by
  induction groups with
  | nil => simp [groupsExtend]
  | cons g gs ih =>
    obtain ⟨n0, l0⟩ := g
    simp only [List.map_cons, List.nodup_cons] at hd
    obtain ⟨ih1, ih2⟩ := ih hd.2
    have hfirst : ∀ l', (n0, l') ∉ gs := fun l' h => hd.1 (List.mem_map.mpr ⟨_, h, rfl⟩)
    unfold groupsExtend
    by_cases h : n0 = name
    · subst h
      rw [if_pos rfl]
      refine ⟨by simp only [List.map_cons, List.nodup_cons]; exact hd, fun n l => ?_⟩
      constructor
      · intro hm
        rcases List.mem_cons.mp hm with hm | hm
        · cases hm
          exact .inr ⟨rfl, .inl ⟨l0, List.mem_cons_self, rfl⟩⟩
        · exact .inl ⟨fun hn => hfirst l (hn ▸ hm), List.mem_cons_of_mem _ hm⟩
      · rintro (⟨hn, hm⟩ | ⟨rfl, ⟨l', hm, rfl⟩ | ⟨hm, _⟩⟩)
        · rcases List.mem_cons.mp hm with hm | hm
          · cases hm; exact absurd rfl hn
          · exact List.mem_cons_of_mem _ hm
        · rcases List.mem_cons.mp hm with hm | hm
          · cases hm; exact List.mem_cons_self
          · exact absurd hm (hfirst l')
        · exact absurd List.mem_cons_self (hm l0)
    · rw [if_neg h]
      refine ⟨?_, fun n l => ?_⟩
      · simp only [List.map_cons, List.nodup_cons]
        refine ⟨fun hm => ?_, ih1⟩
        obtain ⟨⟨n, l⟩, hm', he⟩ := List.mem_map.mp hm
        simp only at he
        rcases (ih2 n l).mp hm' with ⟨_, hm2⟩ | ⟨hn, _⟩
        · exact hfirst l (he ▸ hm2)
        · exact h (he ▸ hn)
      · simp only [List.mem_cons, ih2 n l, Prod.mk.injEq]
        constructor
        · rintro (⟨rfl, rfl⟩ | ⟨hn, hm⟩ | ⟨rfl, ⟨l', hm, rfl⟩ | ⟨hm, rfl⟩⟩)
          · exact .inl ⟨h, .inl ⟨rfl, rfl⟩⟩
          · exact .inl ⟨hn, .inr hm⟩
          · exact .inr ⟨rfl, .inl ⟨l', .inr hm, rfl⟩⟩
          · refine .inr ⟨rfl, .inr ⟨fun l' h' => ?_, rfl⟩⟩
            rcases h' with ⟨rfl, _⟩ | h'
            · exact h rfl
            · exact hm l' h'
        · rintro (⟨hn, ⟨rfl, rfl⟩ | hm⟩ | ⟨rfl, ⟨l', ⟨rfl, _⟩ | hm, rfl⟩ | ⟨hm, rfl⟩⟩)
          · exact .inl ⟨rfl, rfl⟩
          · exact .inr (.inl ⟨hn, hm⟩)
          · exact absurd rfl h
          · exact .inr (.inr ⟨rfl, .inl ⟨l', hm, rfl⟩⟩)
          · exact .inr (.inr ⟨rfl, .inr ⟨fun l' h' => hm l' (.inr h'), rfl⟩⟩)

theorem parseGroups_members (defs : List (Str × Str)) (hdefs : ∀ d ∈ defs, '=' ∉ d.1 ∧ '=' ∉ d.2) : ∀ (groups : List (Str × List Str)) (rs : List Str),
    (groups.map (·.1)).Nodup → ∃ gs rs', parseGroups groups rs (defs.map fun d => d.1 ++ '=' :: d.2) = .ok (gs, rs') ∧ (gs.map (·.1)).Nodup ∧
      ∀ n l, (n, l) ∈ gs ↔ (∃ l', (n, l') ∈ groups ∧ l = l' ++ ((defs.filter (·.1 = n)).map fun d => pyWords d.2).flatten) ∨
        ((∀ l', (n, l') ∉ groups) ∧ n ∈ defs.map (·.1) ∧ l = ((defs.filter (·.1 = n)).map fun d => pyWords d.2).flatten) := by
  induction defs with
  | nil => intro groups rs hd; exact ⟨groups, rs, rfl, hd, fun n l => by simp⟩
  | cons d ds ih =>
    intro groups rs hd
    obtain ⟨name, text⟩ := d
    obtain ⟨h1, h2⟩ := hdefs _ List.mem_cons_self
    simp only at h1 h2
    obtain ⟨e1, e2⟩ := groupsExtend_mem groups name (pyWords text) hd
    obtain ⟨gs, rs', g1, g2, g3⟩ := ih (fun d hd => hdefs d (List.mem_cons_of_mem _ hd)) (groupsExtend groups name (pyWords text)) (pyWords text) e1
    refine ⟨gs, rs', ?_, g2, fun n l => ?_⟩
    · simp only [List.map_cons, parseGroups, pySplit_append '=' name text h1, pySplit_of_not_mem '=' text h2]
      exact g1
    · rw [g3]
      by_cases hn : n = name
      · subst hn
        simp only [e2, ne_eq, not_true, false_and, false_or, true_and, List.filter_cons, decide_true, if_true, List.map_cons, List.flatten_cons,
          List.mem_cons, true_or]
        constructor
        · rintro (⟨l', ⟨l'', hm, rfl⟩ | ⟨hm, rfl⟩, rfl⟩ | ⟨hno, _, _⟩)
          · exact .inl ⟨l'', hm, by simp⟩
          · exact .inr ⟨hm, rfl⟩
          · exfalso
            by_cases hx : ∃ l', (n, l') ∈ groups
            · obtain ⟨l', hx⟩ := hx
              exact hno _ (.inl ⟨l', hx, rfl⟩)
            · exact hno _ (.inr ⟨fun l' h => hx ⟨l', h⟩, rfl⟩)
        · rintro (⟨l', hm, rfl⟩ | ⟨hm, rfl⟩)
          · exact .inl ⟨_, .inl ⟨l', hm, rfl⟩, by simp⟩
          · exact .inl ⟨_, .inr ⟨hm, rfl⟩, rfl⟩
      · have hn' : ¬ name = n := fun h => hn h.symm
        simp only [e2, ne_eq, hn, not_false_eq_true, true_and, false_and, or_false, List.filter_cons, decide_false, Bool.false_eq_true, if_false,
          List.map_cons, List.mem_cons, false_or, hn']

theorem white_space {c : Char} (h : White [c]) : isPySpace c = true := by
  rcases h c List.mem_cons_self with rfl | rfl <;> decide

theorem printable_not_space {c : Char} (h : 33 ≤ c.toNat ∧ c.toNat ≤ 126) : isPySpace c = false := by
  unfold isPySpace
  simp only [Bool.or_eq_false_iff, Bool.and_eq_false_iff, decide_eq_false_iff_not]
  omega

theorem wordsAux_white {s : List Char} (h : White s) (t : List Char) : pyWordsAux [] (s ++ t) = pyWordsAux [] t := by
  induction s with
  | nil => rfl
  | cons c s ih =>
    rw [List.cons_append, pyWordsAux, if_pos (white_space fun x hx => h x (by simp at hx; simp [hx])), if_pos rfl]
    exact ih fun x hx => h x (List.mem_cons_of_mem _ hx)

theorem wordsAux_word {w : List Char} (h : ∀ c ∈ w, 33 ≤ c.toNat ∧ c.toNat ≤ 126) (cur t : List Char) :
    pyWordsAux cur (w ++ t) = pyWordsAux (cur ++ w) t := by
  induction w generalizing cur with
  | nil => simp
  | cons c w ih =>
    rw [List.cons_append, pyWordsAux, if_neg (by rw [printable_not_space (h c List.mem_cons_self)]; decide),
      ih (fun x hx => h x (List.mem_cons_of_mem _ hx))]
    simp

theorem words_spaced {s : List Char} {ws : List (List Char)} (h : SpacedWords s ws) : pyWords s = ws := by
  induction h with
  | @nil s h => have := wordsAux_white h []; rw [List.append_nil] at this; unfold pyWords; rw [this]; rfl
  | @cons s w t ws h1 h2 h3 h4 _ ih =>
    unfold pyWords
    rw [List.append_assoc, wordsAux_white h1, wordsAux_word h3, List.nil_append]
    rcases h4 with rfl | ⟨c, t', rfl, hc⟩
    · rw [pyWordsAux, if_neg h2, ← ih]
      rfl
    · unfold pyWords at ih
      rw [pyWordsAux, if_pos (white_space hc), if_pos rfl] at ih
      rw [pyWordsAux, if_pos (white_space hc), if_neg h2, ih]

/-- C65: the groups themselves are what the user defined. Each name defined and not removed again stands for the words of all its definitions,
in order, and for nothing else. -/
theorem C65_group_members (rs hidden extra hiddenExtra ungroups : List Str) (noExtra : Bool) (defs : List (Str × Str)) (words : Str → List Str)
    (hdefs : ∀ d ∈ defs, '=' ∉ d.1 ∧ '=' ∉ d.2) (hw : ∀ d ∈ defs, SpacedWords d.2 (words d.2)) :
    ∃ h, recipientsInit rs hidden extra hiddenExtra noExtra (defs.map fun d => d.1 ++ '=' :: d.2) ungroups false = .ok h ∧
      (h.groups.map (·.1)).Nodup ∧
      ∀ n l, (n, l) ∈ h.groups ↔ n ∈ defs.map (·.1) ∧ n ∉ ungroups ∧ l = ((defs.filter (·.1 = n)).map fun d => words d.2).flatten := by
  obtain ⟨gs, rs', h1, h2, h3⟩ := parseGroups_members defs hdefs [] rs (by simp)
  have hwords : ∀ n, (defs.filter (·.1 = n)).map (fun d => pyWords d.2) = (defs.filter (·.1 = n)).map fun d => words d.2 :=
    fun n => List.map_congr_left fun d hd => words_spaced (hw d (List.mem_filter.mp hd).1)
  refine ⟨⟨gs.filter (fun g => g.1 ∉ ungroups), rs', hidden, if noExtra then [] else extra, if noExtra then [] else hiddenExtra⟩, ?_, ?_, ?_⟩
  · unfold recipientsInit
    simp only [Bool.false_eq_true, if_false, h1, except_bind_ok, except_pure]
  · exact (List.filter_sublist.map _).nodup h2
  · intro n l
    simp only [List.mem_filter, h3, decide_eq_true_eq, hwords]
    simp only [List.not_mem_nil, false_and, exists_false, false_or, not_false_eq_true, implies_true, true_and]
    constructor
    · rintro ⟨⟨a, b⟩, c⟩; exact ⟨a, c, b⟩
    · rintro ⟨a, c, b⟩; exact ⟨⟨a, b⟩, c⟩

example : ∃ h, recipientsInit ["alice".toList] [] [] [] false (([("work".toList, "bob".toList), ("play".toList, "eve".toList), ("work".toList, " dan".toList)]
    : List (Str × Str)).map fun d => d.1 ++ '=' :: d.2) ["play".toList] false = .ok h ∧ ("work".toList, ["bob".toList, "dan".toList]) ∈ h.groups := by
  have one : ∀ w : Str, w ≠ [] → (∀ c ∈ w, 33 ≤ c.toNat ∧ c.toNat ≤ 126) → SpacedWords w [w] := fun w h1 h2 => by
    have := SpacedWords.cons (s := []) (w := w) (t := []) (fun c hc => absurd hc (by simp)) h1 h2 (.inl rfl) (.nil fun c hc => absurd hc (by simp))
    simpa using this
  obtain ⟨h, h1, _, h3⟩ := C65_group_members ["alice".toList] [] [] [] ["play".toList] false
    [("work".toList, "bob".toList), ("play".toList, "eve".toList), ("work".toList, " dan".toList)]
    (fun s => [s.filter (· ≠ ' ')]) (by decide) (by
      intro d hd
      simp only [List.mem_cons, List.not_mem_nil, or_false] at hd
      rcases hd with rfl | rfl | rfl
      · exact one _ (by decide) (by decide)
      · exact one _ (by decide) (by decide)
      · exact SpacedWords.cons (s := [' ']) (w := "dan".toList) (t := []) (fun c hc => by simp at hc; exact .inl hc) (by decide) (by decide) (.inl rfl) (.nil fun c hc => absurd hc (by simp)))
  exact ⟨h, h1, (h3 _ _).mpr ⟨by decide, by decide, by decide⟩⟩

/-- C65 refuted: naming a group as a recipient raises AttributeError. -/
theorem C65_group_reference_refuted (check : Str → Py Unit) (groups : List (Str × List Str)) (rs extra : List Str)
    (h : ∃ r ∈ rs, r ∈ groups.map (·.1)) : getRecipients check groups rs extra = .error .attributeError := by
  unfold getRecipients
  rw [expandRecipients_group groups [] rs h]
  rfl

example := C65_group_reference_refuted (fun _ => .ok ()) [("work".toList, ["bob".toList])] ["alice".toList, "work".toList] []
  ⟨"work".toList, by simp, by simp⟩

/-- C65, the key chosen for a recipient: the first usable encryption subkey, else the primary key if it may encrypt, else None. -/
theorem C65_key_choice_partial {K : Type} (find : Str → Option (PubKeyInfo K)) (r : Str) (pk : PubKeyInfo K) (hf : find r = some pk)
    (hr : pk.revoked = false) :
    (∀ k, findRecipientKey find r = .ok (some k) → EncryptionKey pk k) ∧
    (findRecipientKey find r = .ok none ↔ pk.encrypts = false ∧ ∀ x ∈ pk.subkeys, ¬ (x.2.1 = false ∧ x.2.2 = true)) ∧
    ∃ o, findRecipientKey find r = .ok o := by
  unfold findRecipientKey
  rw [hf]
  simp only [hr, Bool.false_eq_true, if_false]
  rcases pickSubkey_spec pk.subkeys with ⟨k, h1, h2⟩ | ⟨h1, h2⟩
  · rw [h1]
    obtain ⟨pre, post, e, h3⟩ := h2
    refine ⟨fun k' hk' => ?_, ?_, ⟨_, rfl⟩⟩
    · simp only [Except.ok.injEq, Option.some.injEq] at hk'
      subst hk'
      exact Or.inl ⟨pre, post, e, h3⟩
    · simp only [Except.ok.injEq, reduceCtorEq, false_iff, not_and]
      intro _ hall
      exact hall (k, false, true) (by rw [e]; simp) rfl rfl
  · rw [h1]
    simp only
    cases he : pk.encrypts with
    | true =>
      simp only [if_true]
      refine ⟨fun k' hk' => ?_, by simp, ⟨_, rfl⟩⟩
      simp only [Except.ok.injEq, Option.some.injEq] at hk'
      exact Or.inr ⟨h2, he, hk'.symm⟩
    | false =>
      simp only [Bool.false_eq_true, if_false]
      exact ⟨by simp, by simpa using h2, ⟨_, rfl⟩⟩

/-- A key whose first subkey is revoked, and whose second may encrypt. -/
example : EncryptionKey (K := Nat) ⟨0, false, true, [(1, true, true), (2, false, true)]⟩ 2 :=
  (C65_key_choice_partial (fun _ => some ⟨0, false, true, [(1, true, true), (2, false, true)]⟩) "bob".toList _ rfl rfl).1 2 rfl

/-- C65: a revoked or unknown recipient is never encrypted to. -/
theorem C65_revoked_or_unknown_partial {K : Type} (find : Str → Option (PubKeyInfo K)) (r : Str)
    (h : find r = none ∨ ∃ pk, find r = some pk ∧ pk.revoked = true) : findRecipientKey find r = .error .attributeError := by
  unfold findRecipientKey
  rcases h with h | ⟨pk, h, hr⟩
  · rw [h]
  · rw [h]; simp only [hr, if_true]

example := C65_revoked_or_unknown_partial (K := Nat) (fun _ => some ⟨0, true, true, [(1, false, true)]⟩) "bob".toList (.inr ⟨_, rfl, rfl⟩)

theorem getKeys_each {K : Type} (find : Str → Option (PubKeyInfo K)) (checkKey : Option K → Py Unit) : ∀ (rs : List Str) (ks : List (Option K)),
    getKeys find checkKey rs = .ok ks → List.Forall₂ (fun r k => findRecipientKey find r = .ok k ∧ checkKey k = .ok ()) rs ks
  | [], ks, h => by cases h; exact .nil
  | r :: rs, ks, h => by
    obtain ⟨k, hk, h⟩ := except_bind_eq_ok.mp h
    obtain ⟨u, hu, h⟩ := except_bind_eq_ok.mp h
    obtain ⟨ks', hks, h⟩ := except_bind_eq_ok.mp h
    cases h
    exact .cons ⟨hk, hu⟩ (getKeys_each find checkKey rs ks' hks)

/-- C65: with working helpers and no groups, the keys encrypted to are one for each recipient named, in order (then one for each default
recipient): the recipient's encryption key, or None if the recipient's key is not one to encrypt to; every recipient is known and not revoked, and was checked. -/
theorem C65_key_for_each_partial {K : Type} (find : Str → Option (PubKeyInfo K)) (check : Str → Py Unit) (checkKey : Option K → Py Unit) (rs extra hidden hiddenExtra : List Str)
    (ks : List (Option K)) (h : getRecipientKeys find check checkKey ⟨[], rs, hidden, extra, hiddenExtra⟩ = .ok ks) :
    (∀ r ∈ rs, check r = .ok ()) ∧
    List.Forall₂ (fun r k => ∃ pk, find r = some pk ∧ pk.revoked = false ∧ checkKey k = .ok () ∧
      match k with
      | some k => EncryptionKey pk k
      | none => pk.encrypts = false ∧ ∀ x ∈ pk.subkeys, ¬ (x.2.1 = false ∧ x.2.2 = true)) (rs ++ extra) ks := by
  obtain ⟨all, h1, h⟩ := except_bind_eq_ok.mp h
  unfold getRecipients at h1
  dsimp only at h1
  rw [expandRecipients_plain [] _ _ (by simp), except_bind_ok, List.nil_append] at h1
  obtain ⟨u, hu, h1⟩ := except_bind_eq_ok.mp h1
  rw [expandRecipients_plain [] _ _ (by simp)] at h1
  cases h1
  refine ⟨?_, (getKeys_each find checkKey _ _ h).imp ?_⟩
  · have : ∀ (l : List Str), verifyAll check l = .ok () → ∀ r ∈ l, check r = .ok () := by
      intro l
      induction l with
      | nil => intro _ r hr; cases hr
      | cons x l ih =>
        intro hv r hr
        obtain ⟨v, hv1, hv2⟩ := except_bind_eq_ok.mp hv
        rcases List.mem_cons.mp hr with rfl | hr
        · exact hv1
        · exact ih hv2 r hr
    exact this rs hu
  · rintro r k ⟨hk, hc⟩
    cases hf : find r with
    | none => rw [C65_revoked_or_unknown_partial find r (.inl hf)] at hk; cases hk
    | some pk =>
      cases hr : pk.revoked with
      | true => rw [C65_revoked_or_unknown_partial find r (.inr ⟨pk, hf, hr⟩)] at hk; cases hk
      | false =>
        obtain ⟨c1, c2, -⟩ := C65_key_choice_partial find r pk hf hr
        refine ⟨pk, rfl, hr, hc, ?_⟩
        cases k with
        | some k => exact c1 k hk
        | none => exact c2.mp hk

example := C65_key_for_each_partial (K := Nat) (fun r => some ⟨r.length, false, true, [(7, true, true)]⟩) (fun _ => .ok ()) (fun _ => .ok ()) ["bob".toList, "alice".toList] ["me".toList]
  [] [] [some 3, some 5, some 2] (by decide +kernel)

/-- C65 refuted: with the keyring and trust helpers that are shipped, looking up recipient keys succeeds only when there is nobody to
encrypt to. -/
theorem C65_shipped_helpers_refuted {K : Type} (h : Recipients) (ks : List (Option K))
    (hk : getRecipientKeys shippedFind shippedCheck shippedCheck h = .ok ks) : ks = [] ∧ h.recipients = [] ∧ h.encryptTo = [] := by
  unfold getRecipientKeys getRecipients at hk
  obtain ⟨rs, hrs, hk⟩ := except_bind_eq_ok.mp hk
  obtain ⟨res, hres, hrs⟩ := except_bind_eq_ok.mp hrs
  obtain ⟨u, hu, hrs⟩ := except_bind_eq_ok.mp hrs
  have hnil : rs = [] := by
    cases rs with
    | nil => rfl
    | cons r rs => simp [getKeys, findRecipientKey, shippedFind, bind, Except.bind] at hk
  have hres' : res = [] := by
    cases res with
    | nil => rfl
    | cons r rs => simp [verifyAll, shippedCheck, bind, Except.bind] at hu
  have plain : ∀ acc l out, expandRecipients h.groups acc l = .ok out → out = acc ++ l := by
    intro acc l out ho
    by_cases hg : ∃ r ∈ l, r ∈ h.groups.map (·.1)
    · rw [expandRecipients_group _ _ _ hg] at ho; exact absurd ho (by simp)
    · rw [expandRecipients_plain _ _ _ (fun r hr hm => hg ⟨r, hr, hm⟩)] at ho
      simp only [Except.ok.injEq] at ho
      exact ho.symm
  have e1 := plain _ _ _ hres
  have e2 := plain _ _ _ hrs
  rw [hres'] at e1 e2
  rw [hnil] at e2 hk
  refine ⟨?_, by simpa using e1.symm, by simpa using e2.symm⟩
  simp only [getKeys, Except.ok.injEq] at hk
  exact hk.symm

example : ∃ ks : List (Option Nat), getRecipientKeys shippedFind shippedCheck shippedCheck ⟨[], [], ["bob".toList], [], []⟩ = .ok ks ∧ ks = [] :=
  ⟨_, rfl, (C65_shipped_helpers_refuted ⟨[], [], ["bob".toList], [], []⟩ _ rfl).1⟩

end Pgp.Props
