import Verif.Lemmas.Pinentry
/-
Property theorems C78 (console prompt), C79 (what is asked of the agent), C80 (what the agent answers).
-/
namespace Pgp.Props
open Spec

/-! ### C78 -/

/-- C78: when the passphrase is not remembered and asking is allowed, a passphrase is returned exactly if it was typed together with all
the confirmations asked for, after any number of failed attempts; nothing after it is read. -/
theorem C78_confirmed (c : PinCache) (r : PinRequest) (typed : List Str) (p : Str) (rest : List Str)
    (hc : ∀ id, r.cacheId = some id → c id = none) (ha : r.noAsk = false) :
    (∃ printed, (pinGet c r typed).1 = .ok ⟨p, printed, rest⟩) ↔ Confirmed r.repeats typed p rest := by
  have hn : cached c (cacheKey r) = none := by
    unfold cacheKey
    cases h : r.cacheId with
    | none => rfl
    | some id =>
      simp only
      split
      · rfl
      · exact hc id h
  rw [← askLoop_iff r.repeats (orDefault "Error.".toList r.errorMessage)]
  simp only [pinGet, hn, ha, Bool.false_eq_true, if_false]
  constructor
  · rintro ⟨printed, h⟩
    generalize hr : askLoop r.repeats (typed.length + 1) (orDefault "Error.".toList r.errorMessage) typed = x at h
    cases x with
    | error e => cases h
    | ok v =>
      obtain ⟨q, shown, rest'⟩ := v
      simp only [Except.ok.injEq, PinAnswer.mk.injEq] at h
      obtain ⟨rfl, -, rfl⟩ := h
      exact ⟨shown, rfl⟩
  · rintro ⟨shown, h⟩
    rw [h]
    exact ⟨_, rfl⟩

/-- A passphrase mistyped once and then confirmed. -/
example : Confirmed 1 ["a".toList, "b".toList, "a".toList, "a".toList, "next".toList] "a".toList ["next".toList] :=
  ⟨[["a".toList, "b".toList]], by
    intro a ha
    simp only [List.mem_singleton] at ha
    subst ha
    exact ⟨"a".toList, ["b".toList], rfl, rfl, "b".toList, by simp, by decide⟩, rfl⟩

/-- C78: the prompt never hangs: it returns a passphrase, refuses to ask (KeyError), or meets the end of the input. -/
theorem C78_outcomes (c : PinCache) (r : PinRequest) (typed : List Str) :
    (∃ a, (pinGet c r typed).1 = .ok a) ∨ ((pinGet c r typed).1 = .error .keyError ∧ r.noAsk = true) ∨
    ((pinGet c r typed).1 = .error (.pgp "EOFError") ∧ r.noAsk = false) := by
  unfold pinGet
  cases h : cached c (cacheKey r) with
  | some p => exact .inl ⟨_, rfl⟩
  | none =>
    simp only
    cases hn : r.noAsk with
    | true => exact .inr (.inl ⟨rfl, rfl⟩)
    | false =>
      simp only [Bool.false_eq_true, if_false]
      generalize hr : askLoop r.repeats (typed.length + 1) (orDefault "Error.".toList r.errorMessage) typed = x
      cases x with
      | ok v => exact .inl ⟨_, rfl⟩
      | error e =>
        have := askLoop_error _ _ _ _ _ (Nat.lt_succ_self _) hr
        subst this
        exact .inr (.inr ⟨rfl, trivial⟩)

/-- The request asks for a passphrase to be kept under `id`, which is not remembered after the events. -/
def Asks (r : PinRequest) (es : List PinEvent) (id : Str) : Prop :=
  r.cacheId = some id ∧ id ≠ [] ∧ id ≠ "X".toList ∧ r.useCache = true ∧ remembered id es = none ∧ r.noAsk = false

/-- The caches that a history of calls leads to, with what was entered and cleared in it (latest first). -/
inductive PinReach : PinCache → List PinEvent → Prop
  | start : PinReach (fun _ => none) []
  | clear {c es} (id : Str) : PinReach c es → PinReach (pinClear c id) (.cleared id :: es)
  | entered {c es} (r : PinRequest) (typed : List Str) {id p : Str} {rest : List Str} : PinReach c es → Asks r es id →
      Confirmed r.repeats typed p rest → PinReach (pinGet c r typed).2 (.entered id p :: es)
  | nothing {c es} (r : PinRequest) (typed : List Str) : PinReach c es →
      (∀ id p rest, Asks r es id → ¬ Confirmed r.repeats typed p rest) → PinReach (pinGet c r typed).2 es

theorem cacheKey_some (r : PinRequest) (k : Str) (h : cacheKey r = some k) :
    r.cacheId = some k ∧ k ≠ [] ∧ k ≠ "X".toList ∧ r.useCache = true := by
  unfold cacheKey at h
  cases hc : r.cacheId with
  | none => rw [hc] at h; cases h
  | some s =>
    rw [hc] at h
    simp only at h
    split at h
    · cases h
    · rename_i hne
      simp only [not_or, Bool.not_eq_false] at hne
      cases h
      exact ⟨rfl, hne.2.1, hne.1, hne.2.2⟩

theorem cacheKey_of (r : PinRequest) (k : Str) (h : r.cacheId = some k) (h1 : k ≠ []) (h2 : k ≠ "X".toList) (h3 : r.useCache = true) :
    cacheKey r = some k := by
  have : ¬ (k = ['X'] ∨ k = [] ∨ r.useCache = false) := by
    simp only [not_or, Bool.not_eq_false]; exact ⟨h2, h1, h3⟩
  unfold cacheKey
  rw [h]
  simp only
  rw [if_neg this]

/-- C78: after any history of calls, what is cached for an id is what was last entered for it, unless it was cleared since. -/
theorem C78_cache_history {c : PinCache} {es : List PinEvent} (h : PinReach c es) (id : Str) : c id = remembered id es := by
  induction h generalizing id with
  | start => rfl
  | clear i _ ih =>
    simp only [pinClear, remembered]
    by_cases e : id = i
    · rw [if_pos e, if_pos e.symm]
    · rw [if_neg e, if_neg (fun x => e x.symm), ih]
  | @entered c es r typed i p rest _ ha hcf ih =>
    obtain ⟨h1, h2, h3, h4, h5, h6⟩ := ha
    have hk := cacheKey_of r i h1 h2 h3 h4
    obtain ⟨shown, hs⟩ := (askLoop_iff r.repeats (orDefault "Error.".toList r.errorMessage) typed p rest).mpr hcf
    have hn : cached c (some i) = none := by simp only [cached]; rw [ih, h5]
    simp only [pinGet, hk, hn, h6, Bool.false_eq_true, if_false, hs, cacheSet, remembered]
    by_cases e : id = i
    · rw [if_pos e, if_pos e.symm]
    · rw [if_neg e, if_neg (fun x => e x.symm), ih]
  | @nothing c es r typed _ hno ih =>
    rw [← ih]
    unfold pinGet
    cases hc : cached c (cacheKey r) with
    | some p => rfl
    | none =>
      simp only
      cases hn : r.noAsk with
      | true => rfl
      | false =>
        simp only [Bool.false_eq_true, if_false]
        generalize hr : askLoop r.repeats (typed.length + 1) (orDefault "Error.".toList r.errorMessage) typed = x
        cases x with
        | error e => rfl
        | ok v =>
          obtain ⟨p, shown, rest⟩ := v
          simp only
          cases hk : cacheKey r with
          | none => rfl
          | some k =>
            exfalso
            obtain ⟨h1, h2, h3, h4⟩ := cacheKey_some r k hk
            rw [hk] at hc
            exact hno k p rest ⟨h1, h2, h3, h4, by rw [← ih]; exact hc, hn⟩ ((askLoop_iff _ _ _ _ _).mp ⟨shown, hr⟩)

example := C78_cache_history (.clear "K".toList .start) "K".toList

/-- C78: a remembered passphrase is returned without printing or reading anything; one that is not remembered is not made up. -/
theorem C78_cached_returned {c : PinCache} {es : List PinEvent} (h : PinReach c es) (r : PinRequest) (typed : List Str) (id : Str)
    (h1 : r.cacheId = some id) (h2 : id ≠ []) (h3 : id ≠ "X".toList) (h4 : r.useCache = true) :
    (∀ p, remembered id es = some p → pinGet c r typed = (.ok ⟨p, [], typed⟩, c)) ∧
    (remembered id es = none → r.noAsk = true → pinGet c r typed = (.error .keyError, c)) := by
  have hk := cacheKey_of r id h1 h2 h3 h4
  have hc := C78_cache_history h id
  constructor
  · intro p hp
    simp only [pinGet, hk, cached, hc, hp]
  · intro hp ha
    simp only [pinGet, hk, cached, hc, hp, ha, if_true]

/-- An entered passphrase, its cache and a later request. -/
example : PinReach (pinGet (fun _ => none) { cacheId := some "k".toList } ["pw".toList]).2 [.entered "k".toList "pw".toList] :=
  .entered { cacheId := some "k".toList } ["pw".toList] .start
    ⟨rfl, by decide, by decide, rfl, rfl, rfl⟩ ⟨[], by simp, rfl⟩

/-- C78: a passphrase asked for without the cache, or under no id, an empty one or `X`, is not kept. -/
theorem C78_not_kept (c : PinCache) (r : PinRequest) (typed : List Str)
    (h : r.useCache = false ∨ r.cacheId = none ∨ r.cacheId = some [] ∨ r.cacheId = some "X".toList) : (pinGet c r typed).2 = c := by
  have hk : cacheKey r = none := by
    unfold cacheKey
    rcases h with h | h | h | h
    · cases r.cacheId with
      | none => rfl
      | some s => simp [h]
    · rw [h]
    · rw [h]; simp
    · rw [h]; simp
  unfold pinGet
  rw [hk]
  simp only [cached]
  split
  · rfl
  · split <;> rfl

example (c : PinCache) := C78_not_kept c { useCache := false, cacheId := some "k".toList } ["pw".toList] (.inl rfl)

/-- C78, a deviation: without an error message given, "Error." is printed before the very first attempt. -/
theorem C78_error_before_first_attempt (c : PinCache) (p : Str) :
    (pinGet c {} [p]).1 = .ok ⟨p, ["PIN?".toList, "Error.".toList], []⟩ := by
  simp [pinGet, cacheKey, cached, askLoop, confirmLoop, orDefault, pinIntro, except_bind_ok, except_pure]

/-- The text given for a field of the prompt, or its default if none is given (`X` also stands for none). -/
def shownText (given : Option Str) (default : Str) : Str := if given = none ∨ given = some "X".toList then default else given.getD []

theorem orDefault_shown (d : Str) (g : Option Str) : orDefault d g = shownText g d := by
  cases g with
  | none => rfl
  | some s =>
    unfold shownText orDefault
    by_cases h : s = ['X']
    · subst h; rfl
    · simp only []
      rw [if_neg h, if_neg (by
        rintro (h' | h')
        · cases h'
        · exact h (Option.some.inj h'))]
      rfl

/-- C78: what is printed: the prompt, the description, the error message (each if not empty), and "Passwords do not match." for each failed
attempt. -/
theorem C78_printed (c : PinCache) (r : PinRequest) (failed : List (List Str)) (p : Str) (rest : List Str)
    (hc : ∀ id, r.cacheId = some id → c id = none) (ha : r.noAsk = false) (hf : ∀ a ∈ failed, FailedAttempt r.repeats a) :
    (pinGet c r (failed.flatten ++ (p :: List.replicate r.repeats p ++ rest))).1 =
      .ok ⟨p, [shownText r.prompt "PIN?".toList, shownText r.description [], shownText r.errorMessage "Error.".toList].filter (· ≠ []) ++
        List.replicate failed.length "Passwords do not match.".toList, rest⟩ := by
  have hn : cached c (cacheKey r) = none := by
    unfold cacheKey
    cases h : r.cacheId with
    | none => rfl
    | some id =>
      simp only
      split
      · rfl
      · exact hc id h
  have hlen : failed.length ≤ failed.flatten.length := by
    clear hc ha hn
    induction failed with
    | nil => simp
    | cons a l ih =>
      obtain ⟨q, cs, rfl, _⟩ := hf a (by simp)
      have := ih (fun x hx => hf x (by simp [hx]))
      simp only [List.flatten_cons, List.length_append, List.length_cons]
      omega
  have hk := askLoop_complete r.repeats failed ((failed.flatten ++ (p :: List.replicate r.repeats p ++ rest)).length + 1)
    (orDefault "Error.".toList r.errorMessage) p rest hf (by simp only [List.length_append]; omega)
  simp only [pinGet, hn, ha, Bool.false_eq_true, if_false, hk]
  have hrep : (List.replicate failed.length "Passwords do not match.".toList).filter (· ≠ []) =
      List.replicate failed.length "Passwords do not match.".toList := by
    rw [List.filter_eq_self]
    intro x hx
    rw [List.eq_of_mem_replicate hx]
    decide
  simp only [pinIntro, orDefault_shown]
  generalize shownText r.prompt "PIN?".toList = a
  generalize shownText r.description [] = b
  generalize shownText r.errorMessage "Error.".toList = d
  rw [show d :: List.replicate failed.length "Passwords do not match.".toList =
    [d] ++ List.replicate failed.length "Passwords do not match.".toList from rfl, List.filter_append, hrep]
  by_cases h1 : a = [] <;> by_cases h2 : b = [] <;> by_cases h3 : d = [] <;> simp [h1, h2, h3]

/-- Mistyped once: the prompt given, the description `X` (none), an empty error message. -/
example : (pinGet (fun _ => none) { prompt := some "Key?".toList, description := some "X".toList, errorMessage := some [], repeats := 1 }
    ["a".toList, "b".toList, "a".toList, "a".toList]).1 = .ok ⟨"a".toList, ["Key?".toList, "Passwords do not match.".toList], []⟩ :=
  C78_printed (fun _ => none) { prompt := some "Key?".toList, description := some "X".toList, errorMessage := some [], repeats := 1 }
    [["a".toList, "b".toList]] "a".toList [] (fun _ _ => rfl) rfl (by
      intro a ha
      simp only [List.mem_singleton] at ha
      subst ha
      exact ⟨"a".toList, ["b".toList], rfl, rfl, "b".toList, by simp, by decide⟩)

/-! ### C79 -/

/-- The argument of the command that stands for an optional text: `X` for a missing one. -/
def ArgumentFor (o : Option Str) (w : Str) : Prop :=
  match o with
  | none => w = "X".toList
  | some s => if s = [] then w = "X".toList else AgentUnescape w (utf8Encode s)

theorem argumentFor (o : Option Str) : ArgumentFor o (agentArg o) := by
  cases o with
  | none => rfl
  | some s =>
    simp only [ArgumentFor, agentArg]
    split
    · rfl
    · rw [urlQuote_eq]; exact quote_unescape _

/-- The options of a request. -/
def agentOptions (r : AgentRequest) : List Str :=
  (if r.noAsk then ["--no-ask".toList] else []) ++ (if r.qualitybar then ["--qualitybar".toList] else []) ++
  (if r.repeats = 1 then ["--repeat".toList] else if r.repeats > 1 then ["--repeat=".toList ++ Nat.toDigits 10 r.repeats] else [])

theorem words_prefix {w s : Str} {ws : List Str} (hw : ' ' ∉ w) (h : Words s ws) : Words (w ++ ' ' :: s) (w :: ws) := .cons hw h

theorem words_of_parts : ∀ (ws : List Str) (w : Str), (∀ x ∈ w :: ws, ' ' ∉ x) →
    Words (w ++ (ws.map (' ' :: ·)).flatten) (w :: ws) := by
  intro ws
  induction ws with
  | nil => intro w h; simpa using Words.one (h w (by simp))
  | cons v ws ih =>
    intro w h
    have := Words.cons (h w (by simp)) (ih v (fun x hx => h x (by simp at hx ⊢; tauto)))
    simpa using this

theorem agentCommand_parts (r : AgentRequest) :
    agentCommand r = "GET_PASSPHRASE".toList ++ ((("--data".toList :: agentOptions r) ++
      [agentArg r.cacheId, agentArg r.errorMessage, agentArg r.prompt, agentArg r.description]).map (' ' :: ·)).flatten := by
  have e1 : (if r.noAsk then " --no-ask".toList else []) = ((if r.noAsk then ["--no-ask".toList] else []).map (' ' :: ·)).flatten := by
    cases r.noAsk <;> rfl
  have e2 : (if r.qualitybar then " --qualitybar".toList else []) =
      ((if r.qualitybar then ["--qualitybar".toList] else []).map (' ' :: ·)).flatten := by
    cases r.qualitybar <;> rfl
  have e3 : (if r.repeats = 1 then " --repeat".toList else if r.repeats > 1 then " --repeat=".toList ++ decStr r.repeats else []) =
      ((if r.repeats = 1 then ["--repeat".toList] else if r.repeats > 1 then ["--repeat=".toList ++ Nat.toDigits 10 r.repeats] else []).map
        (' ' :: ·)).flatten := by
    split
    · rfl
    · split
      · simp [decStr]
      · rfl
  unfold agentCommand agentOptions
  rw [e1, e2, e3]
  generalize (if r.noAsk then ["--no-ask".toList] else []) = o1
  generalize (if r.qualitybar then ["--qualitybar".toList] else []) = o2
  generalize (if r.repeats = 1 then ["--repeat".toList] else if r.repeats > 1 then ["--repeat=".toList ++ Nat.toDigits 10 r.repeats] else []) = o3
  have e0 : "GET_PASSPHRASE --data".toList = "GET_PASSPHRASE".toList ++ (' ' :: "--data".toList) := by decide +kernel
  rw [e0]
  simp only [List.map_append, List.flatten_append, List.map_cons, List.map_nil, List.flatten_cons, List.flatten_nil, List.append_assoc,
    List.cons_append, List.append_nil, List.nil_append]

theorem agentWords_plain (r : AgentRequest) : ∀ w ∈ ("--data".toList :: agentOptions r) ++ [agentArg r.cacheId, agentArg r.errorMessage, agentArg r.prompt,
    agentArg r.description], ∀ x ∈ w, x ≠ ' ' ∧ x ≠ '\n' := by
  have hopt : ∀ w ∈ agentOptions r, ∀ x ∈ w, x ≠ ' ' ∧ x ≠ '\n' := by
    intro w hw
    simp only [agentOptions, List.mem_append] at hw
    rcases hw with (hw | hw) | hw
    · split at hw
      · simp only [List.mem_singleton] at hw; subst hw; decide
      · simp at hw
    · split at hw
      · simp only [List.mem_singleton] at hw; subst hw; decide
      · simp at hw
    · split at hw
      · simp only [List.mem_singleton] at hw; subst hw; decide
      · split at hw
        · simp only [List.mem_singleton] at hw
          subst hw
          intro x hx
          rcases List.mem_append.mp hx with hx | hx
          · have hx' : x ∈ "--repeat=".toList := hx
            have key : ∀ y ∈ "--repeat=".toList, y ≠ ' ' ∧ y ≠ '\n' := by decide
            exact key x hx'
          · exact decStr_plain r.repeats x hx
        · simp at hw
  have hall : ∀ w ∈ ("--data".toList :: agentOptions r) ++ [agentArg r.cacheId, agentArg r.errorMessage, agentArg r.prompt,
      agentArg r.description], ∀ x ∈ w, x ≠ ' ' ∧ x ≠ '\n' := by
    intro w hw
    simp only [List.mem_append, List.mem_cons, List.not_mem_nil, or_false] at hw
    rcases hw with (rfl | hw) | (rfl | rfl | rfl | rfl)
    · decide
    · exact hopt w hw
    · exact agentArg_plain _
    · exact agentArg_plain _
    · exact agentArg_plain _
    · exact agentArg_plain _
  exact hall

theorem agentCommand_words (r : AgentRequest) : Words (agentCommand r) ("GET_PASSPHRASE".toList :: "--data".toList :: agentOptions r ++
    [agentArg r.cacheId, agentArg r.errorMessage, agentArg r.prompt, agentArg r.description]) := by
  rw [agentCommand_parts]
  apply words_of_parts
  intro w hw
  rcases List.mem_cons.mp hw with rfl | hw
  · decide
  · intro h; exact (agentWords_plain r w hw ' ' h).1 rfl

/-- C79: whatever the texts given — spaces, line breaks, percent signs, any script — the command is one line whose words are the options and
exactly four arguments, and the agent unescapes each to the UTF-8 octets of the text given. -/
theorem C79_command (r : AgentRequest) : ∃ a b c d,
    Words (agentCommand r) ("GET_PASSPHRASE".toList :: "--data".toList :: agentOptions r ++ [a, b, c, d]) ∧ '\n' ∉ agentCommand r ∧
    ArgumentFor r.cacheId a ∧ ArgumentFor r.errorMessage b ∧ ArgumentFor r.prompt c ∧ ArgumentFor r.description d := by
  have hall := agentWords_plain r
  refine ⟨_, _, _, _, ?_, ?_, argumentFor _, argumentFor _, argumentFor _, argumentFor _⟩
  · rw [agentCommand_parts]
    apply words_of_parts
    intro w hw
    rcases List.mem_cons.mp hw with rfl | hw
    · decide
    · intro h; exact (hall w hw ' ' h).1 rfl
  · rw [agentCommand_parts]
    intro h
    rcases List.mem_append.mp h with h | h
    · revert h; decide
    · simp only [List.mem_flatten, List.mem_map] at h
      obtain ⟨l, ⟨w, hw, rfl⟩, hl⟩ := h
      rcases List.mem_cons.mp hl with hl | hl
      · revert hl; decide
      · exact (hall w hw '\n' hl).2 rfl

/-- A prompt with a space and a line break. -/
example : agentCommand { prompt := some "a b\n%".toList, repeats := 2 } = "GET_PASSPHRASE --data --repeat=2 X X a%20b%0A%25 X".toList := by
  decide +kernel

theorem urlQuote_ascii (s : Str) : ∀ c ∈ urlQuote s, c.toNat < 128 := by
  intro c hc
  rw [urlQuote_eq] at hc
  obtain ⟨x, _, hx⟩ := List.mem_flatMap.mp hc
  have key : ∀ n : Fin 256, ∀ c ∈ quoteOctet (UInt8.ofNat n.val), c.toNat < 128 := by decide +kernel
  have := key ⟨x.toNat, x.toNat_lt⟩ c
  simp only [UInt8.ofNat_toNat] at this
  exact this hx

theorem agentArg_ascii (o : Option Str) : ∀ c ∈ agentArg o, c.toNat < 128 := by
  intro c hc
  cases o with
  | none => simp only [agentArg, List.mem_singleton] at hc; subst hc; decide
  | some s =>
    simp only [agentArg] at hc
    split at hc
    · simp only [List.mem_singleton] at hc; subst hc; decide
    · exact urlQuote_ascii s c hc

theorem decStr_ascii (n : Nat) : ∀ c ∈ decStr n, c.toNat < 128 := by
  intro c hc
  have := Nat.isDigit_of_mem_toDigits (b := 10) (by omega) (by omega) hc
  simp only [Char.isDigit, Bool.and_eq_true, decide_eq_true_eq] at this
  have h2 := UInt32.le_iff_toNat_le.mp this.2
  have e : (57 : UInt32).toNat = 57 := rfl
  show c.val.toNat < 128
  change c.val.toNat ≤ 57 at h2
  omega

theorem agentCommand_ascii (r : AgentRequest) : ∀ c ∈ agentCommand r, c.toNat < 128 := by
  have lit : ∀ (l : Str) (b : l.all (fun c => c.toNat < 128) = true), ∀ c ∈ l, c.toNat < 128 := by
    intro l b c hc; simpa using List.all_eq_true.mp b c hc
  have cons : ∀ o, ∀ c ∈ ' ' :: agentArg o, c.toNat < 128 := by
    intro o c hc
    rcases List.mem_cons.mp hc with rfl | hc
    · decide
    · exact agentArg_ascii o c hc
  intro c hc
  unfold agentCommand at hc
  simp only [List.mem_append] at hc
  rcases hc with ((((((hc | hc) | hc) | hc) | hc) | hc) | hc) | hc
  · exact lit _ (by decide +kernel) c hc
  · split at hc
    · exact lit _ (by decide +kernel) c hc
    · simp at hc
  · split at hc
    · exact lit _ (by decide +kernel) c hc
    · simp at hc
  · split at hc
    · exact lit _ (by decide +kernel) c hc
    · split at hc
      · rcases List.mem_append.mp hc with hc | hc
        · exact lit _ (by decide +kernel) c hc
        · exact decStr_ascii _ c hc
      · simp at hc
  · exact cons _ c hc
  · exact cons _ c hc
  · exact cons _ c hc
  · exact cons _ c hc

/-- C79: sending the command never fails, and what the agent gets is one line: the octets of the command, each less than 128 and none a line feed, and the line
feed that ends it. -/
theorem C79_sent (r : AgentRequest) : ∃ line : Bytes, agentSend (agentCommand r) = .ok (line ++ [0x0a]) ∧ (0x0a : UInt8) ∉ line ∧
    line.map (fun x => Char.ofNat x.toNat) = agentCommand r ∧ ∀ x ∈ line, x < 0x80 := by
  have ha := agentCommand_ascii r
  have hn : '\n' ∉ agentCommand r := by obtain ⟨_, _, _, _, _, h, _⟩ := C79_command r; exact h
  have hback : ∀ c : Char, c.toNat < 128 → Char.ofNat (UInt8.ofNat c.toNat).toNat = c := by
    intro c hc
    rw [UInt8.toNat_ofNat_of_lt' (by show c.toNat < 256; omega), Char.ofNat_toNat]
  refine ⟨(agentCommand r).map fun c => UInt8.ofNat c.toNat, ?_, ?_, ?_, ?_⟩
  · rw [agentSend, if_pos]
    rw [List.all_eq_true]
    intro c hc
    have := ha c hc
    simp only [decide_eq_true_eq]
    omega
  · intro h
    obtain ⟨c, hc, he⟩ := List.mem_map.mp h
    have := hback c (ha c hc)
    rw [he] at this
    exact hn (by rw [show '\n' = c from this]; exact hc)
  · rw [List.map_map]
    conv_rhs => rw [← List.map_id (agentCommand r)]
    exact List.map_congr_left fun c hc => hback c (ha c hc)
  · intro x hx
    obtain ⟨c, hc, rfl⟩ := List.mem_map.mp hx
    rw [UInt8.lt_iff_toNat_lt, UInt8.toNat_ofNat_of_lt' (by have := ha c hc; show c.toNat < 256; omega)]
    exact ha c hc

/-- A prompt in Greek. -/
example : agentSend (agentCommand { prompt := some "π\n".toList }) = .ok ("GET_PASSPHRASE --data X X %CF%80%0A X\n".toUTF8.data.toList) := by
  decide +kernel

/-- C79: the command that makes the agent forget a passphrase is one line of two words, the second of which the agent unescapes to the UTF-8 octets of the cache id
given; and it is the very word that stood for the cache id in the command that asked for the passphrase. -/
theorem C79_clear (id : Str) (h : id ≠ []) : ∃ w, Words (agentClear id) ["CLEAR_PASSPHRASE".toList, w] ∧ '\n' ∉ agentClear id ∧ AgentUnescape w (utf8Encode id) ∧
    (∃ line, agentSend (agentClear id) = .ok (line ++ [0x0a]) ∧ (0x0a : UInt8) ∉ line ∧ line.map (fun x => Char.ofNat x.toNat) = agentClear id) ∧
    ∀ r : AgentRequest, r.cacheId = some id → ∃ b c d,
      Words (agentCommand r) ("GET_PASSPHRASE".toList :: "--data".toList :: agentOptions r ++ [w, b, c, d]) := by
  have e0 : agentClear id = "CLEAR_PASSPHRASE".toList ++ ' ' :: urlQuote id := by
    unfold agentClear
    rw [show "CLEAR_PASSPHRASE ".toList = "CLEAR_PASSPHRASE".toList ++ [' '] by decide +kernel, List.append_assoc]
    rfl
  have hp := agentArg_plain (some id)
  have hq : agentArg (some id) = urlQuote id := by simp only [agentArg, if_neg h]
  rw [hq] at hp
  have hn : '\n' ∉ agentClear id := by
    rw [e0]
    intro hm
    rcases List.mem_append.mp hm with hm | hm
    · revert hm; decide
    · rcases List.mem_cons.mp hm with hm | hm
      · revert hm; decide
      · exact (hp _ hm).2 rfl
  have ha : ∀ c ∈ agentClear id, c.toNat < 128 := by
    rw [e0]
    intro c hc
    rcases List.mem_append.mp hc with hc | hc
    · have : ∀ y ∈ "CLEAR_PASSPHRASE".toList, y.toNat < 128 := by decide
      exact this c hc
    · rcases List.mem_cons.mp hc with rfl | hc
      · decide
      · exact urlQuote_ascii id c hc
  refine ⟨urlQuote id, ?_, hn, ?_, ?_, ?_⟩
  · rw [e0]
    exact .cons (by decide) (.one fun hm => (hp _ hm).1 rfl)
  · rw [urlQuote_eq]; exact quote_unescape _
  · have hback : ∀ c : Char, c.toNat < 128 → Char.ofNat (UInt8.ofNat c.toNat).toNat = c := by
      intro c hc
      rw [UInt8.toNat_ofNat_of_lt' (by show c.toNat < 256; omega), Char.ofNat_toNat]
    refine ⟨(agentClear id).map fun c => UInt8.ofNat c.toNat, ?_, ?_, ?_⟩
    · rw [agentSend, if_pos]
      rw [List.all_eq_true]
      intro c hc
      have := ha c hc
      simp only [decide_eq_true_eq]
      omega
    · intro hm
      obtain ⟨c, hc, he⟩ := List.mem_map.mp hm
      have := hback c (ha c hc)
      rw [he] at this
      exact hn (by rw [show '\n' = c from this]; exact hc)
    · rw [List.map_map]
      conv_rhs => rw [← List.map_id (agentClear id)]
      exact List.map_congr_left fun c hc => hback c (ha c hc)
  · intro r hr
    refine ⟨agentArg r.errorMessage, agentArg r.prompt, agentArg r.description, ?_⟩
    have := agentCommand_words r
    rw [hr, hq] at this
    exact this

example := C79_clear "a b".toList (by decide)

/-- C79, a deviation: the text `X` cannot be sent; it means the same as no text. -/
theorem C79_x_means_none : agentCommand { prompt := some "X".toList } = agentCommand { prompt := none } := by decide +kernel

/-! ### C80 -/

/-- C80: after the greeting, a passphrase sent in one data line — with the octets beyond ASCII escaped, others escaped or not — and
followed by any lines up to an OK line is returned. -/
theorem C80_passphrase_partial (greeting : List Bytes) (hello : Bytes) (s : Str) (l : Bytes) (more : List Bytes) (ok rest : Bytes)
    (hg : ∀ g ∈ greeting, OtherReply g) (hh : OkLine hello) (hl : AssuanText false (utf8Encode s) l) (hm : ∀ g ∈ more, OtherReply g)
    (ho : OkLine ok) :
    agentGet (linesBytes greeting ++ linesBytes [hello] ++ linesBytes ((0x44 :: 0x20 :: l) :: more) ++ linesBytes [ok] ++ rest) = .ok s := by
  have e : linesBytes greeting ++ linesBytes [hello] ++ linesBytes ((0x44 :: 0x20 :: l) :: more) ++ linesBytes [ok] ++ rest =
      linesBytes greeting ++ (hello ++ 0x0a :: (linesBytes ((0x44 :: 0x20 :: l) :: more) ++ (ok ++ 0x0a :: rest))) := by
    simp [linesBytes]
  have hd : OtherReply (0x44 :: 0x20 :: l) := by
    refine ⟨?_, by simp, by simp⟩
    simp only [List.mem_cons, not_or]
    exact ⟨by decide, by decide, assuanText_no_lf hl⟩
  unfold agentGet
  rw [e, agentResponse_lines _ hg, agentResponse_ok _ _ hh]
  simp only [except_bind_ok]
  rw [agentResponse_lines _ (by
    intro g hx
    rcases List.mem_cons.mp hx with rfl | hx
    · exact hd
    · exact hm g hx), agentResponse_ok _ _ ho]
  simp only [except_bind_ok, List.nil_append, List.cons_append, agentData, List.drop_succ_cons, List.drop_zero, Except.ok.injEq]
  have h2 := assuanText_decode hl
  rw [unquote, unquoteAux_ascii _ _ h2.1, List.nil_append, h2.2, utf8DecodeReplace_encode]

/-- An agent that greets, and sends the passphrase "a b" with the space escaped. -/
example : OkLine "OK hello".toUTF8.data.toList ∧ AssuanText false (utf8Encode "a b".toList) [0x61, 0x25, 0x32, 0x30, 0x62] :=
  ⟨by unfold OkLine; decide +kernel,
   .plain (by decide) (by decide) (by decide) (by decide) (.hex (x := 0x20) (.plain (by decide) (by decide) (by decide) (by decide) .nil))⟩

/-- C80: an agent that reports an error, after any other lines, raises ValueError. -/
theorem C80_error_reported (greeting : List Bytes) (hello : Bytes) (more : List Bytes) (err rest : Bytes)
    (hg : ∀ g ∈ greeting, OtherReply g) (hh : OkLine hello) (hm : ∀ g ∈ more, OtherReply g) (he : (0x0a : UInt8) ∉ err)
    (he' : err.take 3 = [0x45, 0x52, 0x52]) :
    agentGet (linesBytes greeting ++ linesBytes [hello] ++ linesBytes more ++ linesBytes [err] ++ rest) = .error .valueError := by
  have e : linesBytes greeting ++ linesBytes [hello] ++ linesBytes more ++ linesBytes [err] ++ rest =
      linesBytes greeting ++ (hello ++ 0x0a :: (linesBytes more ++ (err ++ 0x0a :: rest))) := by
    simp [linesBytes]
  unfold agentGet
  rw [e, agentResponse_lines _ hg, agentResponse_ok _ _ hh]
  simp only [except_bind_ok]
  rw [agentResponse_lines _ hm, agentResponse_line _ _ he, agentResponse, if_pos rfl, List.nil_append, if_neg, if_pos he']
  · rfl
  · intro h
    match err, he', h with
    | a :: b :: _, he', h => simp at he' h; rw [he'.1] at h; exact absurd h.1 (by decide)

example := C80_error_reported ["# hi".toUTF8.data.toList] "OK hello".toUTF8.data.toList ["S x".toUTF8.data.toList] "ERR 99".toUTF8.data.toList []
  (fun g hg => by rw [List.mem_singleton] at hg; subst hg; unfold OtherReply; decide +kernel) (by unfold OkLine; decide +kernel)
  (fun g hg => by rw [List.mem_singleton] at hg; subst hg; unfold OtherReply; decide +kernel) (by decide +kernel) (by decide +kernel)

/-- C80, refuted: a passphrase whose octets beyond ASCII are sent as they are, which the protocol allows, is returned garbled. -/
theorem C80_raw_octets_refuted :
    ∃ (s : Str) (l : Bytes), AssuanText true (utf8Encode s) l ∧
      ∀ hello ok rest, OkLine hello → OkLine ok →
        agentGet (linesBytes [hello, 0x44 :: 0x20 :: l, ok] ++ rest) = .ok "Ã©".toList ∧ "Ã©".toList ≠ s := by
  have e0 : utf8Encode "é".toList = [0xc3, 0xa9] := by decide +kernel
  refine ⟨"é".toList, [0xc3, 0xa9], ?_, ?_⟩
  · rw [e0]
    exact .plain (by decide) (by decide) (by decide) (by decide) (.plain (by decide) (by decide) (by decide) (by decide) .nil)
  · intro hello ok rest hh ho
    refine ⟨?_, by decide⟩
    have e : linesBytes [hello, 0x44 :: 0x20 :: [0xc3, 0xa9], ok] ++ rest =
        hello ++ 0x0a :: ([0x44, 0x20, 0xc3, 0xa9] ++ 0x0a :: (ok ++ 0x0a :: rest)) := by simp [linesBytes]
    unfold agentGet
    rw [e, agentResponse_ok _ _ hh]
    simp only [except_bind_ok]
    rw [agentResponse_other _ _ (by unfold OtherReply; decide), agentResponse_ok _ _ ho]
    simp only [except_bind_ok, List.nil_append, List.cons_append, agentData, List.drop_succ_cons, List.drop_zero]
    decide +kernel

/-- C80, refuted: of a passphrase sent in two data lines only the first part is returned. -/
theorem C80_split_data_refuted (a b hello ok rest : Bytes) (s : Str) (hh : OkLine hello) (ho : OkLine ok)
    (ha : AssuanText false (utf8Encode s) a) (hb : (0x0a : UInt8) ∉ b) :
    agentGet (linesBytes [hello, 0x44 :: 0x20 :: a, 0x44 :: 0x20 :: b, ok] ++ rest) = .ok s := by
  have := C80_passphrase_partial [] hello s a [0x44 :: 0x20 :: b] ok rest (by simp) hh ha (by
    intro g hg
    simp only [List.mem_singleton] at hg
    subst hg
    refine ⟨?_, by simp, by simp⟩
    simp only [List.mem_cons, not_or]
    exact ⟨by decide, by decide, hb⟩) ho
  rw [← this]
  congr 1
  simp [linesBytes]

example := C80_split_data_refuted [0x61, 0x25, 0x32, 0x30, 0x62] "rest".toUTF8.data.toList "OK hello".toUTF8.data.toList "OK".toUTF8.data.toList [] "a b".toList
  (by unfold OkLine; decide +kernel) (by unfold OkLine; decide +kernel)
  (.plain (by decide) (by decide) (by decide) (by decide) (.hex (x := 0x20) (.plain (by decide) (by decide) (by decide) (by decide) .nil)))
  (by decide +kernel)

/-- C80, refuted: a comment or status line before the data is returned (without its first two characters) as the passphrase. -/
theorem C80_comment_first_refuted (hello ok rest : Bytes) (hh : OkLine hello) (ho : OkLine ok) :
    agentGet (linesBytes [hello, "# wait".toUTF8.data.toList, "D pw".toUTF8.data.toList, ok] ++ rest) = .ok "wait".toList := by
  have e : linesBytes [hello, "# wait".toUTF8.data.toList, "D pw".toUTF8.data.toList, ok] ++ rest =
      hello ++ 0x0a :: ("# wait".toUTF8.data.toList ++ 0x0a :: ("D pw".toUTF8.data.toList ++ 0x0a :: (ok ++ 0x0a :: rest))) := by
    simp [linesBytes]
  unfold agentGet
  rw [e, agentResponse_ok _ _ hh]
  simp only [except_bind_ok]
  rw [agentResponse_other _ _ (by unfold OtherReply; decide +kernel), agentResponse_other _ _ (by unfold OtherReply; decide +kernel),
    agentResponse_ok _ _ ho]
  simp only [except_bind_ok, List.nil_append, List.cons_append, agentData]
  decide +kernel

example := C80_comment_first_refuted "OK hello".toUTF8.data.toList "OK".toUTF8.data.toList [] (by unfold OkLine; decide +kernel) (by unfold OkLine; decide +kernel)

/-- C80, refuted: when the agent closes the connection before a complete line, the call never returns. -/
theorem C80_closed_connection_refuted (hello part : Bytes) (hh : OkLine hello) (hp : (0x0a : UInt8) ∉ part) :
    agentGet (linesBytes [hello] ++ part) = .error .diverges := by
  have e : linesBytes [hello] ++ part = hello ++ 0x0a :: part := by simp [linesBytes]
  unfold agentGet
  rw [e, agentResponse_ok _ _ hh]
  simp only [except_bind_ok]
  rw [agentResponse_closed _ _ _ hp]
  rfl

example := C80_closed_connection_refuted "OK hello".toUTF8.data.toList "D pw".toUTF8.data.toList (by unfold OkLine; decide +kernel) (by decide +kernel)

end Pgp.Props
