import Verif.Spec.KeySigs
import Verif.Lemmas.Signature
import Verif.Props.Signature
/-
Property theorems C39 (merging), C40 (signature checking), C42 (self-signature chosen), C68 (key expiration), C69 (revoked signatures), C70 (expired signatures).
-/
namespace Pgp.Props
open Pgp Pgp.Spec

/-! ### Concrete keys and signatures for the examples -/

/-- A version 4 signature of the given type, creation second, issuer, and further hashed subpackets. -/
def exSigOf (type created : Nat) (issuer : String) (more : List Sub) : SigObj :=
  ⟨4, type, 1, 8, none, none, .plain false (.creationTime created) :: more, [.plain false (.issuer issuer.toList)], [1, 2], [some 77], .new⟩

/-- A key with two direct self-signatures, the older one listed last, each with a period of validity of 1000 seconds. -/
def exPart : Part :=
  ⟨4, [0x1f], [0x20], ["0123456789ABCDEF".toList],
    [exSigOf 0x1f 2000 "0123456789ABCDEF" [.plain false (.keyExpiration 1000)], exSigOf 0x1f 1000 "0123456789ABCDEF" [.plain false (.keyExpiration 1000)]]⟩

/-- The key id used in the examples, signatures by it and by another key. -/
abbrev exId : Str := "0123456789ABCDEF".toList
abbrev exBy (type created : Nat) : SigObj := exSigOf type created "0123456789ABCDEF" []
abbrev exOther (type created : Nat) : SigObj := exSigOf type created "FEDCBA9876543210" []

theorem exBy_readable (type created : Nat) : Readable (exBy type created) := ⟨⟨_, rfl⟩, _, rfl⟩
theorem exOther_readable (type created : Nat) : Readable (exOther type created) := ⟨⟨_, rfl⟩, _, rfl⟩
theorem exBy_issued (type created : Nat) : IssuedBy [exId] (exBy type created) := ⟨[exId], rfl, exId, by simp, by simp⟩
theorem exOther_not (type created : Nat) : ¬ IssuedBy [exId] (exOther type created) := by
  rintro ⟨ids, h, k, hk, hk'⟩
  cases h
  simp only [List.mem_singleton] at hk hk'
  exact absurd (hk.symm.trans hk') (by decide)

/-- A key with self-signatures in order of their creation, and a signature by another key. -/
def exOrdered : Part := ⟨4, [0x1f], [0x20], [exId], [exBy 0x1f 1000, exOther 0x1f 3000, exBy 0x1f 2000]⟩

theorem exOrdered_readable : ∀ s ∈ exOrdered.sigs, Readable s := by
  intro s hs
  simp only [exOrdered, List.mem_cons, List.not_mem_nil, or_false] at hs
  rcases hs with rfl | rfl | rfl
  · exact exBy_readable _ _
  · exact exOther_readable _ _
  · exact exBy_readable _ _

/-- A direct self-signature with a period of validity, and a key with so many of them. -/
def exPeriod (created : Nat) : SigObj := exSigOf 0x1f created "0123456789ABCDEF" [.plain false (.keyExpiration 1000)]
def exPeriods (n : Nat) : Part := ⟨4, [0x1f], [0x20], [exId], List.replicate n (exPeriod 1000)⟩

theorem exPeriods_readable (n : Nat) : ∀ x ∈ (exPeriods n).sigs, ∃ js, x.issuers = .ok js := by
  intro x hx
  rw [exPeriods, List.mem_replicate] at hx
  exact hx.2 ▸ ⟨_, rfl⟩

/-! ### The self-signature chosen (C42) -/

theorem timeOf_nonneg {s : SigObj} {t : Int} (h : s.creationTime = .ok t) : 0 ≤ t := by
  unfold SigObj.creationTime at h
  split at h
  · cases h
  · split at h
    · obtain ⟨o, _, h⟩ := except_bind_eq_ok.mp h
      cases o with
      | none => cases h
      | some n => cases h; unfold fromTimestamp; omega
    · cases h

theorem isSelf_ok {own : List Str} {s : SigObj} (h : Readable s) : ∃ b, s.isSelf own = .ok b ∧ (b = true ↔ IssuedBy own s) := by
  obtain ⟨⟨ids, hi⟩, _⟩ := h
  refine ⟨ids.any (· ∈ own), by simp only [SigObj.isSelf, hi, except_bind_ok]; rfl, ?_⟩
  rw [List.any_eq_true]
  constructor
  · rintro ⟨k, hk, ho⟩
    exact ⟨ids, hi, k, hk, of_decide_eq_true ho⟩
  · rintro ⟨ids', hi', k, hk, ho⟩
    rw [hi] at hi'
    cases hi'
    exact ⟨k, hk, decide_eq_true ho⟩

/-- The loop, exactly: the last self-signature of the right types, or what was chosen before. -/
theorem mostRecentLoop_spec (types : List Nat) (own : List Str) (l : List SigObj) (hl : ∀ s ∈ l, Readable s) (i : Nat) (best : Option Nat) :
    ((∀ s ∈ l, ¬SelfSig types own s) ∧ mostRecentLoop types own i best l = .ok best) ∨
    ∃ n s, l[n]? = some s ∧ SelfSig types own s ∧ mostRecentLoop types own i best l = .ok (some (i + n)) ∧
      ∀ m s', n < m → l[m]? = some s' → ¬SelfSig types own s' := by
  induction l generalizing i best with
  | nil => exact .inl ⟨by simp, rfl⟩
  | cons s l ih =>
    have hs := hl s List.mem_cons_self
    have hl' := fun x hx => hl x (List.mem_cons_of_mem _ hx)
    obtain ⟨b, hb, hiff⟩ := isSelf_ok (own := own) hs
    by_cases hq : SelfSig types own s
    · have hb1 : b = true := hiff.mpr hq.1
      obtain ⟨t, ht⟩ := hs.2
      have hstep : mostRecentLoop types own i best (s :: l) = mostRecentLoop types own (i + 1) (some i) l := by
        simp only [mostRecentLoop, hb, except_bind_ok, hb1, Bool.not_true]
        rw [if_neg (by simp), if_neg (by simpa using hq.2), ht]
        simp only [except_bind_ok]
        rw [if_pos]
        have := timeOf_nonneg ht
        unfold year1900; omega
      rcases ih hl' (i + 1) (some i) with ⟨hn, hr⟩ | ⟨n, s', h1, h2, h3, h4⟩
      · refine .inr ⟨0, s, rfl, hq, by rw [hstep, hr]; rfl, ?_⟩
        intro m s' hm hs'
        cases m with
        | zero => omega
        | succ m =>
          rw [List.getElem?_cons_succ] at hs'
          exact hn s' (List.mem_of_getElem? hs')
      · refine .inr ⟨n + 1, s', h1, h2, by rw [hstep, h3]; congr 2; omega, ?_⟩
        intro m x hm hx
        cases m with
        | zero => omega
        | succ m => exact h4 m x (by omega) hx
    · have hstep : mostRecentLoop types own i best (s :: l) = mostRecentLoop types own (i + 1) best l := by
        simp only [mostRecentLoop, hb, except_bind_ok]
        cases b with
        | false => rw [if_pos (by rfl)]
        | true =>
          rw [if_neg (by simp), if_pos]
          exact fun h => hq ⟨hiff.mp rfl, h⟩
      rcases ih hl' (i + 1) best with ⟨hn, hr⟩ | ⟨n, s', h1, h2, h3, h4⟩
      · refine .inl ⟨?_, by rw [hstep, hr]⟩
        intro x hx
        rcases List.mem_cons.mp hx with rfl | hx
        · exact hq
        · exact hn x hx
      · refine .inr ⟨n + 1, s', h1, h2, by rw [hstep, h3]; congr 2; omega, ?_⟩
        intro m x hm hx
        cases m with
        | zero => omega
        | succ m => exact h4 m x (by omega) hx

/-- C42. The self-signature consulted is the last one listed (of the types that count for the part), whatever the creation times. -/
theorem C42_last_listed (p : Part) (revocation : Bool) (hl : ∀ s ∈ p.sigs, Readable s) :
    let types := if revocation then p.revTypes else p.selfTypes
    ((∀ s ∈ p.sigs, ¬SelfSig types p.own s) ∧ p.mostRecent revocation = .ok none) ∨
    ∃ n s, p.sigs[n]? = some s ∧ SelfSig types p.own s ∧ p.mostRecent revocation = .ok (some n) ∧
      ∀ m s', n < m → p.sigs[m]? = some s' → ¬SelfSig types p.own s' := by
  intro types
  have := mostRecentLoop_spec types p.own p.sigs hl 0 none
  simpa only [Part.mostRecent, Nat.zero_add] using this

example := C42_last_listed exOrdered false exOrdered_readable

/-- C42 (part that holds). When the self-signatures are listed in order of creation, none is more recent than the one consulted. -/
theorem C42_in_order_partial (p : Part) (revocation : Bool) (hl : ∀ s ∈ p.sigs, Readable s)
    (ho : InOrder (if revocation then p.revTypes else p.selfTypes) p.own p.sigs) (n : Nat) (h : p.mostRecent revocation = .ok (some n)) :
    ∃ s t, p.sigs[n]? = some s ∧ s.creationTime = .ok t ∧
      ∀ s' ∈ p.sigs, SelfSig (if revocation then p.revTypes else p.selfTypes) p.own s' → ∀ t', s'.creationTime = .ok t' → t' ≤ t := by
  rcases C42_last_listed p revocation hl with ⟨_, hn⟩ | ⟨n', s, h1, h2, h3, h4⟩
  · rw [hn] at h; cases h
  · rw [h3] at h
    cases h
    obtain ⟨t, ht⟩ := (hl s (List.mem_of_getElem? h1)).2
    refine ⟨s, t, h1, ht, ?_⟩
    intro s' hs' hq t' ht'
    obtain ⟨m, hm⟩ := List.getElem?_of_mem hs'
    rcases Nat.lt_trichotomy m n with hlt | heq | hgt
    · obtain ⟨hml, em⟩ := List.getElem?_eq_some_iff.mp hm
      obtain ⟨hnl, en⟩ := List.getElem?_eq_some_iff.mp h1
      have := (List.pairwise_iff_getElem.mp ho) m n hml hnl hlt
      rw [em, en] at this
      exact this hq h2 t' t ht' ht
    · subst heq
      rw [h1] at hm
      cases hm
      rw [ht] at ht'
      cases ht'
      omega
    · exact absurd hq (h4 m s' hgt hm)

example := C42_in_order_partial exOrdered false exOrdered_readable (by
  refine List.Pairwise.cons ?_ (List.Pairwise.cons ?_ (List.Pairwise.cons (by simp) .nil))
  · intro x hx h1 h2
    simp only [List.mem_cons, List.not_mem_nil, or_false] at hx
    rcases hx with rfl | rfl
    · exact absurd h2.1 (exOther_not _ _)
    · intro ta tb ha hb
      cases ha; cases hb; decide
  · intro x hx h1 h2
    exact absurd h1.1 (exOther_not _ _)) 2 (by decide +kernel)

/-- C42 fails: of two self-signatures the older one is consulted, if listed last. -/
theorem C42_older_chosen_refuted (p : Part) (newer older : SigObj) (h : p.sigs = [newer, older]) (hn : Readable newer) (ho : Readable older)
    (hq : SelfSig p.selfTypes p.own older) : p.mostRecent false = .ok (some 1) := by
  rcases C42_last_listed p false (by rw [h]; intro s hs; rcases List.mem_cons.mp hs with rfl | hs; exact hn; rw [List.mem_singleton.mp hs]; exact ho)
    with ⟨hno, _⟩ | ⟨n, s, h1, h2, h3, h4⟩
  · exact absurd hq (hno older (by rw [h]; simp))
  · rw [h] at h1 h4
    match n, h1, h3, h4 with
    | 0, _, _, h4 => exact absurd hq (h4 1 older (by omega) rfl)
    | 1, _, h3, _ => exact h3
    | n + 2, h1, _, _ => simp at h1

example := C42_older_chosen_refuted { exOrdered with sigs := [exBy 0x1f 2000, exBy 0x1f 1000] } (exBy 0x1f 2000) (exBy 0x1f 1000) rfl
  (exBy_readable _ _) (exBy_readable _ _) ⟨exBy_issued _ _, by decide⟩

/-- C42. A version 2 or 3 signature anywhere on the part makes every such query raise. -/
theorem C42_v3_signature_raises (p : Part) (revocation : Bool) (s : SigObj) (hs : s ∈ p.sigs) (hv : s.version = 2 ∨ s.version = 3) :
    Raises (p.mostRecent revocation) := by
  unfold Part.mostRecent
  generalize (if revocation then p.revTypes else p.selfTypes) = types
  generalize (none : Option Nat) = best
  generalize 0 = i
  revert hs
  induction p.sigs generalizing i best with
  | nil => intro hs; cases hs
  | cons x l ih =>
    intro hs
    cases hx : x.isSelf p.own with
    | error e => exact ⟨e, by simp only [mostRecentLoop, hx]; rfl⟩
    | ok b =>
      rcases List.mem_cons.mp hs with rfl | hs
      · exfalso
        simp only [SigObj.isSelf, SigObj.issuers, if_pos hv] at hx
        cases hx
      · simp only [mostRecentLoop, hx, except_bind_ok]
        split
        · exact ih best (i + 1) hs
        · split
          · exact ih best (i + 1) hs
          · cases ht : x.creationTime with
            | error e => exact ⟨e, rfl⟩
            | ok t => simp only [except_bind_ok]; exact ih _ (i + 1) hs

example := C42_v3_signature_raises { exOrdered with sigs := [{ exBy 0x1f 2000 with version := 3 }] } false _ (List.mem_singleton.mpr rfl) (.inr rfl)

/-- C42 fails: "may encrypt storage" and "may be used for authentication" of a key are read from the flag for encrypting communications, and "supports modification
detection" from the flag for multiple owners. -/
theorem C42_aliases (p : Part) :
    p.attr .mayEncryptStorage = p.attr .mayEncryptComms ∧ p.attr .mayAuth = p.attr .mayEncryptComms ∧ p.attr .supportsMdc = p.attr .mayMulti := ⟨rfl, rfl, rfl⟩

/-- C42. The value of an attribute is the one the chosen signature has, so by `C42_aliases` the flags of the aliases are never consulted. -/
theorem C42_attr_of_chosen (p : Part) (hv : p.version ≥ 4) (a : KeyAttr) (n : Nat) (s : SigObj) (hm : p.mostRecent false = .ok (some n))
    (hs : p.sigs[n]? = some s) (v : Option a.field.Val) (hg : s.get a.field = .ok v) : p.attr a = .ok (.value v) := by
  simp only [Part.attr, if_pos hv, hm, except_bind_ok, hs, hg]
  rfl

example := C42_attr_of_chosen exOrdered (by decide) .prefSym 2 (exBy 0x1f 2000) (by decide +kernel) rfl none rfl

/-- C42. Below version 4 reading any of these attributes raises. -/
theorem C42_old_versions_raise (p : Part) (hv : p.version < 4) (a : KeyAttr) : Raises (p.attr a) :=
  ⟨.unboundLocal, by simp only [Part.attr, if_neg (by omega : ¬p.version ≥ 4)]⟩

example := C42_old_versions_raise { exOrdered with version := 3 } (by decide) .prefSym

/-! ### The signature referred to -/

/-- The signature names one of the given issuers. -/
def sharesB (ids : List Str) (s : SigObj) : Bool :=
  match s.issuers with
  | .ok js => meets ids js
  | .error _ => false

theorem sharesB_iff {ids : List Str} {s : SigObj} : sharesB ids s = true ↔ IssuedBy ids s := by
  unfold sharesB
  cases h : s.issuers with
  | error e =>
    refine ⟨fun h => (by cases h), ?_⟩
    rintro ⟨js, h', _⟩
    rw [h] at h'
    cases h'
  | ok js =>
    simp only [meets, List.any_eq_true]
    constructor
    · rintro ⟨k, h1, h2⟩; exact ⟨js, h, k, of_decide_eq_true h2, h1⟩
    · rintro ⟨js', h', k, h1, h2⟩
      rw [h] at h'
      cases h'
      exact ⟨k, h2, decide_eq_true h1⟩

theorem sharing_after (ids : List Str) (i : Nat) (l : List SigObj) (j : Nat) (hj : i < j) (hl : ∀ s ∈ l, ∃ js, s.issuers = .ok js) :
    sharing ids i j l = .ok (l.filter (sharesB ids)) := by
  induction l generalizing j with
  | nil => rfl
  | cons s l ih =>
    obtain ⟨js, hjs⟩ := hl s List.mem_cons_self
    simp only [sharing, if_neg (by omega : ¬j = i), hjs, ih (j + 1) (by omega) (fun x hx => hl x (List.mem_cons_of_mem _ hx)), except_bind_ok]
    have : sharesB ids s = meets ids js := by simp only [sharesB, hjs]
    rw [List.filter_cons, this]
    rfl

/-- The candidates are the other signatures that name one of the issuers. -/
theorem sharing_spec (ids : List Str) (i : Nat) (l : List SigObj) (j : Nat) (hj : j ≤ i) (hl : ∀ s ∈ l, ∃ js, s.issuers = .ok js) :
    sharing ids i j l = .ok ((l.eraseIdx (i - j)).filter (sharesB ids)) := by
  induction l generalizing j with
  | nil => simp [sharing]
  | cons s l ih =>
    have hl' := fun x hx => hl x (List.mem_cons_of_mem s hx)
    by_cases hji : j = i
    · simp only [sharing, if_pos hji]
      rw [sharing_after ids i l (j + 1) (by omega) hl', hji, Nat.sub_self]
      rfl
    · obtain ⟨js, hjs⟩ := hl s List.mem_cons_self
      simp only [sharing, if_neg hji, hjs, ih (j + 1) (by omega) hl', except_bind_ok]
      have e : i - j = (i - (j + 1)) + 1 := by omega
      have : sharesB ids s = meets ids js := by simp only [sharesB, hjs]
      rw [e, List.eraseIdx_cons_succ, List.filter_cons, this]
      rfl

/-- What a signature without a target subpacket refers to: the other signature that shares an issuer with it, if there is exactly one. -/
theorem targetOf_spec (sigs : List SigObj) (i : Nat) (s : SigObj) (ids : List Str) (hs : s.issuers = .ok ids) (hi : i < sigs.length)
    (hl : ∀ x ∈ sigs, ∃ js, x.issuers = .ok js) (ht : s.subs 31 = []) :
    targetOf sigs i s = .ok (onlyOne ((sigs.eraseIdx i).filter (sharesB ids))) := by
  simp only [targetOf, ht, targetSubs, except_bind_ok]
  by_cases hlen : sigs.length ≤ 1
  · rw [if_pos hlen]
    have : sigs.eraseIdx i = [] := by
      apply List.eq_nil_of_length_eq_zero
      rw [List.length_eraseIdx, if_pos hi]; omega
    rw [this]; rfl
  · rw [if_neg hlen]
    simp only [hs, except_bind_ok, sharing_spec ids i sigs 0 (Nat.zero_le _) hl, Nat.sub_zero]
    rfl

/-! ### Key expiration (C68) -/

/-- The key's own chosen self-signature, at index `n`, with a key expiration period of `t` seconds and no target subpacket. -/
structure Expiring (p : Part) (n : Nat) (s : SigObj) (t : Nat) : Prop where
  version : p.version ≥ 4
  chosen : p.mostRecent false = .ok (some n)
  sig : p.sigs[n]? = some s
  period : timeOf (s.subs 9) = .ok (some t)
  positive : t ≠ 0
  noTarget : s.subs 31 = []
  readable : ∀ x ∈ p.sigs, ∃ js, x.issuers = .ok js

theorem expiring_eval {p : Part} {n : Nat} {s : SigObj} {t : Nat} (h : Expiring p n s t) (stored : KeyExp) (ids : List Str) (hs : s.issuers = .ok ids) :
    p.expirationTime stored = swallow .never (addPeriod (onlyOne ((p.sigs.eraseIdx n).filter (sharesB ids))) t) := by
  have h4 := h.version
  have hn : n < p.sigs.length := (List.getElem?_eq_some_iff.mp h.sig).1
  obtain ⟨k, hk⟩ := Nat.exists_eq_succ_of_ne_zero h.positive
  have hp := h.period
  rw [hk] at hp
  simp only [Part.expirationTime, if_neg (by omega : ¬(p.version = 2 ∨ p.version = 3)), if_pos h4, h.chosen, except_bind_ok, h.sig, keyExpirationOf, hp,
    targetOf_spec p.sigs n s ids hs hn h.readable h.noTarget, hk]

theorem filter_none {l : List SigObj} {ids : List Str} (h : ∀ o ∈ l, ¬IssuedBy ids o) : l.filter (sharesB ids) = [] := by
  rw [List.filter_eq_nil_iff]
  intro o ho hs
  exact h o ho (sharesB_iff.mp hs)

/-- C68 fails: a key whose self-signature gives it a period of validity, but that has no other signature by the same issuer on it, is reported as never
expiring. -/
theorem C68_lone_selfsig_never_expires_refuted (p : Part) (n : Nat) (s : SigObj) (t : Nat) (h : Expiring p n s t) (stored : KeyExp) (ids : List Str)
    (hs : s.issuers = .ok ids) (ho : ∀ o ∈ p.sigs.eraseIdx n, ¬IssuedBy ids o) : p.expirationTime stored = .ok .never := by
  rw [expiring_eval h stored ids hs, filter_none ho]
  rfl

/-- A key with one self-signature, which says it expires after 1000 seconds. -/
example := C68_lone_selfsig_never_expires_refuted (exPeriods 1) 0 (exPeriod 1000) 1000
  ⟨by decide, by decide +kernel, rfl, rfl, by decide, rfl, exPeriods_readable 1⟩ .never _ rfl (by simp [exPeriods])

/-- C68 fails: likewise if it has several. -/
theorem C68_several_signatures_never_expires_refuted (p : Part) (n : Nat) (s : SigObj) (t : Nat) (h : Expiring p n s t) (stored : KeyExp) (ids : List Str)
    (hs : s.issuers = .ok ids) (a b : SigObj) (hab : [a, b].Sublist (p.sigs.eraseIdx n)) (ha : IssuedBy ids a) (hb : IssuedBy ids b) :
    p.expirationTime stored = .ok .never := by
  rw [expiring_eval h stored ids hs]
  have h2 : [a, b].Sublist ((p.sigs.eraseIdx n).filter (sharesB ids)) := by
    have := hab.filter (sharesB ids)
    rwa [List.filter_cons, if_pos (sharesB_iff.mpr ha), List.filter_cons, if_pos (sharesB_iff.mpr hb), List.filter_nil] at this
  have : onlyOne ((p.sigs.eraseIdx n).filter (sharesB ids)) = none := by
    have hlen := h2.length_le
    match (p.sigs.eraseIdx n).filter (sharesB ids), hlen with
    | [], hlen => rfl
    | [_], hlen => simp at hlen
    | _ :: _ :: _, _ => rfl
  rw [this]
  rfl

example := C68_several_signatures_never_expires_refuted (exPeriods 3) 2 (exPeriod 1000) 1000
  ⟨by decide, by decide +kernel, rfl, rfl, by decide, rfl, exPeriods_readable 3⟩ .never _ rfl (exPeriod 1000) (exPeriod 1000) (List.Sublist.refl _)
  ⟨_, rfl, exId, by decide, by decide⟩ ⟨_, rfl, exId, by decide, by decide⟩

/-- C68 fails: with exactly one other signature by the same issuer the period is counted from that signature's creation, not from the key's. -/
theorem C68_counted_from_other_signature (p : Part) (n : Nat) (s : SigObj) (t : Nat) (h : Expiring p n s t) (stored : KeyExp) (ids : List Str)
    (hs : s.issuers = .ok ids) (a b : List SigObj) (o : SigObj) (c : Int) (hsplit : p.sigs.eraseIdx n = a ++ o :: b) (ho : IssuedBy ids o)
    (hab : ∀ x ∈ a ++ b, ¬IssuedBy ids x) (hc : o.creationTime = .ok c) : p.expirationTime stored = .ok (.at (c + fromTimestamp t)) := by
  rw [expiring_eval h stored ids hs, hsplit, List.filter_append, List.filter_cons, if_pos (sharesB_iff.mpr ho),
    filter_none (fun x hx => hab x (List.mem_append_left _ hx)), filter_none (fun x hx => hab x (List.mem_append_right _ hx))]
  simp only [List.nil_append, onlyOne, addPeriod, hc, except_bind_ok]
  rfl

example := C68_counted_from_other_signature (exPeriods 2) 1 (exPeriod 1000) 1000
  ⟨by decide, by decide +kernel, rfl, rfl, by decide, rfl, exPeriods_readable 2⟩ .never _ rfl [] [] (exPeriod 1000) _ rfl
  ⟨_, rfl, exId, by decide, by decide⟩ (by simp) rfl

/-- C68 fails: the period of validity stored in a version 2 or 3 key packet is dropped: such a key never expires. -/
theorem C68_old_keys_never_expire (p : Part) (k : PubKey) (hv : k.version = 2 ∨ k.version = 3) (hp : p.version = k.version) :
    p.expirationTime (storedExpiration k) = .ok .never := by
  have : storedExpiration k = .never := by
    unfold storedExpiration
    split
    · rfl
    · rw [if_pos (.inl (by omega))]
  simp only [Part.expirationTime, hp, if_pos hv, this]

example := C68_old_keys_never_expire { exOrdered with version := 3 } { version := 3, creationTime := 1, algorithm := 1, expirationDays := some 30 } (.inr rfl) rfl

/-- C68 fails: periods given in certifications of user ids are not considered: with no self-signature directly on the key it never expires. -/
theorem C68_no_direct_signature_never_expires (p : Part) (hv : p.version ≥ 4) (hl : ∀ s ∈ p.sigs, Readable s)
    (hn : ∀ s ∈ p.sigs, ¬SelfSig p.selfTypes p.own s) (stored : KeyExp) : p.expirationTime stored = .ok .never := by
  rcases C42_last_listed p false hl with ⟨_, h⟩ | ⟨n, s, h1, h2, _⟩
  · simp only [Part.expirationTime, if_neg (by omega : ¬(p.version = 2 ∨ p.version = 3)), if_pos hv, h, except_bind_ok]
    rfl
  · exact absurd h2 (hn s (List.mem_of_getElem? h1))

example := C68_no_direct_signature_never_expires ⟨4, [0x1f], [0x20], [exId], [exOther 0x1f 3000]⟩ (by decide)
  (fun s hs => by rw [List.mem_singleton] at hs; subst hs; exact exOther_readable _ _)
  (fun s hs h => by rw [List.mem_singleton] at hs; subst hs; exact exOther_not _ _ h.1)

/-- C68 (part that holds). A key whose chosen self-signature has no period is reported as never expiring. -/
theorem C68_no_period_partial (p : Part) (hv : p.version ≥ 4) (n : Nat) (s : SigObj) (hm : p.mostRecent false = .ok (some n)) (hs : p.sigs[n]? = some s)
    (ht : s.subs 9 = []) (stored : KeyExp) : p.expirationTime stored = .ok .never := by
  simp only [Part.expirationTime, if_neg (by omega : ¬(p.version = 2 ∨ p.version = 3)), if_pos hv, hm, except_bind_ok, hs, keyExpirationOf, ht, timeOf]
  rfl

example := C68_no_period_partial exOrdered (by decide) 2 (exBy 0x1f 2000) (by decide +kernel) rfl rfl

/-! ### Revoked signatures (C69) and expired ones (C70) -/

theorem revocation_iff (s : SigObj) : s.revocation = true ↔ s.sigType ∈ revocationTypes := by
  simp only [SigObj.revocation, revocationTypes, Bool.or_eq_true, decide_eq_true_eq, List.mem_cons, List.not_mem_nil, or_false]
  omega

theorem not_revocation {s : SigObj} (h : s.sigType ∉ revocationTypes) : s.revocation = false := by
  cases hr : s.revocation with
  | false => rfl
  | true => exact absurd ((revocation_iff s).mp hr) h

theorem revokedLoop_none (fl : FloorLog2) (sigs : List SigObj) (self : SigObj) (l : List SigObj) (j : Nat) (hl : ∀ s ∈ l, s.revocation = false) :
    revokedLoop fl sigs self j l = .ok false := by
  induction l generalizing j with
  | nil => rfl
  | cons s l ih =>
    simp only [revokedLoop, hl s List.mem_cons_self]
    exact ih (j + 1) (fun x hx => hl x (List.mem_cons_of_mem _ hx))

theorem revokedLoop_skip (fl : FloorLog2) (sigs : List SigObj) (self : SigObj) (a l : List SigObj) (j : Nat) (hl : ∀ s ∈ a, s.revocation = false) :
    revokedLoop fl sigs self j (a ++ l) = revokedLoop fl sigs self (j + a.length) l := by
  induction a generalizing j with
  | nil => rfl
  | cons s a ih =>
    simp only [List.cons_append, revokedLoop, hl s List.mem_cons_self]
    rw [if_neg (by simp), ih (j + 1) (fun x hx => hl x (List.mem_cons_of_mem _ hx))]
    congr 1
    simp only [List.length_cons]; omega

/-- C69. With no revocation signature on the part, no signature is reported as revoked. -/
theorem C69_no_revocation (fl : FloorLog2) (sigs : List SigObj) (self : SigObj) (h : ∀ s ∈ sigs, s.sigType ∉ revocationTypes) :
    sigRevoked fl sigs self = .ok false := by
  unfold sigRevoked
  split
  · exact revokedLoop_none fl sigs self sigs 0 (fun s hs => not_revocation (h s hs))
  · rfl

example := C69_no_revocation Nat.log2 [exBy 0x13 1000, exOther 0x10 5] (exBy 0x13 1000) (by
  intro s hs
  simp only [List.mem_cons, List.not_mem_nil, or_false] at hs
  rcases hs with rfl | rfl <;> decide)

/-- C69 (part that holds). A certification that is the only other signature by the issuer of the only revocation is reported as revoked. (Nothing is checked
cryptographically: a forged revocation that names the issuer does as well.) -/
theorem C69_revoked_partial (fl : FloorLog2) (a b : List SigObj) (r c : SigObj) (ids : List Str) (e : Bytes)
    (hc : c.sigType ∈ [0x1f, 0x18, 0x10, 0x11, 0x12, 0x13]) (hr : r.sigType ∈ revocationTypes)
    (hna : ∀ s ∈ a ++ b, s.sigType ∉ revocationTypes) (hids : r.issuers = .ok ids) (ht : r.subs 31 = [])
    (hl : ∀ x ∈ a ++ b, ∃ js, x.issuers = .ok js) (x y : List SigObj) (hsplit : a ++ b = x ++ c :: y) (hci : IssuedBy ids c)
    (hxy : ∀ z ∈ x ++ y, ¬IssuedBy ids z) (he : c.bytes fl = .ok e) : sigRevoked fl (a ++ r :: b) c = .ok true := by
  have hl' : ∀ z ∈ a ++ r :: b, ∃ js, z.issuers = .ok js := by
    intro z hz
    rcases List.mem_append.mp hz with hz | hz
    · exact hl z (List.mem_append_left _ hz)
    · rcases List.mem_cons.mp hz with rfl | hz
      · exact ⟨ids, hids⟩
      · exact hl z (List.mem_append_right _ hz)
  have herase : (a ++ r :: b).eraseIdx a.length = a ++ b := by
    rw [List.eraseIdx_append_of_length_le (Nat.le_refl _), Nat.sub_self]; rfl
  have htarget := targetOf_spec (a ++ r :: b) a.length r ids hids (by simp) hl' ht
  rw [herase, hsplit, List.filter_append, List.filter_cons, if_pos (sharesB_iff.mpr hci),
    filter_none (fun z hz => hxy z (List.mem_append_left _ hz)), filter_none (fun z hz => hxy z (List.mem_append_right _ hz))] at htarget
  rw [sigRevoked, if_pos hc]
  have hskip := revokedLoop_skip fl (a ++ r :: b) c a (r :: b) 0 (fun s hs => not_revocation (hna s (List.mem_append_left _ hs)))
  rw [hskip, Nat.zero_add]
  simp only [revokedLoop, (revocation_iff r).mpr hr, if_true, htarget, except_bind_ok, List.nil_append, onlyOne, targetIs, he]
  simp

/-- A user id with a certification, one by another key, and the revocation of the former. -/
example : ∃ e, (exBy 0x13 1000).bytes Nat.log2 = .ok e ∧
    sigRevoked Nat.log2 ([exBy 0x13 1000, exOther 0x10 5] ++ exBy 0x30 2000 :: []) (exBy 0x13 1000) = .ok true := by
  obtain ⟨e, he⟩ : ∃ e, (exBy 0x13 1000).bytes Nat.log2 = .ok e := ⟨_, rfl⟩
  refine ⟨e, he, C69_revoked_partial Nat.log2 [exBy 0x13 1000, exOther 0x10 5] [] (exBy 0x30 2000) (exBy 0x13 1000) [exId] e (by decide) (by decide) ?_
    rfl rfl ?_ [] [exOther 0x10 5] rfl (exBy_issued _ _) ?_ he⟩
  · intro s hs
    simp only [List.append_nil, List.mem_cons, List.not_mem_nil, or_false] at hs
    rcases hs with rfl | rfl <;> decide
  · intro s hs
    simp only [List.append_nil, List.mem_cons, List.not_mem_nil, or_false] at hs
    rcases hs with rfl | rfl <;> exact ⟨_, rfl⟩
  · intro s hs
    rw [List.nil_append, List.mem_singleton] at hs
    subst hs
    exact exOther_not _ _

/-- C69 fails: when the issuer of a revocation made several other signatures on the part (say, renewed the certification), asking whether any certification is revoked
raises. -/
theorem C69_renewed_certification_raises (fl : FloorLog2) (a b : List SigObj) (r c : SigObj) (ids : List Str)
    (hc : c.sigType ∈ [0x1f, 0x18, 0x10, 0x11, 0x12, 0x13]) (hr : r.sigType ∈ revocationTypes)
    (hna : ∀ s ∈ a, s.sigType ∉ revocationTypes) (hids : r.issuers = .ok ids) (ht : r.subs 31 = [])
    (hl : ∀ x ∈ a ++ b, ∃ js, x.issuers = .ok js) (u v : SigObj) (huv : [u, v].Sublist (a ++ b)) (hu : IssuedBy ids u) (hv : IssuedBy ids v) :
    Raises (sigRevoked fl (a ++ r :: b) c) := by
  have hl' : ∀ z ∈ a ++ r :: b, ∃ js, z.issuers = .ok js := by
    intro z hz
    rcases List.mem_append.mp hz with hz | hz
    · exact hl z (List.mem_append_left _ hz)
    · rcases List.mem_cons.mp hz with rfl | hz
      · exact ⟨ids, hids⟩
      · exact hl z (List.mem_append_right _ hz)
  have herase : (a ++ r :: b).eraseIdx a.length = a ++ b := by
    rw [List.eraseIdx_append_of_length_le (Nat.le_refl _), Nat.sub_self]; rfl
  have htarget := targetOf_spec (a ++ r :: b) a.length r ids hids (by simp) hl' ht
  have h2 : [u, v].Sublist ((a ++ b).filter (sharesB ids)) := by
    have := huv.filter (sharesB ids)
    rwa [List.filter_cons, if_pos (sharesB_iff.mpr hu), List.filter_cons, if_pos (sharesB_iff.mpr hv), List.filter_nil] at this
  have hnone : onlyOne ((a ++ b).filter (sharesB ids)) = none := by
    have hlen := h2.length_le
    match (a ++ b).filter (sharesB ids), hlen with
    | [], hlen => rfl
    | [_], hlen => simp at hlen
    | _ :: _ :: _, _ => rfl
  rw [herase, hnone] at htarget
  rw [sigRevoked, if_pos hc]
  have hskip := revokedLoop_skip fl (a ++ r :: b) c a (r :: b) 0 (fun s hs => not_revocation (hna s hs))
  rw [hskip, Nat.zero_add]
  refine ⟨.attributeError, ?_⟩
  simp only [revokedLoop, (revocation_iff r).mpr hr, if_true, htarget, except_bind_ok, targetIs]
  rfl

example := C69_renewed_certification_raises Nat.log2 [exBy 0x13 1000] [exBy 0x13 3000] (exBy 0x30 2000) (exBy 0x13 1000) [exId] (by decide) (by decide)
  (fun s hs => by rw [List.mem_singleton] at hs; subst hs; decide) rfl rfl
  (fun s hs => by
    simp only [List.cons_append, List.nil_append, List.mem_cons, List.not_mem_nil, or_false] at hs
    rcases hs with rfl | rfl <;> exact ⟨_, rfl⟩) _ _ (List.Sublist.refl _) (exBy_issued _ _) (exBy_issued _ _)

theorem onlyOther_target {sigs : List SigObj} {i : Nat} {r t : SigObj} {ids : List Str} (hids : r.issuers = .ok ids) (h : OnlyOther sigs i r t) :
    (sigs.eraseIdx i).filter (sharesB ids) = [t] := by
  obtain ⟨hi, j, hji, hj, hs, hno⟩ := h
  have hsh : ∀ z, Shares r z ↔ sharesB ids z = true := by
    intro z
    rw [sharesB_iff]
    constructor
    · rintro ⟨x, y, hx, hy, k, h1, h2⟩
      rw [hids] at hx
      cases hx
      exact ⟨y, hy, k, h2, h1⟩
    · rintro ⟨y, hy, k, h1, h2⟩
      exact ⟨ids, y, hids, hy, k, h2, h1⟩
  have hil := (List.getElem?_eq_some_iff.mp hi).1
  obtain ⟨j', hj'⟩ : ∃ j', (if j' < i then j' else j' + 1) = j := by
    rcases Nat.lt_or_gt_of_ne hji with h | h
    · exact ⟨j, by rw [if_pos h]⟩
    · exact ⟨j - 1, by rw [if_neg (by omega)]; omega⟩
  have hget : ∀ m, (sigs.eraseIdx i)[m]? = sigs[if m < i then m else m + 1]? := by
    intro m
    rw [List.getElem?_eraseIdx]
    split <;> rfl
  have ht : (sigs.eraseIdx i)[j']? = some t := by rw [hget, hj', hj]
  obtain ⟨hlt, he⟩ := List.getElem?_eq_some_iff.mp ht
  have hsplit : sigs.eraseIdx i = (sigs.eraseIdx i).take j' ++ t :: (sigs.eraseIdx i).drop (j' + 1) := by
    conv_lhs => rw [← List.take_append_drop j' (sigs.eraseIdx i), List.drop_eq_getElem_cons hlt, he]
  have hother : ∀ m z, m ≠ j' → (sigs.eraseIdx i)[m]? = some z → sharesB ids z = false := by
    intro m z hm hz
    rw [hget] at hz
    have h1 : (if m < i then m else m + 1) ≠ i := by split <;> omega
    have h2 : (if m < i then m else m + 1) ≠ j := by rw [← hj']; split <;> split <;> omega
    have := hno _ z h1 h2 hz
    rw [hsh] at this
    simpa using this
  rw [hsplit, List.filter_append, List.filter_cons, if_pos ((hsh t).mp hs)]
  have hA : ((sigs.eraseIdx i).take j').filter (sharesB ids) = [] := by
    rw [List.filter_eq_nil_iff]
    intro z hz
    obtain ⟨m, hm⟩ := List.getElem?_of_mem hz
    rw [List.getElem?_take] at hm
    split at hm
    · simp [hother m z (by omega) hm]
    · cases hm
  have hB : ((sigs.eraseIdx i).drop (j' + 1)).filter (sharesB ids) = [] := by
    rw [List.filter_eq_nil_iff]
    intro z hz
    obtain ⟨m, hm⟩ := List.getElem?_of_mem hz
    rw [List.getElem?_drop] at hm
    simp [hother _ z (by omega) hm]
  rw [hA, hB]
  rfl

theorem revokedLoop_exact (fl : FloorLog2) (sigs : List SigObj) (c : SigObj) (e : Bytes) (he : c.bytes fl = .ok e)
    (hl : ∀ x ∈ sigs, (∃ js, x.issuers = .ok js) ∧ ∃ b, x.bytes fl = .ok b)
    (hr : ∀ i r, sigs[i]? = some r → r.sigType ∈ revocationTypes → r.subs 31 = [] ∧ ∃ t, OnlyOther sigs i r t) (l : List SigObj) (j : Nat)
    (hj : sigs.drop j = l) :
    ∃ b, revokedLoop fl sigs c j l = .ok b ∧ (b = true ↔ ∃ i r t, j ≤ i ∧ sigs[i]? = some r ∧ r.sigType ∈ revocationTypes ∧ OnlyOther sigs i r t ∧ t.bytes fl = .ok e) := by
  induction l generalizing j with
  | nil =>
    refine ⟨false, rfl, ?_⟩
    simp only [Bool.false_eq_true, false_iff]
    rintro ⟨i, r, t, hji, hi, _⟩
    have := List.drop_eq_nil_iff.mp hj
    have := (List.getElem?_eq_some_iff.mp hi).1
    omega
  | cons s l ih =>
    have hs : sigs[j]? = some s := by
      have := congrArg (·[0]?) hj
      simpa [List.getElem?_drop] using this
    have hl' : sigs.drop (j + 1) = l := by
      rw [← List.drop_drop, hj]; rfl
    obtain ⟨b, hb, hiff⟩ := ih (j + 1) hl'
    have hlater : (∃ i r t, j + 1 ≤ i ∧ sigs[i]? = some r ∧ r.sigType ∈ revocationTypes ∧ OnlyOther sigs i r t ∧ t.bytes fl = .ok e) →
        ∃ i r t, j ≤ i ∧ sigs[i]? = some r ∧ r.sigType ∈ revocationTypes ∧ OnlyOther sigs i r t ∧ t.bytes fl = .ok e := by
      rintro ⟨i, r, t, h1, h2⟩
      exact ⟨i, r, t, by omega, h2⟩
    by_cases hrev : s.sigType ∈ revocationTypes
    · obtain ⟨h31, t, hot⟩ := hr j s hs hrev
      obtain ⟨ids, hids⟩ := (hl s (List.mem_of_getElem? hs)).1
      have htarget := targetOf_spec sigs j s ids hids (List.getElem?_eq_some_iff.mp hs).1 (fun x hx => (hl x hx).1) h31
      rw [onlyOther_target hids hot] at htarget
      have htm : t ∈ sigs := by obtain ⟨_, k, _, hk, _⟩ := hot; exact List.mem_of_getElem? hk
      obtain ⟨bt, hbt⟩ := (hl t htm).2
      have huniq : ∀ t', OnlyOther sigs j s t' → t' = t := by
        intro t' h'
        have := onlyOther_target hids h'
        rw [onlyOther_target hids hot] at this
        cases this
        rfl
      by_cases heq : bt = e
      · refine ⟨true, ?_, ?_⟩
        · simp only [revokedLoop, (revocation_iff s).mpr hrev, if_true, htarget, except_bind_ok, onlyOne, targetIs, he, hbt, heq, except_pure, decide_true]
        · simp only [true_iff]
          exact ⟨j, s, t, le_refl _, hs, hrev, hot, by rw [hbt, heq]⟩
      · refine ⟨b, ?_, ?_⟩
        · simp only [revokedLoop, (revocation_iff s).mpr hrev, if_true, htarget, except_bind_ok, onlyOne, targetIs, he, hbt, heq, except_pure, decide_false]
          exact hb
        · rw [hiff]
          refine ⟨hlater, ?_⟩
          rintro ⟨i, r, t', h1, h2, h3, h4, h5⟩
          rcases Nat.eq_or_lt_of_le h1 with rfl | h1
          · exfalso
            rw [hs] at h2
            cases h2
            rw [huniq t' h4, hbt] at h5
            cases h5
            exact heq rfl
          · exact ⟨i, r, t', h1, h2, h3, h4, h5⟩
    · refine ⟨b, ?_, ?_⟩
      · simp only [revokedLoop, not_revocation hrev]
        exact hb
      · rw [hiff]
        refine ⟨hlater, ?_⟩
        rintro ⟨i, r, t', h1, h2, h3, h4⟩
        rcases Nat.eq_or_lt_of_le h1 with rfl | h1
        · rw [hs] at h2
          cases h2
          exact absurd h3 hrev
        · exact ⟨i, r, t', h1, h2, h3, h4⟩

/-- C69 (part that holds). On a part where every revocation has exactly one other signature by its issuer, a certification, binding or direct signature is reported
as revoked exactly if one of these revocations, wherever it stands in the list, has it (a signature with its octets) as that other signature. -/
theorem C69_revoked_iff_partial (fl : FloorLog2) (sigs : List SigObj) (c : SigObj) (hc : c ∈ sigs) (hct : c.sigType ∈ [0x1f, 0x18, 0x10, 0x11, 0x12, 0x13])
    (hl : ∀ x ∈ sigs, (∃ js, x.issuers = .ok js) ∧ ∃ b, x.bytes fl = .ok b)
    (hr : ∀ i r, sigs[i]? = some r → r.sigType ∈ revocationTypes → r.subs 31 = [] ∧ ∃ t, OnlyOther sigs i r t) :
    ∃ b, sigRevoked fl sigs c = .ok b ∧
      (b = true ↔ ∃ i r t, sigs[i]? = some r ∧ r.sigType ∈ revocationTypes ∧ OnlyOther sigs i r t ∧ t.bytes fl = c.bytes fl) := by
  obtain ⟨e, he⟩ := (hl c hc).2
  obtain ⟨b, hb, hiff⟩ := revokedLoop_exact fl sigs c e he hl hr sigs 0 rfl
  refine ⟨b, by rw [sigRevoked, if_pos hct]; exact hb, ?_⟩
  rw [hiff, he]
  constructor
  · rintro ⟨i, r, t, _, h⟩; exact ⟨i, r, t, h⟩
  · rintro ⟨i, r, t, h⟩; exact ⟨i, r, t, Nat.zero_le _, h⟩

/-- Two certifications by different keys, each followed by its revocation. -/
example : sigRevoked Nat.log2 [exBy 0x13 1000, exOther 0x10 5, exBy 0x30 2000, exOther 0x30 7] (exOther 0x10 5) = .ok true := by
  have hnot : ∀ t t' c c', ¬Shares (exBy t c) (exOther t' c') := by
    rintro t t' c c' ⟨x, y, hx, hy, k, h1, h2⟩
    cases hx; cases hy
    simp only [List.mem_singleton] at h1 h2
    exact absurd (h1.symm.trans h2) (by decide)
  have hnot' : ∀ t t' c c', ¬Shares (exOther t c) (exBy t' c') := by
    rintro t t' c c' ⟨x, y, hx, hy, k, h1, h2⟩
    cases hx; cases hy
    simp only [List.mem_singleton] at h1 h2
    exact absurd (h1.symm.trans h2) (by decide)
  have h2 : OnlyOther [exBy 0x13 1000, exOther 0x10 5, exBy 0x30 2000, exOther 0x30 7] 2 (exBy 0x30 2000) (exBy 0x13 1000) := by
    refine ⟨rfl, 0, by decide, rfl, ⟨_, _, rfl, rfl, exId, by decide, by decide⟩, ?_⟩
    intro k z hk hk' hz
    match k, hz with
    | 0, _ => exact absurd rfl hk'
    | 1, hz => cases hz; exact hnot _ _ _ _
    | 2, _ => exact absurd rfl hk
    | 3, hz => cases hz; exact hnot _ _ _ _
  have h3 : OnlyOther [exBy 0x13 1000, exOther 0x10 5, exBy 0x30 2000, exOther 0x30 7] 3 (exOther 0x30 7) (exOther 0x10 5) := by
    refine ⟨rfl, 1, by decide, rfl, ⟨_, _, rfl, rfl, "FEDCBA9876543210".toList, by decide, by decide⟩, ?_⟩
    intro k z hk hk' hz
    match k, hz with
    | 0, hz => cases hz; exact hnot' _ _ _ _
    | 1, _ => exact absurd rfl hk'
    | 2, hz => cases hz; exact hnot' _ _ _ _
    | 3, _ => exact absurd rfl hk
  obtain ⟨b, hb, hiff⟩ := C69_revoked_iff_partial Nat.log2 [exBy 0x13 1000, exOther 0x10 5, exBy 0x30 2000, exOther 0x30 7] (exOther 0x10 5) (by simp) (by decide)
    (by
      intro s hs
      simp only [List.mem_cons, List.not_mem_nil, or_false] at hs
      rcases hs with rfl | rfl | rfl | rfl <;> exact ⟨⟨_, rfl⟩, _, rfl⟩)
    (by
      intro i r hi ht
      match i, hi with
      | 0, hi => cases hi; exact absurd ht (by decide)
      | 1, hi => cases hi; exact absurd ht (by decide)
      | 2, hi => cases hi; exact ⟨rfl, _, h2⟩
      | 3, hi => cases hi; exact ⟨rfl, _, h3⟩
      | _ + 4, hi => cases hi)
  rw [hb, hiff.mpr ⟨3, exOther 0x30 7, exOther 0x10 5, rfl, by decide, h3, rfl⟩]

/-- C70. A version 4 signature created at second `c` with an expiration period of `n` seconds is reported as expired exactly when the current time is later than
`c + n` seconds; a period of zero, or none, means never. -/
theorem C70_expired_iff (s : SigObj) (hv : s.version ≥ 4) (c : Nat) (hc : timeOf (s.subs 2) = .ok (some c)) (n : Option Nat)
    (hn : timeOf (s.subs 3) = .ok n) (now : Int) :
    ∃ b, s.expired now = .ok b ∧ (b = true ↔ ∃ k, n = some k ∧ k ≠ 0 ∧ now > ((c + k : Nat) : Int) * 1000000) := by
  have hct : s.creationTime = .ok (fromTimestamp c) := by
    simp only [SigObj.creationTime, if_neg (by omega : ¬(s.version = 2 ∨ s.version = 3)), if_pos hv, hc, except_bind_ok]
    rfl
  match n, hn with
  | none, hn =>
    refine ⟨false, by simp only [SigObj.expired, SigObj.expirationTime, hn, except_bind_ok]; rfl, by simp⟩
  | some 0, hn =>
    refine ⟨false, by simp only [SigObj.expired, SigObj.expirationTime, hn, except_bind_ok]; rfl, ?_⟩
    simp only [Bool.false_eq_true, false_iff]
    rintro ⟨k, hk, hk0, _⟩
    cases hk
    exact hk0 rfl
  | some (k + 1), hn =>
    refine ⟨decide (now > fromTimestamp c + fromTimestamp (k + 1)), ?_, ?_⟩
    · simp only [SigObj.expired, SigObj.expirationTime, hn, hct, except_bind_ok]
      rfl
    · rw [decide_eq_true_iff]
      unfold fromTimestamp
      constructor
      · intro h; exact ⟨k + 1, rfl, by omega, by push_cast at *; omega⟩
      · rintro ⟨k', hk, _, h⟩
        cases hk
        push_cast at *
        omega

example := C70_expired_iff (exSigOf 0x13 1000 "0123456789ABCDEF" [.plain false (.expiration 60)]) (by decide) 1000 rfl (some 60) rfl 2000000000

/-! ### Checking signatures (C40) -/

/-- C40. A signature dated before its key, or in the future, or by a key dated in the future, is rejected, in both modes. -/
theorem C40_bad_times_rejected (k : CheckKey) (s : SigObj) (sc : Int) (hsc : s.creationTime = .ok sc) (now : Int) (strict : Bool)
    (h : sc < k.creation ∨ now < k.creation ∨ now < sc) : ∃ e, e.isInvalidSignature = true ∧ checkSignatureValues k s now strict = .error e := by
  simp only [checkSignatureValues, hsc, except_bind_ok]
  by_cases h1 : k.creation > sc
  · exact ⟨.pgp "SignatureCreatedBeforeContent", by decide +kernel, by rw [if_pos h1]⟩
  · rw [if_neg h1]
    by_cases h2 : k.creation > now
    · exact ⟨.pgp "SigningKeyCreatedInTheFuture", by decide +kernel, by rw [if_pos h2]⟩
    · rw [if_neg h2]
      have h3 : sc > now := by omega
      exact ⟨.pgp "SignatureCreatedInTheFuture", by decide +kernel, by rw [if_pos h3]⟩

example := C40_bad_times_rejected ⟨exId, exId, 5000000000, .ok .never, []⟩ (exBy 0x13 1000) 1000000000 rfl 6000000000 true (.inl (by decide))

/-- What the loop looks for, given the list of the ends of the fingerprints. -/
def LoopRevokes (k : CheckKey) (rk : List Str) (s : SigObj) : Prop :=
  (s.sigType = 0x28 ∨ s.sigType = 0x20) ∧ ((∃ ids, s.issuers = .ok ids ∧ k.parentId ∈ ids) ∨ (rk ≠ [] ∧ tailN 8 k.keyId ∈ rk))

theorem revFingerprints_mem (u : List Sub) (f : List Str) (hf : revFingerprints u = .ok f) (fp : Str) :
    fp ∈ f ↔ ∃ c cls alg, Sub.plain c (.revocationKey fp cls alg) ∈ u := by
  induction u generalizing f with
  | nil => cases hf; simp
  | cons x u ihu =>
    unfold revFingerprints at hf
    split at hf
    · rename_i h0
      cases h0
    · rename_i h0
      cases h0
      obtain ⟨g, hg, hf⟩ := except_bind_eq_ok.mp hf
      cases hf
      rw [List.mem_cons, ihu g hg]
      simp only [List.mem_cons]
      constructor
      · rintro (rfl | ⟨c, cls, alg, h⟩)
        · exact ⟨_, _, _, .inl rfl⟩
        · exact ⟨c, cls, alg, .inr h⟩
      · rintro ⟨c, cls, alg, h | h⟩
        · cases h; exact .inl rfl
        · exact .inr ⟨c, cls, alg, h⟩
    · cases hf

theorem collectRevKeys_mem (l : List SigObj) (rk : List Str) (h : collectRevKeys l = .ok rk) (e : Str) : e ∈ rk ↔ ∃ fp, Appointed l fp ∧ lastChars 8 fp = e := by
  induction l generalizing rk with
  | nil =>
    cases h
    simp [Appointed]
  | cons s l ih =>
    unfold collectRevKeys at h
    split at h
    · rename_i ht
      obtain ⟨f, hf, h⟩ := except_bind_eq_ok.mp h
      obtain ⟨r, hr, h⟩ := except_bind_eq_ok.mp h
      cases h
      have hfm := revFingerprints_mem _ _ hf
      rw [List.mem_append, ih r hr, List.mem_map]
      constructor
      · rintro (⟨fp, hfp, rfl⟩ | ⟨fp, ⟨x, hx, h1, h2⟩, he⟩)
        · exact ⟨fp, ⟨s, List.mem_cons_self, ht, (hfm fp).mp hfp⟩, rfl⟩
        · exact ⟨fp, ⟨x, List.mem_cons_of_mem _ hx, h1, h2⟩, he⟩
      · rintro ⟨fp, ⟨x, hx, h1, h2⟩, he⟩
        rcases List.mem_cons.mp hx with rfl | hx
        · exact .inl ⟨fp, (hfm fp).mpr h2, he⟩
        · exact .inr ⟨fp, ⟨x, hx, h1, h2⟩, he⟩
    · rename_i ht
      rw [ih rk h]
      constructor
      · rintro ⟨fp, ⟨x, hx, h1, h2⟩, he⟩
        exact ⟨fp, ⟨x, List.mem_cons_of_mem _ hx, h1, h2⟩, he⟩
      · rintro ⟨fp, ⟨x, hx, h1, h2⟩, he⟩
        rcases List.mem_cons.mp hx with rfl | hx
        · exact absurd h1 ht
        · exact ⟨fp, ⟨x, hx, h1, h2⟩, he⟩

theorem revFingerprints_ok {x : SigObj} (hs : AppointsReadably x) : ∃ f, revFingerprints (x.subs 12) = .ok f := by
  unfold AppointsReadably at hs
  generalize x.subs 12 = u at hs
  induction u with
  | nil => exact ⟨[], rfl⟩
  | cons x u ihu =>
    obtain ⟨f, hf⟩ := ihu (fun y hy => hs y (List.mem_cons_of_mem _ hy))
    obtain ⟨c, fp, cls, alg, rfl⟩ := hs x List.mem_cons_self
    exact ⟨fp :: f, by simp only [revFingerprints, hf, except_bind_ok]; rfl⟩

theorem collectRevKeys_ok (l : List SigObj) (h : ∀ x ∈ l, x.sigType = 0x18 ∨ x.sigType = 0x1f → AppointsReadably x) : ∃ rk, collectRevKeys l = .ok rk := by
  induction l with
  | nil => exact ⟨[], rfl⟩
  | cons s l ih =>
    obtain ⟨r, hr⟩ := ih (fun x hx => h x (List.mem_cons_of_mem _ hx))
    by_cases ht : s.sigType = 0x18 ∨ s.sigType = 0x1f
    · have hs := h s List.mem_cons_self ht
      obtain ⟨f, hf⟩ := revFingerprints_ok hs
      exact ⟨_, by simp only [collectRevKeys, if_pos ht, hf, hr, except_bind_ok]; rfl⟩
    · exact ⟨r, by simp only [collectRevKeys, if_neg ht, hr]⟩

theorem loopRevokes_iff {k : CheckKey} {rk : List Str} (h : collectRevKeys k.sigs = .ok rk) (s : SigObj) : LoopRevokes k rk s ↔ Revokes k s := by
  have hm := collectRevKeys_mem k.sigs rk h (tailN 8 k.keyId)
  unfold LoopRevokes Revokes
  constructor
  · rintro ⟨h1, h2 | h2⟩
    · exact ⟨h1, .inl h2⟩
    · exact ⟨h1, .inr (hm.mp h2.2)⟩
  · rintro ⟨h1, h2 | h2⟩
    · exact ⟨h1, .inl h2⟩
    · have := hm.mpr h2
      exact ⟨h1, .inr ⟨List.ne_nil_of_mem this, this⟩⟩

theorem revocationLoop_mild (k : CheckKey) (rk : List Str) (l : List SigObj) (hl : ∀ s ∈ l, s.sigType = 0x28 ∨ s.sigType = 0x20 → Readable s) (r : Bool) :
    ∃ b, revocationLoop k false rk r l = .ok b ∧ (b = true ↔ r = true ∨ ∃ s ∈ l, LoopRevokes k rk s) := by
  induction l generalizing r with
  | nil => exact ⟨r, rfl, by simp⟩
  | cons s l ih =>
    have hl' := fun x hx => hl x (List.mem_cons_of_mem s hx)
    by_cases ht : s.sigType = 0x28 ∨ s.sigType = 0x20
    · obtain ⟨⟨ids, hids⟩, t, htm⟩ := hl s List.mem_cons_self ht
      by_cases hr : k.parentId ∈ ids ∨ (rk ≠ [] ∧ tailN 8 k.keyId ∈ rk)
      · obtain ⟨b, hb, hiff⟩ := ih hl' true
        refine ⟨b, ?_, ?_⟩
        · simp only [revocationLoop, if_pos ht, htm, hids, except_bind_ok]
          rw [if_neg (by simp), if_pos hr, if_neg (by simp)]
          exact hb
        · have hrev : LoopRevokes k rk s := ⟨ht, hr.imp (fun h => ⟨ids, hids, h⟩) id⟩
          constructor
          · intro _; exact .inr ⟨s, List.mem_cons_self, hrev⟩
          · intro _; exact hiff.mpr (.inl rfl)
      · obtain ⟨b, hb, hiff⟩ := ih hl' r
        refine ⟨b, ?_, ?_⟩
        · simp only [revocationLoop, if_pos ht, htm, hids, except_bind_ok]
          rw [if_neg (by simp), if_neg hr]
          exact hb
        · have hrev : ¬LoopRevokes k rk s := by
            rintro ⟨_, h | h⟩
            · obtain ⟨ids', e, h⟩ := h
              rw [hids] at e
              cases e
              exact hr (.inl h)
            · exact hr (.inr h)
          rw [hiff]
          constructor
          · rintro (h | ⟨x, hx, h⟩)
            · exact .inl h
            · exact .inr ⟨x, List.mem_cons_of_mem _ hx, h⟩
          · rintro (h | ⟨x, hx, h⟩)
            · exact .inl h
            · rcases List.mem_cons.mp hx with rfl | hx
              · exact absurd h hrev
              · exact .inr ⟨x, hx, h⟩
    · obtain ⟨b, hb, hiff⟩ := ih hl' r
      refine ⟨b, by simp only [revocationLoop, if_neg ht]; exact hb, ?_⟩
      rw [hiff]
      constructor
      · rintro (h | ⟨x, hx, h⟩)
        · exact .inl h
        · exact .inr ⟨x, List.mem_cons_of_mem _ hx, h⟩
      · rintro (h | ⟨x, hx, h⟩)
        · exact .inl h
        · rcases List.mem_cons.mp hx with rfl | hx
          · exact absurd h.1 ht
          · exact .inr ⟨x, hx, h⟩

/-- C40 (part that holds: the rules themselves). In lenient mode every other signature is accepted, and the two flags say exactly whether the key's expiration date has passed and
whether the key has been revoked (which is ignored for a signature marked as not exportable: the attribute consulted is `exportable`). -/
theorem C40_lenient_rules_partial (k : CheckKey) (s : SigObj) (sc : Int) (hsc : s.creationTime = .ok sc) (now : Int) (h1 : k.creation ≤ sc) (h2 : sc ≤ now)
    (e : KeyExp) (he : k.expiration = .ok e) (he0 : e ≠ .zero) (rv : Option Bool) (hrv : s.get .revocable = .ok rv)
    (hap : ∀ x ∈ k.sigs, x.sigType = 0x18 ∨ x.sigType = 0x1f → AppointsReadably x) (hl : ∀ x ∈ k.sigs, x.sigType = 0x28 ∨ x.sigType = 0x20 → Readable x) :
    ∃ expired revoked, checkSignatureValues k s now false = .ok (expired, revoked) ∧ (expired = true ↔ ∃ t, e = .at t ∧ t < now) ∧
      (revoked = true ↔ rv ≠ some false ∧ ∃ x ∈ k.sigs, Revokes k x) := by
  obtain ⟨rk, hrk⟩ := collectRevKeys_ok k.sigs hap
  have hex : ∃ expired, checkKeyExpired e now false = .ok expired ∧ (expired = true ↔ ∃ t, e = .at t ∧ t < now) := by
    cases e with
    | never => exact ⟨false, rfl, by simp⟩
    | zero => exact absurd rfl he0
    | «at» t =>
      by_cases ht : t < now
      · exact ⟨true, by simp only [checkKeyExpired, if_pos ht]; rfl, by simp [ht]⟩
      · exact ⟨false, by simp only [checkKeyExpired, if_neg ht], by simp [ht]⟩
  have hre : ∃ revoked, checkRevocation k s false = .ok revoked ∧ (revoked = true ↔ rv ≠ some false ∧ ∃ x ∈ k.sigs, Revokes k x) := by
    by_cases hr : rv = some false
    · exact ⟨false, by simp only [checkRevocation, hrv, except_bind_ok, if_pos hr]; rfl, by simp [hr]⟩
    · obtain ⟨b, hb, hiff⟩ := revocationLoop_mild k rk k.sigs hl false
      refine ⟨b, by simp only [checkRevocation, hrv, except_bind_ok, if_neg hr, hrk]; exact hb, ?_⟩
      rw [hiff]
      simp [hr, loopRevokes_iff hrk]
  obtain ⟨x, hx, hx'⟩ := hex
  obtain ⟨r, hr, hr'⟩ := hre
  refine ⟨x, r, ?_, hx', hr'⟩
  simp only [checkSignatureValues, hsc, except_bind_ok]
  rw [if_neg (by omega), if_neg (by omega), if_neg (by omega)]
  simp only [he, except_bind_ok, hx, hr]
  rfl

example := C40_lenient_rules_partial ⟨exId, exId, 5, .ok (.at 9000000000), [exBy 0x20 1500, exOther 0x1f 1]⟩ (exBy 0x13 1000) 1000000000 rfl 2000000000
  (by decide) (by decide) _ rfl (by decide) none (by decide +kernel)
  (fun s hs _ u hu => by
    simp only [List.mem_cons, List.not_mem_nil, or_false] at hs
    rcases hs with rfl | rfl <;> cases hu)
  (fun s hs _ => by
    simp only [List.mem_cons, List.not_mem_nil, or_false] at hs
    rcases hs with rfl | rfl
    · exact exBy_readable _ _
    · exact exOther_readable _ _)

theorem revocationLoop_strict (k : CheckKey) (rk : List Str) (l : List SigObj) (r b : Bool) (h : revocationLoop k true rk r l = .ok b) :
    b = r ∧ ∀ s ∈ l, ¬LoopRevokes k rk s := by
  induction l generalizing r with
  | nil => cases h; exact ⟨rfl, by simp⟩
  | cons s l ih =>
    simp only [revocationLoop] at h
    split at h
    · rename_i ht
      obtain ⟨t, _, h⟩ := except_bind_eq_ok.mp h
      split at h
      · cases h
      · obtain ⟨ids, hids, h⟩ := except_bind_eq_ok.mp h
        split at h
        · cases h
        · rename_i hr
          obtain ⟨e, hn⟩ := ih r h
          refine ⟨e, ?_⟩
          intro x hx
          rcases List.mem_cons.mp hx with rfl | hx
          · rintro ⟨_, h | h⟩
            · obtain ⟨ids', e, h⟩ := h
              rw [hids] at e
              cases e
              exact hr (.inl h)
            · exact hr (.inr h)
          · exact hn x hx
    · rename_i ht
      obtain ⟨e, hn⟩ := ih r h
      refine ⟨e, ?_⟩
      intro x hx
      rcases List.mem_cons.mp hx with rfl | hx
      · exact fun h => ht h.1
      · exact hn x hx

/-- C40 (part that holds: the rules themselves). In strict mode an accepted signature is dated between its key and now, the key has not expired, and (unless the signature is marked as not
exportable) it has not been revoked. -/
theorem C40_strict_rules_partial (k : CheckKey) (s : SigObj) (now : Int) (expired revoked : Bool) (h : checkSignatureValues k s now true = .ok (expired, revoked)) :
    expired = false ∧ revoked = false ∧ (∃ sc, s.creationTime = .ok sc ∧ k.creation ≤ sc ∧ sc ≤ now) ∧
    (∃ e, k.expiration = .ok e ∧ ∀ t, e = .at t → now ≤ t) ∧
    (s.get .revocable = .ok (some false) ∨ ∀ x ∈ k.sigs, ¬Revokes k x) := by
  unfold checkSignatureValues at h
  obtain ⟨sc, hsc, h⟩ := except_bind_eq_ok.mp h
  split at h
  · cases h
  split at h
  · cases h
  split at h
  · cases h
  obtain ⟨e, he, h⟩ := except_bind_eq_ok.mp h
  obtain ⟨x, hx, h⟩ := except_bind_eq_ok.mp h
  obtain ⟨r, hr, h⟩ := except_bind_eq_ok.mp h
  cases h
  have hexp : expired = false ∧ ∀ t, e = .at t → now ≤ t := by
    cases e with
    | never => cases hx; exact ⟨rfl, nofun⟩
    | zero => cases hx
    | «at» t =>
      simp only [checkKeyExpired] at hx
      split at hx
      · cases hx
      · rename_i hlt
        cases hx
        refine ⟨rfl, ?_⟩
        intro t' ht'
        cases ht'
        omega
  have hrev : revoked = false ∧ (s.get .revocable = .ok (some false) ∨ ∀ x ∈ k.sigs, ¬Revokes k x) := by
    unfold checkRevocation at hr
    obtain ⟨rv, hrv, hr⟩ := except_bind_eq_ok.mp hr
    split at hr
    · rename_i hf
      cases hr
      exact ⟨rfl, .inl (by rw [hrv, hf])⟩
    · obtain ⟨rk, hrk, hr⟩ := except_bind_eq_ok.mp hr
      obtain ⟨e, hn⟩ := revocationLoop_strict k rk k.sigs false revoked hr
      exact ⟨e, .inr fun x hx h => hn x hx ((loopRevokes_iff hrk x).mpr h)⟩
  exact ⟨hexp.1, hrev.1, ⟨sc, hsc, by omega, by omega⟩, ⟨e, he, hexp.2⟩, hrev.2⟩

example := C40_strict_rules_partial ⟨exId, exId, 5, .ok (.at 9000000000), [exOther 0x1f 1]⟩ (exBy 0x13 1000) 2000000000 false false (by decide +kernel)

/-- C40 fails: the signature's own expiration is never considered. -/
theorem C40_signature_expiry_ignored (k : CheckKey) (s : SigObj) (n : Nat) (now : Int) (strict : Bool) :
    checkSignatureValues k (s.setTime 3 .expiration n) now strict = checkSignatureValues k s now strict := by
  have hver : (s.setTime 3 .expiration n).version = s.version := by unfold SigObj.setTime; split <;> rfl
  have h1 : (s.setTime 3 .expiration n).creationTime = s.creationTime := by
    unfold SigObj.creationTime
    rw [hver, (subs_setTime s n).1 2 (by decide)]
  have h2 : (s.setTime 3 .expiration n).get .revocable = s.get .revocable := by
    unfold SigObj.get
    rw [(subs_setTime s n).1 _ (by decide)]
  simp only [checkSignatureValues, h1, checkRevocation, h2]

/-- C40 fails: checking the signatures of a key whose chosen self-signature says, with an explicit zero, that it never expires, raises. -/
theorem C40_explicit_never_raises (k : CheckKey) (s : SigObj) (now : Int) (strict : Bool) (hk : k.expiration = .ok .zero) :
    Raises (checkSignatureValues k s now strict) := by
  unfold checkSignatureValues
  cases hsc : s.creationTime with
  | error e => exact ⟨e, rfl⟩
  | ok sc =>
    simp only [except_bind_ok]
    split
    · exact ⟨_, rfl⟩
    split
    · exact ⟨_, rfl⟩
    split
    · exact ⟨_, rfl⟩
    simp only [hk, except_bind_ok, checkKeyExpired]
    exact ⟨_, rfl⟩

example := C40_explicit_never_raises ⟨exId, exId, 5, .ok .zero, []⟩ (exBy 0x13 1000) 2000000000 true rfl

/-- C40 fails: the public entry point never succeeds. -/
theorem C40_check_signature_always_raises (k : CheckKey) (s : SigObj) (strict : Bool) (now : Option Int) : Raises (checkSignature k s strict now) := ⟨_, rfl⟩

/-- C40 fails: `validate_signature` accepts no signature other than revocations of certifications. -/
theorem C40_validate_accepts_only_revocations (hashing : Py Unit) (s : SigObj) (sk pk : CheckKey) (ctx : RevCtx) (strict : Bool) (now : Option Int)
    (r : Bool × Bool) (h : validateSignature hashing s sk pk ctx strict now = .ok (some r)) : s.sigType = 0x30 := by
  unfold validateSignature at h
  obtain ⟨_, _, h⟩ := except_bind_eq_ok.mp h
  split at h
  · obtain ⟨ids, _, h⟩ := except_bind_eq_ok.mp h
    split at h
    · unfold checkRevocationKeys at h
      obtain ⟨rks, _, h⟩ := except_bind_eq_ok.mp h
      split at h
      · cases h
      · cases h
    · cases h
  split at h
  · cases h
  split at h
  · obtain ⟨ids, _, h⟩ := except_bind_eq_ok.mp h
    split at h <;> cases h
  split at h
  · cases h
  split at h
  · cases h
  split at h
  · cases h
  split at h
  · assumption
  · cases h

example : validateSignature (.ok ()) (exBy 0x30 1000) ⟨exId, exId, 5, .ok .never, []⟩ ⟨exId, exId, 5, .ok .never, []⟩ ⟨.ok [], .ok none⟩ true (some 9) =
    .ok (some (false, false)) := by decide +kernel

/-- C40 fails: a revocation of a certification is accepted without looking at its signature values or hash octets: whoever writes them. -/
theorem C40_revocation_not_verified (hashing : Py Unit) (s : SigObj) (sk pk : CheckKey) (ctx : RevCtx) (strict : Bool) (now : Option Int) (ht : s.sigType = 0x30)
    (values : List (Option Nat)) (hash2 : Bytes) (pubAlg : Nat) :
    validateSignature hashing { s with values := values, hash2 := hash2, pubAlg := pubAlg } sk pk ctx strict now = validateSignature hashing s sk pk ctx strict now := by
  unfold validateSignature
  simp only [ht]
  rfl

example := C40_revocation_not_verified (.ok ()) (exBy 0x30 1000) ⟨exId, exId, 5, .ok .never, []⟩ ⟨exId, exId, 5, .ok .never, []⟩ ⟨.ok [], .ok none⟩ true (some 9)
  rfl [some 1, some 2] [9, 9] 17

/-- C40. Indeed one that refers to nothing is always accepted. -/
theorem C40_revocation_of_nothing_accepted (s : SigObj) (sk pk : CheckKey) (fps : List Str) (strict : Bool) (now : Option Int) (ht : s.sigType = 0x30) :
    validateSignature (.ok ()) s sk pk ⟨.ok fps, .ok none⟩ strict now = .ok (some (false, false)) := by
  unfold validateSignature
  simp only [ht]
  rfl

example := C40_revocation_of_nothing_accepted (exBy 0x30 1000) ⟨exId, exId, 5, .ok .never, []⟩ ⟨exId, exId, 5, .ok .never, []⟩ [] true (some 9) rfl

/-- C40. A revocation of a certification that is found is accepted exactly if the key it is checked with issued that certification or is one of the keys appointed
to revoke for the certified key (the last 16 digits of their fingerprints count), the certification was not made irrevocable, and the revocation is not older than
it. Otherwise it is rejected as an invalid signature. -/
theorem C40_revocation_rules (s t : SigObj) (sk pk : CheckKey) (fps ids : List Str) (rv : Option Bool) (a b : Int) (strict : Bool) (now : Option Int)
    (hs : s.sigType = 0x30) (hi : t.issuers = .ok ids) (hr : t.get .revocable = .ok rv) (ha : t.creationTime = .ok a) (hb : s.creationTime = .ok b) :
    (validateSignature (.ok ()) s sk pk ⟨.ok fps, .ok (some t)⟩ strict now = .ok (some (false, false)) ↔
      (sk.keyId ∈ ids ∨ ∃ f ∈ fps, sk.keyId = f.drop (f.length - 16)) ∧ rv ≠ some false ∧ a ≤ b) ∧
    (validateSignature (.ok ()) s sk pk ⟨.ok fps, .ok (some t)⟩ strict now ≠ .ok (some (false, false)) →
      ∃ e, e.isInvalidSignature = true ∧ validateSignature (.ok ()) s sk pk ⟨.ok fps, .ok (some t)⟩ strict now = .error e) := by
  have hv : validateSignature (.ok ()) s sk pk ⟨.ok fps, .ok (some t)⟩ strict now =
      (validateCertRevocation sk s ⟨.ok fps, .ok (some t)⟩ >>= fun r => .ok (some r)) := by
    unfold validateSignature
    simp only [hs]
    rfl
  have hm : sk.keyId ∈ fps.map (tailN 16) ↔ ∃ f ∈ fps, sk.keyId = f.drop (f.length - 16) := by
    rw [List.mem_map]
    exact ⟨fun ⟨f, hf, e⟩ => ⟨f, hf, e.symm⟩, fun ⟨f, hf, e⟩ => ⟨f, hf, e.symm⟩⟩
  rw [hv]
  simp only [validateCertRevocation, hi, hr, ha, hb, except_bind_ok, ← hm]
  by_cases h1 : sk.keyId ∉ ids ∧ sk.keyId ∉ fps.map (tailN 16)
  · rw [if_pos h1]
    refine ⟨⟨nofun, fun h => ?_⟩, fun _ => ⟨_, by decide +kernel, rfl⟩⟩
    rcases h.1 with h | h
    · exact absurd h h1.1
    · exact absurd h h1.2
  · have h1' : sk.keyId ∈ ids ∨ sk.keyId ∈ fps.map (tailN 16) := by
      by_contra hc
      exact h1 (not_or.mp hc)
    rw [if_neg h1]
    by_cases h2 : rv = some false
    · rw [if_pos h2]
      exact ⟨⟨nofun, fun h => absurd h2 h.2.1⟩, fun _ => ⟨_, by decide +kernel, rfl⟩⟩
    · rw [if_neg h2]
      by_cases h3 : a > b
      · rw [if_pos h3]
        exact ⟨⟨nofun, fun h => absurd h.2.2 (by omega)⟩, fun _ => ⟨_, by decide +kernel, rfl⟩⟩
      · rw [if_neg h3]
        exact ⟨⟨fun _ => ⟨h1', h2, by omega⟩, fun _ => rfl⟩, fun h => absurd rfl h⟩

example := C40_revocation_rules (exBy 0x30 1000) (exBy 0x10 900) ⟨exId, exId, 5, .ok .never, []⟩ ⟨exId, exId, 5, .ok .never, []⟩ [] [exId] none (fromTimestamp 900) (fromTimestamp 1000) true (some 2000)
  (by decide +kernel) (by decide +kernel) (by decide +kernel) (by decide +kernel) (by decide +kernel)

/-- C40 fails: a revocation of a key by anyone but the key itself gets no verdict: an appointed revoker is looked for in the revocations instead of the
self-signatures, and is compared with the revoked key instead of the one that signed. -/
theorem C40_revoker_no_verdict_refuted (s : SigObj) (sk pk : CheckKey) (ctx : RevCtx) (strict : Bool) (now : Option Int) (hs : s.sigType = 0x20) (ids : List Str)
    (hi : s.issuers = .ok ids) (hn : pk.keyId ∉ ids) (hap : ∀ x ∈ pk.sigs, x.sigType = 0x20 → AppointsReadably x) (hid : pk.keyId.length = 16) :
    (validateSignature (.ok ()) s sk pk ctx strict now = .ok none ↔
      ¬∃ x ∈ pk.sigs, x.sigType = 0x20 ∧ ∃ c fp cls alg, Sub.plain c (.revocationKey fp cls alg) ∈ x.subs 12 ∧ lastChars 16 fp = pk.keyId) ∧
    (validateSignature (.ok ()) s sk pk ctx strict now ≠ .ok none → validateSignature (.ok ()) s sk pk ctx strict now = .error .typeError) := by
  have hrk : ∀ l : List SigObj, (∀ x ∈ l, x.sigType = 0x20 → AppointsReadably x) → ∃ rk, getRevocationKeys l = .ok rk ∧ ∀ e, e ∈ rk ↔
      ∃ x ∈ l, x.sigType = 0x20 ∧ ∃ c fp cls alg, Sub.plain c (.revocationKey fp cls alg) ∈ x.subs 12 ∧ lastChars 16 fp = e := by
    intro l hl
    induction l with
    | nil => exact ⟨[], rfl, by simp⟩
    | cons x l ih =>
      obtain ⟨r, hr, hm⟩ := ih (fun y hy => hl y (List.mem_cons_of_mem _ hy))
      by_cases ht : x.sigType = 0x20
      · obtain ⟨f, hf⟩ := revFingerprints_ok (hl x List.mem_cons_self ht)
        refine ⟨f.map (tailN 16) ++ r, by simp only [getRevocationKeys, if_pos ht, hf, hr, except_bind_ok]; rfl, ?_⟩
        intro e
        rw [List.mem_append, List.mem_map, hm]
        constructor
        · rintro (⟨fp, hfp, rfl⟩ | ⟨y, hy, h⟩)
          · obtain ⟨c, cls, alg, h⟩ := (revFingerprints_mem _ _ hf fp).mp hfp
            exact ⟨x, List.mem_cons_self, ht, c, fp, cls, alg, h, rfl⟩
          · exact ⟨y, List.mem_cons_of_mem _ hy, h⟩
        · rintro ⟨y, hy, h1, c, fp, cls, alg, h2, h3⟩
          rcases List.mem_cons.mp hy with rfl | hy
          · exact .inl ⟨fp, (revFingerprints_mem _ _ hf fp).mpr ⟨c, cls, alg, h2⟩, h3⟩
          · exact .inr ⟨y, hy, h1, c, fp, cls, alg, h2, h3⟩
      · refine ⟨r, by simp only [getRevocationKeys, if_neg ht, hr], ?_⟩
        intro e
        rw [hm]
        constructor
        · rintro ⟨y, hy, h⟩; exact ⟨y, List.mem_cons_of_mem _ hy, h⟩
        · rintro ⟨y, hy, h1, h⟩
          rcases List.mem_cons.mp hy with rfl | hy
          · exact absurd h1 ht
          · exact ⟨y, hy, h1, h⟩
  obtain ⟨rk, hrk, hm⟩ := hrk pk.sigs hap
  have hlen : ∀ fp : Str, tailN pk.keyId.length (lastChars 16 fp) = pk.keyId ↔ lastChars 16 fp = pk.keyId := by
    intro fp
    have : tailN pk.keyId.length (lastChars 16 fp) = lastChars 16 fp := by
      have hl : (lastChars 16 fp).length ≤ 16 := by simp only [lastChars, List.length_drop]; omega
      unfold tailN
      rw [hid, show (lastChars 16 fp).length - 16 = 0 by omega]
      rfl
    rw [this]
  have hv : validateSignature (.ok ()) s sk pk ctx strict now = checkRevocationKeys pk s sk strict now := by
    simp only [validateSignature, except_bind_ok, hs, if_true, hi, if_pos hn]
  have hany : rk.any (fun rk => tailN pk.keyId.length rk = pk.keyId) = true ↔
      ∃ x ∈ pk.sigs, x.sigType = 0x20 ∧ ∃ c fp cls alg, Sub.plain c (.revocationKey fp cls alg) ∈ x.subs 12 ∧ lastChars 16 fp = pk.keyId := by
    rw [List.any_eq_true]
    constructor
    · rintro ⟨e, he, h⟩
      obtain ⟨x, hx, h1, c, fp, cls, alg, h2, rfl⟩ := (hm e).mp he
      exact ⟨x, hx, h1, c, fp, cls, alg, h2, (hlen fp).mp (of_decide_eq_true h)⟩
    · rintro ⟨x, hx, h1, c, fp, cls, alg, h2, h3⟩
      exact ⟨lastChars 16 fp, (hm _).mpr ⟨x, hx, h1, c, fp, cls, alg, h2, rfl⟩, decide_eq_true ((hlen fp).mpr h3)⟩
  rw [hv, ← hany]
  simp only [checkRevocationKeys, hrk, except_bind_ok]
  by_cases h : rk.any (fun rk => tailN pk.keyId.length rk = pk.keyId) = true
  · rw [if_pos h]
    exact ⟨⟨nofun, fun h' => absurd h h'⟩, fun _ => rfl⟩
  · rw [if_neg h]
    exact ⟨⟨fun _ => h, fun _ => rfl⟩, fun h' => absurd rfl h'⟩

/-- A key revocation by the key it appointed in a direct signature. -/
example := C40_revoker_no_verdict_refuted (exOther 0x20 1000) ⟨"FEDCBA9876543210".toList, "FEDCBA9876543210".toList, 5, .ok .never, []⟩
  ⟨exId, exId, 5, .ok .never, [exSigOf 0x1f 900 "0123456789ABCDEF" [.plain false (.revocationKey "000000000000000000000000FEDCBA9876543210".toList 1 false)], exOther 0x20 1000]⟩
  ⟨.ok [], .ok none⟩ true (some 9) rfl _ rfl (by decide)
  (fun x hx h u hu => by
    simp only [List.mem_cons, List.not_mem_nil, or_false] at hx
    rcases hx with rfl | rfl
    · exact absurd h (by decide)
    · cases hu) (by decide)

/-- C40 fails: for every certification, direct signature, subkey binding and revocation by the key itself or a subkey revocation, with a key to check it with at hand,
checking ends in a TypeError that is not caught, so that the signatures behind it are not looked at either. -/
theorem C40_checking_stops_refuted (s : SigObj) (pk sk : CheckKey) (ctx : RevCtx) (strict stale : Bool) (mark : Option Bool) (unknown : Nat) (l : List (Option CheckKey))
    (hs : s.sigType ∈ [0x10, 0x11, 0x12, 0x13, 0x1f, 0x28] ∨ s.sigType ∈ [0x18, 0x20] ∧ ∃ ids, s.issuers = .ok ids ∧ pk.keyId ∈ ids) :
    validateOne (fun k => validateSignature (.ok ()) s k pk ctx strict none) stale mark (List.replicate unknown none ++ some sk :: l) = .error .typeError := by
  have hv : validateSignature (.ok ()) s sk pk ctx strict none = .error .typeError := by
    rcases hs with hs | ⟨hs, ids, hi, hm⟩
    · simp only [List.mem_cons, List.not_mem_nil, or_false] at hs
      rcases hs with h | h | h | h | h | h <;> simp only [validateSignature, h] <;> rfl
    · simp only [List.mem_cons, List.not_mem_nil, or_false] at hs
      rcases hs with h | h <;> simp only [validateSignature, h, hi, except_bind_ok, if_neg (not_not.mpr hm)] <;> rfl
  induction unknown with
  | zero =>
    rw [List.replicate_zero, List.nil_append]
    simp only [validateOne, hv]
    rfl
  | succ n ih => exact ih

example := C40_checking_stops_refuted (exBy 0x13 1000) ⟨exId, exId, 5, .ok .never, []⟩ ⟨exId, exId, 5, .ok .never, []⟩ ⟨.ok [], .ok none⟩ true false none 2 [] (.inl (by decide))

/-- C40. Of a signature of a type that has no place on a key, or a revocation that is rejected (`C40_revocation_rules`), the mark is None or False: never True. With the
first such signature of the former kind there is an UnboundLocalError instead, as the mark is followed by the values of an earlier check. -/
theorem C40_misplaced (s : SigObj) (pk sk : CheckKey) (ctx : RevCtx) (strict : Bool) (mark : Option Bool) (l : List (Option CheckKey))
    (hs : s.sigType ∉ [0x10, 0x11, 0x12, 0x13, 0x18, 0x1f, 0x20, 0x28, 0x30]) :
    validateOne (fun k => validateSignature (.ok ()) s k pk ctx strict none) false mark (some sk :: l) = .error .unboundLocal ∧
    validateOne (fun k => validateSignature (.ok ()) s k pk ctx strict none) true mark (some sk :: l) = .ok none := by
  have hv : ∀ k, validateSignature (.ok ()) s k pk ctx strict none = .error (.pgp "UnexpectedSignatureType") := by
    intro k
    simp only [List.mem_cons, List.not_mem_nil, or_false, not_or] at hs
    obtain ⟨h0, h1, h2, h3, h4, h5, h6, h7, h8⟩ := hs
    simp only [validateSignature, except_bind_ok, h4, h5, h6, h7, h8, if_false, List.mem_cons, List.not_mem_nil, or_false, h0, h1, h2, h3]
    split <;> rfl
  have hstale : ∀ (l : List (Option CheckKey)), validateOne (fun k => validateSignature (.ok ()) s k pk ctx strict none) true none l = .ok none := by
    intro l
    induction l with
    | nil => rfl
    | cons o l ih =>
      cases o with
      | none => exact ih
      | some k =>
        simp only [validateOne, hv]
        rw [if_neg (by decide +kernel), if_pos (by decide +kernel), if_pos trivial]
        simpa only [hv] using ih
  constructor
  · simp only [validateOne, hv]
    rw [if_neg (by decide +kernel), if_pos (by decide +kernel), if_neg (by decide)]
  · simp only [validateOne, hv]
    rw [if_neg (by decide +kernel), if_pos (by decide +kernel), if_pos trivial]
    simpa only [hv] using hstale l

example := C40_misplaced (exBy 0x19 1000) ⟨exId, exId, 5, .ok .never, []⟩ ⟨exId, exId, 5, .ok .never, []⟩ ⟨.ok [], .ok none⟩ true none [] (by decide)

/-- C40 fails: no certification, binding, direct signature or key revocation is ever marked as validated. -/
theorem C40_never_marked_valid (hashing : Py Unit) (s : SigObj) (pk : CheckKey) (ctx : RevCtx) (strict stale : Bool) (hm : s.sigType ≠ 0x30) (mark : Option Bool)
    (hmark : mark ≠ some true) (l : List (Option CheckKey)) :
    validateOne (fun sk => validateSignature hashing s sk pk ctx strict none) stale mark l ≠ .ok (some true) := by
  induction l generalizing mark with
  | nil => intro h; cases h; exact hmark rfl
  | cons o l ih =>
    cases o with
    | none => exact ih mark hmark
    | some sk =>
      simp only [validateOne]
      cases hv : validateSignature hashing s sk pk ctx strict none with
      | ok v =>
        cases v with
        | none => intro h; cases h
        | some r => exact absurd (C40_validate_accepts_only_revocations hashing s sk pk ctx strict none r hv) hm
      | error e =>
        simp only
        split
        · intro h; cases h
        · split
          · split
            · exact ih none (by simp)
            · intro h; cases h
          · intro h; cases h

example := C40_never_marked_valid (.ok ()) (exBy 0x13 1000) ⟨exId, exId, 5, .ok .never, []⟩ ⟨.ok [], .ok none⟩ true false (by decide) none (by decide)
  [some ⟨exId, exId, 5, .ok .never, []⟩, none]

/-! ### Merging (C39) -/

/-- C39 fails: merging with another copy of a key that has a signature on the key itself always raises. -/
theorem C39_direct_signature_raises {P : Type} (eqv : P → P → Bool) (key candidate : MKey P) (he : eqv key.base candidate.base = true) (hs : candidate.sigs ≠ []) :
    Raises (merge eqv key candidate) := by
  have : Raises (mergeOwn candidate.sigs) := by
    match candidate.sigs, hs with
    | [], hs => exact absurd rfl hs
    | none :: l, _ => exact ⟨_, rfl⟩
    | some s :: l, _ =>
      cases h : signatureKey s with
      | error e => exact ⟨e, by simp only [mergeOwn, h]; rfl⟩
      | ok _ => exact ⟨.typeError, by simp only [mergeOwn, h]; rfl⟩
  obtain ⟨e, h⟩ := this
  exact ⟨e, by simp only [merge, he, Bool.not_true, Bool.false_eq_true, if_false, h]; rfl⟩

example := C39_direct_signature_raises (P := Nat) (fun a b => a == b) ⟨1, [], some [], some [], some []⟩ ⟨1, [some (exBy 0x1f 1000)], some [], some [], some []⟩ rfl
  (by simp)

/-- C39 fails: whenever merging two copies of a key succeeds, the key has lost its lists of user ids, attributes and subkeys (they become None), and every
part of both copies has lost all its signatures (a single None is left). -/
theorem C39_merge_loses_everything {P : Type} (eqv : P → P → Bool) (key candidate merged : MKey P) (parts : List (P × List (Option SigObj)))
    (he : eqv key.base candidate.base = true) (h : merge eqv key candidate = .ok (merged, parts)) :
    merged.uids = none ∧ merged.attrs = none ∧ merged.subs = none ∧ ∀ p ∈ parts, p.2 = [none] := by
  simp only [merge, he, Bool.not_true, Bool.false_eq_true, if_false] at h
  obtain ⟨_, _, h⟩ := except_bind_eq_ok.mp h
  obtain ⟨u, _, h⟩ := except_bind_eq_ok.mp h
  obtain ⟨u', hu, h⟩ := except_bind_eq_ok.mp h
  obtain ⟨a, _, h⟩ := except_bind_eq_ok.mp h
  obtain ⟨a', ha, h⟩ := except_bind_eq_ok.mp h
  obtain ⟨b, _, h⟩ := except_bind_eq_ok.mp h
  obtain ⟨b', hb, h⟩ := except_bind_eq_ok.mp h
  cases h
  have key : ∀ (l l' : List (P × List (Option SigObj))), mergeSigpairs l = .ok l' → ∀ p ∈ l', p.2 = [none] := by
    intro l l' h p hp
    unfold mergeSigpairs at h
    obtain ⟨_, _, h⟩ := except_bind_eq_ok.mp h
    cases h
    obtain ⟨q, _, rfl⟩ := List.mem_map.mp hp
    rfl
  refine ⟨rfl, rfl, rfl, ?_⟩
  intro p hp
  rcases List.mem_append.mp hp with hp | hp
  · rcases List.mem_append.mp hp with hp | hp
    · exact key u _ hu p hp
    · exact key a _ ha p hp
  · exact key b _ hb p hp

example := C39_merge_loses_everything (P := Nat) (fun a b => a == b) ⟨1, [], some [(2, [some (exBy 0x13 1000)])], some [], some []⟩
  ⟨1, [], some [(2, [some (exBy 0x13 2000)])], some [], some []⟩ ⟨1, [], none, none, none⟩ [(2, [none]), (2, [none])] rfl rfl

theorem forM_ok {α : Type} (f : α → Py Unit) (l : List α) (h : ∀ x ∈ l, f x = .ok ()) : l.forM f = (.ok () : Py Unit) := by
  induction l with
  | nil => rfl
  | cons x l ih =>
    show (f x >>= fun _ => l.forM f) = _
    rw [h x List.mem_cons_self]
    exact ih (fun y hy => h y (List.mem_cons_of_mem _ hy))

/-- C39. And it does succeed, with that result, for every two copies without direct signatures whose other signatures can all be read: all user ids, attributes,
subkeys of both are among the parts left without signatures. -/
theorem C39_merge_of_readable_keys {P : Type} (eqv : P → P → Bool) (key candidate : MKey P) (he : eqv key.base candidate.base = true) (hs : candidate.sigs = [])
    (u1 u2 a1 a2 s1 s2 : List (P × List (Option SigObj))) (hu1 : key.uids = some u1) (hu2 : candidate.uids = some u2) (ha1 : key.attrs = some a1)
    (ha2 : candidate.attrs = some a2) (hs1 : key.subs = some s1) (hs2 : candidate.subs = some s2)
    (hr : ∀ p ∈ (u1 ++ u2) ++ (a1 ++ a2) ++ (s1 ++ s2), ∀ x ∈ p.2, ∃ s, x = some s ∧ Readable s) :
    merge eqv key candidate = .ok (⟨key.base, key.sigs, none, none, none⟩, ((u1 ++ u2) ++ (a1 ++ a2) ++ (s1 ++ s2)).map (fun p => (p.1, [none]))) := by
  have hkeys : ∀ l : List (Option SigObj), (∀ x ∈ l, ∃ s, x = some s ∧ Readable s) → signatureKeys l = .ok () := by
    intro l hl
    induction l with
    | nil => rfl
    | cons x l ih =>
      obtain ⟨s, rfl, ⟨ids, h1⟩, t, h2⟩ := hl x List.mem_cons_self
      simp only [signatureKeys, signatureKey, h1, h2, except_bind_ok]
      exact ih (fun y hy => hl y (List.mem_cons_of_mem _ hy))
  have hsp : ∀ l : List (P × List (Option SigObj)), (∀ p ∈ l, ∀ x ∈ p.2, ∃ s, x = some s ∧ Readable s) →
      mergeSigpairs l = .ok (l.map (fun p => (p.1, [none]))) := by
    intro l hl
    unfold mergeSigpairs
    rw [forM_ok _ l (fun p hp => hkeys p.2 (hl p hp))]
    rfl
  simp only [merge, he, Bool.not_true, Bool.false_eq_true, if_false, hs, mergeOwn, except_bind_ok, hu1, hu2, ha1, ha2, hs1, hs2, addLists]
  rw [hsp (u1 ++ u2) (fun p hp => hr p (by simp only [List.mem_append] at *; tauto)),
    hsp (a1 ++ a2) (fun p hp => hr p (by simp only [List.mem_append] at *; tauto)),
    hsp (s1 ++ s2) (fun p hp => hr p (by simp only [List.mem_append] at *; tauto))]
  simp only [except_bind_ok, List.map_append]
  rfl

example := C39_merge_of_readable_keys (P := Nat) (fun a b => a == b) ⟨1, [], some [(2, [some (exBy 0x13 1000)])], some [], some []⟩
  ⟨1, [], some [(2, [some (exBy 0x13 2000)])], some [], some []⟩ rfl rfl _ _ _ _ _ _ rfl rfl rfl rfl rfl rfl (by
    intro p hp
    simp only [List.cons_append, List.nil_append, List.append_nil, List.mem_cons, List.not_mem_nil, or_false] at hp
    rcases hp with rfl | rfl <;> (intro x hx; rw [List.mem_singleton] at hx; subst hx; exact ⟨_, rfl, exBy_readable _ _⟩))

/-- C39. A key that is not another copy is left alone. -/
theorem C39_other_key_untouched_partial {P : Type} (eqv : P → P → Bool) (key candidate : MKey P) (he : eqv key.base candidate.base = false) :
    merge eqv key candidate = .ok (key, []) := by
  simp only [merge, he]
  rfl

/-! ### Concrete cases -/

/-- The older self-signature is chosen; the key is then said to expire 1000 seconds after the other (newer) one was made. -/
example : exPart.mostRecent false = .ok (some 1) ∧ exPart.expirationTime .never = .ok (.at 3000000000) := ⟨by decide +kernel, by decide +kernel⟩

/-- The same key with one self-signature never expires. -/
example : Expiring { exPart with sigs := exPart.sigs.take 1 } 0 (exSigOf 0x1f 2000 "0123456789ABCDEF" [.plain false (.keyExpiration 1000)]) 1000 ∧
    ({ exPart with sigs := exPart.sigs.take 1 } : Part).expirationTime .never = .ok .never := by
  refine ⟨⟨by decide, by decide +kernel, rfl, rfl, by decide, rfl, ?_⟩, by decide +kernel⟩
  intro x hx
  have : x = exSigOf 0x1f 2000 "0123456789ABCDEF" [.plain false (.keyExpiration 1000)] := by simpa [exPart] using hx
  subst this
  exact ⟨_, rfl⟩

/-- A user id with a certification and its revocation. -/
example : sigRevoked Nat.log2 [exSigOf 0x13 1000 "0123456789ABCDEF" [], exSigOf 0x30 2000 "0123456789ABCDEF" []] (exSigOf 0x13 1000 "0123456789ABCDEF" []) = .ok true := by
  decide +kernel

/-- A key of the checking rules, and a signature accepted in strict mode. -/
example : checkSignatureValues ⟨"0123456789ABCDEF".toList, "0123456789ABCDEF".toList, 5, .ok (.at 9000000000), []⟩ (exSigOf 0x13 1000 "0123456789ABCDEF" []) 2000000000 true =
    .ok (false, false) := by decide +kernel

end Pgp.Props
