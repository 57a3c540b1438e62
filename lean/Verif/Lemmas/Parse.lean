import Verif.Spec.Parse
import Verif.Lemmas.Utils
import Verif.Lemmas.Hex
import Verif.Lemmas.Text
/-
Lemmas about the pgpdump based signature parser.
-/
namespace Pgp
open Spec

/-- The subpacket type that decides a field. -/
def ownerType : PField → Option Nat
  | .creationTime => some 2
  | .expirationSeconds => some 3
  | .exportable => some 4
  | .trustLevel => some 5
  | .trustAmount => some 5
  | .revocable => some 7
  | .keyExpirationSeconds => some 9
  | .preferredSym => some 11
  | .revocationKeySensitive => some 12
  | .revocationKeyAlg => some 12
  | .revocationKey => some 12
  | .preferredHash => some 21
  | .preferredCompression => some 22
  | .keyServerNoModify => some 23
  | .preferredKeyServer => some 24
  | .primary => some 25
  | .policyUri => some 26
  | .mayCertifyOthers => some 27
  | .maySignData => some 27
  | .mayEncryptComms => some 27
  | .mayEncryptStorage => some 27
  | .mayHaveBeenSplit => some 27
  | .mayBeUsedForAuth => some 27
  | .mayHaveMultipleOwners => some 27
  | .userId => some 28
  | .revocationCode => some 29
  | .revocationReason => some 29
  | .supportsModification => some 30
  | .targetPubAlg => some 31
  | .targetHashAlg => some 31
  | .targetHash => some 31
  | .target => none
  | .regex => none
  | .hashAlgorithmType => none
  | .pubAlgorithmType => none
  | .sigType => none
  | .sigVersion => none

/-- A step that touches only the fields of one subpacket type. -/
structure Frame (t : Nat) (s s' : PSig) : Prop where
  vals : ∀ k, ownerType k ≠ some t → s'.vals k = s.vals k
  hashed : s'.hashed = s.hashed
  selfsig : s'.selfsig = s.selfsig

theorem Frame.refl (t : Nat) (s : PSig) : Frame t s s := ⟨fun _ _ => rfl, rfl, rfl⟩

theorem Frame.set {t : Nat} {s s' : PSig} (h : Frame t s s') {k : PField} (hk : ownerType k = some t) (v : PVal) : Frame t s (s'.set k v) := by
  refine ⟨fun j hj => ?_, h.hashed, h.selfsig⟩
  have : j ≠ k := fun e => hj (by rw [e, hk])
  simp only [PSig.set, if_neg this]
  exact h.vals j hj

theorem PSig.set_self (s : PSig) (k : PField) (v : PVal) : (s.set k v).vals k = some v := by simp [PSig.set]

theorem PSig.set_ne {s : PSig} {j k : PField} (h : j ≠ k) (v : PVal) : (s.set k v).vals j = s.vals j := by simp [PSig.set, h]

theorem frame_creation {sub : PSub} {s s' : PSig} (h : subCreation sub s = .ok s') : Frame 2 s s' := by
  unfold subCreation at h
  split at h
  · cases h; exact .refl _ _
  · obtain ⟨t, _, h⟩ := except_bind_eq_ok.mp h; cases h; exact (Frame.refl _ _).set rfl _

theorem frame_expiration {sub : PSub} {s s' : PSig} (h : subExpiration sub s = .ok s') : Frame 3 s s' := by
  unfold subExpiration at h
  obtain ⟨t, _, h⟩ := except_bind_eq_ok.mp h
  split at h
  · cases h; exact (Frame.refl _ _).set rfl _
  · cases h; exact .refl _ _

theorem frame_exportable {sub : PSub} {s s' : PSig} (h : subExportable sub s = .ok s') : Frame 4 s s' := by
  unfold subExportable at h
  obtain ⟨t, _, h⟩ := except_bind_eq_ok.mp h
  split at h
  · cases h
  · cases h; exact (Frame.refl _ _).set rfl _

theorem frame_trust {sub : PSub} {s s' : PSig} (h : subTrust sub s = .ok s') : Frame 5 s s' := by
  unfold subTrust at h
  obtain ⟨t, _, h⟩ := except_bind_eq_ok.mp h
  obtain ⟨a, _, h⟩ := except_bind_eq_ok.mp h
  cases h; exact ((Frame.refl _ _).set rfl _).set rfl _

theorem frame_regex {t : Nat} {sub : PSub} {s s' : PSig} (h : subRegex sub s = .ok s') : Frame t s s' := by
  unfold subRegex at h
  obtain ⟨r, _, h⟩ := except_bind_eq_ok.mp h
  cases r with
  | some _ => cases h; exact .refl _ _
  | none => cases h; exact ⟨fun _ _ => rfl, rfl, rfl⟩

theorem frame_revocable {sub : PSub} {s s' : PSig} (h : subRevocable sub s = .ok s') : Frame 7 s s' := by
  unfold subRevocable at h
  obtain ⟨t, _, h⟩ := except_bind_eq_ok.mp h
  cases h; exact (Frame.refl _ _).set rfl _

theorem frame_keyExpiration {env : PEnv} {sub : PSub} {s s' : PSig} (h : subKeyExpiration env sub s = .ok s') : Frame 9 s s' := by
  unfold subKeyExpiration at h
  split at h
  · cases h; exact .refl _ _
  · obtain ⟨t, _, h⟩ := except_bind_eq_ok.mp h
    split at h
    · cases h; exact .refl _ _
    · cases h; exact (Frame.refl _ _).set rfl _

theorem frame_preferences {t : Nat} {k : PField} (hk : ownerType k = some t) {env : PEnv} {sub : PSub} {s s' : PSig} (h : subPreferences k env sub s = .ok s') :
    Frame t s s' := by
  unfold subPreferences at h
  split at h
  · cases h; exact .refl _ _
  · cases h; exact (Frame.refl _ _).set hk _

theorem frame_revocationKey {sub : PSub} {s s' : PSig} (h : subRevocationKey sub s = .ok s') : Frame 12 s s' := by
  unfold subRevocationKey at h
  obtain ⟨t, _, h⟩ := except_bind_eq_ok.mp h
  split at h
  · cases h; exact .refl _ _
  · obtain ⟨a, _, h⟩ := except_bind_eq_ok.mp h
    obtain ⟨x, _, h⟩ := except_bind_eq_ok.mp h
    cases h; exact (((Frame.refl _ _).set rfl _).set rfl _).set rfl _

theorem frame_issuer {t : Nat} {sub : PSub} {s s' : PSig} (h : subIssuer sub s = .ok s') : Frame t s s' := by
  unfold subIssuer at h
  obtain ⟨r, _, h⟩ := except_bind_eq_ok.mp h
  cases h; exact ⟨fun _ _ => rfl, rfl, rfl⟩

theorem frame_notation {t : Nat} {sub : PSub} {s s' : PSig} (h : subNotation sub s = .ok s') : Frame t s s' := by
  unfold subNotation at h
  obtain ⟨r, _, h⟩ := except_bind_eq_ok.mp h
  cases r with
  | none => cases h; exact .refl _ _
  | some n =>
    simp only at h
    split at h
    · cases h
    · cases h; exact ⟨fun _ _ => rfl, rfl, rfl⟩

theorem frame_noModify {env : PEnv} {sub : PSub} {s s' : PSig} (h : subNoModify env sub s = .ok s') : Frame 23 s s' := by
  unfold subNoModify at h
  split at h
  · cases h; exact .refl _ _
  · obtain ⟨t, _, h⟩ := except_bind_eq_ok.mp h
    split at h
    · cases h; exact .refl _ _
    · cases h; exact (Frame.refl _ _).set rfl _

theorem frame_text {t : Nat} {k : PField} (hk : ownerType k = some t) {sub : PSub} {s s' : PSig} (h : subText k sub s = .ok s') : Frame t s s' := by
  unfold subText at h
  cases h; exact (Frame.refl _ _).set hk _

theorem frame_primary {env : PEnv} {sub : PSub} {s s' : PSig} (h : subPrimary env sub s = .ok s') : Frame 25 s s' := by
  unfold subPrimary at h
  split at h
  · cases h; exact .refl _ _
  · split at h
    · cases h; exact .refl _ _
    · obtain ⟨t, _, h⟩ := except_bind_eq_ok.mp h
      cases h; exact (Frame.refl _ _).set rfl _

theorem frame_keyFlags {env : PEnv} {sub : PSub} {s s' : PSig} (h : subKeyFlags env sub s = .ok s') : Frame 27 s s' := by
  unfold subKeyFlags at h
  obtain ⟨t, _, h⟩ := except_bind_eq_ok.mp h
  split at h
  · cases h; exact (((((((Frame.refl _ _).set rfl _).set rfl _).set rfl _).set rfl _).set rfl _).set rfl _).set rfl _
  · cases h; exact (((((Frame.refl _ _).set rfl _).set rfl _).set rfl _).set rfl _).set rfl _

theorem frame_revocationReason {env : PEnv} {sub : PSub} {s s' : PSig} (h : subRevocationReason env sub s = .ok s') : Frame 29 s s' := by
  unfold subRevocationReason at h
  split at h
  · cases h; exact .refl _ _
  · obtain ⟨t, _, h⟩ := except_bind_eq_ok.mp h
    split at h
    · cases h; exact ((Frame.refl _ _).set rfl _).set rfl _
    · cases h; exact .refl _ _

theorem frame_features {env : PEnv} {sub : PSub} {s s' : PSig} (h : subFeatures env sub s = .ok s') : Frame 30 s s' := by
  unfold subFeatures at h
  split at h
  · cases h; exact .refl _ _
  · obtain ⟨t, _, h⟩ := except_bind_eq_ok.mp h
    split at h
    · cases h; exact .refl _ _
    · split at h
      · cases h; exact .refl _ _
      · cases h; exact (Frame.refl _ _).set rfl _

theorem frame_target {sub : PSub} {s s' : PSig} (h : subTarget sub s = .ok s') : Frame 31 s s' := by
  unfold subTarget at h
  obtain ⟨t, _, h⟩ := except_bind_eq_ok.mp h
  obtain ⟨a, _, h⟩ := except_bind_eq_ok.mp h
  obtain ⟨x, _, h⟩ := except_bind_eq_ok.mp h
  cases h; exact (((Frame.refl _ _).set rfl _).set rfl _).set rfl _

theorem sigHeader_none (p : PSigPacket) : Raises (sigHeader p none) := by
  unfold sigHeader
  split
  · exact ⟨_, rfl⟩
  · split
    · cases issuerLoop p.subpackets (sigStart p) with
      | error e => exact ⟨e, rfl⟩
      | ok s => exact ⟨_, rfl⟩
    · exact ⟨_, rfl⟩

theorem subEmbedded_raises (embed : Bytes → Py PSigPacket) (sub : PSub) : Raises (subEmbedded embed sub) := by
  unfold subEmbedded
  cases embed sub.data with
  | error e => exact ⟨e, rfl⟩
  | ok p => exact sigHeader_none p

theorem frame_parseSub {embed : Bytes → Py PSigPacket} {env : PEnv} {sub : PSub} {s s' : PSig} (h : parseSub embed env sub s = .ok s') : Frame sub.subtype s s' := by
  unfold parseSub at h
  split at h
  all_goals rename_i hs
  all_goals try rw [hs]
  · exact frame_creation h
  · exact frame_expiration h
  · exact frame_exportable h
  · exact frame_trust h
  · exact frame_regex h
  · exact frame_revocable h
  · exact frame_keyExpiration h
  · exact frame_preferences rfl h
  · exact frame_revocationKey h
  · exact frame_issuer h
  · exact frame_notation h
  · exact frame_preferences rfl h
  · exact frame_preferences rfl h
  · exact frame_noModify h
  · exact frame_text rfl h
  · exact frame_primary h
  · exact frame_text rfl h
  · exact frame_keyFlags h
  · exact frame_text rfl h
  · exact frame_revocationReason h
  · exact frame_features h
  · exact frame_target h
  · obtain ⟨e, he⟩ := subEmbedded_raises embed sub; rw [he] at h; cases h
  · unfold subUnknown at h
    split at h
    · cases h
    · cases h; exact .refl _ _

/-- The subpacket has no meaning. -/
theorem parseSub_unknown {embed : Bytes → Py PSigPacket} {env : PEnv} {sub : PSub} {s : PSig} (h : sub.subtype ∉ definedSubtypes) :
    parseSub embed env sub s = subUnknown sub s := by
  unfold parseSub
  split
  case h_24 => rfl
  all_goals (rename_i hs; rw [hs] at h; exact absurd (by decide) h)

theorem subLoop_append (embed : Bytes → Py PSigPacket) (env : PEnv) (sh : Bool) (a b : List PSub) (s : PSig) (d : List (Nat × Bool)) :
    subLoop embed env sh (a ++ b) s d = subLoop embed env sh a s d >>= fun r => subLoop embed env sh b r.1 r.2 := by
  induction a generalizing s d with
  | nil => rfl
  | cons x a ih =>
    simp only [List.cons_append, subLoop]
    split
    · exact ih s d
    · cases parseSub embed env x s with
      | error e => rfl
      | ok s' => simp only [except_bind_ok]; exact ih _ _

theorem issuerLoop_filter (l : List PSub) (s : PSig) : issuerLoop l s = issuerLoop (l.filter fun x => x.subtype = 16) s := by
  induction l generalizing s with
  | nil => rfl
  | cons x l ih =>
    simp only [issuerLoop]
    by_cases h : x.subtype = 16
    · rw [if_pos h, List.filter_cons_of_pos (by simpa using h)]
      simp only [issuerLoop, if_pos h]
      cases subIssuer x s with
      | error e => rfl
      | ok s' => simp only [except_bind_ok]; exact ih s'
    · rw [if_neg h, List.filter_cons_of_neg (by simpa using h)]; exact ih s

/-- The header depends on the issuer subpackets only. -/
theorem sigHeader_congr {p q : PSigPacket} (hs : q = { p with subpackets := q.subpackets })
    (h : q.subpackets.filter (fun x => x.subtype = 16) = p.subpackets.filter (fun x => x.subtype = 16)) (parents : Option (List (Option Str))) :
    sigHeader q parents = sigHeader p parents := by
  rw [hs]
  simp only [sigHeader]
  rw [show sigStart { p with subpackets := q.subpackets } = sigStart p from rfl, issuerLoop_filter q.subpackets, h, ← issuerLoop_filter]

/-- What the second loop leaves alone. -/
theorem subLoop_frame {embed : Bytes → Py PSigPacket} {env : PEnv} {sh : Bool} {l : List PSub} {s s' : PSig} {d d' : List (Nat × Bool)}
    (h : subLoop embed env sh l s d = .ok (s', d')) : s'.hashed = s.hashed ∧ s'.selfsig = s.selfsig ∧
    ∀ k, (∀ x ∈ l, ownerType k ≠ some x.subtype) → s'.vals k = s.vals k := by
  induction l generalizing s d with
  | nil => cases h; exact ⟨rfl, rfl, fun _ _ => rfl⟩
  | cons x l ih =>
    simp only [subLoop] at h
    split at h
    · obtain ⟨h1, h2, h3⟩ := ih h
      exact ⟨h1, h2, fun k hk => h3 k fun y hy => hk y (List.mem_cons_of_mem _ hy)⟩
    · obtain ⟨s1, hp, h⟩ := except_bind_eq_ok.mp h
      obtain ⟨h1, h2, h3⟩ := ih h
      have f := frame_parseSub hp
      refine ⟨h1.trans f.hashed, h2.trans f.selfsig, fun k hk => ?_⟩
      rw [h3 k fun y hy => hk y (List.mem_cons_of_mem _ hy)]
      exact f.vals k (hk x List.mem_cons_self)

theorem parse_ok_v4 {embed : Bytes → Py PSigPacket} {p : PSigPacket} {owner : Nat} {parents : Option (List (Option Str))} {sh : Bool} (hv : 4 ≤ p.version) :
    parseSigPacket embed p owner parents sh = sigHeader p parents >>= fun s =>
      subLoop embed ⟨s.selfsig, p.sigType, owner⟩ sh p.subpackets s [] >>= fun r => hashedNames r.2 >>= fun names => .ok { r.1 with hashed := r.1.hashed ++ names } := by
  unfold parseSigPacket
  cases sigHeader p parents with
  | error e => rfl
  | ok s => simp only [except_bind_ok, if_neg (show ¬(p.version = 2 ∨ p.version = 3) by omega)]; rfl

/-! ### The dictionary of flags -/

theorem mem_dictSet {d : List (Nat × Bool)} {k : Nat} {v : Bool} {x : Nat × Bool} (h : x ∈ dictSet d k v) : x = (k, v) ∨ x ∈ d := by
  induction d with
  | nil => simp only [dictSet, List.mem_singleton] at h; exact .inl h
  | cons y d ih =>
    obtain ⟨j, w⟩ := y
    simp only [dictSet] at h
    split at h
    · rcases List.mem_cons.mp h with h | h
      · exact .inl h
      · exact .inr (List.mem_cons_of_mem _ h)
    · rcases List.mem_cons.mp h with h | h
      · exact .inr (h ▸ List.mem_cons_self)
      · rcases ih h with h | h
        · exact .inl h
        · exact .inr (List.mem_cons_of_mem _ h)

def dictKeys (d : List (Nat × Bool)) : List Nat := d.map (·.1)

theorem dictKeys_set (d : List (Nat × Bool)) (k : Nat) (v : Bool) : dictKeys (dictSet d k v) = if k ∈ dictKeys d then dictKeys d else dictKeys d ++ [k] := by
  induction d with
  | nil => rfl
  | cons y d ih =>
    obtain ⟨j, w⟩ := y
    simp only [dictSet]
    split
    · rename_i h; subst h; simp [dictKeys]
    · rename_i h
      have hj : ¬ k = j := fun e => h e.symm
      rw [show dictKeys ((j, w) :: dictSet d k v) = j :: dictKeys (dictSet d k v) from rfl, ih, show dictKeys ((j, w) :: d) = j :: dictKeys d from rfl]
      by_cases hk : k ∈ dictKeys d
      · simp [hk]
      · simp [hk, hj]

theorem dictKeys_nodup {d : List (Nat × Bool)} (h : (dictKeys d).Nodup) (k : Nat) (v : Bool) : (dictKeys (dictSet d k v)).Nodup := by
  rw [dictKeys_set]
  split
  · exact h
  · rename_i hk
    rw [List.nodup_append]
    refine ⟨h, by simp, ?_⟩
    intro a ha b hb e
    rw [List.mem_singleton] at hb
    exact hk (by rw [← hb, ← e]; exact ha)

theorem mem_dictSet_self {d : List (Nat × Bool)} (h : (dictKeys d).Nodup) {k : Nat} {v w : Bool} : (k, w) ∈ dictSet d k v → w = v := by
  induction d with
  | nil => intro hm; simp only [dictSet, List.mem_singleton, Prod.mk.injEq] at hm; exact hm.2
  | cons y d ih =>
    obtain ⟨j, u⟩ := y
    simp only [dictKeys, List.map_cons, List.nodup_cons] at h
    intro hm
    simp only [dictSet] at hm
    split at hm
    · rename_i e
      rcases List.mem_cons.mp hm with hm | hm
      · cases hm; rfl
      · exact absurd (List.mem_map_of_mem hm) (by rw [← e]; exact h.1)
    · rename_i e
      rcases List.mem_cons.mp hm with hm | hm
      · cases hm; exact absurd rfl e
      · exact ih h.2 hm

theorem dictSet_has (d : List (Nat × Bool)) (k : Nat) (v : Bool) : (k, v) ∈ dictSet d k v := by
  induction d with
  | nil => exact List.mem_singleton.mpr rfl
  | cons y d ih =>
    obtain ⟨j, u⟩ := y
    simp only [dictSet]
    split
    · exact List.mem_cons_self
    · exact List.mem_cons_of_mem _ ih

theorem dictSet_filter (d : List (Nat × Bool)) (k j : Nat) (v : Bool) :
    (dictSet d k v).filter (fun x => x.1 ≠ j) = if k = j then d.filter (fun x => x.1 ≠ j) else dictSet (d.filter fun x => x.1 ≠ j) k v := by
  induction d with
  | nil =>
    by_cases h : k = j
    · simp [dictSet, h]
    · simp [dictSet, h]
  | cons y d ih =>
    obtain ⟨i, u⟩ := y
    simp only [dictSet]
    split
    · rename_i e; subst e
      by_cases h : i = j
      · simp [h]
      · simp [h, dictSet]
    · rename_i e
      by_cases h : k = j
      · rw [if_pos h] at ih ⊢
        by_cases hi : i = j
        · simp [hi] at ih ⊢; exact ih
        · simp [hi] at ih ⊢; exact ih
      · rw [if_neg h] at ih ⊢
        by_cases hi : i = j
        · simp [hi] at ih ⊢; exact ih
        · simp [hi, dictSet, e] at ih ⊢; exact ih

/-- Names of the flags: only the flags set count. -/
theorem hashedNames_ok {d : List (Nat × Bool)} {names : List PField} (h : hashedNames d = .ok names) :
    ∀ n ∈ names, ∃ k keys, (k, true) ∈ d ∧ k ≠ 0 ∧ subpacketTypeToKeys k = some keys ∧ n ∈ keys := by
  induction d generalizing names with
  | nil => cases h; intro n hn; cases hn
  | cons y d ih =>
    obtain ⟨k, v⟩ := y
    simp only [hashedNames] at h
    split at h
    · intro n hn
      obtain ⟨a, b, h1, h2⟩ := ih h n hn
      exact ⟨a, b, List.mem_cons_of_mem _ h1, h2⟩
    · rename_i hc
      cases hk : subpacketTypeToKeys k with
      | none => rw [hk] at h; cases h
      | some keys =>
        rw [hk] at h
        obtain ⟨r, hr, h⟩ := except_bind_eq_ok.mp h
        cases h
        intro n hn
        rcases List.mem_append.mp hn with hn | hn
        · refine ⟨k, keys, ?_, fun e => hc (.inl e), hk, hn⟩
          have : v = true := by cases v with | true => rfl | false => exact absurd (Or.inr rfl) hc
          rw [this]; exact List.mem_cons_self
        · obtain ⟨a, b, h1, h2⟩ := ih hr n hn
          exact ⟨a, b, List.mem_cons_of_mem _ h1, h2⟩

/-- Flags that are not set, or of type 0, can be left out. -/
theorem hashedNames_filter {d : List (Nat × Bool)} {j : Nat} (h : ∀ v, (j, v) ∈ d → j = 0 ∨ v = false) :
    hashedNames d = hashedNames (d.filter fun x => x.1 ≠ j) := by
  induction d with
  | nil => rfl
  | cons y d ih =>
    obtain ⟨k, v⟩ := y
    have ih := ih fun v hv => h v (List.mem_cons_of_mem _ hv)
    by_cases hk : k = j
    · subst hk
      rw [List.filter_cons_of_neg (by simp)]
      simp only [hashedNames]
      rw [if_pos (h v List.mem_cons_self), ih]
    · rw [List.filter_cons_of_pos (by simpa using hk)]
      simp only [hashedNames, ih]

theorem hashedNames_bad {d : List (Nat × Bool)} {j : Nat} (hj : subpacketTypeToKeys j = none) (h0 : j ≠ 0) (h : (j, true) ∈ d) :
    hashedNames d = .error .typeError := by
  induction d with
  | nil => cases h
  | cons y d ih =>
    obtain ⟨k, v⟩ := y
    simp only [hashedNames]
    rcases List.mem_cons.mp h with e | h
    · cases e
      rw [if_neg (by simp [h0]), hj]
    · rw [ih h]
      split
      · rfl
      · split <;> rfl

theorem subLoop_nodup {embed : Bytes → Py PSigPacket} {env : PEnv} {sh : Bool} {l : List PSub} {s s' : PSig} {d d' : List (Nat × Bool)}
    (h : subLoop embed env sh l s d = .ok (s', d')) (hd : (dictKeys d).Nodup) : (dictKeys d').Nodup := by
  induction l generalizing s d with
  | nil => cases h; exact hd
  | cons x l ih =>
    simp only [subLoop] at h
    split at h
    · exact ih h hd
    · obtain ⟨s1, hp, h⟩ := except_bind_eq_ok.mp h
      refine ih h ?_
      split
      · exact hd
      · exact dictKeys_nodup hd _ _

/-- A flag that is set at the end: it was set by the last subpacket of its type. -/
theorem subLoop_flag {embed : Bytes → Py PSigPacket} {env : PEnv} {sh : Bool} {l : List PSub} {s s' : PSig} {d d' : List (Nat × Bool)}
    (h : subLoop embed env sh l s d = .ok (s', d')) (hd : (dictKeys d).Nodup) {k : Nat} {v : Bool} (hm : (k, v) ∈ d') :
    ((k, v) ∈ d ∧ ∀ x ∈ l, x.subtype = k → k ∈ [6, 16, 20, 32]) ∨
    ∃ a x b, l = a ++ x :: b ∧ x.subtype = k ∧ (sh || x.hashed) = v ∧ (∀ y ∈ b, y.subtype ≠ k) ∧ k ∉ [6, 16, 20, 32] := by
  induction l generalizing s d with
  | nil => cases h; exact .inl ⟨hm, by simp⟩
  | cons x l ih =>
    simp only [subLoop] at h
    split at h
    · rename_i h16
      rcases ih h hd with ⟨h1, h2⟩ | ⟨a, y, b, h1, h2⟩
      · refine .inl ⟨h1, fun y hy e => ?_⟩
        rcases List.mem_cons.mp hy with rfl | hy
        · rw [← e, h16]; decide
        · exact h2 y hy e
      · exact .inr ⟨x :: a, y, b, by rw [h1]; rfl, h2⟩
    · obtain ⟨s1, hp, h⟩ := except_bind_eq_ok.mp h
      have hd' : (dictKeys (if x.subtype ∈ [6, 16, 20, 32] then d else dictSet d x.subtype (sh || x.hashed))).Nodup := by
        split
        · exact hd
        · exact dictKeys_nodup hd _ _
      rcases ih h hd' with ⟨h1, h2⟩ | ⟨a, y, b, h1, h2⟩
      · split at h1
        · rename_i hx
          refine .inl ⟨h1, fun y hy e => ?_⟩
          rcases List.mem_cons.mp hy with rfl | hy
          · rw [← e]; exact hx
          · exact h2 y hy e
        · rename_i hx
          by_cases hk : x.subtype = k
          · subst hk
            have := mem_dictSet_self hd h1
            refine .inr ⟨[], x, l, rfl, rfl, this.symm, fun y hy e => hx (h2 y hy e), hx⟩
          · rcases mem_dictSet h1 with e | h1
            · cases e; exact absurd rfl hk
            · refine .inl ⟨h1, fun y hy e => ?_⟩
              rcases List.mem_cons.mp hy with rfl | hy
              · exact absurd e hk
              · exact h2 y hy e
      · exact .inr ⟨x :: a, y, b, by rw [h1]; rfl, h2⟩

/-- Another dictionary of flags does not change what is read. -/
theorem subLoop_dict {embed : Bytes → Py PSigPacket} {env : PEnv} {sh : Bool} {l : List PSub} {s s' : PSig} {d d' : List (Nat × Bool)}
    (h : subLoop embed env sh l s d = .ok (s', d')) (e : List (Nat × Bool)) {j : Nat} (he : e.filter (fun x => x.1 ≠ j) = d.filter (fun x => x.1 ≠ j)) :
    ∃ e', subLoop embed env sh l s e = .ok (s', e') ∧ e'.filter (fun x => x.1 ≠ j) = d'.filter (fun x => x.1 ≠ j) := by
  induction l generalizing s d e with
  | nil => cases h; exact ⟨e, rfl, he⟩
  | cons x l ih =>
    simp only [subLoop] at h ⊢
    split at h
    · rename_i h16; rw [if_pos h16]; exact ih h e he
    · rename_i h16
      rw [if_neg h16]
      obtain ⟨s1, hp, h⟩ := except_bind_eq_ok.mp h
      rw [hp]; simp only [except_bind_ok]
      refine ih h _ ?_
      split
      · exact he
      · rw [dictSet_filter, dictSet_filter, he]

theorem mem_dictSet_of_ne {d : List (Nat × Bool)} {j k : Nat} {u v : Bool} (h : (j, u) ∈ d) (hj : j ≠ k) : (j, u) ∈ dictSet d k v := by
  induction d with
  | nil => cases h
  | cons y d ih =>
    obtain ⟨i, w⟩ := y
    simp only [dictSet]
    split
    · rename_i e
      rcases List.mem_cons.mp h with h | h
      · cases h; exact absurd e hj
      · exact List.mem_cons_of_mem _ h
    · rcases List.mem_cons.mp h with h | h
      · rw [h]; exact List.mem_cons_self
      · exact List.mem_cons_of_mem _ (ih h)

theorem subLoop_keeps {embed : Bytes → Py PSigPacket} {env : PEnv} {sh : Bool} {l : List PSub} {s s' : PSig} {d d' : List (Nat × Bool)}
    (h : subLoop embed env sh l s d = .ok (s', d')) {k : Nat} {v : Bool} (hm : (k, v) ∈ d) (hl : ∀ x ∈ l, x.subtype = k → (sh || x.hashed) = v) : (k, v) ∈ d' := by
  induction l generalizing s d with
  | nil => cases h; exact hm
  | cons x l ih =>
    have hl' : ∀ y ∈ l, y.subtype = k → (sh || y.hashed) = v := fun y hy => hl y (List.mem_cons_of_mem _ hy)
    simp only [subLoop] at h
    split at h
    · exact ih h hm hl'
    · obtain ⟨s1, hp, h⟩ := except_bind_eq_ok.mp h
      refine ih h ?_ hl'
      split
      · exact hm
      · by_cases hx : x.subtype = k
        · rw [hx, hl x List.mem_cons_self hx]; exact dictSet_has _ _ _
        · exact mem_dictSet_of_ne hm (Ne.symm hx)

theorem unknown_keys {k : Nat} (h : k ∉ definedSubtypes) : subpacketTypeToKeys k = none ∧ k ≠ 16 ∧ k ∉ [6, 16, 20, 32] := by
  refine ⟨?_, fun e => h (by rw [e]; decide), fun e => h ?_⟩
  · unfold subpacketTypeToKeys
    split
    case h_21 => rfl
    all_goals (exact absurd (by decide) h)
  · simp only [List.mem_cons, List.not_mem_nil, or_false] at e
    rcases e with rfl | rfl | rfl | rfl <;> decide

/-- The key ids play no part in what the other subpackets do. -/
theorem parseSub_keyIds (embed : Bytes → Py PSigPacket) (env : PEnv) (sub : PSub) (h16 : sub.subtype ≠ 16) (s : PSig) (l : List (Str × Bool)) :
    parseSub embed env sub { s with keyIds := l } = (parseSub embed env sub s).map fun s => { s with keyIds := l } := by
  unfold parseSub
  split
  case h_10 => rename_i h; exact absurd h h16
  case h_23 => obtain ⟨e, he⟩ := subEmbedded_raises embed sub; rw [he]; rfl
  all_goals simp only [subCreation, subExpiration, subExportable, subTrust, subRegex, subRevocable, subKeyExpiration, subPreferences, subRevocationKey, subNotation,
    subNoModify, subText, subPrimary, subKeyFlags, subRevocationReason, subFeatures, subTarget, subUnknown]
  all_goals simp only [bind, Except.bind, pure, Except.pure, Except.map, PSig.set]
  all_goals repeat' split
  all_goals first
    | rfl
    | (rename_i h; cases h; rfl)
    | (rename_i h; cases h; done)
    | (rename_i h _ _; cases h; rfl)
    | (rename_i h _ _; cases h; done)
    | (rename_i h _; cases h; rfl)
    | (rename_i h _; cases h; done)
    | (simp_all; done)

theorem subLoop_keyIds (embed : Bytes → Py PSigPacket) (env : PEnv) (sh : Bool) (l : List PSub) (s : PSig) (d : List (Nat × Bool)) (ids : List (Str × Bool)) :
    subLoop embed env sh l { s with keyIds := ids } d = (subLoop embed env sh l s d).map fun r => ({ r.1 with keyIds := ids }, r.2) := by
  induction l generalizing s d with
  | nil => rfl
  | cons x l ih =>
    simp only [subLoop]
    split
    · exact ih s d
    · rename_i h16
      rw [parseSub_keyIds embed env x h16]
      cases parseSub embed env x s with
      | error e => rfl
      | ok s1 => simp only [Except.map, except_bind_ok]; exact ih s1 _

/-- Every flag that is set counts. -/
theorem hashedNames_mem {d : List (Nat × Bool)} {names : List PField} (h : hashedNames d = .ok names) {k : Nat} {keys : List PField} (hm : (k, true) ∈ d) (h0 : k ≠ 0)
    (hk : subpacketTypeToKeys k = some keys) : ∀ n ∈ keys, n ∈ names := by
  induction d generalizing names with
  | nil => cases hm
  | cons y d ih =>
    obtain ⟨j, v⟩ := y
    simp only [hashedNames] at h
    rcases List.mem_cons.mp hm with e | hm
    · cases e
      rw [if_neg (by simp [h0]), hk] at h
      obtain ⟨r, hr, h⟩ := except_bind_eq_ok.mp h
      cases h
      intro n hn
      exact List.mem_append_left _ hn
    · split at h
      · exact ih h hm
      · cases hj : subpacketTypeToKeys j with
        | none => rw [hj] at h; cases h
        | some ks =>
          rw [hj] at h
          obtain ⟨r, hr, h⟩ := except_bind_eq_ok.mp h
          cases h
          intro n hn
          exact List.mem_append_right _ (ih hr hm n hn)

end Pgp
